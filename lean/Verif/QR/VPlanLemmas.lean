import Verif.QR.GridLemmas
import Verif.QR.FillLemmas
/-
The function modules written by `vplan` and `fplan`, compared with the standard.
-/
namespace Verif.QR
open Iso

theorem lastWrite_eq_some {y x : Nat} {ws : List Asg} {q : Pixel} (h1 : ∃ w ∈ ws, w.y = y ∧ w.x = x)
    (h2 : ∀ w ∈ ws, w.y = y → w.x = x → w.p = q) : lastWrite y x ws = some q := by
  cases h : lastWrite y x ws with
  | none =>
    obtain ⟨w, hw, hc⟩ := h1
    exact absurd hc (lastWrite_none.1 h w hw)
  | some p =>
    obtain ⟨w, hw, hy, hx, hp⟩ := lastWrite_some h
    rw [← hp, h2 w hw hy hx]

/-! ### Timing -/

theorem mem_timing {s : Nat} {w : Asg} : w ∈ timingWrites s ↔
    ∃ i < s, w = ⟨i, 6, { role := .timing, black := i % 2 = 0 }⟩ ∨ w = ⟨6, i, { role := .timing, black := i % 2 = 0 }⟩ := by
  simp [timingWrites]

theorem timing_last {s y x : Nat} (hy : y < s) (hx : x < s) : lastWrite y x (timingWrites s) =
    if y = 6 ∨ x = 6 then some { role := .timing, black := if y = 6 then decide (x % 2 = 0) else decide (y % 2 = 0) } else none := by
  split
  · rename_i h
    apply lastWrite_eq_some
    · by_cases h6 : y = 6
      · exact ⟨_, mem_timing.2 ⟨x, hx, Or.inr rfl⟩, h6.symm, rfl⟩
      · exact ⟨_, mem_timing.2 ⟨y, hy, Or.inl rfl⟩, rfl, (h.resolve_left h6).symm⟩
    · intro w hw h1 h2
      obtain ⟨i, hi, rfl | rfl⟩ := mem_timing.1 hw
      · simp only at h1 h2 ⊢
        subst h1 h2
        split
        · rename_i h6; subst h6; rfl
        · rfl
      · simp only at h1 h2 ⊢
        subst h1 h2
        rfl
  · rename_i h
    rw [lastWrite_none]
    intro w hw
    obtain ⟨i, hi, rfl | rfl⟩ := mem_timing.1 hw <;> simp only <;> omega

/-! ### Finder patterns -/

/-- Ring colours around the centre of a box at `(x0, y0)`. -/
def boxDark (x0 y0 y x : Nat) : Bool := cheb y x (y0 + 3) (x0 + 3) ≠ 2 && cheb y x (y0 + 3) (x0 + 3) ≠ 4

theorem boxDark_sep {x0 y0 y x : Nat} (h : cheb y x (y0 + 3) (x0 + 3) = 4) : boxDark x0 y0 y x = false := by
  unfold boxDark; rw [h]; rfl

theorem boxDark_in (x0 y0 : Nat) {dy dx : Nat} (hdy : dy < 7) (hdx : dx < 7) : boxDark x0 y0 (y0 + dy) (x0 + dx) =
    (dx = 0 || dx = 6 || dy = 0 || dy = 6 || 2 ≤ dx && dx ≤ 4 && 2 ≤ dy && dy ≤ 4) := by
  have e : cheb (y0 + dy) (x0 + dx) (y0 + 3) (x0 + 3) = cheb dy dx 3 3 := by
    unfold cheb
    have e1 : y0 + dy - (y0 + 3) = dy - 3 := by omega
    have e2 : y0 + 3 - (y0 + dy) = 3 - dy := by omega
    have e3 : x0 + dx - (x0 + 3) = dx - 3 := by omega
    have e4 : x0 + 3 - (x0 + dx) = 3 - dx := by omega
    rw [e1, e2, e3, e4]
  unfold boxDark
  rw [e]
  have : ∀ dy < 7, ∀ dx < 7, (decide (cheb dy dx 3 3 ≠ 2) && decide (cheb dy dx 3 3 ≠ 4)) =
      (decide (dx = 0) || decide (dx = 6) || decide (dy = 0) || decide (dy = 6) ||
      decide (2 ≤ dx) && decide (dx ≤ 4) && decide (2 ≤ dy) && decide (dy ≤ 4)) := by decide
  exact this dy hdy dx hdx

theorem posBox_mem {s x0 y0 : Nat} {w : Asg} (hw : w ∈ posBoxWrites s x0 y0) (hx : x0 + 7 ≤ s) (hy : y0 + 7 ≤ s) :
    w.y < s ∧ w.x < s ∧ cheb w.y w.x (y0 + 3) (x0 + 3) ≤ 4 ∧ w.p = { role := .position, black := boxDark x0 y0 w.y w.x } := by
  unfold posBoxWrites at hw
  simp only [List.mem_append, List.mem_flatMap, List.mem_range, List.mem_map] at hw
  have key : ∀ y x : Nat, y < s → x < s → cheb y x (y0 + 3) (x0 + 3) = 4 → w = ⟨y, x, { role := .position }⟩ →
      w.y < s ∧ w.x < s ∧ cheb w.y w.x (y0 + 3) (x0 + 3) ≤ 4 ∧ w.p = { role := .position, black := boxDark x0 y0 w.y w.x } := by
    rintro y x h1 h2 h3 rfl
    exact ⟨h1, h2, Nat.le_of_eq h3, by rw [boxDark_sep h3]⟩
  rcases hw with (⟨dy, hdy, dx, hdx, rfl⟩ | ⟨d, hd, hw⟩) | ⟨d, hd, hw⟩
  · refine ⟨by simp only; omega, by simp only; omega, by simp only [cheb]; omega, ?_⟩
    simp only [boxDark_in x0 y0 hdy hdx]
  · split at hw
    · rename_i hc
      rw [List.mem_append] at hw
      rcases hw with hw | hw
      · split at hw
        · rename_i h0
          exact key _ _ (by omega) (by omega) (by unfold cheb; omega) (List.mem_singleton.1 hw)
        · cases hw
      · split at hw
        · rename_i h0
          exact key _ _ (by omega) (by omega) (by unfold cheb; omega) (List.mem_singleton.1 hw)
        · cases hw
    · cases hw
  · split at hw
    · rename_i hc
      rw [List.mem_append] at hw
      rcases hw with hw | hw
      · split at hw
        · rename_i h0
          exact key _ _ (by omega) (by omega) (by unfold cheb; omega) (List.mem_singleton.1 hw)
        · cases hw
      · split at hw
        · rename_i h0
          exact key _ _ (by omega) (by omega) (by unfold cheb; omega) (List.mem_singleton.1 hw)
        · cases hw
    · cases hw

theorem posBox_cover {s x0 y0 y x : Nat} (hy : y < s) (hx : x < s) (hx0 : x0 + 7 ≤ s) (hy0 : y0 + 7 ≤ s)
    (hc : cheb y x (y0 + 3) (x0 + 3) ≤ 4) : ∃ w ∈ posBoxWrites s x0 y0, w.y = y ∧ w.x = x := by
  unfold cheb at hc
  unfold posBoxWrites
  simp only [List.mem_append, List.mem_flatMap, List.mem_range, List.mem_map]
  by_cases h1 : y0 ≤ y ∧ y < y0 + 7 ∧ x0 ≤ x ∧ x < x0 + 7
  · exact ⟨_, Or.inl (Or.inl ⟨y - y0, by omega, x - x0, by omega, rfl⟩), by simp only; omega, by simp only; omega⟩
  · by_cases h2 : x < x0
    · refine ⟨⟨y, x, { role := .position }⟩, Or.inl (Or.inr ⟨y + 1 - y0, by omega, ?_⟩), rfl, rfl⟩
      rw [if_pos (by omega), if_pos (by omega), List.mem_append]
      left
      rw [List.mem_singleton, Asg.mk.injEq]
      exact ⟨by omega, by omega, rfl⟩
    · by_cases h3 : x0 + 7 ≤ x
      · refine ⟨⟨y, x, { role := .position }⟩, Or.inl (Or.inr ⟨y + 1 - y0, by omega, ?_⟩), rfl, rfl⟩
        rw [if_pos (by omega), List.mem_append]
        right
        rw [if_pos (by omega), List.mem_singleton, Asg.mk.injEq]
        exact ⟨by omega, by omega, rfl⟩
      · by_cases h4 : y < y0
        · refine ⟨⟨y, x, { role := .position }⟩, Or.inr ⟨x + 1 - x0, by omega, ?_⟩, rfl, rfl⟩
          rw [if_pos (by omega), if_pos (by omega), List.mem_append]
          left
          rw [List.mem_singleton, Asg.mk.injEq]
          exact ⟨by omega, by omega, rfl⟩
        · refine ⟨⟨y, x, { role := .position }⟩, Or.inr ⟨x + 1 - x0, by omega, ?_⟩, rfl, rfl⟩
          rw [if_pos (by omega), List.mem_append]
          right
          rw [if_pos (by omega), List.mem_singleton, Asg.mk.injEq]
          exact ⟨by omega, by omega, rfl⟩

/-- The three finder patterns. -/
def finderWrites (s : Nat) : List Asg := posBoxWrites s 0 0 ++ posBoxWrites s (s - 7) 0 ++ posBoxWrites s 0 (s - 7)

theorem finder_last {v y x : Nat} (h1 : 1 ≤ v) (hy : y < size v) (hx : x < size v) : lastWrite y x (finderWrites (size v)) =
    if inFinder v y x then some { role := .position, black := finderDark v y x } else none := by
  have hs : size v ≥ 21 := by unfold size; omega
  split
  · rename_i hf
    apply lastWrite_eq_some
    · simp only [inFinder, Bool.or_eq_true, Bool.and_eq_true, decide_eq_true_eq] at hf
      unfold finderWrites
      rcases hf with (hf | hf) | hf
      · obtain ⟨w, hw, hc⟩ := posBox_cover (x0 := 0) (y0 := 0) hy hx (by omega) (by omega) (by unfold cheb; omega)
        exact ⟨w, by simp [hw], hc⟩
      · obtain ⟨w, hw, hc⟩ := posBox_cover (x0 := size v - 7) (y0 := 0) hy hx (by omega) (by omega) (by unfold cheb; omega)
        exact ⟨w, by simp [hw], hc⟩
      · obtain ⟨w, hw, hc⟩ := posBox_cover (x0 := 0) (y0 := size v - 7) hy hx (by omega) (by omega) (by unfold cheb; omega)
        exact ⟨w, by simp [hw], hc⟩
    · intro w hw hwy hwx
      subst hwy hwx
      unfold finderWrites at hw
      simp only [List.mem_append] at hw
      rcases hw with (hw | hw) | hw
      · obtain ⟨_, _, h3, h4⟩ := posBox_mem hw (by omega) (by omega)
        unfold cheb at h3
        rw [h4]
        simp only [boxDark, finderDark]
        rw [if_pos (by omega)]
      · obtain ⟨_, _, h3, h4⟩ := posBox_mem hw (by omega) (by omega)
        unfold cheb at h3
        rw [h4]
        simp only [boxDark, finderDark]
        rw [if_neg (by omega), if_pos (by omega), show size v - 7 + 3 = size v - 4 by omega]
      · obtain ⟨_, _, h3, h4⟩ := posBox_mem hw (by omega) (by omega)
        unfold cheb at h3
        rw [h4]
        simp only [boxDark, finderDark]
        rw [if_neg (by omega), if_neg (by omega), show size v - 7 + 3 = size v - 4 by omega]
  · rename_i hf
    rw [lastWrite_none]
    rintro w hw ⟨rfl, rfl⟩
    apply hf
    simp only [inFinder, Bool.or_eq_true, Bool.and_eq_true, decide_eq_true_eq]
    unfold finderWrites at hw
    simp only [List.mem_append] at hw
    rcases hw with (hw | hw) | hw
    all_goals
      obtain ⟨_, _, h3, h4⟩ := posBox_mem hw (by omega) (by omega)
      unfold cheb at h3
      omega

/-! ### Alignment patterns -/

/-- Upper left corners of the boxes drawn, (x, y). -/
def alignBoxes (siz : Nat) (info : VersionInfo) : List (Nat × Nat) :=
  let cs := alignCoords siz info.apos info.astride siz 4
  cs.flatMap fun x => cs.flatMap fun y =>
    if (x < 7 ∧ y < 7) ∨ (x < 7 ∧ y + 5 ≥ siz - 7) ∨ (x + 5 ≥ siz - 7 ∧ y < 7) then [] else [(x, y)]

theorem alignWrites_eq (siz : Nat) (info : VersionInfo) :
    alignWrites siz info = (alignBoxes siz info).flatMap fun c => alignBoxWrites c.1 c.2 := by
  simp only [alignWrites, alignBoxes, List.flatMap_assoc]
  congr 1
  funext x
  congr 1
  funext y
  split <;> simp

set_option maxRecDepth 100000 in
theorem align_facts : ∀ v ∈ List.range' 1 40,
    (alignBoxes (size v) (vinfo v)).map (fun c => (c.1 + 2, c.2 + 2)) = alignCentres v ∧
    (∀ c ∈ alignCentres v, (c.2, c.1) ∈ alignCentres v) ∧
    (∀ c ∈ alignCentres v, 4 ≤ c.1 ∧ 4 ≤ c.2 ∧ c.1 + 6 < size v ∧ c.2 + 6 < size v) ∧
    (∀ c ∈ alignCentres v, ∀ d ∈ alignCentres v, c = d ∨ 5 ≤ cheb c.1 c.2 d.1 d.2) ∧
    (∀ c ∈ alignCentres v, 10 < c.1 ∧ 10 < c.2 ∧ c.1 + 10 < size v ∧ c.2 + 10 < size v ∨
      c.1 + 7 = size v ∧ 10 < c.2 ∨ 10 < c.1 ∧ c.2 + 7 = size v ∨
      c.1 = 6 ∧ 10 < c.2 ∧ c.2 + 11 < size v ∨ c.2 = 6 ∧ 10 < c.1 ∧ c.1 + 11 < size v) := by
  decide +kernel

theorem align_mem {v : Nat} (h1 : 1 ≤ v) (h2 : v ≤ 40) {w : Asg} : w ∈ alignWrites (size v) (vinfo v) ↔
    ∃ c ∈ alignCentres v, w ∈ alignBoxWrites (c.2 - 2) (c.1 - 2) := by
  obtain ⟨e1, e2, e3, -, -⟩ := align_facts v (mem_versions h1 h2)
  rw [alignWrites_eq, List.mem_flatMap]
  constructor
  · rintro ⟨c, hc, hw⟩
    have : (c.1 + 2, c.2 + 2) ∈ alignCentres v := by rw [← e1]; exact List.mem_map.2 ⟨c, hc, rfl⟩
    exact ⟨(c.2 + 2, c.1 + 2), e2 _ this, by simpa using hw⟩
  · rintro ⟨c, hc, hw⟩
    have := e2 c hc
    rw [← e1, List.mem_map] at this
    obtain ⟨d, hd, e⟩ := this
    simp only [Prod.mk.injEq] at e
    refine ⟨d, hd, ?_⟩
    rw [← e.1, ← e.2] at hw
    simpa using hw

theorem alignBox_in (x0 y0 : Nat) {dy dx : Nat} (hdy : dy < 5) (hdx : dx < 5) :
    (decide (dx = 0) || decide (dx = 4) || decide (dy = 0) || decide (dy = 4) || decide (dx = 2) && decide (dy = 2)) =
    (cheb (y0 + dy) (x0 + dx) (y0 + 2) (x0 + 2) = 0 || cheb (y0 + dy) (x0 + dx) (y0 + 2) (x0 + 2) = 2) := by
  have e : cheb (y0 + dy) (x0 + dx) (y0 + 2) (x0 + 2) = cheb dy dx 2 2 := by
    unfold cheb
    have e1 : y0 + dy - (y0 + 2) = dy - 2 := by omega
    have e2 : y0 + 2 - (y0 + dy) = 2 - dy := by omega
    have e3 : x0 + dx - (x0 + 2) = dx - 2 := by omega
    have e4 : x0 + 2 - (x0 + dx) = 2 - dx := by omega
    rw [e1, e2, e3, e4]
  rw [e]
  have : ∀ dy < 5, ∀ dx < 5, 
    (decide (dx = 0) || decide (dx = 4) || decide (dy = 0) || decide (dy = 4) || decide (dx = 2) && decide (dy = 2)) =
    (decide (cheb dy dx 2 2 = 0) || decide (cheb dy dx 2 2 = 2)) := by decide
  exact this dy hdy dx hdx

/-- Colour of an alignment module. -/
def alignDark (v y x : Nat) : Bool := (alignCentres v).any fun c => cheb y x c.1 c.2 = 0 || cheb y x c.1 c.2 = 2

theorem alignBox_mem {v : Nat} (h1 : 1 ≤ v) (h2 : v ≤ 40) {c : Nat × Nat} (hc : c ∈ alignCentres v) {w : Asg}
    (hw : w ∈ alignBoxWrites (c.2 - 2) (c.1 - 2)) :
    w.y < size v ∧ w.x < size v ∧ cheb w.y w.x c.1 c.2 ≤ 2 ∧ w.p = { role := .alignment, black := alignDark v w.y w.x } := by
  obtain ⟨-, -, e3, e4, -⟩ := align_facts v (mem_versions h1 h2)
  have hb := e3 c hc
  unfold alignBoxWrites at hw
  simp only [List.mem_flatMap, List.mem_range, List.mem_map] at hw
  obtain ⟨dy, hdy, dx, hdx, rfl⟩ := hw
  have hin := alignBox_in (c.2 - 2) (c.1 - 2) hdy hdx
  rw [show c.1 - 2 + 2 = c.1 by omega, show c.2 - 2 + 2 = c.2 by omega] at hin
  refine ⟨by simp only; omega, by simp only; omega, by simp only [cheb]; omega, ?_⟩
  simp only [Pixel.mk.injEq, true_and, and_true]
  rw [hin]
  unfold alignDark
  rw [Bool.eq_iff_iff]
  simp only [Bool.or_eq_true, decide_eq_true_eq, List.any_eq_true]
  constructor
  · intro h
    exact ⟨c, hc, h⟩
  · rintro ⟨d, hd, h⟩
    rcases e4 c hc d hd with rfl | h5
    · exact h
    · exfalso
      unfold cheb at h h5
      omega

theorem align_last {v y x : Nat} (h1 : 1 ≤ v) (h2 : v ≤ 40) : lastWrite y x (alignWrites (size v) (vinfo v)) =
    if inAlign v y x then some { role := .alignment, black := alignDark v y x } else none := by
  have e3 := (align_facts v (mem_versions h1 h2)).2.2.1
  split
  · rename_i ha
    apply lastWrite_eq_some
    · unfold inAlign at ha
      rw [List.any_eq_true] at ha
      obtain ⟨c, hc, hd⟩ := ha
      rw [decide_eq_true_eq] at hd
      have hb := e3 c hc
      unfold cheb at hd
      exact ⟨_, (align_mem h1 h2).2 ⟨c, hc, List.mem_flatMap.2 ⟨y + 2 - c.1, List.mem_range.2 (by omega),
        List.mem_map.2 ⟨x + 2 - c.2, List.mem_range.2 (by omega), rfl⟩⟩⟩, by simp only; omega, by simp only; omega⟩
    · intro w hw hy hx
      subst hy hx
      obtain ⟨c, hc, hw⟩ := (align_mem h1 h2).1 hw
      exact (alignBox_mem h1 h2 hc hw).2.2.2
  · rename_i ha
    rw [lastWrite_none]
    rintro w hw ⟨rfl, rfl⟩
    obtain ⟨c, hc, hw⟩ := (align_mem h1 h2).1 hw
    apply ha
    unfold inAlign
    rw [List.any_eq_true]
    exact ⟨c, hc, decide_eq_true (alignBox_mem h1 h2 hc hw).2.2.1⟩

/-! ### Version information -/

theorem pattern_facts : ∀ v ∈ List.range' 1 40, ((vinfo v).pattern ≠ 0 ↔ 7 ≤ v) ∧ (vinfo v).pattern / 4096 = (if 7 ≤ v then v else 0) := by
  decide +kernel

theorem version_last {v y x : Nat} (h1 : 1 ≤ v) (h2 : v ≤ 40) : lastWrite y x (versionWrites (size v) (vinfo v).pattern) =
    if inVersion v y x then some { role := .pversion, black := (vinfo v).pattern.testBit (if x < 6 then 3 * x + (y - (size v - 11)) else 3 * y + (x - (size v - 11))) }
    else none := by
  have hp := (pattern_facts v (mem_versions h1 h2)).1
  have hbit : ∀ n k : Nat, decide ((n >>> k) &&& 1 ≠ 0) = n.testBit k := by
    intro n k
    rw [Nat.testBit, Nat.and_comm]
    generalize 1 &&& n >>> k = z
    cases z <;> simp
  by_cases h7 : 7 ≤ v
  · unfold versionWrites
    rw [if_pos (hp.2 h7)]
    have hs : 45 ≤ size v := by unfold size; omega
    split
    · rename_i hv
      simp only [inVersion, Bool.or_eq_true, Bool.and_eq_true, decide_eq_true_eq] at hv
      apply lastWrite_eq_some
      · simp only [List.mem_flatMap, List.mem_range]
        rcases hv.2 with h | h
        · exact ⟨⟨y, x, _⟩, ⟨y, by omega, x - (size v - 11), by omega, List.mem_cons_of_mem _ (List.mem_singleton.2 (by
            rw [Asg.mk.injEq]; exact ⟨rfl, by omega, rfl⟩))⟩, rfl, rfl⟩
        · exact ⟨⟨y, x, _⟩, ⟨x, by omega, y - (size v - 11), by omega, List.mem_cons.2 (Or.inl (by
            rw [Asg.mk.injEq]; exact ⟨by omega, rfl, rfl⟩))⟩, rfl, rfl⟩
      · intro w hw hy hx
        simp only [List.mem_flatMap, List.mem_range, List.mem_cons, List.not_mem_nil, or_false] at hw
        obtain ⟨a, ha, b, hb, rfl | rfl⟩ := hw
        · simp only at hy hx ⊢
          rw [hbit, if_pos (by omega)]
          congr 2; omega
        · simp only at hy hx ⊢
          rw [hbit, if_neg (by omega)]
          congr 2; omega
    · rename_i hv
      rw [lastWrite_none]
      rintro w hw ⟨rfl, rfl⟩
      apply hv
      simp only [inVersion, Bool.or_eq_true, Bool.and_eq_true, decide_eq_true_eq]
      simp only [List.mem_flatMap, List.mem_range, List.mem_cons, List.not_mem_nil, or_false] at hw
      obtain ⟨a, ha, b, hb, rfl | rfl⟩ := hw
      · simp only; omega
      · simp only; omega
  · unfold versionWrites
    rw [if_neg (by rw [hp]; exact h7)]
    have : inVersion v y x = false := by simp [inVersion, h7]
    rw [this]
    rfl

/-! ### Format information -/

theorem format_mem {s : Nat} {l : Level} {m : Nat} {w : Asg} : w ∈ fplanWrites s l m ↔
    ∃ i < 15, ∃ c ∈ formatCells s i, w = ⟨c.1, c.2, formatPixel (formatBits l m) i⟩ := by
  unfold fplanWrites
  simp only [List.mem_flatMap, List.mem_range, List.mem_map]
  constructor
  · rintro ⟨i, hi, c, hc, rfl⟩; exact ⟨i, hi, c, hc, rfl⟩
  · rintro ⟨i, hi, c, hc, rfl⟩; exact ⟨i, hi, c, hc, rfl⟩

theorem formatCells_eq {v i : Nat} (hi : i < 15) : formatCells (size v) i = [formatCell1 i, formatCell2 v i] := by
  unfold formatCells formatCell1 formatCell2 size
  congr 1
  · split
    · rfl
    · split
      · have : i = 6 ∨ i = 7 := by omega
        rcases this with rfl | rfl <;> rfl
      · split
        · have : i = 8 := by omega
          subst this; rfl
        · rw [if_neg (by omega), if_neg (by omega), if_neg (by omega)]
  · congr 1
    split
    · rfl
    · congr 1; omega

/-- The format bit stored in a cell. -/
def formatIndex (s a b : Nat) : Nat :=
  if b = 8 then (if a < 6 then a else if a = 7 then 6 else if a = 8 then 7 else a + 15 - s)
  else if b = 7 then 8 else if b < 6 then 14 - b else s - 1 - b

theorem formatIndex_eq {v i : Nat} (h1 : 1 ≤ v) (hi : i < 15) {c : Nat × Nat} (h : c ∈ formatCells (size v) i) :
    c.1 < size v ∧ c.2 < size v ∧ formatIndex (size v) c.1 c.2 = i ∧ inFormat v c.1 c.2 = true ∧ c ≠ (size v - 8, 8) := by
  rw [formatCells_eq hi] at h
  have hs : 21 ≤ size v := by unfold size; omega
  simp only [List.mem_cons, List.not_mem_nil, or_false, formatCell1, formatCell2] at h
  obtain ⟨a, b⟩ := c
  simp only [inFormat, formatIndex, Bool.or_eq_true, Bool.and_eq_true, decide_eq_true_eq, ne_eq, Prod.mk.injEq]
  have hh : ((a, b) : Nat × Nat) = (a, b) := rfl
  rcases h with h | h
  · split at h
    · rw [Prod.mk.injEq] at h; rw [if_pos h.2, if_pos (by omega)]; omega
    · split at h
      · rw [Prod.mk.injEq] at h; rw [if_pos h.2, if_neg (by omega), if_pos (by omega)]; omega
      · split at h
        · rw [Prod.mk.injEq] at h; rw [if_pos h.2, if_neg (by omega), if_neg (by omega), if_pos (by omega)]; omega
        · split at h
          · rw [Prod.mk.injEq] at h; rw [if_neg (by omega), if_pos (by omega)]; omega
          · rw [Prod.mk.injEq] at h; rw [if_neg (by omega), if_neg (by omega), if_pos (by omega)]; omega
  · split at h
    · rw [Prod.mk.injEq] at h; rw [if_neg (by omega), if_neg (by omega), if_neg (by omega)]; omega
    · rw [Prod.mk.injEq] at h; rw [if_pos (by omega), if_neg (by omega), if_neg (by omega), if_neg (by omega)]; omega

theorem formatCell_cover {v y x : Nat} (h1 : 1 ≤ v) (hy : y < size v) (hx : x < size v) (h : inFormat v y x = true) (hd : (y, x) ≠ (size v - 8, 8))
    (hn : y ≠ 6) (hn' : x ≠ 6) : ∃ i < 15, (y, x) ∈ formatCells (size v) i := by
  have hs : 21 ≤ size v := by unfold size; omega
  simp only [inFormat, Bool.or_eq_true, Bool.and_eq_true, decide_eq_true_eq] at h
  simp only [ne_eq, Prod.mk.injEq] at hd
  have hi : formatIndex (size v) y x < 15 := by
    unfold formatIndex
    split
    · split
      · omega
      · split
        · omega
        · split <;> omega
    · split
      · omega
      · split <;> omega
  refine ⟨_, hi, ?_⟩
  rw [formatCells_eq hi]
  simp only [List.mem_cons, List.not_mem_nil, or_false, formatCell1, formatCell2]
  unfold formatIndex
  by_cases hb : x = 8
  · rw [if_pos hb]
    by_cases ha : y < 6
    · rw [if_pos ha, if_pos ha]; left; rw [hb]
    · rw [if_neg ha]
      by_cases ha7 : y = 7
      · rw [if_pos ha7]; left; rw [hb, ha7]; rfl
      · rw [if_neg ha7]
        by_cases ha8 : y = 8
        · rw [if_pos ha8]; left; rw [hb, ha8]; rfl
        · rw [if_neg ha8]; right; rw [if_neg (by omega), hb, Prod.mk.injEq]; omega
  · rw [if_neg hb]
    have hy8 : y = 8 := by omega
    by_cases hb7 : x = 7
    · rw [if_pos hb7]; left; rw [hb7, hy8]; rfl
    · rw [if_neg hb7]
      by_cases hb6 : x < 6
      · rw [if_pos hb6]; left
        rw [if_neg (by omega), if_neg (by omega), if_neg (by omega), if_neg (by omega), Prod.mk.injEq]; omega
      · rw [if_neg hb6]; right; rw [if_pos (by omega), Prod.mk.injEq]; omega

theorem format_last_cell {v i : Nat} (h1 : 1 ≤ v) (l : Level) (m : Nat) (hi : i < 15) {c : Nat × Nat} (hc : c ∈ formatCells (size v) i) :
    lastWrite c.1 c.2 (fplanWrites (size v) l m) = some (formatPixel (formatBits l m) i) := by
  apply lastWrite_eq_some
  · exact ⟨_, format_mem.2 ⟨i, hi, c, hc, rfl⟩, rfl, rfl⟩
  · intro w hw hy hx
    obtain ⟨j, hj, d, hd, rfl⟩ := format_mem.1 hw
    simp only at hy hx ⊢
    have e1 := (formatIndex_eq h1 hi hc).2.2.1
    have e2 := (formatIndex_eq h1 hj hd).2.2.1
    rw [hy, hx, e1] at e2
    rw [e2]

theorem format_last_none {v y x : Nat} (h1 : 1 ≤ v) (l : Level) (m : Nat) (h : inFormat v y x = false ∨ (y, x) = (size v - 8, 8)) :
    lastWrite y x (fplanWrites (size v) l m) = none := by
  rw [lastWrite_none]
  rintro w hw ⟨rfl, rfl⟩
  obtain ⟨j, hj, d, hd, rfl⟩ := format_mem.1 hw
  obtain ⟨-, -, -, e1, e2⟩ := formatIndex_eq h1 hj hd
  rcases h with h | h
  · rw [h] at e1; cases e1
  · exact e2 h

theorem formatPixel_role (fb i : Nat) : (formatPixel fb i).role = .format := by
  unfold formatPixel
  dsimp only
  split <;> rfl

/-! ### All function modules -/

/-- The assignments made before placing the data. -/
def planWrites (v : Nat) (l : Level) (m : Nat) : List Asg := vplanWrites v ++ fplanWrites (size v) l m

theorem vplanWrites_eq (v : Nat) : vplanWrites v = timingWrites (size v) ++ finderWrites (size v) ++ alignWrites (size v) (vinfo v) ++
    versionWrites (size v) (vinfo v).pattern ++ [⟨size v - 8, 8, { role := .unused, black := true }⟩] := by
  unfold vplanWrites finderWrites size
  simp only [Nat.mul_comm v 4, List.append_assoc]

/-- Colour of version information modules. -/
def versionDark (v y x : Nat) : Bool := (vinfo v).pattern.testBit (if x < 6 then 3 * x + (y - (size v - 11)) else 3 * y + (x - (size v - 11)))

/-- What `vplan` leaves in a cell. -/
theorem vplan_last {v y x : Nat} (h1 : 1 ≤ v) (h2 : v ≤ 40) (hy : y < size v) (hx : x < size v) :
    lastWrite y x (vplanWrites v) =
      if (y, x) = (size v - 8, 8) then some { role := .unused, black := true }
      else if inVersion v y x then some { role := .pversion, black := versionDark v y x }
      else if inAlign v y x then some { role := .alignment, black := alignDark v y x }
      else if inFinder v y x then some { role := .position, black := finderDark v y x }
      else if y = 6 ∨ x = 6 then some { role := .timing, black := if y = 6 then decide (x % 2 = 0) else decide (y % 2 = 0) }
      else none := by
  rw [vplanWrites_eq]
  simp only [lastWrite_append, timing_last hy hx, finder_last h1 hy hx, align_last h1 h2, version_last h1 h2, lastWrite]
  by_cases c1 : (y, x) = (size v - 8, 8)
  · simp only [c1, if_true]
    rw [Prod.mk.injEq] at c1
    rw [if_pos ⟨c1.1.symm, c1.2.symm⟩]; rfl
  · rw [if_neg (fun h => c1 (by rw [h.1, h.2])), if_neg c1]
    by_cases c2 : inVersion v y x
    · rw [if_pos c2, if_pos c2]; rfl
    · rw [if_neg c2, if_neg c2]
      by_cases c3 : inAlign v y x
      · rw [if_pos c3, if_pos c3]; rfl
      · rw [if_neg c3, if_neg c3]
        by_cases c4 : inFinder v y x
        · rw [if_pos c4, if_pos c4]; rfl
        · rw [if_neg c4, if_neg c4]; rfl

theorem planWrites_bounds {v : Nat} (h1 : 1 ≤ v) (h2 : v ≤ 40) (l : Level) (m : Nat) : 
    (∀ w ∈ vplanWrites v, w.y < size v ∧ w.x < size v) ∧ (∀ w ∈ fplanWrites (size v) l m, w.y < size v ∧ w.x < size v) := by
  have hs : 21 ≤ size v := by unfold size; omega
  constructor
  · intro w hw
    rw [vplanWrites_eq] at hw
    simp only [List.mem_append, List.mem_singleton] at hw
    rcases hw with (((hw | hw) | hw) | hw) | hw
    · obtain ⟨i, hi, rfl | rfl⟩ := mem_timing.1 hw
      · exact ⟨hi, by simp only; omega⟩
      · exact ⟨by simp only; omega, hi⟩
    · unfold finderWrites at hw
      simp only [List.mem_append] at hw
      rcases hw with (hw | hw) | hw
      all_goals
        obtain ⟨h3, h4, -, -⟩ := posBox_mem hw (by omega) (by omega)
        exact ⟨h3, h4⟩
    · obtain ⟨c, hc, hw⟩ := (align_mem h1 h2).1 hw
      obtain ⟨h3, h4, -, -⟩ := alignBox_mem h1 h2 hc hw
      exact ⟨h3, h4⟩
    · unfold versionWrites at hw
      split at hw
      · simp only [List.mem_flatMap, List.mem_range, List.mem_cons, List.not_mem_nil, or_false] at hw
        obtain ⟨a, ha, b, hb, rfl | rfl⟩ := hw
        · simp only; omega
        · simp only; omega
      · cases hw
    · subst hw; simp only; omega
  · intro w hw
    obtain ⟨j, hj, d, hd, rfl⟩ := format_mem.1 hw
    obtain ⟨h3, h4, -⟩ := formatIndex_eq h1 hj hd
    exact ⟨h3, h4⟩

end Verif.QR
