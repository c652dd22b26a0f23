import Verif.QR.CodingModel
import Mathlib.Data.List.Basic
import Mathlib.Data.List.GetD
import Mathlib.Data.List.Nodup
/-
Lemmas about pixel grids: assignments, placing, masking.
-/
namespace Verif.QR

/-- A square grid of `siz` rows. -/
structure WF (siz : Nat) (g : Grid) : Prop where
  rows : g.length = siz
  cols : ∀ row ∈ g, row.length = siz

theorem newGrid_wf (siz : Nat) : WF siz (newGrid siz) :=
  ⟨by simp [newGrid], by intro row h; rw [List.eq_of_mem_replicate h]; simp⟩

theorem newGrid_get {siz y x : Nat} (hy : y < siz) (hx : x < siz) : (newGrid siz).get y x = some {} := by
  simp [Grid.get, newGrid, hy, hx]

theorem WF.get_isSome {siz : Nat} {g : Grid} (h : WF siz g) {y x : Nat} (hy : y < siz) (hx : x < siz) : ∃ p, g.get y x = some p := by
  have h1 : y < g.length := by rw [h.rows]; exact hy
  have h2 : x < g[y].length := by rw [h.cols _ (List.getElem_mem h1)]; exact hx
  exact ⟨g[y][x], by simp [Grid.get, h1, h2]⟩

theorem WF.get_none {siz : Nat} {g : Grid} (h : WF siz g) {y x : Nat} {p : Pixel} (hg : g.get y x = some p) : y < siz ∧ x < siz := by
  unfold Grid.get at hg
  rw [Option.bind_eq_some_iff] at hg
  obtain ⟨row, h1, h2⟩ := hg
  have hy := (List.getElem?_eq_some_iff.1 h1).1
  have hm : row ∈ g := List.mem_of_getElem? h1
  have hx := (List.getElem?_eq_some_iff.1 h2).1
  rw [h.cols row hm] at hx
  rw [h.rows] at hy
  exact ⟨hy, hx⟩

theorem WF.set {siz : Nat} {g : Grid} (h : WF siz g) {y x : Nat} (hy : y < siz) (hx : x < siz) (p : Pixel) :
    ∃ g', g.set y x p = some g' ∧ WF siz g' ∧ ∀ y' x', g'.get y' x' = if y' = y ∧ x' = x then some p else g.get y' x' := by
  have h1 : y < g.length := by rw [h.rows]; exact hy
  have h2 : g[y].length = siz := h.cols _ (List.getElem_mem h1)
  refine ⟨List.set g y (List.set g[y] x p), ?_, ⟨by simp [h.rows], ?_⟩, ?_⟩
  · unfold Grid.set
    rw [List.getElem?_eq_getElem h1]
    simp only
    rw [if_pos (by omega)]
  · intro row hr
    rcases List.mem_or_eq_of_mem_set hr with h3 | h3
    · exact h.cols row h3
    · rw [h3, List.length_set, h2]
  · intro y' x'
    unfold Grid.get
    by_cases hyy : y' = y
    · subst hyy
      rw [List.getElem?_set_self h1, List.getElem?_eq_getElem h1]
      simp only [Option.bind_some]
      by_cases hxx : x' = x
      · subst hxx
        rw [List.getElem?_set_self (by omega)]
        simp
      · rw [List.getElem?_set_ne (Ne.symm hxx)]
        simp [hxx]
    · rw [List.getElem?_set_ne (Ne.symm hyy)]
      simp [hyy]

/-- The value of the last assignment to a cell. -/
def lastWrite (y x : Nat) : List Asg → Option Pixel
  | [] => none
  | w :: ws => (lastWrite y x ws).or (if w.y = y ∧ w.x = x then some w.p else none)

theorem lastWrite_append (y x : Nat) (a b : List Asg) : lastWrite y x (a ++ b) = (lastWrite y x b).or (lastWrite y x a) := by
  induction a with
  | nil => simp [lastWrite]
  | cons w a ih => simp only [List.cons_append, lastWrite, ih, Option.or_assoc]

theorem lastWrite_some {y x : Nat} {ws : List Asg} {p : Pixel} (h : lastWrite y x ws = some p) :
    ∃ w ∈ ws, w.y = y ∧ w.x = x ∧ w.p = p := by
  induction ws with
  | nil => simp [lastWrite] at h
  | cons w ws ih =>
    rw [lastWrite] at h
    cases hl : lastWrite y x ws with
    | some q =>
      rw [hl, Option.some_or] at h
      obtain ⟨w', h1, h2⟩ := ih (by rw [hl, h])
      exact ⟨w', List.mem_cons_of_mem _ h1, h2⟩
    | none =>
      rw [hl, Option.none_or] at h
      split at h
      · rename_i hc
        injection h with h
        exact ⟨w, List.mem_cons_self, hc.1, hc.2, h⟩
      · cases h

theorem lastWrite_none {y x : Nat} {ws : List Asg} : lastWrite y x ws = none ↔ ∀ w ∈ ws, ¬ (w.y = y ∧ w.x = x) := by
  induction ws with
  | nil => simp [lastWrite]
  | cons w ws ih =>
    rw [lastWrite, Option.or_eq_none_iff, ih]
    constructor
    · rintro ⟨h1, h2⟩ w' hw'
      rcases List.mem_cons.1 hw' with rfl | h
      · intro hc; rw [if_pos hc] at h2; cases h2
      · exact h1 w' h
    · intro h
      exact ⟨fun w' hw' => h w' (List.mem_cons_of_mem _ hw'), if_neg (h w List.mem_cons_self)⟩

theorem runWrites_spec {siz : Nat} : ∀ (ws : List Asg) (g : Grid), WF siz g → (∀ w ∈ ws, w.y < siz ∧ w.x < siz) →
    ∃ g', runWrites g ws = some g' ∧ WF siz g' ∧ ∀ y x, g'.get y x = (lastWrite y x ws).or (g.get y x)
  | [], g, h, _ => ⟨g, rfl, h, fun y x => by simp [lastWrite]⟩
  | w :: ws, g, h, hb => by
    obtain ⟨hy, hx⟩ := hb w List.mem_cons_self
    obtain ⟨g1, e1, hw1, hg1⟩ := h.set hy hx w.p
    obtain ⟨g2, e2, hw2, hg2⟩ := runWrites_spec ws g1 hw1 (fun w' hw' => hb w' (List.mem_cons_of_mem _ hw'))
    refine ⟨g2, by rw [runWrites, e1]; exact e2, hw2, ?_⟩
    intro y x
    rw [hg2, hg1, lastWrite, Option.or_assoc]
    congr 1
    by_cases hc : w.y = y ∧ w.x = x
    · rw [if_pos ⟨hc.1.symm, hc.2.symm⟩, if_pos hc]; rfl
    · rw [if_neg (fun h => hc ⟨h.1.symm, h.2.symm⟩), if_neg hc]; rfl

/-! ### Placing -/

/-- Cells without a role, in visiting order. -/
def freeCells (g : Grid) (cells : List (Nat × Nat)) : List (Nat × Nat) :=
  cells.filter fun c => decide ((g.get c.1 c.2).map (·.role) = some .none)

theorem place_spec {siz : Nat} : ∀ (cells : List (Nat × Nat)) (src : List Pixel) (g : Grid), WF siz g →
    (∀ c ∈ cells, c.1 < siz ∧ c.2 < siz) → cells.Nodup → (freeCells g cells).length ≤ src.length →
    ∃ g', place cells src g = some g' ∧ WF siz g' ∧
      (∀ (k : Nat) (c : Nat × Nat), (freeCells g cells)[k]? = some c → g'.get c.1 c.2 = src[k]?) ∧
      (∀ y x, (y, x) ∉ freeCells g cells → g'.get y x = g.get y x)
  | [], src, g, h, _, _, _ => ⟨g, rfl, h, by simp [freeCells], fun _ _ _ => rfl⟩
  | (y, x) :: cells, src, g, h, hb, hn, hl => by
    obtain ⟨hy, hx⟩ := hb (y, x) List.mem_cons_self
    obtain ⟨p, hp⟩ := h.get_isSome hy hx
    obtain ⟨hn1, hn2⟩ := List.nodup_cons.1 hn
    have hb' : ∀ c ∈ cells, c.1 < siz ∧ c.2 < siz := fun c hc => hb c (List.mem_cons_of_mem _ hc)
    by_cases hr : p.role = .none
    · have hf : freeCells g ((y, x) :: cells) = (y, x) :: freeCells g cells := by
        simp [freeCells, hp, hr]
      rw [hf] at hl ⊢
      cases src with
      | nil => simp at hl
      | cons s src =>
        obtain ⟨g1, e1, hw1, hg1⟩ := h.set hy hx s
        have hf1 : freeCells g1 cells = freeCells g cells := by
          unfold freeCells
          apply List.filter_congr
          intro c hc
          rw [hg1]
          rw [if_neg]
          rintro ⟨h1, h2⟩
          obtain ⟨a, b⟩ := c
          simp only at h1 h2
          subst h1 h2
          exact hn1 hc
        obtain ⟨g2, e2, hw2, hg2, hg2'⟩ := place_spec cells src g1 hw1 hb' hn2 (by rw [hf1]; simpa using hl)
        rw [hf1] at hg2 hg2'
        refine ⟨g2, ?_, hw2, ?_, ?_⟩
        · rw [place, hp]
          simp only [hr, if_true]
          rw [e1]; exact e2
        · intro k c hk
          cases k with
          | zero =>
            simp only [List.getElem?_cons_zero, Option.some.injEq] at hk
            subst hk
            rw [hg2' y x (fun hm => hn1 (List.mem_filter.1 hm).1), hg1]
            simp
          | succ k =>
            simp only [List.getElem?_cons_succ] at hk ⊢
            exact hg2 k c hk
        · intro y' x' hm
          simp only [List.mem_cons, not_or] at hm
          rw [hg2' y' x' hm.2, hg1, if_neg]
          rintro ⟨h1, h2⟩
          exact hm.1 (by rw [h1, h2])
    · have hf : freeCells g ((y, x) :: cells) = freeCells g cells := by
        simp [freeCells, hp, hr]
      rw [hf] at hl ⊢
      obtain ⟨g2, e2, hw2, hg2⟩ := place_spec cells src g h hb' hn2 hl
      refine ⟨g2, ?_, hw2, hg2⟩
      unfold place
      simp only [hp, hr, if_false]
      exact e2

/-! ### Masking -/

theorem mplan_wf {siz : Nat} {g : Grid} (m : Nat) (h : WF siz g) : WF siz (mplan m g) := by
  constructor
  · simp [mplan, h.rows]
  · intro row hr
    simp only [mplan, List.mem_mapIdx] at hr
    obtain ⟨i, hi, rfl⟩ := hr
    rw [List.length_mapIdx]
    exact h.cols _ (List.getElem_mem hi)

/-- Effect on one pixel of a mask given as a function. -/
def maskPixelG (inv : Nat → Nat → Bool) (y x : Nat) (pix : Pixel) : Pixel :=
  if (pix.role = .data ∨ pix.role = .check ∨ pix.role = .extra) ∧ inv y x then
    { pix with black := !pix.black, invert := !pix.invert }
  else pix

/-- Effect of the mask on one pixel. -/
def maskPixel (m y x : Nat) (pix : Pixel) : Pixel := maskPixelG (maskInvert m) y x pix

theorem mplan_get (m : Nat) (g : Grid) (y x : Nat) : (mplan m g).get y x = (g.get y x).map (maskPixel m y x) := by
  unfold Grid.get mplan
  rw [List.getElem?_mapIdx]
  cases h : g[y]? with
  | none => rfl
  | some row =>
    simp only [Option.map_some, Option.bind_some, List.getElem?_mapIdx]
    rfl

end Verif.QR
