import Verif.Closest.Model
import Verif.Closest.Spec
/-
Lemmas about the search: sums of score maps, executions.
-/
namespace Verif.Closest

/-! ### Sums of score maps -/

def zeroS : Scores := fun _ => none

theorem merge_comm (a b : Scores) : merge a b = merge b a := by
  funext k; unfold merge; cases a k <;> cases b k <;> simp [Nat.add_comm]

theorem merge_assoc (a b c : Scores) : merge (merge a b) c = merge a (merge b c) := by
  funext k; unfold merge; cases a k <;> cases b k <;> cases c k <;> simp [Nat.add_assoc]

theorem merge_zero (a : Scores) : merge a zeroS = a := rfl
theorem zero_merge (a : Scores) : merge zeroS a = a := by rw [merge_comm]; rfl

instance : Std.Commutative merge := ⟨merge_comm⟩
instance : Std.Associative merge := ⟨merge_assoc⟩

def sumS (l : List Scores) : Scores := l.foldr merge zeroS

theorem sumS_cons (a : Scores) (l) : sumS (a :: l) = merge a (sumS l) := rfl
theorem sumS_append (l l' : List Scores) : sumS (l ++ l') = merge (sumS l) (sumS l') := by
  induction l with
  | nil => exact (zero_merge _).symm
  | cons a l ih => rw [List.cons_append, sumS_cons, sumS_cons, ih, merge_assoc]

theorem sumS_perm {l l' : List Scores} (h : l.Perm l') : sumS l = sumS l' := by
  induction h with
  | nil => rfl
  | cons a h ih => rw [sumS_cons, sumS_cons, ih]
  | swap a b l => rw [sumS_cons, sumS_cons, sumS_cons, sumS_cons]; ac_rfl
  | trans _ _ h1 h2 => rw [h1, h2]

/-- The map with one entry. -/
def single (k : Str) (v : Nat) : Scores := fun x => if x = k then some v else none

theorem bump_eq (m : Scores) (k : Str) (v : Nat) : bump m k v = merge m (single k v) := by
  funext x
  unfold bump merge single
  by_cases h : x = k
  · subst h
    simp only [if_true]
    cases m x <;> simp
  · simp only [if_neg h]

/-- The key of an identifier. -/
def CM.key (cm : CM) (i : Nat) : Str := ((cm.id i).getD ⟨[], 0⟩).key

theorem scoreIds_eq (cm : CM) (w : Nat) : ∀ (ids : List Nat) (m : Scores), scoreIds cm w ids m =
    if ∃ i ∈ ids, cm.key i = [] then none
    else some (merge m (sumS (ids.map fun i => single (cm.key i) (1 + 1000 / (cm.key i).length + w))))
  | [], m => by simp [scoreIds, sumS, merge_zero]
  | i :: ids, m => by
    rw [scoreIds]
    by_cases h : cm.key i = []
    · rw [if_pos (by unfold CM.key at h; rw [h]; rfl), if_pos ⟨i, List.mem_cons_self, h⟩]
    · rw [if_neg (by intro e; exact h (List.length_eq_zero_iff.1 e)), scoreIds_eq cm w ids]
      have : (∃ j ∈ i :: ids, cm.key j = []) ↔ ∃ j ∈ ids, cm.key j = [] := by simp [h]
      by_cases h2 : ∃ j ∈ ids, cm.key j = []
      · rw [if_pos h2, if_pos (this.2 h2)]
      · rw [if_neg h2, if_neg (fun e => h2 (this.1 e)), List.map_cons, sumS_cons, bump_eq]
        congr 1
        rw [merge_assoc]
        rfl

/-- A fragment whose lookup crashes. -/
def bad (cm : CM) (f : Str) : Prop := ∃ ids, cm.sub f = some ids ∧ (ids = [] ∨ ∃ i ∈ ids, cm.key i = [])

/-- What a fragment contributes. -/
def contrib (cm : CM) (f : Str) : Scores :=
  match cm.sub f with
  | none => zeroS
  | some ids => sumS (ids.map fun i => single (cm.key i) (1 + 1000 / (cm.key i).length + 1000 / ids.length))

open Classical in
theorem lookup_eq (cm : CM) (f : Str) (order : List Nat) (h : order.Perm ((cm.sub f).getD [])) :
    lookup cm f order = if bad cm f then none else some (contrib cm f) := by
  unfold lookup contrib bad
  cases hs : cm.sub f with
  | none => simp; rfl
  | some ids =>
    rw [hs] at h
    simp only [Option.getD_some] at h
    simp only
    by_cases he : ids = []
    · subst he
      simp
    · rw [if_neg (by simpa using he), scoreIds_eq]
      have hm : (∃ i ∈ order, cm.key i = []) ↔ ∃ i ∈ ids, cm.key i = [] := by
        constructor <;> rintro ⟨i, hi, e⟩
        · exact ⟨i, h.mem_iff.1 hi, e⟩
        · exact ⟨i, h.mem_iff.2 hi, e⟩
      by_cases hb : ∃ i ∈ ids, cm.key i = []
      · rw [if_pos (hm.2 hb), if_pos ⟨ids, rfl, Or.inr hb⟩]
      · rw [if_neg (fun e => hb (hm.1 e)), if_neg]
        · congr 1
          change merge zeroS _ = _
          rw [zero_merge]
          exact sumS_perm (h.map _)
        · rintro ⟨ids', e, h'⟩
          injection e with e
          subst e
          rcases h' with h' | h'
          · exact he h'
          · exact hb h'

/-! ### Executions -/

def Worker.val (cm : CM) : Worker → Scores
  | .got f => contrib cm f
  | .locked f => contrib cm f
  | .computed m => m
  | _ => zeroS

def Worker.busy : Worker → Nat
  | .got _ => 1
  | .locked _ => 1
  | .computed _ => 1
  | _ => 0

def Worker.holds : Worker → Nat
  | .locked _ => 1
  | _ => 0

/-- The sum of everything on its way. -/
def total (cm : CM) (c : Conf) : Scores :=
  merge c.acc (merge (sumS c.results) (merge (sumS (c.ws.map (Worker.val cm))) (merge (sumS (c.jobs.map (contrib cm))) (sumS (c.toSend.map (contrib cm))))))

def busySum (ws : List Worker) : Nat := (ws.map Worker.busy).sum
def holdSum (ws : List Worker) : Nat := (ws.map Worker.holds).sum

structure Inv (cm : CM) (n k : Nat) (t : Scores) (c : Conf) : Prop where
  total : Closest.total cm c = t
  count : c.need = c.results.length + busySum c.ws + c.jobs.length + c.toSend.length
  need : c.need ≤ n
  closed : c.closed = true → c.toSend = []
  open_ : c.closed = false → c.need = n
  mux : holdSum c.ws = c.mux.toNat
  exited : ∀ w ∈ c.ws, w = .exited → c.closed = true ∧ c.jobs = []
  workers : c.ws.length = k

theorem busySum_split (l₁ : List Worker) (w) (l₂) : busySum (l₁ ++ w :: l₂) = busySum l₁ + (w.busy + busySum l₂) := by
  simp [busySum]
theorem holdSum_split (l₁ : List Worker) (w) (l₂) : holdSum (l₁ ++ w :: l₂) = holdSum l₁ + (w.holds + holdSum l₂) := by
  simp [holdSum]
theorem valSum_split (cm) (l₁ : List Worker) (w) (l₂) : sumS ((l₁ ++ w :: l₂).map (Worker.val cm)) =
    merge (sumS (l₁.map (Worker.val cm))) (merge (w.val cm) (sumS (l₂.map (Worker.val cm)))) := by
  rw [List.map_append, List.map_cons, sumS_append, sumS_cons]

theorem exited_split {l₁ l₂ : List Worker} {w w' : Worker} {P : Prop} (h : ∀ x ∈ l₁ ++ w :: l₂, x = .exited → P) (hw : w' = .exited → P) :
    ∀ x ∈ l₁ ++ w' :: l₂, x = .exited → P := by
  intro x hx he
  rw [List.mem_append, List.mem_cons] at hx
  rcases hx with hx | hx | hx
  · exact h x (by simp [hx]) he
  · exact hw (hx ▸ he)
  · exact h x (by simp [hx]) he

theorem Inv.start (cm : CM) (k : Nat) (order : List Str) : Inv cm order.length k (sumS (order.map (contrib cm))) (start k order) where
  total := by
    have hv : ∀ k, sumS ((List.replicate k Worker.idle).map (Worker.val cm)) = zeroS := by
      intro k
      induction k with
      | zero => rfl
      | succ k ih => rw [List.replicate_succ, List.map_cons, sumS_cons, ih]; exact zero_merge _
    unfold Closest.total Closest.start
    simp only [hv]
    change merge zeroS (merge zeroS (merge zeroS (merge zeroS _))) = _
    simp only [zero_merge]
  count := by
    have : ∀ k, busySum (List.replicate k Worker.idle) = 0 := by
      intro k; unfold busySum; rw [List.map_replicate]; simp [Worker.busy]
    simp [Closest.start, this]
  need := Nat.le_refl _
  closed := by simp [Closest.start]
  open_ := fun _ => rfl
  mux := by unfold holdSum Closest.start; simp only [List.map_replicate]; simp [Worker.holds]
  exited := by
    intro w hw he
    simp only [Closest.start, List.mem_replicate] at hw
    rw [hw.2] at he; cases he
  workers := by simp [Closest.start]

open Classical in
theorem Inv.step {cm : CM} {n k cap : Nat} {t : Scores} {c c' : Conf} (h : Inv cm n k t c) (hs : Step cm cap c (some c')) : Inv cm n k t c' := by
  obtain ⟨h1, h2, h3, h4, h5, h6, h7, h8⟩ := h
  cases hs with
  | send f r e hl =>
    refine ⟨?_, ?_, h3, ?_, h5, h6, ?_, h8⟩
    · rw [← h1]; unfold Closest.total
      rw [e]; simp only [List.map_append, List.map_cons, List.map_nil, sumS_append, sumS_cons]
      change merge _ (merge _ (merge _ (merge (merge _ (merge _ zeroS)) _))) = _
      rw [merge_zero]; ac_rfl
    · rw [h2, e]; simp; omega
    · intro hc; rw [h4 hc] at e; cases e
    · intro w hw he
      obtain ⟨g1, g2⟩ := h7 w hw he
      rw [h4 g1] at e; cases e
  | close e hc =>
    refine ⟨h1, h2, h3, fun _ => e, by simp, h6, ?_, h8⟩
    intro w hw he
    exact ⟨rfl, (h7 w hw he).2⟩
  | take f r l₁ l₂ e ew =>
    refine ⟨?_, ?_, h3, h4, h5, ?_, ?_, ?_⟩
    · rw [← h1]; unfold Closest.total
      rw [e, ew]; simp only [valSum_split, List.map_cons, sumS_cons, Worker.val, zero_merge]
      ac_rfl
    · rw [h2, e, ew, busySum_split, busySum_split]; simp [Worker.busy]; omega
    · rw [← h6, ew, holdSum_split, holdSum_split]; rfl
    · rw [ew] at h7
      refine exited_split (w := .idle) ?_ (by simp)
      intro x hx he
      have := (h7 x hx he).2
      rw [e] at this; cases this
    · rw [← h8, ew]; simp
  | exit l₁ l₂ e hc ew =>
    refine ⟨?_, ?_, h3, h4, h5, ?_, ?_, ?_⟩
    · rw [← h1]; unfold Closest.total; rw [ew]; simp only [valSum_split]; rfl
    · rw [h2, ew, busySum_split, busySum_split]; rfl
    · rw [← h6, ew, holdSum_split, holdSum_split]; rfl
    · rw [ew] at h7
      exact exited_split h7 (fun _ => ⟨hc, e⟩)
    · rw [← h8, ew]; simp
  | lock f l₁ l₂ hm ew =>
    refine ⟨?_, ?_, h3, h4, h5, ?_, ?_, ?_⟩
    · rw [← h1]; unfold Closest.total; rw [ew]; simp only [valSum_split]; rfl
    · rw [h2, ew, busySum_split, busySum_split]; rfl
    · rw [ew, holdSum_split, hm] at h6
      rw [holdSum_split]
      simp only [Worker.holds, Bool.toNat_false, Bool.toNat_true] at *; omega
    · rw [ew] at h7
      exact exited_split h7 (by simp)
    · rw [← h8, ew]; simp
  | compute f l₁ l₂ order m ew hp hl =>
    have hm : m = contrib cm f := by
      rw [lookup_eq cm f order hp] at hl
      split at hl
      · cases hl
      · injection hl with hl; exact hl.symm
    refine ⟨?_, ?_, h3, h4, h5, ?_, ?_, ?_⟩
    · rw [← h1]; unfold Closest.total; rw [ew, hm]; simp only [valSum_split]; rfl
    · rw [h2, ew, busySum_split, busySum_split]; rfl
    · rw [ew, holdSum_split] at h6
      rw [holdSum_split]
      cases hmux : c.mux
      · rw [hmux] at h6; simp [Worker.holds] at h6
      · rw [hmux] at h6
        simp only [Worker.holds, Bool.toNat_true, Bool.toNat_false] at *; omega
    · rw [ew] at h7
      exact exited_split h7 (by simp)
    · rw [← h8, ew]; simp
  | result m l₁ l₂ ew hl =>
    refine ⟨?_, ?_, h3, h4, h5, ?_, ?_, ?_⟩
    · rw [← h1]; unfold Closest.total; rw [ew]; simp only [valSum_split, sumS_append, sumS_cons, Worker.val, zero_merge]
      change merge _ (merge (merge _ (merge _ zeroS)) _) = _
      rw [merge_zero]; ac_rfl
    · rw [h2, ew, busySum_split, busySum_split]; simp [Worker.busy]; omega
    · rw [← h6, ew, holdSum_split, holdSum_split]; rfl
    · rw [ew] at h7
      exact exited_split h7 (by simp)
    · rw [← h8, ew]; simp
  | receive m r n' hc hn e =>
    refine ⟨?_, ?_, by simp only; omega, h4, ?_, h6, h7, h8⟩
    · rw [← h1]; unfold Closest.total; rw [e]; simp only [sumS_cons]; ac_rfl
    · rw [hn, e] at h2; simp at h2 ⊢; omega
    · intro h'; simp only at h'; rw [hc] at h'; cases h'

theorem Inv.steps {cm : CM} {n k cap : Nat} {t : Scores} {c : Conf} {o : Option Conf} (h : Inv cm n k t c) (hs : Steps cm cap c o) :
    ∀ c', o = some c' → Inv cm n k t c' := by
  induction hs with
  | refl => intro c' e; injection e with e; exact e ▸ h
  | step h1 h2 ih =>
    intro c' e
    subst e
    exact (ih _ rfl).step h2

/-- When `match` returns, everything has been added. -/
theorem Inv.done {cm : CM} {n k : Nat} {t : Scores} {c : Conf} (h : Inv cm n k t c) (hd : c.done) : c.acc = t := by
  have h2 := h.count
  rw [hd.2] at h2
  have hr : c.results = [] := List.length_eq_zero_iff.1 (by omega)
  have hj : c.jobs = [] := List.length_eq_zero_iff.1 (by omega)
  have hb : busySum c.ws = 0 := by omega
  rw [← h.total]
  unfold Closest.total
  rw [hr, hj, h.closed hd.1]
  have : sumS (c.ws.map (Worker.val cm)) = zeroS := by
    generalize c.ws = ws at hb
    induction ws with
    | nil => rfl
    | cons w ws ih =>
      unfold busySum at hb
      rw [List.map_cons, List.sum_cons] at hb
      rw [List.map_cons, sumS_cons, ih (by unfold busySum; omega), merge_zero]
      cases w <;> simp [Worker.busy] at hb <;> rfl
  rw [this]
  rfl

/-! ### Progress and termination -/

def Worker.fuel : Worker → Nat
  | .idle => 1
  | .got _ => 5
  | .locked _ => 4
  | .computed _ => 3
  | .exited => 0

/-- A number that falls with every step. -/
def measure (c : Conf) : Nat :=
  6 * c.toSend.length + (if c.closed then 0 else 1) + 5 * c.jobs.length + (c.ws.map Worker.fuel).sum + c.results.length

theorem fuelSum_split (l₁ : List Worker) (w) (l₂) : ((l₁ ++ w :: l₂).map Worker.fuel).sum = (l₁.map Worker.fuel).sum + (w.fuel + (l₂.map Worker.fuel).sum) := by simp

theorem measure_step {cm : CM} {cap : Nat} {c c' : Conf} (hs : Step cm cap c (some c')) : measure c' < measure c := by
  cases hs with
  | send f r e hl => unfold measure; rw [e]; simp; omega
  | close e hc => unfold measure; simp [hc]
  | take f r l₁ l₂ e ew => unfold measure; rw [e, ew]; simp only [fuelSum_split, Worker.fuel, List.length_cons]; omega
  | exit l₁ l₂ e hc ew => unfold measure; rw [ew]; simp only [fuelSum_split, Worker.fuel]; omega
  | lock f l₁ l₂ hm ew => unfold measure; rw [ew]; simp only [fuelSum_split, Worker.fuel]; omega
  | compute f l₁ l₂ order m ew hp hl => unfold measure; rw [ew]; simp only [fuelSum_split, Worker.fuel]; omega
  | result m l₁ l₂ ew hl => unfold measure; rw [ew]; simp only [fuelSum_split, Worker.fuel, List.length_append, List.length_cons, List.length_nil]; omega
  | receive m r n' hc hn e => unfold measure; rw [e]; simp

theorem exists_of_sum {f : Worker → Nat} : ∀ {ws : List Worker}, 0 < (ws.map f).sum → ∃ l₁ w l₂, ws = l₁ ++ w :: l₂ ∧ 0 < f w
  | [], h => by simp at h
  | w :: ws, h => by
    by_cases hw : 0 < f w
    · exact ⟨[], w, ws, rfl, hw⟩
    · rw [List.map_cons, List.sum_cons] at h
      obtain ⟨l₁, w', l₂, e, h'⟩ := exists_of_sum (ws := ws) (f := f) (by omega)
      exact ⟨w :: l₁, w', l₂, by rw [e]; rfl, h'⟩

/-- Unless everything is finished, some goroutine can take a step. -/
theorem Inv.progress {cm : CM} {n k : Nat} {t : Scores} {c : Conf} (h : Inv cm n k t c) (hk : 1 ≤ k)
    (hnd : ¬ (c.done ∧ ∀ w ∈ c.ws, w = .exited)) : ∃ o, Step cm n c o := by
  have h2 := h.count
  have h3 := h.need
  -- the main goroutine
  cases hts : c.toSend with
  | cons f r => exact ⟨_, .send c f r hts (by rw [hts] at h2; simp only [List.length_cons] at h2; omega)⟩
  | nil =>
    cases hcl : c.closed with
    | false => exact ⟨_, .close c hts hcl⟩
    | true =>
      rw [hts] at h2
      simp only [List.length_nil] at h2
      by_cases hb : 0 < busySum c.ws
      · by_cases hh : 0 < holdSum c.ws
        · obtain ⟨l₁, w, l₂, e, hw⟩ := exists_of_sum hh
          cases w with
          | locked f =>
            cases hl : lookup cm f ((cm.sub f).getD []) with
            | none => exact ⟨none, .crash c f l₁ l₂ _ e (List.Perm.refl _) hl⟩
            | some m => exact ⟨_, .compute c f l₁ l₂ _ m e (List.Perm.refl _) hl⟩
          | _ => simp [Worker.holds] at hw
        · have hmux : c.mux = false := by
            have := h.mux
            cases hm : c.mux with
            | false => rfl
            | true => rw [hm] at this; simp at this; omega
          obtain ⟨l₁, w, l₂, e, hw⟩ := exists_of_sum hb
          cases w with
          | got f => exact ⟨_, .lock c f l₁ l₂ hmux e⟩
          | locked f =>
            exfalso; apply hh
            rw [e, holdSum_split]; simp only [Worker.holds]; omega
          | computed m =>
            refine ⟨_, .result c m l₁ l₂ e ?_⟩
            rw [e, busySum_split] at h2
            simp only [Worker.busy] at h2
            omega
          | _ => simp [Worker.busy] at hw
      · -- all workers are idle or have exited
        by_cases hid : ∃ l₁ l₂, c.ws = l₁ ++ .idle :: l₂
        · obtain ⟨l₁, l₂, e⟩ := hid
          cases hj : c.jobs with
          | cons f r => exact ⟨_, .take c f r l₁ l₂ hj e⟩
          | nil => exact ⟨_, .exit c l₁ l₂ hj hcl e⟩
        · have hex : ∀ w ∈ c.ws, w = .exited := by
            intro w hw
            obtain ⟨l₁, l₂, e⟩ := List.append_of_mem hw
            cases w with
            | exited => rfl
            | idle => exact absurd ⟨l₁, l₂, e⟩ hid
            | _ =>
              exfalso; apply hb
              rw [e, busySum_split]; simp only [Worker.busy]; omega
          have hj : c.jobs = [] := by
            cases hws : c.ws with
            | nil => have := h.workers; rw [hws] at this; simp at this; omega
            | cons w ws => exact (h.exited w (by rw [hws]; exact List.mem_cons_self) (hex w (by rw [hws]; exact List.mem_cons_self))).2
          cases hr : c.results with
          | cons m r =>
            obtain ⟨n', hn'⟩ : ∃ n', c.need = n' + 1 := ⟨c.need - 1, by rw [hr] at h2; simp only [List.length_cons] at h2; omega⟩
            exact ⟨_, .receive c m r n' hcl hn' hr⟩
          | nil =>
            exfalso; apply hnd
            refine ⟨⟨hcl, ?_⟩, hex⟩
            rw [h2, hr, hj]; simp; omega

end Verif.Closest
