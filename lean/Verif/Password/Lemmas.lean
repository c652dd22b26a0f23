import Verif.Password.LemmasRand
/-
Possible results of a `Prog`, their relation to runs on byte streams, and what the loops of `Generate` can produce.
-/
namespace Verif.Password

/-- `p.Can x`: some sequence of in-range draws makes `p` return `x`. -/
def Prog.Can {α} : Prog α → α → Prop
  | .ret a, x => x = a
  | .draw m k, x => ∃ i, i < m ∧ (k i).Can x
  | .fail _, _ => False
  | .stuck, _ => False

theorem can_bind {α β} (p : Prog α) (f : α → Prog β) (b : β) :
    (p.bind f).Can b ↔ ∃ a, p.Can a ∧ (f a).Can b := by
  induction p with
  | ret a => simp [Prog.bind, Prog.Can]
  | draw m k ih =>
    simp only [Prog.bind, Prog.Can, ih]
    constructor
    · rintro ⟨i, hi, a, h1, h2⟩; exact ⟨a, ⟨i, hi, h1⟩, h2⟩
    · rintro ⟨a, ⟨i, hi, h1⟩, h2⟩; exact ⟨i, hi, a, h1, h2⟩
  | fail e => simp [Prog.bind, Prog.Can]
  | stuck => simp [Prog.bind, Prog.Can]

theorem run_can {α} (p : Prog α) {r : Str} {x : α} {r' : Str} (h : p.run r = .ok (x, r')) : p.Can x := by
  induction p generalizing r with
  | ret a => simp [Prog.run] at h; simp [Prog.Can, h.1]
  | draw m k ih =>
    simp only [Prog.run] at h
    split at h
    · rename_i i r1 hr
      exact ⟨i, randInt_lt hr, ih i h⟩
    all_goals simp at h
  | fail e => simp [Prog.run] at h
  | stuck => simp [Prog.run] at h

theorem can_run {α} (p : Prog α) {x : α} (h : p.Can x) :
    ∃ bs : Str, ∀ rest, p.run (bs ++ rest) = .ok (x, rest) := by
  induction p with
  | ret a => exact ⟨[], fun rest => by simp only [Prog.Can] at h; simp [Prog.run, h]⟩
  | draw m k ih =>
    obtain ⟨i, hi, hc⟩ := h
    obtain ⟨b1, h1⟩ := randInt_surj hi
    obtain ⟨b2, h2⟩ := ih i hc
    refine ⟨b1 ++ b2, fun rest => ?_⟩
    simp only [Prog.run, List.append_assoc, h1, h2]
  | fail e => exact absurd h (by simp [Prog.Can])
  | stuck => exact absurd h (by simp [Prog.Can])

theorem stringOfByte_ascii {b : UInt8} (h : b < 0x80) : stringOfByte b = [b] := by
  simp [stringOfByte, h]

theorem contains_singleton (s : Str) (c : UInt8) : contains s [c] = decide (c ∈ s) := by
  unfold contains
  congr 1
  exact propext (List.singleton_infix_iff _ _)

theorem can_randomElement {A : Str} (hA : Ascii A) (x : Str) :
    (randomElement A).Can x ↔ ∃ c ∈ A, x = [c] := by
  simp only [randomElement, Prog.Can]
  constructor
  · rintro ⟨i, hi, rfl⟩
    have hg : A.getD i 0 = A[i] := by simp [List.getD, hi]
    refine ⟨A[i], List.getElem_mem hi, ?_⟩
    rw [hg, stringOfByte_ascii (hA _ (List.getElem_mem hi))]
  · rintro ⟨c, hc, rfl⟩
    obtain ⟨i, hi, rfl⟩ := List.getElem_of_mem hc
    refine ⟨i, hi, ?_⟩
    have hg : A.getD i 0 = A[i] := by simp [List.getD, hi]
    rw [hg, stringOfByte_ascii (hA _ (List.getElem_mem hi))]

theorem can_pick {A : Str} (hA : Ascii A) (noRep : Bool) (res : Str) (fuel : Nat) (x : Str) :
    (pick A noRep res fuel).Can x ↔ 0 < fuel ∧ ∃ c ∈ A, x = [c] ∧ (noRep = true → c ∉ res) := by
  induction fuel with
  | zero => simp [pick, Prog.Can]
  | succ f ih =>
    rw [pick, can_bind]
    constructor
    · rintro ⟨a, ha, hx⟩
      obtain ⟨c, hc, rfl⟩ := (can_randomElement hA a).mp ha
      rw [contains_singleton] at hx
      split at hx
      · obtain ⟨h0, h1⟩ := ih.mp hx
        exact ⟨by omega, h1⟩
      · rename_i hb
        simp only [Prog.Can] at hx
        refine ⟨by omega, c, hc, hx, ?_⟩
        intro hn; simpa [hn] using hb
    · rintro ⟨_, c, hc, rfl, hn⟩
      refine ⟨[c], (can_randomElement hA _).mpr ⟨c, hc, rfl⟩, ?_⟩
      rw [contains_singleton, if_neg]
      · simp [Prog.Can]
      · simpa using hn

theorem can_randomInsert (s v x : Str) :
    (randomInsert s v).Can x ↔ ∃ i, i ≤ s.length ∧ x = s.take i ++ v ++ s.drop i := by
  unfold randomInsert
  split
  · subst_vars; simp [Prog.Can]
  · simp only [Prog.Can]
    constructor
    · rintro ⟨i, hi, h⟩; exact ⟨i, by omega, h⟩
    · rintro ⟨i, hi, h⟩; exact ⟨i, by omega, h⟩

theorem can_step {A : Str} (hA : Ascii A) (noRep : Bool) (fuel : Nat) (res x : Str) :
    (step A noRep fuel res).Can x ↔
      0 < fuel ∧ ∃ c ∈ A, (noRep = true → c ∉ res) ∧ ∃ i, i ≤ res.length ∧ x = res.take i ++ c :: res.drop i := by
  rw [step, can_bind]
  constructor
  · rintro ⟨a, ha, hx⟩
    obtain ⟨h0, c, hc, rfl, hn⟩ := (can_pick hA noRep res fuel a).mp ha
    obtain ⟨i, hi, hx⟩ := (can_randomInsert _ _ _).mp hx
    exact ⟨h0, c, hc, hn, i, hi, by simpa using hx⟩
  · rintro ⟨h0, c, hc, hn, i, hi, hx⟩
    exact ⟨[c], (can_pick hA noRep res fuel _).mpr ⟨h0, c, hc, rfl, hn⟩,
      (can_randomInsert _ _ _).mpr ⟨i, hi, by simpa using hx⟩⟩

theorem perm_insert (c : UInt8) (res : Str) (i : Nat) : (res.take i ++ c :: res.drop i).Perm (c :: res) := by
  have h := @List.perm_middle _ c (res.take i) (res.drop i)
  rwa [List.take_append_drop] at h

/-- Whatever a loop returns consists of the old characters and `n` new ones from its alphabet. -/
theorem can_fill {A : Str} (hA : Ascii A) (noRep : Bool) (fuel n : Nat) (res x : Str)
    (h : (fill A noRep fuel n res).Can x) :
    ∃ added : Str, added.length = n ∧ (∀ c ∈ added, c ∈ A) ∧ x.Perm (added ++ res) ∧
      (noRep = true → res.Nodup → x.Nodup) := by
  induction n generalizing res with
  | zero =>
    simp only [fill, Prog.Can] at h
    subst h
    exact ⟨[], rfl, by simp, List.Perm.refl _, fun _ h => h⟩
  | succ n ih =>
    rw [fill, can_bind] at h
    obtain ⟨r1, h1, h2⟩ := h
    obtain ⟨_, c, hc, hn, i, hi, rfl⟩ := (can_step hA noRep fuel res r1).mp h1
    obtain ⟨added, hl, hmem, hp, hnd⟩ := ih _ h2
    have hperm := perm_insert c res i
    refine ⟨added ++ [c], by simp [hl], ?_, ?_, ?_⟩
    · intro d hd
      rcases List.mem_append.mp hd with h | h
      · exact hmem d h
      · rw [List.mem_singleton.mp h]; exact hc
    · refine hp.trans ?_
      rw [List.append_assoc, List.singleton_append]
      exact List.Perm.append_left _ hperm
    · intro hr hres
      apply hnd hr
      rw [hperm.nodup_iff, List.nodup_cons]
      exact ⟨hn hr, hres⟩

/-- Completeness of a loop: it can turn the `p`-part of `t` into the `q`-part, if the difference is in its alphabet. -/
theorem fill_can {A : Str} (hA : Ascii A) (noRep : Bool) (fuel : Nat) (hf : 0 < fuel) (p q : UInt8 → Bool)
    (t : Str) : ∀ (a : Str), (∀ c ∈ t, p c = true → q c = true) → (∀ c ∈ t, q c = true → p c = false → c ∈ A) →
    (noRep = true → (a ++ t.filter q).Nodup) →
    (fill A noRep fuel (t.filter (fun c => q c && !p c)).length (a ++ t.filter p)).Can (a ++ t.filter q) := by
  induction t with
  | nil => intro a _ _ _; simp [fill, Prog.Can]
  | cons c t ih =>
    intro a hpq hA' hnd
    have hpq' : ∀ c ∈ t, p c = true → q c = true := fun d hd => hpq d (List.mem_cons_of_mem _ hd)
    have hA'' : ∀ c ∈ t, q c = true → p c = false → c ∈ A := fun d hd => hA' d (List.mem_cons_of_mem _ hd)
    by_cases hq : q c = true
    · by_cases hp : p c = true
      · have := ih (a ++ [c]) hpq' hA'' (by simpa [hq] using hnd)
        simpa [hq, hp] using this
      · simp only [Bool.not_eq_true] at hp
        have hnext := ih (a ++ [c]) hpq' hA'' (by simpa [hq] using hnd)
        simp only [List.filter_cons, hq, hp, Bool.not_false, Bool.and_self, if_true, List.length_cons,
          Bool.false_eq_true, if_false]
        rw [fill, can_bind]
        refine ⟨a ++ [c] ++ t.filter p, ?_, by simpa using hnext⟩
        rw [can_step hA]
        refine ⟨hf, c, hA' c List.mem_cons_self hq hp, ?_, a.length, by simp, by simp⟩
        intro hr hin
        have := hnd hr
        simp only [List.filter_cons, hq, if_true] at this
        rw [List.nodup_append] at this
        obtain ⟨_, h2, h3⟩ := this
        rcases List.mem_append.mp hin with h | h
        · exact h3 c h c List.mem_cons_self rfl
        · rw [List.nodup_cons] at h2
          apply h2.1
          rw [List.mem_filter] at h ⊢
          exact ⟨h.1, hq⟩
    · simp only [Bool.not_eq_true] at hq
      have hp : p c = false := by
        by_contra h
        have := hpq c List.mem_cons_self (by simpa using h)
        rw [hq] at this; exact absurd this (by simp)
      have := ih a hpq' hA'' (by simpa [hq] using hnd)
      simpa [hq, hp] using this

/-- The loops never report a policy error. -/
def Prog.NoFail {α} : Prog α → Prop
  | .ret _ => True
  | .draw m k => 0 < m ∧ ∀ i, (k i).NoFail
  | .fail _ => False
  | .stuck => True

theorem noFail_bind {α β} (p : Prog α) (f : α → Prog β) (hp : p.NoFail) (hf : ∀ a, (f a).NoFail) :
    (p.bind f).NoFail := by
  induction p with
  | ret a => exact hf a
  | draw m k ih => exact ⟨hp.1, fun i => ih i (hp.2 i)⟩
  | fail e => exact absurd hp (by simp [Prog.NoFail])
  | stuck => trivial

theorem noFail_fill (A : Str) (hA : A ≠ []) (noRep : Bool) (fuel n : Nat) (res : Str) :
    (fill A noRep fuel n res).NoFail := by
  have hpos : 0 < A.length := List.length_pos_iff.mpr hA
  have hpick : ∀ f res, (pick A noRep res f).NoFail := by
    intro f
    induction f with
    | zero => intro _; trivial
    | succ f ih =>
      intro res
      refine noFail_bind _ _ ⟨hpos, fun _ => trivial⟩ (fun a => ?_)
      split
      · exact ih _
      · trivial
  induction n generalizing res with
  | zero => trivial
  | succ n ih =>
    refine noFail_bind _ _ (noFail_bind _ _ (hpick _ _) (fun a => ?_)) (fun r => ih r)
    unfold randomInsert
    split
    · trivial
    · exact ⟨by omega, fun _ => trivial⟩

theorem run_noFail {α} (p : Prog α) (hp : p.NoFail) (r : Str) :
    (∃ x r', p.run r = .ok (x, r')) ∨ p.run r = .err .read ∨ p.run r = .nofuel := by
  induction p generalizing r with
  | ret a => left; exact ⟨_, _, rfl⟩
  | draw m k ih =>
    simp only [Prog.run]
    rcases randInt_cases hp.1 r with ⟨i, r', h⟩ | h
    · rw [h]; exact ih i (hp.2 i) r'
    · rw [h]; right; left; rfl
  | fail e => exact absurd hp (by simp [Prog.NoFail])
  | stuck => right; right; rfl

/-! Counting lemmas for `countIn` -/

theorem countIn_append (A x y : Str) : countIn A (x ++ y) = countIn A x + countIn A y := by
  simp [countIn]

theorem countIn_perm {A x y : Str} (h : x.Perm y) : countIn A x = countIn A y :=
  (h.filter _).length_eq

theorem countIn_all {A x : Str} (h : ∀ c ∈ x, c ∈ A) : countIn A x = x.length := by
  unfold countIn
  rw [List.filter_eq_self.mpr]
  simpa using h

theorem countIn_none {A B x : Str} (hd : Apart A B) (h : ∀ c ∈ x, c ∈ A) : countIn B x = 0 := by
  unfold countIn
  rw [List.length_eq_zero_iff, List.filter_eq_nil_iff]
  intro c hc
  simpa using hd c (h c hc)

theorem countIn_none' {A B x : Str} (hd : Apart A B) (h : ∀ c ∈ x, c ∈ B) : countIn A x = 0 := by
  refine countIn_none (A := B) ?_ h
  intro c hc hc'
  exact hd c hc' hc

theorem letters_ascii {g : Generator} (hg : g.AllAscii) (noUpper : Bool) : Ascii (g.letters noUpper) := by
  unfold Generator.letters
  split
  · exact hg.1
  · intro b hb
    rcases List.mem_append.mp hb with h | h
    · exact hg.1 b h
    · exact hg.2.1 b h

theorem letters_sub (g : Generator) (noUpper : Bool) : ∀ c ∈ g.letters noUpper, c ∈ g.lowerLetters ++ g.upperLetters := by
  unfold Generator.letters
  split
  · intro c hc; exact List.mem_append_left _ hc
  · intro c hc; exact hc

end Verif.Password
