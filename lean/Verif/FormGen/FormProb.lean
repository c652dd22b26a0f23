import Verif.FormGen.FormUniform
/-
C107: the exact probability of a text that a form without `a` stands for, when characters may repeat.
-/
namespace Verif.FormGen
open Verif.Password Finset

/-- No run of the computation fails, panics or runs out of tries. -/
def Sure {α} : Prog α → Prop
  | .ret _ => True
  | .draw m k => 0 < m ∧ ∀ i < m, Sure (k i)
  | .fail _ => False
  | .stuck => False

theorem sure_done {α} (p : Prog α) (h : Sure p) : p.probDone = 1 := by
  unfold Prog.probDone
  induction p with
  | ret a => rfl
  | draw m k ih =>
    simp only [Prog.expect]
    rw [Finset.sum_congr rfl fun i hi => ih i (h.2 i (Finset.mem_range.1 hi))]
    simp only [Finset.sum_const, Finset.card_range, nsmul_eq_mul, mul_one]
    exact div_self (by have := h.1; positivity)
  | fail e => exact h.elim
  | stuck => exact h.elim

theorem sure_bind {α β} (p : Prog α) (f : α → Prog β) (hp : Sure p) (hf : ∀ a, p.Can a → Sure (f a)) : Sure (p.bind f) := by
  induction p with
  | ret a => exact hf a rfl
  | draw m k ih => exact ⟨hp.1, fun i hi => ih i (hp.2 i hi) fun a ha => hf a ⟨i, hi, ha⟩⟩
  | fail e => exact hp.elim
  | stuck => exact hp.elim

theorem sure_fill (A : Str) (hA : A ≠ []) (fuel : Nat) (hfuel : 0 < fuel) : ∀ (n : Nat) (res : Str), Sure (fill A false fuel n res)
  | 0, _ => trivial
  | n + 1, res => by
    obtain ⟨k, rfl⟩ : ∃ k, fuel = k + 1 := ⟨fuel - 1, by omega⟩
    refine sure_bind _ _ (sure_bind _ _ ?_ ?_) fun r _ => sure_fill A hA (k + 1) hfuel n r
    · exact ⟨List.length_pos_iff.2 hA, fun i _ => trivial⟩
    · intro ch _
      unfold randomInsert
      split
      · trivial
      · exact ⟨by omega, fun i _ => trivial⟩

theorem sure_generate (fuel : Nat) (hfuel : 0 < fuel) (l d s : Int) (nu : Bool) (h : d + s ≤ l) : Sure (generate fuel l d s nu true) := by
  unfold generate Generator.generate
  simp only [Bool.not_true, Bool.false_and, Bool.false_eq_true, if_false]
  rw [if_neg (by omega)]
  obtain ⟨e1, e2, e3, e4⟩ := default_fields
  have hl : defaultGenerator.letters nu ≠ [] := by
    unfold Generator.letters
    rw [e1, e2]
    cases nu <;> decide
  refine sure_bind _ _ (sure_fill _ hl _ hfuel _ _) fun r1 _ => sure_bind _ _ (sure_fill _ (by rw [e3]; decide) _ hfuel _ _) fun r2 _ =>
    sure_fill _ (by rw [e4]; decide) _ hfuel _ _

/-- The texts that a form without `a` stands for, and their number. -/
theorem allowed_card : ∀ (f : Str), (97 : UInt8) ∉ f →
    ∃ T : Finset Str, (∀ o, o ∈ T ↔ Allowed false f o) ∧ T.card = 26 ^ (f.count 120 + f.count 88) * 10 ^ f.count 110 * 30 ^ f.count 115
  | [], _ => ⟨{[]}, fun o => by
      rw [Finset.mem_singleton]
      constructor
      · rintro rfl; exact ⟨[], [], [], .nil, fun h => by cases h⟩
      · rintro ⟨ls, ds, ss, h, _⟩; exact (fits_nil.1 h).1, by simp⟩
  | c :: f, ha => by
    have ha' : (97 : UInt8) ∉ f := fun hm => ha (List.mem_cons_of_mem _ hm)
    have hc : c ≠ 97 := fun e => ha (e ▸ List.mem_cons_self)
    obtain ⟨T, hT, hcard⟩ := allowed_card f ha'
    have prod : ∀ (C : List UInt8), C.Nodup → ∃ T' : Finset Str, (∀ o, o ∈ T' ↔ ∃ d o', o = d :: o' ∧ d ∈ C ∧ Allowed false f o') ∧ T'.card = C.length * T.card := by
      intro C hC
      refine ⟨(C.toFinset ×ˢ T).map ⟨fun x => x.1 :: x.2, fun x y h => by
        obtain ⟨x1, x2⟩ := x; obtain ⟨y1, y2⟩ := y; injection h with h1 h2; subst h1; subst h2; rfl⟩, fun o => ?_, ?_⟩
      · simp only [Finset.mem_map, Finset.mem_product, List.mem_toFinset, Prod.exists, hT]
        constructor
        · rintro ⟨d, o', ⟨h1, h2⟩, rfl⟩; exact ⟨d, o', rfl, h1, h2⟩
        · rintro ⟨d, o', rfl, h1, h2⟩; exact ⟨d, o', ⟨h1, h2⟩, rfl⟩
      · rw [Finset.card_map, Finset.card_product, List.toFinset_card_of_nodup hC]
    have un : ∀ o, Allowed false f o ↔ ∃ ls ds ss, FitsWith f o ls ds ss := fun o =>
      ⟨fun ⟨ls, ds, ss, h, _⟩ => ⟨ls, ds, ss, h⟩, fun ⟨ls, ds, ss, h⟩ => ⟨ls, ds, ss, h, fun h => by cases h⟩⟩
    have un' : ∀ o, Allowed false (c :: f) o ↔ ∃ ls ds ss, FitsWith (c :: f) o ls ds ss := fun o =>
      ⟨fun ⟨ls, ds, ss, h, _⟩ => ⟨ls, ds, ss, h⟩, fun ⟨ls, ds, ss, h⟩ => ⟨ls, ds, ss, h, fun h => by cases h⟩⟩
    simp only [fits_cons] at un'
    simp only [List.count_cons, beq_iff_eq]
    by_cases e1 : c = 120
    · subst e1
      obtain ⟨T', h1, h2⟩ := prod LowerLetters (by decide)
      refine ⟨T', fun o => ?_, ?_⟩
      · rw [h1, un']
        simp only [if_true, un, (mem_lists _).1]
        constructor
        · rintro ⟨d, o', rfl, hd, ls, ds, ss, h⟩; exact ⟨_, _, _, d, o', ls, rfl, rfl, hd, h⟩
        · rintro ⟨ls, ds, ss, d, o', l, rfl, rfl, hd, h⟩; exact ⟨d, o', rfl, hd, _, _, _, h⟩
      · rw [h2, hcard, show LowerLetters.length = 26 by decide]
        simp [pow_succ, pow_add]; ring
    by_cases e2 : c = 88
    · subst e2
      obtain ⟨T', h1, h2⟩ := prod UpperLetters (by decide)
      refine ⟨T', fun o => ?_, ?_⟩
      · rw [h1, un']
        simp only [if_true, un, (mem_lists _).2.1]
        constructor
        · rintro ⟨d, o', rfl, hd, ls, ds, ss, h⟩; exact ⟨_, _, _, by rw [if_neg (by decide)]; exact ⟨d, o', ls, rfl, rfl, hd, h⟩⟩
        · rintro ⟨ls, ds, ss, h⟩
          rw [if_neg (by decide)] at h
          obtain ⟨d, o', l, rfl, rfl, hd, h⟩ := h
          exact ⟨d, o', rfl, hd, _, _, _, h⟩
      · rw [h2, hcard, show UpperLetters.length = 26 by decide]
        simp [pow_succ, pow_add]; ring
    by_cases e3 : c = 110
    · subst e3
      obtain ⟨T', h1, h2⟩ := prod Digits (by decide)
      refine ⟨T', fun o => ?_, ?_⟩
      · rw [h1, un']
        simp only [if_true, un, (mem_lists _).2.2.1]
        constructor
        · rintro ⟨d, o', rfl, hd, ls, ds, ss, h⟩; exact ⟨_, _, _, by rw [if_neg (by decide), if_neg (by decide)]; exact ⟨d, o', ds, rfl, rfl, hd, h⟩⟩
        · rintro ⟨ls, ds, ss, h⟩
          rw [if_neg (by decide), if_neg (by decide)] at h
          obtain ⟨d, o', l, rfl, rfl, hd, h⟩ := h
          exact ⟨d, o', rfl, hd, _, _, _, h⟩
      · rw [h2, hcard, show Digits.length = 10 by decide]
        simp [pow_succ, pow_add]; ring
    by_cases e4 : c = 115
    · subst e4
      obtain ⟨T', h1, h2⟩ := prod Symbols (by decide)
      refine ⟨T', fun o => ?_, ?_⟩
      · rw [h1, un']
        simp only [if_true, un, (mem_lists _).2.2.2]
        constructor
        · rintro ⟨d, o', rfl, hd, ls, ds, ss, h⟩
          exact ⟨_, _, _, by rw [if_neg (by decide), if_neg (by decide), if_neg (by decide)]; exact ⟨d, o', ss, rfl, rfl, hd, h⟩⟩
        · rintro ⟨ls, ds, ss, h⟩
          rw [if_neg (by decide), if_neg (by decide), if_neg (by decide)] at h
          obtain ⟨d, o', l, rfl, rfl, hd, h⟩ := h
          exact ⟨d, o', rfl, hd, _, _, _, h⟩
      · rw [h2, hcard, show Symbols.length = 30 by decide]
        simp [pow_succ, pow_add]; ring
    simp only [e1, e2, e3, e4, if_false, Nat.add_zero] at un' ⊢
    by_cases e7 : c ∈ lit "-_/\\#"
    · simp only [e7, if_true] at un'
      refine ⟨T.map ⟨fun o => c :: o, fun x y h => by injection h⟩, fun o => ?_, by rw [Finset.card_map, hcard]⟩
      rw [un']
      simp only [Finset.mem_map, hT, un]
      constructor
      · rintro ⟨o', ⟨ls, ds, ss, h⟩, rfl⟩; exact ⟨ls, ds, ss, o', rfl, h⟩
      · rintro ⟨ls, ds, ss, o', rfl, h⟩; exact ⟨o', ⟨ls, ds, ss, h⟩, rfl⟩
    · simp only [e7, if_false] at un'
      refine ⟨T, fun o => ?_, hcard⟩
      rw [un', hT, un]
      constructor
      · rintro ⟨ls, ds, ss, h⟩; exact ⟨ls, ds, ss, hc, h⟩
      · rintro ⟨ls, ds, ss, _, h⟩; exact ⟨ls, ds, ss, h⟩

/-- **C107** Without `--unique`, each text that a form without `a` stands for is printed with the probability one gets by choosing every letter among 26, every
digit among 10 and every symbol among 30, independently. -/
theorem C107_form_probability (a : GenerateCmd) (f : Str) (hf : a.form = some f) (ha : (97 : UInt8) ∉ f) (hu : a.unique = false) (fuel : Nat) (hfuel : 0 < fuel)
    (out : Str) (ho : Allowed false f out) :
    (a.prog fuel).prob out = (1 / 26) ^ (f.count 120 + f.count 88) * (1 / 10) ^ f.count 110 * (1 / 30) ^ f.count 115 := by
  obtain ⟨v, hv, h1, h0⟩ := C107_form_uniform a f hf ha (.inr hu) fuel hfuel
  rw [hu] at h1 h0
  obtain ⟨T, hT, hcard⟩ := allowed_card f ha
  rw [h1 out ho]
  have hdone : (a.prog fuel).probDone = 1 := by
    obtain ⟨v', _, hp⟩ := form_prob a f hf fuel hfuel
    apply sure_done
    unfold GenerateCmd.prog
    simp only [hf, formRequest_eq]
    rw [hu, Bool.not_false]
    refine sure_bind _ _ (sure_generate fuel hfuel _ _ _ _ (by omega)) fun pw hpw => ?_
    have hc := can_conforms default_ascii default_separate (by omega) (by omega) hpw
    rw [fill_filled f hc]
    trivial
  have hsum : (a.prog fuel).probDone = T.card * v := by
    unfold Prog.probDone
    rw [expect_support _ _ (support (a.prog fuel) ∪ T) Finset.subset_union_left]
    simp only [mul_one]
    rw [← Finset.sum_subset (Finset.subset_union_right (s₁ := support (a.prog fuel)) (s₂ := T)) fun o _ hno => h0 o fun hA => hno ((hT o).2 hA),
      Finset.sum_congr rfl fun o ho => h1 o ((hT o).1 ho), Finset.sum_const, nsmul_eq_mul]
  rw [hdone, hcard] at hsum
  push_cast at hsum
  rw [one_div_pow, one_div_pow, one_div_pow, one_div_mul_one_div, one_div_mul_one_div]
  exact (eq_one_div_of_mul_eq_one_right (by rw [← hsum]))

/-! ### Concrete cases -/

/-- The form `Xxx-nn/s` may print `Gab-12/!`, with and without `--unique`. -/
example : Allowed true (lit "Xxx-nn/s") (lit "Gab-12/!") := by
  have e : lit "Xxx-nn/s" = lit "X" ++ (lit "x" ++ (lit "x" ++ (45 :: (lit "n" ++ (lit "n" ++ (47 :: (lit "s" ++ []))))))) := by decide
  rw [e, show lit "Gab-12/!" = [71, 97, 98, 45, 49, 50, 47, 33] by decide]
  refine ⟨_, _, _, .upper (by decide) (.lower (by decide) (.lower (by decide) (.sep (by decide) (.digit (by decide) (.digit (by decide) (.sep (by decide)
    (.symbol (by decide) .nil))))))), fun _ => by decide⟩

/-- It may not print `Gag-12/!` with `--unique`: a letter occurs twice. -/
example : ¬ Allowed true (lit "Xxx-nn/s") (lit "Gag-12/!") := by
  rintro ⟨ls, ds, ss, h, hn⟩
  have e : lit "Xxx-nn/s" = lit "X" ++ (lit "x" ++ (lit "x" ++ (45 :: (lit "n" ++ (lit "n" ++ (47 :: (lit "s" ++ []))))))) := by decide
  have h' : FitsWith (lit "Xxx-nn/s") (lit "Gag-12/!") [103, 97, 103] [49, 50] [33] := by
    rw [e, show lit "Gag-12/!" = [71, 97, 103, 45, 49, 50, 47, 33] by decide]
    exact .upper (by decide) (.lower (by decide) (.lower (by decide) (.sep (by decide) (.digit (by decide) (.digit (by decide) (.sep (by decide)
      (.symbol (by decide) .nil)))))))
  obtain ⟨rfl, rfl, rfl⟩ := fits_parts h h'
  exact absurd (hn rfl).1 (by decide)

/-- Each of its texts has probability 1 in 26 * 26 * 26 * 10 * 10 * 30. -/
example (out : Str) (h : Allowed false (lit "Xxx-nn/s") out) :
    ((⟨0, 0, 0, true, false, some (lit "Xxx-nn/s")⟩ : GenerateCmd).prog 1).prob out = 1 / 52728000 := by
  rw [C107_form_probability _ (lit "Xxx-nn/s") rfl (by decide) rfl 1 (by omega) out h,
    show (lit "Xxx-nn/s").count 120 + (lit "Xxx-nn/s").count 88 = 3 by decide, show (lit "Xxx-nn/s").count 110 = 2 by decide,
    show (lit "Xxx-nn/s").count 115 = 1 by decide]
  norm_num

/-- With `a` in the form the printed text may repeat characters of the password. -/
example : ∃ stream, GenerateCmd.run ⟨0, 0, 0, false, true, some (lit "Xa-a")⟩ 1 stream = .ok (lit "Ff-x") :=
  (C106_form_exact _ (lit "Xa-a") rfl 1 (by omega) _).2 ⟨lit "fxq", by refine ⟨?_, ?_, ?_, ?_, ?_⟩ <;> decide, by decide⟩

end Verif.FormGen
