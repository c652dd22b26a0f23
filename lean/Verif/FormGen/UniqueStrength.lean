import Verif.FormGen.FormStrength
/-
C135 with `--unique`: what it takes to guess a text that was generated from a form without repeated characters.
-/
namespace Verif.FormGen
open Verif.Password Finset

/-! ### Specification -/

/-- The ways to choose the places of `d` digits and `s` symbols among `n`. -/
def places (n d s : Nat) : Nat := n.choose d * (n - d).choose s

/-! ### Counting -/

/-- What a word is made of. -/
def Made (L D S : Str) (v : Str) : Prop := (∀ c ∈ v, Any c) ∧ lettersIn v = L ∧ digitsIn v = D ∧ symbolsIn v = S

theorem class_of (c : UInt8) (h : Any c) :
    ((IsLower c ∨ IsUpper c) ∧ ¬ IsDigit c ∧ ¬ IsSym c) ∨ (¬ (IsLower c ∨ IsUpper c) ∧ IsDigit c ∧ ¬ IsSym c) ∨
    (¬ (IsLower c ∨ IsUpper c) ∧ ¬ IsDigit c ∧ IsSym c) :=
  byte_forall (fun c => (IsLower c ∨ IsUpper c ∨ IsDigit c ∨ IsSym c) → ((IsLower c ∨ IsUpper c) ∧ ¬ IsDigit c ∧ ¬ IsSym c) ∨ (¬ (IsLower c ∨ IsUpper c) ∧ IsDigit c ∧ ¬ IsSym c) ∨
    (¬ (IsLower c ∨ IsUpper c) ∧ ¬ IsDigit c ∧ IsSym c)) (by decide +kernel) c h

theorem made_cons (L D S : Str) (x : UInt8) (v : Str) : Made L D S (x :: v) ↔
    ((IsLower x ∨ IsUpper x) ∧ ∃ L', L = x :: L' ∧ Made L' D S v) ∨ (IsDigit x ∧ ∃ D', D = x :: D' ∧ Made L D' S v) ∨
    (IsSym x ∧ ∃ S', S = x :: S' ∧ Made L D S' v) := by
  have any1 : (IsLower x ∨ IsUpper x) → Any x := fun h => by unfold Any; tauto
  have any2 : IsDigit x → Any x := fun h => by unfold Any; tauto
  have any3 : IsSym x → Any x := fun h => by unfold Any; tauto
  have key : Any x → (Made L D S (x :: v) ↔
    ((IsLower x ∨ IsUpper x) ∧ ∃ L', L = x :: L' ∧ Made L' D S v) ∨ (IsDigit x ∧ ∃ D', D = x :: D' ∧ Made L D' S v) ∨
    (IsSym x ∧ ∃ S', S = x :: S' ∧ Made L D S' v)) := by
    intro hx
    unfold Made lettersIn digitsIn symbolsIn
    simp only [List.forall_mem_cons, hx, true_and, List.filter_cons]
    rcases class_of x hx with ⟨c1, c2, c3⟩ | ⟨c1, c2, c3⟩ | ⟨c1, c2, c3⟩
    · simp only [c1, c2, c3, decide_true, decide_false, if_true, if_false, true_and, false_and, or_false, Bool.false_eq_true]
      constructor
      · rintro ⟨h0, h1, h2, h3⟩; exact ⟨_, h1.symm, h0, rfl, h2, h3⟩
      · rintro ⟨L', rfl, h0, h1, h2, h3⟩; exact ⟨h0, by rw [h1], h2, h3⟩
    · simp only [c1, c2, c3, decide_true, decide_false, if_true, if_false, true_and, false_and, or_false, false_or, Bool.false_eq_true]
      constructor
      · rintro ⟨h0, h1, h2, h3⟩; exact ⟨_, h2.symm, h0, h1, rfl, h3⟩
      · rintro ⟨L', rfl, h0, h1, h2, h3⟩; exact ⟨h0, h1, by rw [h2], h3⟩
    · simp only [c1, c2, c3, decide_true, decide_false, if_true, if_false, true_and, false_and, false_or, Bool.false_eq_true]
      constructor
      · rintro ⟨h0, h1, h2, h3⟩; exact ⟨_, h3.symm, h0, h1, h2, rfl⟩
      · rintro ⟨L', rfl, h0, h1, h2, h3⟩; exact ⟨h0, h1, h2, by rw [h3]⟩
  constructor
  · intro h
    exact (key (h.1 x List.mem_cons_self)).1 h
  · intro h
    rcases h with h | h | h
    · exact (key (any1 h.1)).2 (Or.inl h)
    · exact (key (any2 h.1)).2 (Or.inr (Or.inl h))
    · exact (key (any3 h.1)).2 (Or.inr (Or.inr h))

theorem consInj (x : UInt8) : Function.Injective (fun v : Str => x :: v) := fun _ _ h => by injection h

/-- The words made of given letters, digits and symbols in given orders. -/
theorem made_card : ∀ (n : Nat) (L D S : Str), L.length + D.length + S.length = n → (∀ c ∈ L, IsLower c ∨ IsUpper c) → (∀ c ∈ D, IsDigit c) →
    (∀ c ∈ S, IsSym c) → ∃ T : Finset Str, (∀ v, v ∈ T ↔ Made L D S v) ∧ T.card = arr L.length D.length S.length
  | 0, L, D, S, h, _, _, _ => by
    obtain ⟨h1, h2, h3⟩ : L.length = 0 ∧ D.length = 0 ∧ S.length = 0 := by omega
    rw [List.length_eq_zero_iff] at h1 h2 h3
    subst h1; subst h2; subst h3
    refine ⟨{[]}, fun v => ?_, by simp [arr_zero]⟩
    rw [Finset.mem_singleton]
    constructor
    · rintro rfl; exact ⟨by simp, rfl, rfl, rfl⟩
    · intro hm
      cases v with
      | nil => rfl
      | cons x v =>
        rw [made_cons] at hm
        rcases hm with ⟨-, _, h, -⟩ | ⟨-, _, h, -⟩ | ⟨-, _, h, -⟩ <;> cases h
  | n + 1, L, D, S, h, hL, hD, hS => by
    have t1 : ∃ T : Finset Str, (∀ v, v ∈ T ↔ ∃ x v', v = x :: v' ∧ (IsLower x ∨ IsUpper x) ∧ ∃ L', L = x :: L' ∧ Made L' D S v') ∧
        T.card = if L.length = 0 then 0 else arr (L.length - 1) D.length S.length := by
      cases L with
      | nil => exact ⟨∅, by simp, by simp⟩
      | cons x L' =>
        obtain ⟨T, hT, hc⟩ := made_card n L' D S (by simp at h; omega) (fun c hc => hL c (List.mem_cons_of_mem _ hc)) hD hS
        refine ⟨T.map ⟨_, consInj x⟩, fun v => ?_, by simp [hc]⟩
        rw [Finset.mem_map]
        constructor
        · rintro ⟨v', hv, rfl⟩; exact ⟨x, v', rfl, hL x List.mem_cons_self, L', rfl, (hT v').1 hv⟩
        · rintro ⟨y, v', rfl, -, L'', e, hm⟩
          injection e with e1 e2
          subst e1; subst e2
          exact ⟨v', (hT v').2 hm, rfl⟩
    have t2 : ∃ T : Finset Str, (∀ v, v ∈ T ↔ ∃ x v', v = x :: v' ∧ IsDigit x ∧ ∃ D', D = x :: D' ∧ Made L D' S v') ∧
        T.card = if D.length = 0 then 0 else arr L.length (D.length - 1) S.length := by
      cases D with
      | nil => exact ⟨∅, by simp, by simp⟩
      | cons x D' =>
        obtain ⟨T, hT, hc⟩ := made_card n L D' S (by simp at h; omega) hL (fun c hc => hD c (List.mem_cons_of_mem _ hc)) hS
        refine ⟨T.map ⟨_, consInj x⟩, fun v => ?_, by simp [hc]⟩
        rw [Finset.mem_map]
        constructor
        · rintro ⟨v', hv, rfl⟩; exact ⟨x, v', rfl, hD x List.mem_cons_self, D', rfl, (hT v').1 hv⟩
        · rintro ⟨y, v', rfl, -, L'', e, hm⟩
          injection e with e1 e2
          subst e1; subst e2
          exact ⟨v', (hT v').2 hm, rfl⟩
    have t3 : ∃ T : Finset Str, (∀ v, v ∈ T ↔ ∃ x v', v = x :: v' ∧ IsSym x ∧ ∃ S', S = x :: S' ∧ Made L D S' v') ∧
        T.card = if S.length = 0 then 0 else arr L.length D.length (S.length - 1) := by
      cases S with
      | nil => exact ⟨∅, by simp, by simp⟩
      | cons x S' =>
        obtain ⟨T, hT, hc⟩ := made_card n L D S' (by simp at h; omega) hL hD (fun c hc => hS c (List.mem_cons_of_mem _ hc))
        refine ⟨T.map ⟨_, consInj x⟩, fun v => ?_, by simp [hc]⟩
        rw [Finset.mem_map]
        constructor
        · rintro ⟨v', hv, rfl⟩; exact ⟨x, v', rfl, hS x List.mem_cons_self, S', rfl, (hT v').1 hv⟩
        · rintro ⟨y, v', rfl, -, L'', e, hm⟩
          injection e with e1 e2
          subst e1; subst e2
          exact ⟨v', (hT v').2 hm, rfl⟩
    obtain ⟨T1, m1, c1⟩ := t1
    obtain ⟨T2, m2, c2⟩ := t2
    obtain ⟨T3, m3, c3⟩ := t3
    have any1 : ∀ x, (IsLower x ∨ IsUpper x) → Any x := fun x h => by unfold Any; tauto
    have any2 : ∀ x, IsDigit x → Any x := fun x h => by unfold Any; tauto
    have d12 : Disjoint T1 T2 := by
      rw [Finset.disjoint_left]
      intro v h1 h2
      obtain ⟨x, v1, rfl, hx, -⟩ := (m1 _).1 h1
      obtain ⟨y, v2, e, hy, -⟩ := (m2 _).1 h2
      injection e with e1 e2
      subst e1
      rcases class_of x (any1 x hx) with h | h | h <;> tauto
    have d3 : Disjoint (T1 ∪ T2) T3 := by
      rw [Finset.disjoint_left]
      intro v h1 h2
      obtain ⟨y, v2, rfl, hy, -⟩ := (m3 _).1 h2
      rcases Finset.mem_union.1 h1 with h1 | h1
      · obtain ⟨x, v1, e, hx, -⟩ := (m1 _).1 h1
        injection e with e1 e2
        subst e1
        rcases class_of y (any1 y hx) with h | h | h <;> tauto
      · obtain ⟨x, v1, e, hx, -⟩ := (m2 _).1 h1
        injection e with e1 e2
        subst e1
        rcases class_of y (any2 y hx) with h | h | h <;> tauto
    refine ⟨T1 ∪ T2 ∪ T3, fun v => ?_, ?_⟩
    · rw [Finset.mem_union, Finset.mem_union, m1, m2, m3]
      constructor
      · rintro ((⟨x, v', rfl, h1, h2⟩ | ⟨x, v', rfl, h1, h2⟩) | ⟨x, v', rfl, h1, h2⟩)
        · exact (made_cons ..).2 (Or.inl ⟨h1, h2⟩)
        · exact (made_cons ..).2 (Or.inr (Or.inl ⟨h1, h2⟩))
        · exact (made_cons ..).2 (Or.inr (Or.inr ⟨h1, h2⟩))
      · intro hm
        cases v with
        | nil =>
          obtain ⟨-, h1, h2, h3⟩ := hm
          subst h1; subst h2; subst h3
          simp [lettersIn, digitsIn, symbolsIn] at h
        | cons x v =>
          rcases (made_cons ..).1 hm with ⟨h1, h2⟩ | ⟨h1, h2⟩ | ⟨h1, h2⟩
          · exact Or.inl (Or.inl ⟨x, v, rfl, h1, h2⟩)
          · exact Or.inl (Or.inr ⟨x, v, rfl, h1, h2⟩)
          · exact Or.inr ⟨x, v, rfl, h1, h2⟩
    · rw [Finset.card_union_of_disjoint d3, Finset.card_union_of_disjoint d12, c1, c2, c3, ← arr_succ _ _ _ (by omega)]

/-- The words whose letters, digits and symbols are taken from sets. -/
theorem mades_card (A B C : Finset Str) (a b c : Nat) (hA : ∀ x ∈ A, x.length = a ∧ ∀ c ∈ x, IsLower c ∨ IsUpper c)
    (hB : ∀ x ∈ B, x.length = b ∧ ∀ c ∈ x, IsDigit c) (hC : ∀ x ∈ C, x.length = c ∧ ∀ c ∈ x, IsSym c) :
    ∃ T : Finset Str, (∀ v, v ∈ T ↔ (∀ c ∈ v, Any c) ∧ lettersIn v ∈ A ∧ digitsIn v ∈ B ∧ symbolsIn v ∈ C) ∧
      T.card = arr a b c * (A.card * B.card * C.card) := by
  have one : ∀ t : Str × Str × Str, ∃ T : Finset Str, t ∈ A ×ˢ B ×ˢ C → (∀ v, v ∈ T ↔ Made t.1 t.2.1 t.2.2 v) ∧ T.card = arr a b c := by
    intro t
    by_cases ht : t ∈ A ×ˢ B ×ˢ C
    · have ht' := ht
      rw [Finset.mem_product, Finset.mem_product] at ht'
      obtain ⟨h1, h2, h3⟩ := ht'
      obtain ⟨T, hT, hc⟩ := made_card _ t.1 t.2.1 t.2.2 rfl (hA _ h1).2 (hB _ h2).2 (hC _ h3).2
      rw [(hA _ h1).1, (hB _ h2).1, (hC _ h3).1] at hc
      exact ⟨T, fun _ => ⟨hT, hc⟩⟩
    · exact ⟨∅, fun h => absurd h ht⟩
  choose T hT using one
  refine ⟨(A ×ˢ B ×ˢ C).biUnion T, fun v => ?_, ?_⟩
  · rw [Finset.mem_biUnion]
    constructor
    · rintro ⟨t, ht, hv⟩
      obtain ⟨h0, h1, h2, h3⟩ := ((hT t ht).1 v).1 hv
      rw [Finset.mem_product, Finset.mem_product] at ht
      rw [h1, h2, h3]
      exact ⟨h0, ht⟩
    · rintro ⟨h0, h1, h2, h3⟩
      have ht : (lettersIn v, digitsIn v, symbolsIn v) ∈ A ×ˢ B ×ˢ C := by
        rw [Finset.mem_product, Finset.mem_product]; exact ⟨h1, h2, h3⟩
      exact ⟨_, ht, ((hT _ ht).1 v).2 ⟨h0, rfl, rfl, rfl⟩⟩
  · rw [Finset.card_biUnion, Finset.sum_congr rfl fun t ht => (hT t ht).2, Finset.sum_const, Finset.card_product, Finset.card_product, nsmul_eq_mul, Nat.cast_id]
    · ring
    · intro t ht t' ht' hne
      rw [Finset.mem_coe] at ht ht'
      change Disjoint (T t) (T t')
      rw [Finset.disjoint_left]
      intro v hv hv'
      obtain ⟨-, h1, h2, h3⟩ := ((hT t ht).1 v).1 hv
      obtain ⟨-, h1', h2', h3'⟩ := ((hT t' ht').1 v).1 hv'
      exact hne (Prod.ext (h1.symm.trans h1') (Prod.ext (h2.symm.trans h2') (h3.symm.trans h3')))

/-- The words of a length over a set of characters, none twice. -/
theorem nodups_card (X : Finset UInt8) (m : Nat) : ∃ T : Finset Str, (∀ w, w ∈ T ↔ w.length = m ∧ w.Nodup ∧ ∀ c ∈ w, c ∈ X) ∧
    T.card = X.card.descFactorial m := by
  obtain ⟨T, hT, hc⟩ := count_words false m X ∅ ∅ m 0 0 rfl (Finset.disjoint_empty_right _) (Finset.disjoint_empty_right _) (Finset.disjoint_empty_right _)
  refine ⟨T, fun w => ?_, ?_⟩
  · rw [hT]
    constructor
    · rintro ⟨h1, h2, -, -, h5⟩
      refine ⟨h1, h5 rfl, fun c hc => ?_⟩
      have h1' : w.length = m := h1
      rw [← h1', List.countP_eq_length] at h2
      simpa using h2 c hc
    · rintro ⟨h1, h2, h3⟩
      refine ⟨h1, ?_, by simp, by simp, fun _ => h2⟩
      rw [← h1, List.countP_eq_length]
      simpa using h3
  · rw [hc]; simp [arr, ways]

/-- The words that go on from `L` with characters of a pool, none twice and none that `W` has. -/
theorem ext_card (P : Str) (hP : P.Nodup) (W L : Str) (hn : (W ++ L).Nodup) (hsub : ∀ c ∈ W ++ L, c ∈ P) (m : Nat) :
    ∃ A : Finset Str, (∀ x, x ∈ A ↔ x.length = L.length + m ∧ x.take L.length = L ∧ (W ++ x).Nodup ∧ ∀ c ∈ x, c ∈ P) ∧
      A.card = (P.length - (W.length + L.length)).descFactorial m := by
  obtain ⟨T, hT, hc⟩ := nodups_card (P.toFinset \ (W ++ L).toFinset) m
  refine ⟨T.map ⟨fun h => L ++ h, fun _ _ e => List.append_cancel_left e⟩, fun x => ?_, ?_⟩
  · rw [Finset.mem_map]
    constructor
    · rintro ⟨h, hh, rfl⟩
      obtain ⟨h1, h2, h3⟩ := (hT h).1 hh
      change (L ++ h).length = _ ∧ (L ++ h).take _ = _ ∧ (W ++ (L ++ h)).Nodup ∧ _
      refine ⟨by rw [List.length_append, h1], List.take_left, ?_, fun c hc => ?_⟩
      · rw [← List.append_assoc, List.nodup_append']
        refine ⟨hn, h2, fun c hc1 hc2 => ?_⟩
        have := h3 c hc2
        rw [Finset.mem_sdiff, List.mem_toFinset, List.mem_toFinset] at this
        exact this.2 hc1
      · change c ∈ L ++ h at hc
        rcases List.mem_append.1 hc with hc | hc
        · exact hsub c (List.mem_append_right _ hc)
        · have := h3 c hc
          rw [Finset.mem_sdiff, List.mem_toFinset] at this
          exact this.1
    · rintro ⟨h1, h2, h3, h4⟩
      have e : L ++ x.drop L.length = x := by
        conv_lhs => rw [← h2]
        rw [List.length_take, Nat.min_eq_left (by omega), List.take_append_drop]
      refine ⟨x.drop L.length, (hT _).2 ⟨by rw [List.length_drop]; omega, ?_, fun c hc => ?_⟩, e⟩
      · exact (List.nodup_append'.1 h3).2.1.sublist (List.drop_sublist _ _)
      · rw [← e, ← List.append_assoc, List.nodup_append'] at h3
        rw [Finset.mem_sdiff, List.mem_toFinset, List.mem_toFinset]
        exact ⟨h4 c (List.mem_of_mem_drop hc), fun hc' => h3.2.2 hc' hc⟩
  · rw [Finset.card_map, hc, Finset.card_sdiff_of_subset (fun c hc => List.mem_toFinset.2 (hsub c (List.mem_toFinset.1 hc))),
      List.toFinset_card_of_nodup hP, List.toFinset_card_of_nodup hn, List.length_append]

/-- No character twice: no letter, no digit and no symbol twice. -/
theorem nodup_classes : ∀ x : Str, (∀ c ∈ x, Any c) → (x.Nodup ↔ (lettersIn x).Nodup ∧ (digitsIn x).Nodup ∧ (symbolsIn x).Nodup)
  | [], _ => by simp [lettersIn, digitsIn, symbolsIn]
  | c :: x, h => by
    have ih := nodup_classes x fun d hd => h d (List.mem_cons_of_mem _ hd)
    have hc := h c List.mem_cons_self
    unfold lettersIn digitsIn symbolsIn at *
    rw [List.nodup_cons, ih]
    simp only [List.filter_cons]
    rcases class_of c hc with ⟨c1, c2, c3⟩ | ⟨c1, c2, c3⟩ | ⟨c1, c2, c3⟩ <;>
      simp only [c1, c2, c3, decide_true, decide_false, if_true, if_false, List.nodup_cons, List.mem_filter, and_true, Bool.false_eq_true] <;> tauto

/-! ### The texts of a form -/

/-- The probability of a text, as a number of passwords, for all flags. -/
theorem prob_count (a : GenerateCmd) (f : Str) (hf : a.form = some f) (fuel : Nat) (hfuel : 0 < fuel) (hp : ∃ pw, Asked a f pw) :
    ∃ All : Finset Str, (∀ pw, pw ∈ All ↔ Asked a f pw) ∧
      All.card = passwords (!a.unique) (if a.mixed then 52 else 26) 10 30 (f.count 120 + f.count 88 + f.count 110 + f.count 115 + f.count 97)
        (f.count 110 + f.count 97 / 3) (f.count 115) ∧
      (∀ out, (a.prog fuel).prob out = (a.prog fuel).probDone * (All.filter fun pw => filled f pw = out).card / All.card) ∧
      (a.prog fuel).probDone = (generate fuel (f.count 120 + f.count 88 + f.count 110 + f.count 115 + f.count 97 : Nat) (f.count 110 + f.count 97 / 3 : Nat)
        (f.count 115 : Nat) (!a.mixed) (!a.unique)).probDone := by
  obtain ⟨e1, e2, e3, e4⟩ := default_fields
  have el : (defaultGenerator.letters (!a.mixed)).length = if a.mixed then 52 else 26 := by
    unfold Generator.letters
    rw [e1, e2]
    cases a.mixed <;> decide
  have ed : defaultGenerator.digits.length = 10 := by rw [e3]; decide
  have es : defaultGenerator.symbols.length = 30 := by rw [e4]; decide
  obtain ⟨All, hA, hcard⟩ := C134_number defaultGenerator default_separate default_distinct
    (f.count 120 + f.count 88 + f.count 110 + f.count 115 + f.count 97) (f.count 110 + f.count 97 / 3) (f.count 115) (by omega) (!a.mixed) (!a.unique)
  rw [el, ed, es] at hcard
  obtain ⟨pw₀, hpw₀⟩ := hp
  set G := generate fuel (f.count 120 + f.count 88 + f.count 110 + f.count 115 + f.count 97 : Nat) (f.count 110 + f.count 97 / 3 : Nat) (f.count 115 : Nat)
    (!a.mixed) (!a.unique) with hG
  have hcan : ∀ pw, G.Can pw → pw ∈ All := fun pw hc =>
    (hA pw).2 (can_conforms default_ascii default_separate (by omega) (by omega) hc)
  have hpr : ∀ pw, G.prob pw = if pw ∈ All then G.probDone / (All.card : ℚ) else 0 := by
    intro pw
    split
    · rename_i h
      have := C134_probability defaultGenerator default_ascii default_separate default_distinct fuel hfuel _ _ _ _ _ pw ((hA pw).1 h)
      rw [el, ed, es, ← hcard] at this
      exact this
    · rename_i h
      exact prob_zero _ _ fun hc => h (hcan pw hc)
  have hbind : ∀ φ : Str → ℚ, (a.prog fuel).expect φ = ∑ pw ∈ All, G.probDone / (All.card : ℚ) * φ (filled f pw) := by
    intro φ
    have hp : (a.prog fuel).expect φ = G.expect fun pw => match fillForm f (split pw).1 (split pw).2.1 (split pw).2.2 pw with
        | some o => φ o
        | none => 0 := by
      unfold GenerateCmd.prog
      simp only [hf, formRequest_eq]
      rw [expect_bind]
      change G.expect _ = _
      congr 1
      funext pw
      cases h : fillForm f (split pw).1 (split pw).2.1 (split pw).2.2 pw with
      | none => simp [Prog.expect]
      | some o => simp [Prog.expect]
    rw [hp, expect_support G _ (support G ∪ All) Finset.subset_union_left,
      ← Finset.sum_subset (Finset.subset_union_right (s₁ := support G) (s₂ := All)) fun pw _ hno => by rw [hpr, if_neg hno, zero_mul]]
    refine Finset.sum_congr rfl fun pw hpw => ?_
    rw [hpr, if_pos hpw, fill_filled f ((hA pw).1 hpw)]
  have hpos : (All.card : ℚ) ≠ 0 := by
    have : 0 < All.card := Finset.card_pos.2 ⟨pw₀, (hA pw₀).2 hpw₀⟩
    exact Nat.cast_ne_zero.2 this.ne'
  have hdone : (a.prog fuel).probDone = G.probDone := by
    have h1 := hbind fun _ => 1
    rw [Finset.sum_const, nsmul_eq_mul, mul_one, mul_div_cancel₀ _ hpos] at h1
    exact h1
  refine ⟨All, hA, hcard, fun out => ?_, hdone⟩
  unfold Prog.prob
  rw [hbind, hdone, Finset.natCast_card_filter, Finset.mul_sum, Finset.sum_div]
  refine Finset.sum_congr rfl fun pw hpw => ?_
  by_cases h : filled f pw = out <;> simp [h]

theorem arr_places (a b c : Nat) : arr a b c = places (a + b + c) b c := by
  unfold arr places
  rw [show a + b + c - b = a + c by omega]

theorem lower_of {c : UInt8} (h : IsLower c ∨ IsUpper c) (h' : ¬ IsUpper c) : IsLower c := h.resolve_right h'

theorem lowerOf_lower (c : UInt8) (h : IsLower c) : lowerOf c = c :=
  byte_forall (fun c => IsLower c → lowerOf c = c) (by decide +kernel) c h

theorem map_lower {L : Str} (h : ∀ c ∈ L, IsLower c) : L.map lowerOf = L := by
  conv_rhs => rw [← List.map_id L]
  exact List.map_congr_left fun c hc => lowerOf_lower c (h c hc)

/-- **C135** The probability of a text that may be printed for a form with `--unique` (without `--mixed`). With `w` the characters printed for the `a`: the
probability of getting a text at all, times the part of the ways to choose places that begin like `w`, times one in the ways to choose, without repeating
any, the letters, digits and symbols that are shown. -/
theorem C135_unique (a : GenerateCmd) (f : Str) (hf : a.form = some f) (hu : a.unique = true) (hm : a.mixed = false) (fuel : Nat) (hfuel : 0 < fuel)
    (out : Str) (hp : ∃ stream, a.run fuel stream = .ok out) (vs : List (UInt8 × UInt8)) (hs : Slots f out vs) :
    let w := printedForA vs
    let letters := f.count 120 + f.count 88
    let digits := f.count 110
    let symbols := f.count 115
    let alphas := f.count 97
    (a.prog fuel).prob out = (a.prog fuel).probDone *
      (places (letters + digits + symbols) (digits + alphas / 3 - (digitsIn w).length) (symbols - (symbolsIn w).length) /
        places (letters + digits + symbols + alphas) (digits + alphas / 3) symbols) *
      (1 / (Nat.descFactorial 26 (max letters (lettersIn w).length) * Nat.descFactorial 10 (max digits (digitsIn w).length) *
        Nat.descFactorial 30 symbols : Nat)) := by
  intro w p q s k
  obtain ⟨pw₀, hA₀, rfl⟩ := (run_iff a f hf fuel hfuel out).1 hp
  obtain ⟨All, hAll, hcard, hprob, -⟩ := prob_count a f hf fuel hfuel ⟨pw₀, hA₀⟩
  have hw : w = pw₀.take k := forA_eq hA₀ hs
  have shape : ∀ {pw : Str}, Asked a f pw ↔ (∀ c ∈ pw, Any c) ∧ (lettersIn pw).length = p + (k - k / 3) ∧ (digitsIn pw).length = q + k / 3 ∧
      (symbolsIn pw).length = s ∧ (∀ c ∈ pw, ¬ IsUpper c) ∧ pw.Nodup := by
    intro pw
    unfold Asked
    rw [conforms_iff, hu, hm]
    constructor
    · rintro ⟨h1, h2, h3, h4, h5, h6⟩
      obtain ⟨c1, c2, c3, c4⟩ := class_lengths pw h1
      exact ⟨h1, by omega, by omega, by omega, h5 rfl, h6 rfl⟩
    · rintro ⟨h1, h2, h3, h4, h5, h6⟩
      obtain ⟨c1, c2, c3, c4⟩ := class_lengths pw h1
      exact ⟨h1, by omega, by omega, by omega, fun _ => h5, fun _ => h6⟩
  obtain ⟨g1, g2, g3, g4, g5, g6⟩ := shape.1 hA₀
  have hl4 : k ≤ pw₀.length := (conforms_lengths f hA₀).2.2.2
  obtain ⟨u₀, hu₀⟩ : ∃ u, u = pw₀.drop k := ⟨_, rfl⟩
  have hsplit : pw₀ = w ++ u₀ := by rw [hw, hu₀, List.take_append_drop]
  obtain ⟨i1, i2, i3⟩ := in_app w u₀
  rw [← hsplit] at i1 i2 i3
  have j1 := congrArg List.length i1
  have j2 := congrArg List.length i2
  have j3 := congrArg List.length i3
  rw [List.length_append] at j1 j2 j3
  have hwk : w.length = k := by rw [hw, List.length_take]; omega
  have hwany : ∀ c ∈ w, Any c := fun c hc => g1 c (by rw [hsplit]; exact List.mem_append_left _ hc)
  have huany : ∀ c ∈ u₀, Any c := fun c hc => g1 c (by rw [hsplit]; exact List.mem_append_right _ hc)
  have hwlen : (lettersIn w).length + (digitsIn w).length + (symbolsIn w).length = k := by rw [(class_lengths w hwany).2.2.2, hwk]
  obtain ⟨n1, n2, n3⟩ := (nodup_classes pw₀ g1).1 g6
  rw [i1] at n1; rw [i2] at n2; rw [i3] at n3
  have low : ∀ c ∈ lettersIn pw₀, IsLower c := fun c hc => lower_of (of_lettersIn c hc) (g5 c (List.mem_of_mem_filter hc))
  rw [i1] at low
  have dig : ∀ c ∈ digitsIn pw₀, IsDigit c := of_digitsIn
  have sym : ∀ c ∈ symbolsIn pw₀, IsSym c := of_symbolsIn
  rw [i2] at dig; rw [i3] at sym
  obtain ⟨⟨pn1, pc1, pm1⟩, ⟨pn2, pc2, pm2⟩, pn3, pc3, pm3⟩ := pools
  -- the letters, digits and symbols that are shown behind `w`
  obtain ⟨L, hL⟩ : ∃ L, L = (lettersIn u₀).take (p - (lettersIn w).length) := ⟨_, rfl⟩
  obtain ⟨D, hD⟩ : ∃ D, D = (digitsIn u₀).take (q - (digitsIn w).length) := ⟨_, rfl⟩
  obtain ⟨S, hS⟩ : ∃ S, S = symbolsIn u₀ := ⟨_, rfl⟩
  have lL : L.length = p - (lettersIn w).length := by rw [hL, List.length_take]; omega
  have lD : D.length = q - (digitsIn w).length := by rw [hD, List.length_take]; omega
  have lS : S.length = s - (symbolsIn w).length := by rw [hS]; omega
  have sub : ∀ {W x y : Str}, x <+: y → (W ++ y).Nodup → (W ++ x).Nodup := fun h hn => hn.sublist ((h.sublist).append_left _)
  have pL : L <+: lettersIn u₀ := hL ▸ List.take_prefix _ _
  have pD : D <+: digitsIn u₀ := hD ▸ List.take_prefix _ _
  have memL : ∀ c ∈ lettersIn w ++ L, c ∈ allLower := fun c hc => (pools_all c).1 (low c (((pL.sublist).append_left _).subset hc))
  have memD : ∀ c ∈ digitsIn w ++ D, c ∈ allDigits := fun c hc => (pools_all c).2.1 (dig c (((pD.sublist).append_left _).subset hc))
  have memS : ∀ c ∈ symbolsIn w ++ S, c ∈ allSyms := fun c hc => (pools_all c).2.2 (sym c (hS ▸ hc))
  obtain ⟨A, mA, cA⟩ := ext_card allLower pn1 (lettersIn w) L (sub pL n1) memL (p + (k - k / 3) - max p (lettersIn w).length)
  obtain ⟨B, mB, cB⟩ := ext_card allDigits pn2 (digitsIn w) D (sub pD n2) memD (q + k / 3 - max q (digitsIn w).length)
  obtain ⟨C, mC, cC⟩ := ext_card allSyms pn3 (symbolsIn w) S (hS ▸ n3) memS 0
  obtain ⟨V, hV, hVc⟩ := mades_card A B C (p + (k - k / 3) - (lettersIn w).length) (q + k / 3 - (digitsIn w).length) (s - (symbolsIn w).length)
    (fun x hx => by
      obtain ⟨h1, -, -, h4⟩ := (mA x).1 hx
      exact ⟨by omega, fun c hc => Or.inl (pm1 c (h4 c hc))⟩)
    (fun x hx => by
      obtain ⟨h1, -, -, h4⟩ := (mB x).1 hx
      exact ⟨by omega, fun c hc => pm2 c (h4 c hc)⟩)
    (fun x hx => by
      obtain ⟨h1, -, -, h4⟩ := (mC x).1 hx
      exact ⟨by omega, fun c hc => pm3 c (h4 c hc)⟩)
  have key : ∀ v : Str, w ++ v ∈ All.filter (fun pw => filled f pw = filled f pw₀) ↔ v ∈ V := by
    intro v
    obtain ⟨o1, o2, o3⟩ := in_app w v
    have q1 := congrArg List.length o1
    have q2 := congrArg List.length o2
    have q3 := congrArg List.length o3
    rw [List.length_append] at q1 q2 q3
    rw [Finset.mem_filter, hAll, hV, mA, mB, mC]
    have t1 : (w ++ v).take k = pw₀.take k := by
      rw [← hw]
      exact List.take_left' hwk
    constructor
    · rintro ⟨hask, hfill⟩
      obtain ⟨x1, x2, x3, x4, x5, x6⟩ := shape.1 hask
      obtain ⟨y1, y2, y3⟩ := (nodup_classes _ x1).1 x6
      rw [o1] at y1; rw [o2] at y2; rw [o3] at y3
      have vlow : ∀ c ∈ lettersIn v, IsLower c := fun c hc =>
        lower_of (of_lettersIn c hc) (x5 c (List.mem_append_right _ (List.mem_of_mem_filter hc)))
      have hsh := ((filled_eq_iff hask hA₀).1 hfill).1
      unfold shown at hsh
      rw [o1, o2, o3, i1, i2, i3] at hsh
      simp only [List.map_append, List.take_append, List.length_map, Prod.mk.injEq, List.append_cancel_left_eq] at hsh
      obtain ⟨z1, z2, z3⟩ := hsh
      rw [map_lower vlow, map_lower (fun c hc => low c (List.mem_append_right _ hc))] at z1
      refine ⟨fun c hc => x1 c (List.mem_append_right _ hc), ⟨by omega, ?_, y1, fun c hc => (pools_all c).1 (vlow c hc)⟩,
        ⟨by omega, ?_, y2, fun c hc => (pools_all c).2.1 (of_digitsIn c hc)⟩, by omega, ?_, y3, fun c hc => (pools_all c).2.2 (of_symbolsIn c hc)⟩
      · rw [lL, hL]; exact z1
      · rw [lD, hD]; exact z2
      · rw [z3, ← hS, List.take_length]
    · rintro ⟨x0, ⟨x1, x2, x3, x4⟩, ⟨y1, y2, y3, y4⟩, z1, z2, z3, z4⟩
      have vlow : ∀ c ∈ lettersIn v, IsLower c := fun c hc => pm1 c (x4 c hc)
      have hany : ∀ c ∈ w ++ v, Any c := fun c hc => (List.mem_append.1 hc).elim (hwany c) (x0 c)
      have hask : Asked a f (w ++ v) := by
        refine shape.2 ⟨hany, by omega, by omega, by omega, fun c hc hup => ?_, (nodup_classes _ hany).2 ⟨by rw [o1]; exact x3, by rw [o2]; exact y3, by rw [o3]; exact z3⟩⟩
        rcases List.mem_append.1 hc with hc | hc
        · exact g5 c (by rw [hsplit]; exact List.mem_append_left _ hc) hup
        · have : c ∈ lettersIn v := List.mem_filter.2 ⟨hc, by simp [hup]⟩
          have h1 := vlow c this
          exact byte_forall (fun c => ¬ (IsLower c ∧ IsUpper c)) (by decide +kernel) c ⟨h1, hup⟩
      refine ⟨hask, (filled_eq_iff hask hA₀).2 ⟨?_, t1⟩⟩
      unfold shown
      rw [o1, o2, o3, i1, i2, i3]
      simp only [List.map_append, List.take_append, List.length_map, Prod.mk.injEq, List.append_cancel_left_eq]
      rw [map_lower vlow, map_lower (fun c hc => low c (List.mem_append_right _ hc))]
      rw [lL] at x2; rw [lD] at y2
      refine ⟨x2.trans hL, y2.trans hD, ?_⟩
      rw [← hS, ← z2, List.take_of_length_le (by omega)]
  have hbij : (All.filter fun pw => filled f pw = filled f pw₀).card = V.card := by
    refine Finset.card_bij' (fun pw _ => pw.drop k) (fun v _ => w ++ v) (fun pw hpw => ?_) (fun v hv => (key v).2 hv) (fun pw hpw => ?_) (fun v hv => ?_)
    all_goals try
      have hpre : w ++ pw.drop k = pw := by
        obtain ⟨h1, h2⟩ := Finset.mem_filter.1 hpw
        rw [hw, ← ((filled_eq_iff ((hAll _).1 h1) hA₀).1 h2).2, List.take_append_drop]
    · rw [← key, hpre]; exact hpw
    · exact hpre
    · exact List.drop_left' hwk
  rw [hprob, hbij, hVc, hcard, hu, hm, cA, cB, cC, pc1, pc2, pc3, lL, lD, lS, arr_places]
  have hle1 := pool_le (sub pL n1) memL
  have hle2 := pool_le (sub pD n2) memD
  have hll := pool_le (all := allLower) n1 fun c hc => (pools_all c).1 (low c hc)
  have hld := pool_le (all := allDigits) n2 fun c hc => (pools_all c).2.1 (dig c hc)
  have hls := pool_le (all := allSyms) n3 fun c hc => (pools_all c).2.2 (sym c hc)
  rw [List.length_append] at hle1 hle2 hll hld hls
  have a1 : (lettersIn w).length + (p - (lettersIn w).length) = max p (lettersIn w).length := by omega
  have a2 : (digitsIn w).length + (q - (digitsIn w).length) = max q (digitsIn w).length := by omega
  have d1 := Nat.descFactorial_mul_descFactorial (n := 26) (k := max p (lettersIn w).length) (m := p + (k - k / 3)) (by omega)
  have d2 := Nat.descFactorial_mul_descFactorial (n := 10) (k := max q (digitsIn w).length) (m := q + k / 3) (by omega)
  have e1 : p + (k - k / 3) - (lettersIn w).length + (q + k / 3 - (digitsIn w).length) + (s - (symbolsIn w).length) = p + q + s := by omega
  have e2 : f.count 120 + f.count 88 + f.count 110 + f.count 115 + f.count 97 = p + q + s + k := rfl
  have e3 : f.count 110 + f.count 97 / 3 = q + k / 3 := rfl
  have e4 : f.count 115 = s := rfl
  rw [a1, a2, e1, e2, e3, e4, Nat.descFactorial_zero]
  unfold passwords ways
  simp only [Bool.not_true, Bool.false_eq_true, if_false]
  rw [show p + q + s + k - (q + k / 3) - s = p + (k - k / 3) by omega, ← d1, ← d2, show (p + q + s + k).choose (q + k / 3) * (p + q + s + k - (q + k / 3)).choose s = places (p + q + s + k) (q + k / 3) s from rfl]
  have x1 : (Nat.descFactorial (26 - max p (lettersIn w).length) (p + (k - k / 3) - max p (lettersIn w).length) : ℚ) ≠ 0 := by
    rw [Nat.cast_ne_zero, ← Nat.pos_iff_ne_zero, Nat.descFactorial_pos]; omega
  have x2 : (Nat.descFactorial (10 - max q (digitsIn w).length) (q + k / 3 - max q (digitsIn w).length) : ℚ) ≠ 0 := by
    rw [Nat.cast_ne_zero, ← Nat.pos_iff_ne_zero, Nat.descFactorial_pos]; omega
  have x3 : (Nat.descFactorial 26 (max p (lettersIn w).length) : ℚ) ≠ 0 := by
    rw [Nat.cast_ne_zero, ← Nat.pos_iff_ne_zero, Nat.descFactorial_pos]; omega
  have x4 : (Nat.descFactorial 10 (max q (digitsIn w).length) : ℚ) ≠ 0 := by
    rw [Nat.cast_ne_zero, ← Nat.pos_iff_ne_zero, Nat.descFactorial_pos]; omega
  have x5 : (Nat.descFactorial 30 s : ℚ) ≠ 0 := by
    rw [Nat.cast_ne_zero, ← Nat.pos_iff_ne_zero, Nat.descFactorial_pos]; omega
  have x6 : (places (p + q + s + k) (q + k / 3) s : ℚ) ≠ 0 := by
    rw [Nat.cast_ne_zero, ← Nat.pos_iff_ne_zero]
    exact Nat.mul_pos (Nat.choose_pos (by omega)) (Nat.choose_pos (by omega))
  push_cast
  field_simp

/-- **C135** A text that cannot be printed has probability 0, whatever the flags. -/
theorem C135_others_all (a : GenerateCmd) (f : Str) (hf : a.form = some f) (fuel : Nat) (hfuel : 0 < fuel) (out : Str)
    (hp : ¬ ∃ stream, a.run fuel stream = .ok out) : (a.prog fuel).prob out = 0 := by
  apply prob_zero
  intro hc
  obtain ⟨r, hr⟩ := can_run _ hc
  exact hp ⟨r ++ [], by rw [C107_prog, hr []]; rfl⟩

theorem arr_mono1 (a b c : Nat) : arr a b c ≤ arr (a + 1) b c := by
  rw [arr_succ (a + 1) b c (by omega), if_neg (by omega), Nat.add_sub_cancel]; omega

theorem arr_mono2 (a b c : Nat) : arr a b c ≤ arr a (b + 1) c := by
  rw [arr_succ a (b + 1) c (by omega), if_neg (show b + 1 ≠ 0 by omega), Nat.add_sub_cancel]; omega

theorem arr_mono3 (a b c : Nat) : arr a b c ≤ arr a b (c + 1) := by
  rw [arr_succ a b (c + 1) (by omega), if_neg (show c + 1 ≠ 0 by omega), Nat.add_sub_cancel]; omega

theorem arr_mono {a a' b b' c c' : Nat} (h1 : a ≤ a') (h2 : b ≤ b') (h3 : c ≤ c') : arr a b c ≤ arr a' b' c' :=
  ((monotone_nat_of_le_succ (f := fun a => arr a b c) (fun a => arr_mono1 a b c) h1).trans
    (monotone_nat_of_le_succ (f := fun b => arr a' b c) (fun b => arr_mono2 a' b c) h2)).trans
    (monotone_nat_of_le_succ (f := fun c => arr a' b' c) (fun c => arr_mono3 a' b' c) h3)

theorem desc_mono {n k m : Nat} (h : k ≤ m) (hm : m ≤ n) : n.descFactorial k ≤ n.descFactorial m := by
  rw [← Nat.descFactorial_mul_descFactorial (n := n) h]
  exact Nat.le_mul_of_pos_left _ (Nat.descFactorial_pos.2 (by omega))

/-- **C135** With `--unique`, no text is more likely than by choosing every `x` and `X` among the letters, every `n` among the digits and every `s` among the
symbols that are left, and leaving out the `a`. -/
theorem C135_unique_bound (a : GenerateCmd) (f : Str) (hf : a.form = some f) (hu : a.unique = true) (hm : a.mixed = false) (fuel : Nat) (hfuel : 0 < fuel)
    (out : Str) : (a.prog fuel).prob out ≤
      1 / (Nat.descFactorial 26 (f.count 120 + f.count 88) * Nat.descFactorial 10 (f.count 110) * Nat.descFactorial 30 (f.count 115) : Nat) := by
  by_cases hp : ∃ stream, a.run fuel stream = .ok out
  · obtain ⟨pw, hA, e⟩ := (run_iff a f hf fuel hfuel out).1 hp
    obtain ⟨vs, hs⟩ : ∃ vs, Slots f out vs := ⟨_, by rw [e]; exact slots_filled hA⟩
    have hP := C135_unique a f hf hu hm fuel hfuel out hp vs hs
    subst e
    obtain ⟨b1, b2, b3, -⟩ := forA_lengths hA hs
    obtain ⟨l1, l2, l3, l4⟩ := conforms_lengths f hA
    obtain ⟨-, -, -, -, g5, g6⟩ := conforms_iff.1 hA
    have g1 := conforms_any hA
    rw [hu] at g6; rw [hm] at g5
    obtain ⟨n1, n2, n3⟩ := (nodup_classes pw g1).1 (g6 rfl)
    have k1 := pool_le (all := allLower) n1 fun c hc => (pools_all c).1 (lower_of (of_lettersIn c hc) (g5 rfl c (List.mem_of_mem_filter hc)))
    have k2 := pool_le (all := allDigits) n2 fun c hc => (pools_all c).2.1 (of_digitsIn c hc)
    have k3 := pool_le (all := allSyms) n3 fun c hc => (pools_all c).2.2 (of_symbolsIn c hc)
    obtain ⟨⟨-, pc1, -⟩, ⟨-, pc2, -⟩, -, pc3, -⟩ := pools
    rw [pc1] at k1; rw [pc2] at k2; rw [pc3] at k3
    have hw1 : (lettersIn (printedForA vs)).length ≤ (lettersIn pw).length := by
      rw [forA_eq hA hs]
      exact ((List.take_sublist _ _).filter _).length_le
    have hw2 : (digitsIn (printedForA vs)).length ≤ (digitsIn pw).length := by
      rw [forA_eq hA hs]
      exact ((List.take_sublist _ _).filter _).length_le
    rw [hP]
    set w := printedForA vs
    set p := f.count 120 + f.count 88
    set q := f.count 110
    set s := f.count 115
    set k := f.count 97
    have hpl : places (p + q + s) (q + k / 3 - (digitsIn w).length) (s - (symbolsIn w).length) ≤ places (p + q + s + k) (q + k / 3) s := by
      have := arr_mono (show p + (k - k / 3) - (lettersIn w).length ≤ p + (k - k / 3) by omega) (show q + k / 3 - (digitsIn w).length ≤ q + k / 3 by omega)
        (show s - (symbolsIn w).length ≤ s by omega)
      rw [arr_places, arr_places, show p + (k - k / 3) + (q + k / 3) + s = p + q + s + k by omega,
        show p + (k - k / 3) - (lettersIn w).length + (q + k / 3 - (digitsIn w).length) + (s - (symbolsIn w).length) = p + q + s by omega] at this
      exact this
    have hpp : 0 < places (p + q + s + k) (q + k / 3) s := Nat.mul_pos (Nat.choose_pos (by omega)) (Nat.choose_pos (by omega))
    have r1 : (places (p + q + s) (q + k / 3 - (digitsIn w).length) (s - (symbolsIn w).length) : ℚ) / places (p + q + s + k) (q + k / 3) s ≤ 1 :=
      (div_le_one (by exact_mod_cast hpp)).2 (by exact_mod_cast hpl)
    have hd := Nat.mul_le_mul (Nat.mul_le_mul (desc_mono (n := 26) (Nat.le_max_left p (lettersIn w).length) (by omega))
      (desc_mono (n := 10) (Nat.le_max_left q (digitsIn w).length) (by omega))) (Nat.le_refl (Nat.descFactorial 30 s))
    have hdp : 0 < Nat.descFactorial 26 p * Nat.descFactorial 10 q * Nat.descFactorial 30 s :=
      Nat.mul_pos (Nat.mul_pos (Nat.descFactorial_pos.2 (by omega)) (Nat.descFactorial_pos.2 (by omega))) (Nat.descFactorial_pos.2 (by omega))
    have r2 : (1 : ℚ) / (Nat.descFactorial 26 (max p (lettersIn w).length) * Nat.descFactorial 10 (max q (digitsIn w).length) * Nat.descFactorial 30 s : Nat) ≤
        1 / (Nat.descFactorial 26 p * Nat.descFactorial 10 q * Nat.descFactorial 30 s : Nat) :=
      one_div_le_one_div_of_le (by exact_mod_cast hdp) (by exact_mod_cast hd)
    have r0 : (a.prog fuel).probDone * (places (p + q + s) (q + k / 3 - (digitsIn w).length) (s - (symbolsIn w).length) / places (p + q + s + k) (q + k / 3) s : ℚ) ≤ 1 :=
      mul_le_one₀ (expect_one_le _) (div_nonneg (Nat.cast_nonneg _) (Nat.cast_nonneg _)) r1
    calc _ ≤ 1 * (1 / (Nat.descFactorial 26 (max p (lettersIn w).length) * Nat.descFactorial 10 (max q (digitsIn w).length) * Nat.descFactorial 30 s : Nat) : ℚ) :=
          mul_le_mul_of_nonneg_right r0 (div_nonneg zero_le_one (Nat.cast_nonneg _))
      _ ≤ _ := by rw [one_mul]; exact r2
  · rw [C135_others_all a f hf fuel hfuel out hp]
    exact div_nonneg zero_le_one (Nat.cast_nonneg _)

/-- **C135** With `--unique`, who tries any number of texts finds the printed one with at most that many times this probability. -/
theorem C135_unique_guessing (a : GenerateCmd) (f : Str) (hf : a.form = some f) (hu : a.unique = true) (hm : a.mixed = false) (fuel : Nat) (hfuel : 0 < fuel)
    (guesses : Finset Str) : ∑ out ∈ guesses, (a.prog fuel).prob out ≤
      guesses.card * (1 / (Nat.descFactorial 26 (f.count 120 + f.count 88) * Nat.descFactorial 10 (f.count 110) * Nat.descFactorial 30 (f.count 115) : Nat)) := by
  calc _ ≤ ∑ _o ∈ guesses, (1 / (Nat.descFactorial 26 (f.count 120 + f.count 88) * Nat.descFactorial 10 (f.count 110) * Nat.descFactorial 30 (f.count 115) : Nat) : ℚ) :=
        Finset.sum_le_sum fun out _ => C135_unique_bound a f hf hu hm fuel hfuel out
    _ = _ := by rw [Finset.sum_const, nsmul_eq_mul]

/-- **C135** With `--unique`, a form with only `a` (and separators), `k` of them, prints all its texts with the same probability: that of printing one at all,
divided by the number of passwords with `k/3` digits and otherwise letters, none twice. -/
theorem C135_unique_only_a (a : GenerateCmd) (f : Str) (hf : a.form = some f) (hu : a.unique = true) (hm : a.mixed = false) (h0 : ∀ c ∈ lit "xXns", c ∉ f)
    (fuel : Nat) (hfuel : 0 < fuel) (out : Str) (hp : ∃ stream, a.run fuel stream = .ok out) :
    (a.prog fuel).prob out = (a.prog fuel).probDone / ((f.count 97).choose (f.count 97 / 3) *
      (Nat.descFactorial 26 (f.count 97 - f.count 97 / 3) * Nat.descFactorial 10 (f.count 97 / 3)) : Nat) := by
  have z : ∀ c ∈ lit "xXns", f.count c = 0 := fun c hc => List.count_eq_zero_of_not_mem (h0 c hc)
  have z1 := z 120 (by decide)
  have z2 := z 88 (by decide)
  have z3 := z 110 (by decide)
  have z4 := z 115 (by decide)
  obtain ⟨pw, hA, e⟩ := (run_iff a f hf fuel hfuel out).1 hp
  obtain ⟨vs, hs⟩ : ∃ vs, Slots f out vs := ⟨_, by rw [e]; exact slots_filled hA⟩
  have hP := C135_unique a f hf hu hm fuel hfuel out hp vs hs
  subst e
  obtain ⟨b1, b2, b3, b4⟩ := forA_lengths hA hs
  have b5 := b4 (by omega)
  have b6 : (symbolsIn (printedForA vs)).length = 0 := by omega
  have b7 : (lettersIn (printedForA vs)).length = f.count 97 - f.count 97 / 3 := by omega
  simp only [z1, z2, z3, z4, b5, b7, b6, Nat.zero_add, Nat.add_zero, Nat.sub_self, Nat.zero_max, Nat.descFactorial_zero, mul_one,
    show places 0 0 0 = 1 from rfl, Nat.cast_one, show ∀ n d, places n d 0 = n.choose d from fun n d => by simp [places]] at hP
  rw [hP]
  push_cast
  rw [mul_assoc, one_div_mul_one_div, mul_one_div]

/-- **C135** The probability of getting a text at all: if a form can be printed (see C132_printable), it tends to 1 as more and more repeated characters are put up
with. -/
theorem C135_printed (a : GenerateCmd) (f : Str) (hf : a.form = some f) (hp : ∃ fuel stream out, 0 < fuel ∧ a.run fuel stream = .ok out) :
    ∃ ρ : ℚ, 0 ≤ ρ ∧ ρ < 1 ∧ ∀ fuel : Nat, 0 < fuel →
      1 - (f.count 120 + f.count 88 + f.count 110 + f.count 115 + f.count 97 : Nat) * ρ ^ fuel ≤ (a.prog fuel).probDone ∧ (a.prog fuel).probDone ≤ 1 := by
  obtain ⟨fuel₀, stream, out, hfuel₀, hrun⟩ := hp
  obtain ⟨pw, hA, -⟩ := (run_iff a f hf fuel₀ hfuel₀ out).1 ⟨stream, hrun⟩
  have hne : defaultGenerator.lowerLetters ≠ [] ∧ defaultGenerator.digits ≠ [] ∧ defaultGenerator.symbols ≠ [] := by
    obtain ⟨e1, e2, e3, e4⟩ := default_fields
    rw [e1, e3, e4]; decide
  obtain ⟨v, hv, -⟩ := C04_rules_total defaultGenerator (f.count 120 + f.count 88 + f.count 110 + f.count 115 + f.count 97 : Nat) (f.count 110 + f.count 97 / 3 : Nat)
    (f.count 115 : Nat) (!a.mixed) (!a.unique)
  have hv0 : v = none := by
    cases v with
    | none => rfl
    | some e =>
      obtain ⟨st, hst⟩ := C05_every_password defaultGenerator default_ascii default_separate 1 (by omega) _ _ _ _ _ pw hA
      have h1 := C04_rejections defaultGenerator hne 1 _ _ _ _ _ _ hv (st ++ [])
      rw [hst []] at h1
      cases h1
  rw [hv0] at hv
  obtain ⟨ρ, h0, h1, h2⟩ := C09_terminates defaultGenerator default_ascii default_separate default_distinct hne _ _ _ (by omega) (by omega) _ _ hv
  refine ⟨ρ, h0, h1, fun fuel hfuel => ?_⟩
  obtain ⟨-, -, -, -, hd⟩ := prob_count a f hf fuel hfuel ⟨pw, hA⟩
  rw [hd]
  exact ⟨by exact_mod_cast h2 fuel, probDone_le _⟩

/-! ### With `--mixed` too -/

/-- The ways to give each of the letters of a word (in lower case) the lower or upper case so that no letter is twice in the same case, when `seen` are the letters
(in lower case) that are there already: two for a letter that is new, one for a letter that is there once. -/
def caseWays (seen : Str) : Str → Nat
  | [] => 1
  | c :: L => (2 - seen.count c) * caseWays (c :: seen) L

/-- The letters of both cases. -/
def allLetters : Str := allLower ++ allLower.map upperOf

theorem allLetters_spec : allLetters.Nodup ∧ allLetters.length = 52 := by decide +kernel

theorem mem_allLetters (c : UInt8) : c ∈ allLetters ↔ IsLower c ∨ IsUpper c :=
  byte_forall (fun c => c ∈ allLetters ↔ IsLower c ∨ IsUpper c) (by decide +kernel) c

theorem cases_of (c : UInt8) (h : IsLower c) : allLetters.toFinset.filter (fun d => lowerOf d = c) = {c, upperOf c} ∧ c ≠ upperOf c :=
  byte_forall (fun c => IsLower c → allLetters.toFinset.filter (fun d => lowerOf d = c) = {c, upperOf c} ∧ c ≠ upperOf c) (by decide +kernel) c h

theorem unused_cases (W : Str) (hn : W.Nodup) (hsub : ∀ c ∈ W, c ∈ allLetters) (c : UInt8) (hc : IsLower c) :
    ((allLetters.toFinset.filter fun d => lowerOf d = c) \ W.toFinset).card = 2 - (W.map lowerOf).count c := by
  have h2 : (allLetters.toFinset.filter fun d => lowerOf d = c).card = 2 := by
    obtain ⟨e, hne⟩ := cases_of c hc
    rw [e, Finset.card_pair hne]
  rw [Finset.card_sdiff, h2]
  congr 1
  have : W.toFinset ∩ (allLetters.toFinset.filter fun d => lowerOf d = c) = (W.filter fun d => lowerOf d == c).toFinset := by
    ext d
    simp only [Finset.mem_inter, Finset.mem_filter, List.mem_toFinset, List.mem_filter, beq_iff_eq]
    exact ⟨fun h => ⟨h.1, h.2.2⟩, fun h => ⟨h.1, hsub d h.1, h.2⟩⟩
  rw [this, List.toFinset_card_of_nodup (hn.filter _), List.count, List.countP_map, List.countP_eq_length_filter]
  rfl

/-- The words of letters that go on like `L` but for the case, none twice and none that `W` has. -/
theorem ext_card_mixed : ∀ (L W : Str), W.Nodup → (∀ c ∈ W, c ∈ allLetters) → (∀ c ∈ L, IsLower c) → ∀ m : Nat,
    ∃ A : Finset Str, (∀ x, x ∈ A ↔ x.length = L.length + m ∧ (x.map lowerOf).take L.length = L ∧ (W ++ x).Nodup ∧ ∀ c ∈ x, c ∈ allLetters) ∧
      A.card = caseWays (W.map lowerOf) L * (52 - (W.length + L.length)).descFactorial m
  | [], W, hn, hsub, _, m => by
    obtain ⟨A, hA, hc⟩ := ext_card allLetters allLetters_spec.1 W [] (by simpa using hn) (by simpa using hsub) m
    rw [allLetters_spec.2] at hc
    refine ⟨A, fun x => ?_, by rw [hc]; simp [caseWays]⟩
    rw [hA]
    simp
  | c :: L, W, hn, hsub, hL, m => by
    have hcl := hL c List.mem_cons_self
    have tails : ∀ d : UInt8, ∃ A : Finset Str, (∀ x, x ∈ A ↔ d ∉ W ∧ d ∈ allLetters ∧ x.length = L.length + m ∧ (x.map lowerOf).take L.length = L ∧
        (W ++ [d] ++ x).Nodup ∧ ∀ c ∈ x, c ∈ allLetters) ∧ (d ∉ W → d ∈ allLetters → lowerOf d = c →
        A.card = caseWays (c :: W.map lowerOf) L * (52 - (W.length + (c :: L).length)).descFactorial m) := by
      intro d
      by_cases h : d ∉ W ∧ d ∈ allLetters
      · obtain ⟨A, hA, hc⟩ := ext_card_mixed L (W ++ [d]) (List.nodup_append'.2 ⟨hn, by simp, by simpa using h.1⟩)
          (by intro e he; rcases List.mem_append.1 he with he | he
              · exact hsub e he
              · rw [List.mem_singleton] at he; exact he ▸ h.2) (fun e he => hL e (List.mem_cons_of_mem _ he)) m
        refine ⟨A, fun x => ?_, fun _ _ e => ?_⟩
        · rw [hA]; simp [h]
        · rw [hc]
          congr 1
          · have : ∀ (L s t : Str), s.Perm t → caseWays s L = caseWays t L := by
              intro L
              induction L with
              | nil => intros; rfl
              | cons y L ih => intro s t hp; unfold caseWays; rw [hp.count_eq, ih _ _ (hp.cons y)]
            apply this
            rw [List.map_append, List.map_singleton, e]
            exact List.perm_append_singleton _ _
          · rw [List.length_append, List.length_singleton, List.length_cons]
            congr 1
            omega
      · exact ⟨∅, fun x => by simp only [Finset.notMem_empty, false_iff]; tauto, fun h1 h2 => absurd ⟨h1, h2⟩ h⟩
    choose T hT hTc using tails
    set F := (allLetters.toFinset.filter fun d => lowerOf d = c) \ W.toFinset with hF
    have memF : ∀ d, d ∈ F ↔ d ∈ allLetters ∧ lowerOf d = c ∧ d ∉ W := by
      intro d
      rw [hF, Finset.mem_sdiff, Finset.mem_filter, List.mem_toFinset, List.mem_toFinset]
      tauto
    refine ⟨(F.sigma T).map ⟨fun p => p.1 :: p.2, ?_⟩, fun x => ?_, ?_⟩
    · rintro ⟨x, w⟩ ⟨x', w'⟩ e
      injection e with e1 e2
      subst e1; subst e2; rfl
    · rw [Finset.mem_map]
      constructor
      · rintro ⟨⟨d, t⟩, hm, rfl⟩
        rw [Finset.mem_sigma] at hm
        obtain ⟨h1, h2⟩ := hm
        obtain ⟨f1, f2, f3⟩ := (memF d).1 h1
        obtain ⟨t1, t2, t3, t4, t5, t6⟩ := (hT d t).1 h2
        change (d :: t).length = _ ∧ ((d :: t).map lowerOf).take _ = _ ∧ (W ++ d :: t).Nodup ∧ ∀ e ∈ d :: t, e ∈ allLetters
        refine ⟨by simp only [List.length_cons]; omega, ?_, by simpa using t5, ?_⟩
        · rw [List.map_cons, List.length_cons, List.take_succ_cons, t4, f2]
        · intro e he
          rcases List.mem_cons.1 he with rfl | he
          · exact f1
          · exact t6 e he
      · rintro ⟨h1, h2, h3, h4⟩
        cases x with
        | nil => simp at h1; omega
        | cons d t =>
          rw [List.map_cons, List.length_cons, List.take_succ_cons] at h2
          injection h2 with h2a h2b
          have hd : d ∉ W := by
            intro hd
            exact (List.nodup_append'.1 h3).2.2 hd List.mem_cons_self
          refine ⟨⟨d, t⟩, Finset.mem_sigma.2 ⟨(memF d).2 ⟨h4 d List.mem_cons_self, h2a, hd⟩, (hT d t).2 ⟨hd, h4 d List.mem_cons_self, ?_, h2b, by simpa using h3,
            fun e he => h4 e (List.mem_cons_of_mem _ he)⟩⟩, rfl⟩
          simp only [List.length_cons] at h1
          omega
    · rw [Finset.card_map, Finset.card_sigma, Finset.sum_congr rfl fun d hd => hTc d ((memF d).1 hd).2.2 ((memF d).1 hd).1 ((memF d).1 hd).2.1,
        Finset.sum_const, nsmul_eq_mul, Nat.cast_id, hF, unused_cases W hn hsub c hcl]
      change _ = (2 - (W.map lowerOf).count c) * caseWays (c :: W.map lowerOf) L * _
      rw [Nat.mul_assoc]

/-- What was printed for the `x` and `X` of a form, one after the other, in lower case. -/
def printedForX (vs : List (UInt8 × UInt8)) : Str := (vs.filter fun v => v.1 == 120 || v.1 == 88).map fun v => lowerOf v.2

theorem lower_upper (c : UInt8) (h : IsLower c ∨ IsUpper c) : lowerOf (lowerOf c) = lowerOf c ∧ lowerOf (upperOf c) = lowerOf c :=
  byte_forall (fun c => IsLower c ∨ IsUpper c → lowerOf (lowerOf c) = lowerOf c ∧ lowerOf (upperOf c) = lowerOf c) (by decide +kernel) c h

theorem forX_from (pw : Str) : ∀ (f pre : Str), (pre ++ f).count 120 + (pre ++ f).count 88 ≤ (lettersIn pw).length →
    (((List.range f.length).filter fun i => f.getD i 0 == 120 || f.getD i 0 == 88).map fun i => lowerOf ((placed pw (pre ++ f.take i) (f.getD i 0)).headD 0)) =
      (((lettersIn pw).map lowerOf).drop (pre.count 120 + pre.count 88)).take (f.count 120 + f.count 88)
  | [], pre, _ => by simp
  | c :: f, pre, h => by
    have ih := forX_from pw f (pre ++ [c]) (by simpa using h)
    have e : ((List.range f.length).filter fun i => (c :: f).getD (i + 1) 0 == 120 || (c :: f).getD (i + 1) 0 == 88).map
          (fun i => lowerOf ((placed pw (pre ++ (c :: f).take (i + 1)) ((c :: f).getD (i + 1) 0)).headD 0)) =
        ((List.range f.length).filter fun i => f.getD i 0 == 120 || f.getD i 0 == 88).map fun i =>
          lowerOf ((placed pw ((pre ++ [c]) ++ f.take i) (f.getD i 0)).headD 0) := by
      simp
    rw [List.length_cons, List.range_succ_eq_map, List.filter_cons, List.filter_map]
    simp only [Function.comp_def, Nat.succ_eq_add_one]
    have main : (c = 120 ∨ c = 88) → lowerOf ((placed pw pre c).headD 0) = lowerOf ((lettersIn pw).getD (pre.count 120 + pre.count 88) 0) := by
      intro hc
      have hk : pre.count 120 + pre.count 88 < (lettersIn pw).length := by
        rw [List.count_append, List.count_append] at h
        have : 1 ≤ (c :: f).count 120 + (c :: f).count 88 := by
          rcases hc with rfl | rfl
          · rw [List.count_cons_self]; omega
          · rw [List.count_cons_self]; omega
        omega
      have hl := of_lettersIn _ (List.getElem_mem hk)
      rcases hc with rfl | rfl
      · unfold placed
        rw [if_pos (by decide), List.getElem?_eq_getElem hk]
        simp [hk, (lower_upper _ hl).1]
      · unfold placed
        rw [if_neg (by decide), if_pos (by decide), List.getElem?_eq_getElem hk]
        simp [hk, (lower_upper _ hl).2]
    by_cases hc : c = 120 ∨ c = 88
    · have hkc : (c :: f).count 120 + (c :: f).count 88 = f.count 120 + f.count 88 + 1 := by
        rcases hc with rfl | rfl
        · rw [List.count_cons_self, List.count_cons_of_ne (by decide)]; omega
        · rw [List.count_cons_self, List.count_cons_of_ne (by decide)]; omega
      have hkp : (pre ++ [c]).count 120 + (pre ++ [c]).count 88 = pre.count 120 + pre.count 88 + 1 := by
        rw [List.count_append, List.count_append]
        rcases hc with rfl | rfl
        · rw [show ([120] : Str).count 120 = 1 by decide, show ([120] : Str).count 88 = 0 by decide]; omega
        · rw [show ([88] : Str).count 120 = 0 by decide, show ([88] : Str).count 88 = 1 by decide]; omega
      have hk : pre.count 120 + pre.count 88 < (lettersIn pw).length := by
        rw [List.count_append, List.count_append] at h; omega
      rw [if_pos (by simpa using hc), List.map_cons, List.map_map]
      simp only [Function.comp_def]
      rw [e, ih, hkp, hkc, ← List.getElem_cons_drop (h := show pre.count 120 + pre.count 88 < ((lettersIn pw).map lowerOf).length by simpa using hk), List.take_succ_cons]
      congr 1
      have := main hc
      simp only [List.take_zero, List.append_nil, List.getD_cons_zero]
      rw [this]
      simp [hk]
    · have h1 : c ≠ 120 := fun e => hc (.inl e)
      have h2 : c ≠ 88 := fun e => hc (.inr e)
      rw [if_neg (by simpa using hc), List.map_map]
      simp only [Function.comp_def]
      rw [e, ih, List.count_cons_of_ne h1, List.count_cons_of_ne h2]
      congr 2
      rw [List.count_append, List.count_append, List.count_cons_of_ne h1, List.count_cons_of_ne h2]
      simp

/-- What is printed for the `x` and `X` are the first letters of the password. -/
theorem forX_eq {a : GenerateCmd} {f pw : Str} (h : Asked a f pw) {vs : List (UInt8 × UInt8)} (hs : Slots f (filled f pw) vs) :
    printedForX vs = ((lettersIn pw).map lowerOf).take (f.count 120 + f.count 88) := by
  obtain ⟨l1, l2, l3, l4⟩ := conforms_lengths f h
  rw [slots_unique hs (slots_filled h)]
  have := forX_from pw f [] (by simp only [List.nil_append]; omega)
  simp only [List.nil_append, List.count_nil, Nat.add_zero, List.drop_zero] at this
  rw [← this]
  unfold printedForX slotPos slotVal
  rw [List.filter_map, List.filter_filter, List.map_map]
  simp only [Function.comp_def]
  congr 1
  apply List.filter_congr
  intro i _
  generalize f.getD i 0 = c
  by_cases hc : c = 120
  · rw [hc]; decide
  · by_cases hc2 : c = 88
    · rw [hc2]; decide
    · rw [show (c == 120) = false by simpa using hc, show (c == 88) = false by simpa using hc2]; rfl

set_option maxHeartbeats 1000000 in
/-- **C135** The probability of a text that may be printed for a form with `--unique` and `--mixed`. The same as without `--mixed`, with 52 letters, but times the
number of ways to give the letters that are printed only for `x` and `X`, and not also for `a`, a case: that of `x` and `X` does not show the case in the password. -/
theorem C135_mixed_unique (a : GenerateCmd) (f : Str) (hf : a.form = some f) (hu : a.unique = true) (hm : a.mixed = true) (fuel : Nat) (hfuel : 0 < fuel)
    (out : Str) (hp : ∃ stream, a.run fuel stream = .ok out) (vs : List (UInt8 × UInt8)) (hs : Slots f out vs) :
    let w := printedForA vs
    let letters := f.count 120 + f.count 88
    let digits := f.count 110
    let symbols := f.count 115
    let alphas := f.count 97
    (a.prog fuel).prob out = (a.prog fuel).probDone *
      (places (letters + digits + symbols) (digits + alphas / 3 - (digitsIn w).length) (symbols - (symbolsIn w).length) /
        places (letters + digits + symbols + alphas) (digits + alphas / 3) symbols) *
      (caseWays ((lettersIn w).map lowerOf) ((printedForX vs).drop (lettersIn w).length) / (Nat.descFactorial 52 (max letters (lettersIn w).length) * Nat.descFactorial 10 (max digits (digitsIn w).length) *
        Nat.descFactorial 30 symbols : Nat)) := by
  intro w p q s k
  obtain ⟨pw₀, hA₀, rfl⟩ := (run_iff a f hf fuel hfuel out).1 hp
  obtain ⟨All, hAll, hcard, hprob, -⟩ := prob_count a f hf fuel hfuel ⟨pw₀, hA₀⟩
  have hw : w = pw₀.take k := forA_eq hA₀ hs
  have shape : ∀ {pw : Str}, Asked a f pw ↔ (∀ c ∈ pw, Any c) ∧ (lettersIn pw).length = p + (k - k / 3) ∧ (digitsIn pw).length = q + k / 3 ∧
      (symbolsIn pw).length = s ∧ pw.Nodup := by
    intro pw
    unfold Asked
    rw [conforms_iff, hu, hm]
    constructor
    · rintro ⟨h1, h2, h3, h4, h5, h6⟩
      obtain ⟨c1, c2, c3, c4⟩ := class_lengths pw h1
      exact ⟨h1, by omega, by omega, by omega, h6 rfl⟩
    · rintro ⟨h1, h2, h3, h4, h6⟩
      obtain ⟨c1, c2, c3, c4⟩ := class_lengths pw h1
      exact ⟨h1, by omega, by omega, by omega, fun h => by simp at h, fun _ => h6⟩
  obtain ⟨g1, g2, g3, g4, g6⟩ := shape.1 hA₀
  have hX : printedForX vs = ((lettersIn pw₀).map lowerOf).take p := forX_eq hA₀ hs
  have hl4 : k ≤ pw₀.length := (conforms_lengths f hA₀).2.2.2
  obtain ⟨u₀, hu₀⟩ : ∃ u, u = pw₀.drop k := ⟨_, rfl⟩
  have hsplit : pw₀ = w ++ u₀ := by rw [hw, hu₀, List.take_append_drop]
  obtain ⟨i1, i2, i3⟩ := in_app w u₀
  rw [← hsplit] at i1 i2 i3
  have j1 := congrArg List.length i1
  have j2 := congrArg List.length i2
  have j3 := congrArg List.length i3
  rw [List.length_append] at j1 j2 j3
  have hwk : w.length = k := by rw [hw, List.length_take]; omega
  have hwany : ∀ c ∈ w, Any c := fun c hc => g1 c (by rw [hsplit]; exact List.mem_append_left _ hc)
  have huany : ∀ c ∈ u₀, Any c := fun c hc => g1 c (by rw [hsplit]; exact List.mem_append_right _ hc)
  have hwlen : (lettersIn w).length + (digitsIn w).length + (symbolsIn w).length = k := by rw [(class_lengths w hwany).2.2.2, hwk]
  obtain ⟨n1, n2, n3⟩ := (nodup_classes pw₀ g1).1 g6
  rw [i1] at n1; rw [i2] at n2; rw [i3] at n3
  have low : ∀ c ∈ lettersIn pw₀, IsLower c ∨ IsUpper c := of_lettersIn
  rw [i1] at low
  have dig : ∀ c ∈ digitsIn pw₀, IsDigit c := of_digitsIn
  have sym : ∀ c ∈ symbolsIn pw₀, IsSym c := of_symbolsIn
  rw [i2] at dig; rw [i3] at sym
  obtain ⟨⟨pn1, pc1, pm1⟩, ⟨pn2, pc2, pm2⟩, pn3, pc3, pm3⟩ := pools
  -- the letters, digits and symbols that are shown behind `w`
  obtain ⟨L, hL⟩ : ∃ L, L = ((lettersIn u₀).map lowerOf).take (p - (lettersIn w).length) := ⟨_, rfl⟩
  obtain ⟨D, hD⟩ : ∃ D, D = (digitsIn u₀).take (q - (digitsIn w).length) := ⟨_, rfl⟩
  obtain ⟨S, hS⟩ : ∃ S, S = symbolsIn u₀ := ⟨_, rfl⟩
  have lL : L.length = p - (lettersIn w).length := by rw [hL, List.length_take, List.length_map]; omega
  have lD : D.length = q - (digitsIn w).length := by rw [hD, List.length_take]; omega
  have lS : S.length = s - (symbolsIn w).length := by rw [hS]; omega
  have sub : ∀ {W x y : Str}, x <+: y → (W ++ y).Nodup → (W ++ x).Nodup := fun h hn => hn.sublist ((h.sublist).append_left _)
  have lowL : ∀ c ∈ L, IsLower c := fun c hc => by rw [hL] at hc; exact lower_of_letters c (List.mem_of_mem_take hc)
  have pD : D <+: digitsIn u₀ := hD ▸ List.take_prefix _ _
  have memL : ∀ c ∈ lettersIn w, c ∈ allLetters := fun c hc => (mem_allLetters c).2 (of_lettersIn c hc)
  have memD : ∀ c ∈ digitsIn w ++ D, c ∈ allDigits := fun c hc => (pools_all c).2.1 (dig c (((pD.sublist).append_left _).subset hc))
  have memS : ∀ c ∈ symbolsIn w ++ S, c ∈ allSyms := fun c hc => (pools_all c).2.2 (sym c (hS ▸ hc))
  obtain ⟨A, mA, cA⟩ := ext_card_mixed L (lettersIn w) (List.nodup_append'.1 n1).1 memL lowL (p + (k - k / 3) - max p (lettersIn w).length)
  obtain ⟨B, mB, cB⟩ := ext_card allDigits pn2 (digitsIn w) D (sub pD n2) memD (q + k / 3 - max q (digitsIn w).length)
  obtain ⟨C, mC, cC⟩ := ext_card allSyms pn3 (symbolsIn w) S (hS ▸ n3) memS 0
  obtain ⟨V, hV, hVc⟩ := mades_card A B C (p + (k - k / 3) - (lettersIn w).length) (q + k / 3 - (digitsIn w).length) (s - (symbolsIn w).length)
    (fun x hx => by
      obtain ⟨h1, -, -, h4⟩ := (mA x).1 hx
      exact ⟨by omega, fun c hc => (mem_allLetters c).1 (h4 c hc)⟩)
    (fun x hx => by
      obtain ⟨h1, -, -, h4⟩ := (mB x).1 hx
      exact ⟨by omega, fun c hc => pm2 c (h4 c hc)⟩)
    (fun x hx => by
      obtain ⟨h1, -, -, h4⟩ := (mC x).1 hx
      exact ⟨by omega, fun c hc => pm3 c (h4 c hc)⟩)
  have key : ∀ v : Str, w ++ v ∈ All.filter (fun pw => filled f pw = filled f pw₀) ↔ v ∈ V := by
    intro v
    obtain ⟨o1, o2, o3⟩ := in_app w v
    have q1 := congrArg List.length o1
    have q2 := congrArg List.length o2
    have q3 := congrArg List.length o3
    rw [List.length_append] at q1 q2 q3
    rw [Finset.mem_filter, hAll, hV, mA, mB, mC]
    have t1 : (w ++ v).take k = pw₀.take k := by
      rw [← hw]
      exact List.take_left' hwk
    constructor
    · rintro ⟨hask, hfill⟩
      obtain ⟨x1, x2, x3, x4, x6⟩ := shape.1 hask
      obtain ⟨y1, y2, y3⟩ := (nodup_classes _ x1).1 x6
      rw [o1] at y1; rw [o2] at y2; rw [o3] at y3
      have hsh := ((filled_eq_iff hask hA₀).1 hfill).1
      unfold shown at hsh
      rw [o1, o2, o3, i1, i2, i3] at hsh
      simp only [List.map_append, List.take_append, List.length_map, Prod.mk.injEq, List.append_cancel_left_eq] at hsh
      obtain ⟨z1, z2, z3⟩ := hsh
      refine ⟨fun c hc => x1 c (List.mem_append_right _ hc), ⟨by omega, ?_, y1, fun c hc => (mem_allLetters c).2 (of_lettersIn c hc)⟩,
        ⟨by omega, ?_, y2, fun c hc => (pools_all c).2.1 (of_digitsIn c hc)⟩, by omega, ?_, y3, fun c hc => (pools_all c).2.2 (of_symbolsIn c hc)⟩
      · rw [lL, hL]; exact z1
      · rw [lD, hD]; exact z2
      · rw [z3, ← hS, List.take_length]
    · rintro ⟨x0, ⟨x1, x2, x3, x4⟩, ⟨y1, y2, y3, y4⟩, z1, z2, z3, z4⟩
      have hany : ∀ c ∈ w ++ v, Any c := fun c hc => (List.mem_append.1 hc).elim (hwany c) (x0 c)
      have hask : Asked a f (w ++ v) := by
        exact shape.2 ⟨hany, by omega, by omega, by omega, (nodup_classes _ hany).2 ⟨by rw [o1]; exact x3, by rw [o2]; exact y3, by rw [o3]; exact z3⟩⟩
      refine ⟨hask, (filled_eq_iff hask hA₀).2 ⟨?_, t1⟩⟩
      unfold shown
      rw [o1, o2, o3, i1, i2, i3]
      simp only [List.map_append, List.take_append, List.length_map, Prod.mk.injEq, List.append_cancel_left_eq]
      rw [lL] at x2; rw [lD] at y2
      refine ⟨x2.trans hL, y2.trans hD, ?_⟩
      rw [← hS, ← z2, List.take_of_length_le (by omega)]
  have hbij : (All.filter fun pw => filled f pw = filled f pw₀).card = V.card := by
    refine Finset.card_bij' (fun pw _ => pw.drop k) (fun v _ => w ++ v) (fun pw hpw => ?_) (fun v hv => (key v).2 hv) (fun pw hpw => ?_) (fun v hv => ?_)
    all_goals try
      have hpre : w ++ pw.drop k = pw := by
        obtain ⟨h1, h2⟩ := Finset.mem_filter.1 hpw
        rw [hw, ← ((filled_eq_iff ((hAll _).1 h1) hA₀).1 h2).2, List.take_append_drop]
    · rw [← key, hpre]; exact hpw
    · exact hpre
    · exact List.drop_left' hwk
  rw [hprob, hbij, hVc, hcard, hu, hm, cA, cB, cC, pc2, pc3, lL, lD, lS, arr_places]
  have hle2 := pool_le (sub pD n2) memD
  have hll := pool_le (all := allLetters) n1 fun c hc => (mem_allLetters c).2 (low c hc)
  have hld := pool_le (all := allDigits) n2 fun c hc => (pools_all c).2.1 (dig c hc)
  have hls := pool_le (all := allSyms) n3 fun c hc => (pools_all c).2.2 (sym c hc)
  rw [List.length_append] at hle2 hll hld hls
  rw [allLetters_spec.2] at hll
  have a1 : (lettersIn w).length + (p - (lettersIn w).length) = max p (lettersIn w).length := by omega
  have a2 : (digitsIn w).length + (q - (digitsIn w).length) = max q (digitsIn w).length := by omega
  have d1 := Nat.descFactorial_mul_descFactorial (n := 52) (k := max p (lettersIn w).length) (m := p + (k - k / 3)) (by omega)
  have d2 := Nat.descFactorial_mul_descFactorial (n := 10) (k := max q (digitsIn w).length) (m := q + k / 3) (by omega)
  have e1 : p + (k - k / 3) - (lettersIn w).length + (q + k / 3 - (digitsIn w).length) + (s - (symbolsIn w).length) = p + q + s := by omega
  have e2 : f.count 120 + f.count 88 + f.count 110 + f.count 115 + f.count 97 = p + q + s + k := rfl
  have e3 : f.count 110 + f.count 97 / 3 = q + k / 3 := rfl
  have e4 : f.count 115 = s := rfl
  rw [a1, a2, e1, e2, e3, e4, Nat.descFactorial_zero]
  unfold passwords ways
  simp only [Bool.not_true, Bool.false_eq_true, if_false, if_true]
  have hXL : (printedForX vs).drop (lettersIn w).length = L := by
    rw [hX, i1, hL, List.map_append, List.take_append, List.length_map]
    rcases Nat.le_total p (lettersIn w).length with h | h
    · rw [List.drop_eq_nil_of_le (by simp; omega), Nat.sub_eq_zero_of_le h, List.take_zero]
    · rw [List.take_of_length_le (by simpa using h), List.drop_left' (by simp)]
  rw [hXL]
  rw [show p + q + s + k - (q + k / 3) - s = p + (k - k / 3) by omega, ← d1, ← d2, show (p + q + s + k).choose (q + k / 3) * (p + q + s + k - (q + k / 3)).choose s = places (p + q + s + k) (q + k / 3) s from rfl]
  have x1 : (Nat.descFactorial (52 - max p (lettersIn w).length) (p + (k - k / 3) - max p (lettersIn w).length) : ℚ) ≠ 0 := by
    rw [Nat.cast_ne_zero, ← Nat.pos_iff_ne_zero, Nat.descFactorial_pos]; omega
  have x2 : (Nat.descFactorial (10 - max q (digitsIn w).length) (q + k / 3 - max q (digitsIn w).length) : ℚ) ≠ 0 := by
    rw [Nat.cast_ne_zero, ← Nat.pos_iff_ne_zero, Nat.descFactorial_pos]; omega
  have x3 : (Nat.descFactorial 52 (max p (lettersIn w).length) : ℚ) ≠ 0 := by
    rw [Nat.cast_ne_zero, ← Nat.pos_iff_ne_zero, Nat.descFactorial_pos]; omega
  have x4 : (Nat.descFactorial 10 (max q (digitsIn w).length) : ℚ) ≠ 0 := by
    rw [Nat.cast_ne_zero, ← Nat.pos_iff_ne_zero, Nat.descFactorial_pos]; omega
  have x5 : (Nat.descFactorial 30 s : ℚ) ≠ 0 := by
    rw [Nat.cast_ne_zero, ← Nat.pos_iff_ne_zero, Nat.descFactorial_pos]; omega
  have x6 : (places (p + q + s + k) (q + k / 3) s : ℚ) ≠ 0 := by
    rw [Nat.cast_ne_zero, ← Nat.pos_iff_ne_zero]
    exact Nat.mul_pos (Nat.choose_pos (by omega)) (Nat.choose_pos (by omega))
  push_cast
  field_simp

theorem caseWays_le : ∀ (L seen : Str), caseWays seen L ≤ 2 ^ L.length
  | [], _ => Nat.le_refl _
  | c :: L, seen => by
    unfold caseWays
    rw [List.length_cons, pow_succ, Nat.mul_comm]
    exact Nat.mul_le_mul (caseWays_le L _) (Nat.sub_le _ _)

/-- **C135** With `--unique` and `--mixed`, no text is more likely than by choosing every `x` and `X` among the 52 letters that are left without showing its case,
every `n` among the digits and every `s` among the symbols that are left, and leaving out the `a`. -/
theorem C135_mixed_unique_bound (a : GenerateCmd) (f : Str) (hf : a.form = some f) (hu : a.unique = true) (hm : a.mixed = true) (fuel : Nat) (hfuel : 0 < fuel)
    (out : Str) : (a.prog fuel).prob out ≤
      2 ^ (f.count 120 + f.count 88) / (Nat.descFactorial 52 (f.count 120 + f.count 88) * Nat.descFactorial 10 (f.count 110) * Nat.descFactorial 30 (f.count 115) : Nat) := by
  by_cases hp : ∃ stream, a.run fuel stream = .ok out
  · obtain ⟨pw, hA, e⟩ := (run_iff a f hf fuel hfuel out).1 hp
    obtain ⟨vs, hs⟩ : ∃ vs, Slots f out vs := ⟨_, by rw [e]; exact slots_filled hA⟩
    have hP := C135_mixed_unique a f hf hu hm fuel hfuel out hp vs hs
    subst e
    obtain ⟨b1, b2, b3, -⟩ := forA_lengths hA hs
    obtain ⟨l1, l2, l3, l4⟩ := conforms_lengths f hA
    obtain ⟨-, -, -, -, g5, g6⟩ := conforms_iff.1 hA
    have g1 := conforms_any hA
    rw [hu] at g6
    obtain ⟨n1, n2, n3⟩ := (nodup_classes pw g1).1 (g6 rfl)
    have k1 := pool_le (all := allLetters) n1 fun c hc => (mem_allLetters c).2 (of_lettersIn c hc)
    have k2 := pool_le (all := allDigits) n2 fun c hc => (pools_all c).2.1 (of_digitsIn c hc)
    have k3 := pool_le (all := allSyms) n3 fun c hc => (pools_all c).2.2 (of_symbolsIn c hc)
    obtain ⟨⟨-, pc1, -⟩, ⟨-, pc2, -⟩, -, pc3, -⟩ := pools
    rw [allLetters_spec.2] at k1; rw [pc2] at k2; rw [pc3] at k3
    have hw1 : (lettersIn (printedForA vs)).length ≤ (lettersIn pw).length := by
      rw [forA_eq hA hs]
      exact ((List.take_sublist _ _).filter _).length_le
    have hw2 : (digitsIn (printedForA vs)).length ≤ (digitsIn pw).length := by
      rw [forA_eq hA hs]
      exact ((List.take_sublist _ _).filter _).length_le
    have hX : ((printedForX vs).drop (lettersIn (printedForA vs)).length).length ≤ f.count 120 + f.count 88 := by
      rw [forX_eq hA hs, List.length_drop, List.length_take]; omega
    have hcw := (caseWays_le ((printedForX vs).drop (lettersIn (printedForA vs)).length) ((lettersIn (printedForA vs)).map lowerOf)).trans (Nat.pow_le_pow_right (by omega) hX)
    rw [hP]
    set w := printedForA vs
    set p := f.count 120 + f.count 88
    set q := f.count 110
    set s := f.count 115
    set k := f.count 97
    have hpl : places (p + q + s) (q + k / 3 - (digitsIn w).length) (s - (symbolsIn w).length) ≤ places (p + q + s + k) (q + k / 3) s := by
      have := arr_mono (show p + (k - k / 3) - (lettersIn w).length ≤ p + (k - k / 3) by omega) (show q + k / 3 - (digitsIn w).length ≤ q + k / 3 by omega)
        (show s - (symbolsIn w).length ≤ s by omega)
      rw [arr_places, arr_places, show p + (k - k / 3) + (q + k / 3) + s = p + q + s + k by omega,
        show p + (k - k / 3) - (lettersIn w).length + (q + k / 3 - (digitsIn w).length) + (s - (symbolsIn w).length) = p + q + s by omega] at this
      exact this
    have hpp : 0 < places (p + q + s + k) (q + k / 3) s := Nat.mul_pos (Nat.choose_pos (by omega)) (Nat.choose_pos (by omega))
    have r1 : (places (p + q + s) (q + k / 3 - (digitsIn w).length) (s - (symbolsIn w).length) : ℚ) / places (p + q + s + k) (q + k / 3) s ≤ 1 :=
      (div_le_one (by exact_mod_cast hpp)).2 (by exact_mod_cast hpl)
    have hd := Nat.mul_le_mul (Nat.mul_le_mul (desc_mono (n := 52) (Nat.le_max_left p (lettersIn w).length) (by omega))
      (desc_mono (n := 10) (Nat.le_max_left q (digitsIn w).length) (by omega))) (Nat.le_refl (Nat.descFactorial 30 s))
    have hdp : 0 < Nat.descFactorial 52 p * Nat.descFactorial 10 q * Nat.descFactorial 30 s :=
      Nat.mul_pos (Nat.mul_pos (Nat.descFactorial_pos.2 (by omega)) (Nat.descFactorial_pos.2 (by omega))) (Nat.descFactorial_pos.2 (by omega))
    set cw := caseWays ((lettersIn w).map lowerOf) ((printedForX vs).drop (lettersIn w).length)
    have r2 : (cw : ℚ) / (Nat.descFactorial 52 (max p (lettersIn w).length) * Nat.descFactorial 10 (max q (digitsIn w).length) * Nat.descFactorial 30 s : Nat) ≤
        2 ^ p / (Nat.descFactorial 52 p * Nat.descFactorial 10 q * Nat.descFactorial 30 s : Nat) :=
      div_le_div₀ (pow_nonneg (by norm_num) _) (by exact_mod_cast hcw) (by exact_mod_cast hdp) (by exact_mod_cast hd)
    have r0 : (a.prog fuel).probDone * (places (p + q + s) (q + k / 3 - (digitsIn w).length) (s - (symbolsIn w).length) / places (p + q + s + k) (q + k / 3) s : ℚ) ≤ 1 :=
      mul_le_one₀ (expect_one_le _) (div_nonneg (Nat.cast_nonneg _) (Nat.cast_nonneg _)) r1
    calc _ ≤ 1 * ((cw : ℚ) / (Nat.descFactorial 52 (max p (lettersIn w).length) * Nat.descFactorial 10 (max q (digitsIn w).length) * Nat.descFactorial 30 s : Nat)) :=
          mul_le_mul_of_nonneg_right r0 (div_nonneg (Nat.cast_nonneg _) (Nat.cast_nonneg _))
      _ ≤ _ := by rw [one_mul]; exact r2
  · rw [C135_others_all a f hf fuel hfuel out hp]
    exact div_nonneg (pow_nonneg (by norm_num) _) (Nat.cast_nonneg _)

/-! ### Concrete cases -/

/-- The text `bb` of the form `xa`: also with `--unique` the letter is printed twice (see C62), and the text is one of 26. -/
theorem xa_unique : ∃ stream, GenerateCmd.run ⟨0, 0, 0, false, true, some (lit "xa")⟩ 1 stream = .ok (lit "bb") :=
  (C106_form_exact _ (lit "xa") rfl 1 (by omega) _).2 ⟨lit "bq", by refine ⟨?_, ?_, ?_, ?_, ?_⟩ <;> decide, by decide⟩

example (fuel : Nat) (hfuel : 0 < fuel) (h : ∃ stream, GenerateCmd.run ⟨0, 0, 0, false, true, some (lit "xa")⟩ fuel stream = .ok (lit "bb")) :
    ((⟨0, 0, 0, false, true, some (lit "xa")⟩ : GenerateCmd).prog fuel).prob (lit "bb") =
      ((⟨0, 0, 0, false, true, some (lit "xa")⟩ : GenerateCmd).prog fuel).probDone / 26 := by
  have hs : Slots (lit "xa") (lit "bb") [(120, 98), (97, 98)] := .char (by decide) (.char (by decide) .nil)
  have := C135_unique _ (lit "xa") rfl rfl rfl fuel hfuel _ h _ hs
  rw [show printedForA [(120, 98), (97, 98)] = lit "b" by decide] at this
  rw [this]
  have c1 : (lit "xa").count 120 + (lit "xa").count 88 = 1 := by decide
  have c2 : (lit "xa").count 110 = 0 := by decide
  have c3 : (lit "xa").count 115 = 0 := by decide
  have c4 : (lit "xa").count 97 = 1 := by decide
  have c5 : (lettersIn (lit "b")).length = 1 := by decide
  have c6 : (digitsIn (lit "b")).length = 0 := by decide
  have c7 : (symbolsIn (lit "b")).length = 0 := by decide
  simp only [c1, c2, c3, c4, c5, c6, c7]
  norm_num [places, Nat.descFactorial]
  ring

/-- Nine `a` can be printed without repeats. -/
theorem nine_unique : ∃ stream, GenerateCmd.run ⟨0, 0, 0, false, true, some (lit "aaa-aaa-aaa")⟩ 1 stream = .ok (lit "ab0-c1d-2ef") :=
  (C106_form_exact _ (lit "aaa-aaa-aaa") rfl 1 (by omega) _).2 ⟨lit "ab0c1d2ef", by refine ⟨?_, ?_, ?_, ?_, ?_⟩ <;> decide, by decide⟩

/-- Nine `a` without repeats: three digits and six letters. -/
example (out : Str) (h : ∃ stream, GenerateCmd.run ⟨0, 0, 0, false, true, some (lit "aaa-aaa-aaa")⟩ 1 stream = .ok out) :
    ((⟨0, 0, 0, false, true, some (lit "aaa-aaa-aaa")⟩ : GenerateCmd).prog 1).prob out =
      ((⟨0, 0, 0, false, true, some (lit "aaa-aaa-aaa")⟩ : GenerateCmd).prog 1).probDone /
        (84 * ((26 * 25 * 24 * 23 * 22 * 21) * (10 * 9 * 8)) : Nat) := by
  rw [C135_unique_only_a _ (lit "aaa-aaa-aaa") rfl rfl rfl (by decide) 1 (by omega) _ h, show (lit "aaa-aaa-aaa").count 97 = 9 by decide]
  rfl

/-- With both flags, `bb` is half as likely as `bc` for the form `xx`. -/
theorem xx_both (out : Str) (h : out = lit "bb" ∨ out = lit "bc") : ∃ stream, GenerateCmd.run ⟨0, 0, 0, true, true, some (lit "xx")⟩ 1 stream = .ok out := by
  rcases h with rfl | rfl
  · exact (C106_form_exact _ (lit "xx") rfl 1 (by omega) _).2 ⟨lit "bB", by refine ⟨?_, ?_, ?_, ?_, ?_⟩ <;> decide, by decide⟩
  · exact (C106_form_exact _ (lit "xx") rfl 1 (by omega) _).2 ⟨lit "bc", by refine ⟨?_, ?_, ?_, ?_, ?_⟩ <;> decide, by decide⟩

example : ((⟨0, 0, 0, true, true, some (lit "xx")⟩ : GenerateCmd).prog 1).prob (lit "bb") =
      ((⟨0, 0, 0, true, true, some (lit "xx")⟩ : GenerateCmd).prog 1).probDone * (2 / (52 * 51)) ∧
    ((⟨0, 0, 0, true, true, some (lit "xx")⟩ : GenerateCmd).prog 1).prob (lit "bc") =
      ((⟨0, 0, 0, true, true, some (lit "xx")⟩ : GenerateCmd).prog 1).probDone * (4 / (52 * 51)) := by
  have hs : Slots (lit "xx") (lit "bb") [(120, 98), (120, 98)] := .char (by decide) (.char (by decide) .nil)
  have hs' : Slots (lit "xx") (lit "bc") [(120, 98), (120, 99)] := .char (by decide) (.char (by decide) .nil)
  have h1 := C135_mixed_unique _ (lit "xx") rfl rfl rfl 1 (by omega) _ (xx_both _ (.inl rfl)) _ hs
  have h2 := C135_mixed_unique _ (lit "xx") rfl rfl rfl 1 (by omega) _ (xx_both _ (.inr rfl)) _ hs'
  rw [show printedForA [(120, 98), (120, 98)] = [] by decide, show printedForX [(120, 98), (120, 98)] = lit "bb" by decide] at h1
  rw [show printedForA [(120, 98), (120, 99)] = [] by decide, show printedForX [(120, 98), (120, 99)] = lit "bc" by decide] at h2
  rw [h1, h2]
  have c1 : (lit "xx").count 120 + (lit "xx").count 88 = 2 := by decide
  have c2 : (lit "xx").count 110 = 0 := by decide
  have c3 : (lit "xx").count 115 = 0 := by decide
  have c4 : (lit "xx").count 97 = 0 := by decide
  have c5 : lettersIn [] = [] := rfl
  have c6 : digitsIn [] = [] := rfl
  have c7 : symbolsIn [] = [] := rfl
  have c8 : caseWays [] (lit "bb") = 2 := by decide
  have c9 : caseWays [] (lit "bc") = 4 := by decide
  simp only [c1, c2, c3, c4, c5, c6, c7, List.map_nil, List.length_nil, List.drop_zero, c8, c9]
  norm_num [places, Nat.descFactorial]

end Verif.FormGen
