import Verif.FormGen.Exact
import Verif.Password.Strength
/-
C135: what it takes to guess a text that was generated from a form.
-/
namespace Verif.FormGen
open Verif.Password Finset

/-! ### Specification -/

/-- What was printed for the `a` of a form, one after the other. -/
def printedForA (vs : List (UInt8 × UInt8)) : Str := (vs.filter fun v => v.1 == 97).map Prod.snd

/-- The number of passwords that `Generate` is asked for: `n` characters of which `d` are digits and `s` symbols, the letters in both cases if `mixed`,
and characters may repeat. -/
def asked (mixed : Bool) (n d s : Nat) : Nat := passwords true (if mixed then 52 else 26) 10 30 n d s

/-! ### Counting -/

/-- The words of a length over an alphabet. -/
theorem lists_card (C : Str) (hC : C.Nodup) : ∀ n : Nat, ∃ T : Finset Str, (∀ w, w ∈ T ↔ w.length = n ∧ ∀ c ∈ w, c ∈ C) ∧ T.card = C.length ^ n
  | 0 => ⟨{[]}, fun w => by
      rw [Finset.mem_singleton]
      constructor
      · rintro rfl; simp
      · rintro ⟨h, -⟩; exact List.length_eq_zero_iff.1 h, by simp⟩
  | n + 1 => by
    obtain ⟨T, hT, hc⟩ := lists_card C hC n
    refine ⟨(C.toFinset ×ˢ T).map ⟨fun x => x.1 :: x.2, ?_⟩, fun w => ?_, ?_⟩
    · rintro ⟨x1, x2⟩ ⟨y1, y2⟩ h
      injection h with h1 h2; subst h1; subst h2; rfl
    · simp only [Finset.mem_map, Finset.mem_product, List.mem_toFinset, Prod.exists, hT]
      constructor
      · rintro ⟨d, o', ⟨h1, h2, h3⟩, rfl⟩
        change (d :: o').length = n + 1 ∧ ∀ c ∈ d :: o', c ∈ C
        refine ⟨by rw [List.length_cons, h2], ?_⟩
        intro c hc
        rcases List.mem_cons.1 hc with rfl | hc
        · exact h1
        · exact h3 c hc
      · rintro ⟨h1, h2⟩
        cases w with
        | nil => simp at h1
        | cons d o => exact ⟨d, o, ⟨h2 d List.mem_cons_self, by simpa using h1, fun c hc => h2 c (List.mem_cons_of_mem _ hc)⟩, rfl⟩
    · rw [Finset.card_map, Finset.card_product, List.toFinset_card_of_nodup hC, hc, pow_succ, Nat.mul_comm]

/-- Words with numbers of letters, digits and symbols. -/
def Shape (mixed : Bool) (l d s : Nat) (v : Str) : Prop := (∀ c ∈ v, Any c) ∧ (lettersIn v).length = l ∧ (digitsIn v).length = d ∧ (symbolsIn v).length = s ∧
  (mixed = false → ∀ c ∈ v, ¬ IsUpper c)

theorem shape_conforms {mixed : Bool} {l d s : Nat} {v : Str} :
    Conforms defaultGenerator (l + d + s : Nat) d s (!mixed) true v ↔ Shape mixed l d s v := by
  rw [conforms_iff]
  constructor
  · rintro ⟨h1, h2, h3, h4, h5, -⟩
    obtain ⟨c1, c2, c3, c4⟩ := class_lengths v h1
    exact ⟨h1, by omega, by omega, by omega, fun h => h5 (by simp [h])⟩
  · rintro ⟨h1, h2, h3, h4, h5⟩
    obtain ⟨c1, c2, c3, c4⟩ := class_lengths v h1
    exact ⟨h1, by omega, by omega, by omega, fun h => h5 (by simpa using h), fun h => by simp at h⟩

theorem shape_card (mixed : Bool) (l d s : Nat) : ∃ All : Finset Str, (∀ v, v ∈ All ↔ Shape mixed l d s v) ∧ All.card = asked mixed (l + d + s) d s := by
  obtain ⟨e1, e2, e3, e4⟩ := default_fields
  have el : (defaultGenerator.letters (!mixed)).length = if mixed then 52 else 26 := by
    unfold Generator.letters
    rw [e1, e2]
    cases mixed <;> decide
  have ed : defaultGenerator.digits.length = 10 := by rw [e3]; decide
  have es : defaultGenerator.symbols.length = 30 := by rw [e4]; decide
  obtain ⟨All, hAll, hcard⟩ := C134_number defaultGenerator default_separate default_distinct (l + d + s) d s (by omega) (!mixed) true
  rw [el, ed, es] at hcard
  refine ⟨All, fun v => ?_, hcard⟩
  rw [hAll, shape_conforms]

theorem asked_pos (mixed : Bool) (n d s : Nat) (h : d + s ≤ n) : 0 < asked mixed n d s := by
  unfold asked passwords ways
  refine Nat.mul_pos (Nat.mul_pos (Nat.choose_pos (by omega)) (Nat.choose_pos (by omega))) ?_
  cases mixed <;> simp

/-- The first `p` letters (in lower case), the first `q` digits and all symbols of a word. -/
def shown (p q : Nat) (v : Str) : Str × Str × Str := (((lettersIn v).map lowerOf).take p, (digitsIn v).take q, symbolsIn v)

/-- The word with them replaced. -/
def reshow (p q : Nat) (t : Str × Str × Str) (v : Str) : Str :=
  weave v (t.1 ++ ((lettersIn v).map lowerOf).drop p) (t.2.1 ++ (digitsIn v).drop q) t.2.2

/-- What can be shown. -/
def Showable (p q s : Nat) (t : Str × Str × Str) : Prop :=
  (t.1.length = p ∧ ∀ c ∈ t.1, c ∈ allLower) ∧ (t.2.1.length = q ∧ ∀ c ∈ t.2.1, c ∈ allDigits) ∧ (t.2.2.length = s ∧ ∀ c ∈ t.2.2, c ∈ allSyms)

theorem lower_of_letters {pw : Str} : ∀ c ∈ (lettersIn pw).map lowerOf, IsLower c := by
  intro c hc
  obtain ⟨d, hd, rfl⟩ := List.mem_map.1 hc
  exact (lowerOf_letter d (of_lettersIn d hd)).1

theorem shown_showable {mixed : Bool} {l d s p q : Nat} (hp : p ≤ l) (hq : q ≤ d) {v : Str} (h : Shape mixed l d s v) : Showable p q s (shown p q v) := by
  obtain ⟨h1, h2, h3, h4, h5⟩ := h
  refine ⟨⟨?_, fun c hc => ?_⟩, ⟨?_, fun c hc => ?_⟩, h4, fun c hc => ?_⟩
  · simp only [shown, List.length_take, List.length_map]; omega
  · exact (pools_all c).1 (lower_of_letters c (List.mem_of_mem_take hc))
  · simp only [shown, List.length_take]; omega
  · exact (pools_all c).2.1 (of_digitsIn c (List.mem_of_mem_take hc))
  · exact (pools_all c).2.2 (of_symbolsIn c hc)

theorem reshow_spec {mixed : Bool} {l d s p q : Nat} (hp : p ≤ l) (hq : q ≤ d) {v : Str} (h : Shape mixed l d s v) {t : Str × Str × Str} (ht : Showable p q s t) :
    Shape mixed l d s (reshow p q t v) ∧ shown p q (reshow p q t v) = t ∧ reshow p q (shown p q v) (reshow p q t v) = v := by
  obtain ⟨h1, h2, h3, h4, h5⟩ := h
  obtain ⟨⟨t1, t2⟩, ⟨t3, t4⟩, t5, t6⟩ := ht
  obtain ⟨⟨-, -, p1⟩, ⟨-, -, p2⟩, -, -, p3⟩ := pools
  obtain ⟨w1, w2, w3, w4, w5, w6, w7⟩ := weave_spec v (t.1 ++ ((lettersIn v).map lowerOf).drop p)
    (t.2.1 ++ (digitsIn v).drop q) t.2.2 h1 (by
      intro c hc
      rcases List.mem_append.1 hc with hc | hc
      · exact p1 c (t2 c hc)
      · exact lower_of_letters c (List.mem_of_mem_drop hc)) (by
      intro c hc
      rcases List.mem_append.1 hc with hc | hc
      · exact p2 c (t4 c hc)
      · exact of_digitsIn c (List.mem_of_mem_drop hc)) (fun c hc => p3 c (t6 c hc))
      (by simp only [List.length_append, List.length_drop, List.length_map]; omega)
      (by simp only [List.length_append, List.length_drop]; omega) (by omega)
  have e : reshow p q t v = weave v (t.1 ++ ((lettersIn v).map lowerOf).drop p) (t.2.1 ++ (digitsIn v).drop q) t.2.2 := rfl
  rw [← e] at w1 w2 w3 w4 w5 w6 w7
  have l1 : (lettersIn (reshow p q t v)).length = (lettersIn v).length := by
    have := congrArg List.length w1
    simp only [List.length_append, List.length_drop, List.length_map] at this
    omega
  refine ⟨⟨w5, by omega, ?_, by rw [w3]; omega, fun hm => w6 (h5 hm)⟩, ?_, ?_⟩
  · rw [w2]; simp only [List.length_append, List.length_drop]; omega
  · unfold shown
    rw [w1, w2, w3, List.take_left' t1, List.take_left' t3]
  · rw [reshow, w1, w2]
    simp only [shown]
    rw [List.drop_left' t1, List.drop_left' t3, List.take_append_drop, List.take_append_drop]
    exact w7

/-- Of the words of a shape, the same number shows each possibility. -/
theorem fiber_card {mixed : Bool} {l d s p q : Nat} (hp : p ≤ l) (hq : q ≤ d) (All : Finset Str) (hAll : ∀ v, v ∈ All ↔ Shape mixed l d s v)
    (t : Str × Str × Str) (ht : Showable p q s t) : (All.filter fun v => shown p q v = t).card * (26 ^ p * 10 ^ q * 30 ^ s) = All.card := by
  obtain ⟨⟨n1, c1, -⟩, ⟨n2, c2, -⟩, n3, c3, -⟩ := pools
  obtain ⟨T1, m1, k1⟩ := lists_card allLower n1 p
  obtain ⟨T2, m2, k2⟩ := lists_card allDigits n2 q
  obtain ⟨T3, m3, k3⟩ := lists_card allSyms n3 s
  have mem : ∀ t, t ∈ T1 ×ˢ T2 ×ˢ T3 ↔ Showable p q s t := by
    intro t
    rw [Finset.mem_product, Finset.mem_product, m1, m2, m3]
    rfl
  have hc : All.card = ∑ t ∈ T1 ×ˢ T2 ×ˢ T3, (All.filter fun v => shown p q v = t).card :=
    Finset.card_eq_sum_card_fiberwise fun v hv => (mem _).2 (shown_showable hp hq ((hAll v).1 hv))
  have same : ∀ t' ∈ T1 ×ˢ T2 ×ˢ T3, (All.filter fun v => shown p q v = t').card = (All.filter fun v => shown p q v = t).card := by
    intro t' ht'
    rw [mem] at ht'
    have go : ∀ {t t' : Str × Str × Str}, Showable p q s t → ∀ v ∈ All.filter fun v => shown p q v = t',
        reshow p q t v ∈ (All.filter fun v => shown p q v = t) ∧ reshow p q t' (reshow p q t v) = v := by
      intro t t' ht v hv
      obtain ⟨hA, rfl⟩ := Finset.mem_filter.1 hv
      obtain ⟨r1, r2, r3⟩ := reshow_spec hp hq ((hAll v).1 hA) ht
      exact ⟨Finset.mem_filter.2 ⟨(hAll _).2 r1, r2⟩, r3⟩
    exact Finset.card_bij' (fun v _ => reshow p q t v) (fun v _ => reshow p q t' v) (fun v h => (go ht v h).1) (fun v h => (go ht' v h).1)
      (fun v h => (go ht v h).2) (fun v h => (go ht' v h).2)
  rw [hc, Finset.sum_congr rfl same, Finset.sum_const, Finset.card_product, Finset.card_product, k1, k2, k3, c1, c2, c3, nsmul_eq_mul, Nat.cast_id]
  ring

/-! ### The texts of a form -/

theorem asked_shape {a : GenerateCmd} (hu : a.unique = false) {f pw : Str} : Asked a f pw ↔
    Shape a.mixed (f.count 120 + f.count 88 + (f.count 97 - f.count 97 / 3)) (f.count 110 + f.count 97 / 3) (f.count 115) pw := by
  rw [← shape_conforms]
  unfold Asked
  rw [hu, show f.count 120 + f.count 88 + (f.count 97 - f.count 97 / 3) + (f.count 110 + f.count 97 / 3) + f.count 115 =
    f.count 120 + f.count 88 + f.count 110 + f.count 115 + f.count 97 by omega]
  rfl

/-- The probability of a text, as a number of passwords. -/
theorem form_prob_count (a : GenerateCmd) (f : Str) (hf : a.form = some f) (hu : a.unique = false) (fuel : Nat) (hfuel : 0 < fuel) :
    ∃ All : Finset Str, (∀ pw, pw ∈ All ↔ Asked a f pw) ∧
      All.card = asked a.mixed (f.count 120 + f.count 88 + f.count 110 + f.count 115 + f.count 97) (f.count 110 + f.count 97 / 3) (f.count 115) ∧
      ∀ out, (a.prog fuel).prob out = (All.filter fun pw => filled f pw = out).card / All.card := by
  obtain ⟨e1, e2, e3, e4⟩ := default_fields
  have el : (defaultGenerator.letters (!a.mixed)).length = if a.mixed then 52 else 26 := by
    unfold Generator.letters
    rw [e1, e2]
    cases a.mixed <;> decide
  have ed : defaultGenerator.digits.length = 10 := by rw [e3]; decide
  have es : defaultGenerator.symbols.length = 30 := by rw [e4]; decide
  obtain ⟨All, hAll, hcard⟩ := C134_number defaultGenerator default_separate default_distinct
    (f.count 120 + f.count 88 + f.count 110 + f.count 115 + f.count 97) (f.count 110 + f.count 97 / 3) (f.count 115) (by omega) (!a.mixed) true
  rw [el, ed, es] at hcard
  have hA : ∀ pw, pw ∈ All ↔ Asked a f pw := by
    intro pw
    rw [hAll]
    unfold Asked
    rw [hu]
    rfl
  set G := generate fuel (f.count 120 + f.count 88 + f.count 110 + f.count 115 + f.count 97 : Nat) (f.count 110 + f.count 97 / 3 : Nat) (f.count 115 : Nat)
    (!a.mixed) true with hG
  have hpr : ∀ pw, G.prob pw = if pw ∈ All then 1 / (All.card : ℚ) else 0 := by
    intro pw
    split
    · rename_i h
      have := C134_probability defaultGenerator default_ascii default_separate default_distinct fuel hfuel _ _ _ _ _ pw ((hAll pw).1 h)
      rw [el, ed, es, ← hcard] at this
      rw [← sure_done G (sure_generate fuel hfuel _ _ _ _ (by omega))]
      exact this
    · rename_i h
      apply prob_zero
      intro hc
      exact h ((hAll pw).2 (can_conforms default_ascii default_separate (by omega) (by omega) hc))
  refine ⟨All, hA, hcard, fun out => ?_⟩
  have hp : (a.prog fuel).prob out = G.expect fun pw => if fillForm f (split pw).1 (split pw).2.1 (split pw).2.2 pw = some out then 1 else 0 := by
    unfold Prog.prob GenerateCmd.prog
    simp only [hf, formRequest_eq, hu, Bool.not_false]
    rw [expect_bind]
    change G.expect _ = _
    congr 1
    funext pw
    cases h : fillForm f (split pw).1 (split pw).2.1 (split pw).2.2 pw with
    | none => simp [Prog.expect]
    | some o => simp [Prog.expect]
  rw [hp, expect_support G _ (support G ∪ All) Finset.subset_union_left,
    ← Finset.sum_subset (Finset.subset_union_right (s₁ := support G) (s₂ := All)) fun pw _ hno => by rw [hpr, if_neg hno, zero_mul],
    Finset.card_eq_sum_ones, Nat.cast_sum, Finset.sum_div, Finset.sum_filter]
  refine Finset.sum_congr rfl fun pw hpw => ?_
  rw [hpr, if_pos hpw, fill_filled f ((hA pw).1 hpw)]
  simp

/-- Two passwords give the same text if they agree in what the form shows of them. -/
theorem filled_eq_iff {a : GenerateCmd} {f pw pw' : Str} (h : Asked a f pw) (h' : Asked a f pw') : filled f pw = filled f pw' ↔
    shown (f.count 120 + f.count 88) (f.count 110) pw = shown (f.count 120 + f.count 88) (f.count 110) pw' ∧ pw.take (f.count 97) = pw'.take (f.count 97) := by
  obtain ⟨l1, l2, l3, l4⟩ := conforms_lengths f h
  obtain ⟨m1, m2, m3, m4⟩ := conforms_lengths f h'
  have lift : ∀ {x y : Str} {n : Nat}, n ≤ x.length → n ≤ y.length → (x.take n = y.take n ↔ ∀ k < n, x[k]? = y[k]?) := by
    intro x y n hx hy
    constructor
    · intro e k hk
      have := congrArg (fun l : Str => l[k]?) e
      simpa [List.getElem?_take, hk] using this
    · intro e
      apply List.ext_getElem?
      intro k
      rw [List.getElem?_take, List.getElem?_take]
      split
      · exact e k ‹_›
      · rfl
  have vals : filled f pw = filled f pw' ↔ ∀ i ∈ slotPos f, slotVal f pw i = slotVal f pw' i := by
    constructor
    · intro e
      have s1 := slots_filled h
      have s2 := slots_filled h'
      rw [e] at s1
      have := slots_unique s1 s2
      intro i hi
      have := List.map_inj_left.1 this i hi
      simpa using this
    · intro e
      unfold filled
      apply List.flatMap_congr
      intro i hi
      rw [List.mem_range] at hi
      by_cases hs : f.getD i 0 ∈ lit "xXnsa"
      · have := e i (slotPos_mem.2 ⟨hi, hs⟩)
        unfold slotVal at this
        obtain ⟨a1, a2, a3, a4, a5⟩ := slot_values h hi
        obtain ⟨b1, b2, b3, b4, b5⟩ := slot_values h' hi
        rcases slot_cases hs with hc | hc | hc | hc | hc
        · obtain ⟨d, -, e1⟩ := a1 hc; obtain ⟨d', -, e2⟩ := b1 hc; rw [e1, e2] at this ⊢; simpa using this
        · obtain ⟨d, -, e1⟩ := a2 hc; obtain ⟨d', -, e2⟩ := b2 hc; rw [e1, e2] at this ⊢; simpa using this
        · obtain ⟨d, -, e1⟩ := a3 hc; obtain ⟨d', -, e2⟩ := b3 hc; rw [e1, e2] at this ⊢; simpa using this
        · obtain ⟨d, -, e1⟩ := a4 hc; obtain ⟨d', -, e2⟩ := b4 hc; rw [e1, e2] at this ⊢; simpa using this
        · obtain ⟨d, -, e1⟩ := a5 hc; obtain ⟨d', -, e2⟩ := b5 hc; rw [e1, e2] at this ⊢; simpa using this
      · rw [placed_other hs, placed_other hs]
  have hsym : symbolsIn pw = symbolsIn pw' ↔ (symbolsIn pw).take (f.count 115) = (symbolsIn pw').take (f.count 115) := by
    rw [List.take_of_length_le (by omega), List.take_of_length_le (by omega)]
  have hlet : ∀ {k : Nat} {d d' : UInt8}, (lettersIn pw)[k]? = some d → (lettersIn pw')[k]? = some d' →
      (((lettersIn pw).map lowerOf)[k]? = ((lettersIn pw').map lowerOf)[k]? ↔ lowerOf d = lowerOf d') := by
    intro k d d' e1 e2
    rw [List.getElem?_map, List.getElem?_map, e1, e2]
    simp
  have hup : ∀ {d d' : UInt8}, (IsLower d ∨ IsUpper d) → (IsLower d' ∨ IsUpper d') → (upperOf d = upperOf d' ↔ lowerOf d = lowerOf d') := by
    intro d d' hd hd'
    have k : ∀ c : UInt8, IsLower c ∨ IsUpper c → upperOf (lowerOf c) = upperOf c :=
      byte_forall (fun c => IsLower c ∨ IsUpper c → upperOf (lowerOf c) = upperOf c) (by decide +kernel)
    constructor
    · intro e
      rw [← (lowerOf_letter d hd).2.2, e, (lowerOf_letter d' hd').2.2]
    · intro e
      rw [← k d hd, e, k d' hd']
  rw [vals]
  unfold shown
  rw [Prod.mk.injEq, Prod.mk.injEq, hsym, lift (by simp; omega) (by simp; omega), lift (by omega) (by omega), lift (by omega) (by omega),
    lift (by omega) (by omega)]
  constructor
  · intro e
    refine ⟨⟨fun k hk => ?_, fun k hk => ?_, fun k hk => ?_⟩, fun k hk => ?_⟩
    · have hk' : k < (f.filter fun c => c == 120 || c == 88).length := by
        have : ∀ f : Str, (f.filter fun c => c == 120 || c == 88).length = f.count 120 + f.count 88 := by
          intro f
          induction f with
          | nil => rfl
          | cons c f ih =>
            rw [List.filter_cons, List.count_cons, List.count_cons]
            by_cases h1 : c = 120
            · subst h1; simp [ih]; omega
            · by_cases h2 : c = 88
              · subst h2; simp [ih]; omega
              · simp [h1, h2, ih]
        rw [this]; exact hk
      obtain ⟨i, hi, hc, hn⟩ := exists_letter f _ k (List.getElem?_eq_getElem hk')
      have hm := List.getElem_mem hk'
      rw [← hc, List.mem_filter] at hm
      obtain ⟨a1, a2, -⟩ := slot_val h hi
      obtain ⟨b1, b2, -⟩ := slot_val h' hi
      have hcase : f.getD i 0 = 120 ∨ f.getD i 0 = 88 := by simpa using hm.2
      rcases hcase with hc | hc
      · obtain ⟨d, e1, e2⟩ := a1 hc
        obtain ⟨d', e1', e2'⟩ := b1 hc
        rw [hn] at e1 e1'
        rw [hlet e1 e1', ← e2, ← e2']
        exact e i (slotPos_mem.2 ⟨hi, by rw [hc]; decide⟩)
      · obtain ⟨d, e1, e2⟩ := a2 hc
        obtain ⟨d', e1', e2'⟩ := b2 hc
        rw [hn] at e1 e1'
        rw [hlet e1 e1', ← hup (in_letters e1).2 (in_letters e1').2, ← e2, ← e2']
        exact e i (slotPos_mem.2 ⟨hi, by rw [hc]; decide⟩)
    · obtain ⟨i, hi, hc, hn⟩ := exists_pos f 110 k hk
      have := (slot_val h hi).2.2.1 hc
      have h2 := (slot_val h' hi).2.2.1 hc
      rw [hn] at this h2
      rw [this, h2, e i (slotPos_mem.2 ⟨hi, by rw [hc]; decide⟩)]
    · obtain ⟨i, hi, hc, hn⟩ := exists_pos f 115 k hk
      have := (slot_val h hi).2.2.2.1 hc
      have h2 := (slot_val h' hi).2.2.2.1 hc
      rw [hn] at this h2
      rw [this, h2, e i (slotPos_mem.2 ⟨hi, by rw [hc]; decide⟩)]
    · obtain ⟨i, hi, hc, hn⟩ := exists_pos f 97 k hk
      have := (slot_val h hi).2.2.2.2 hc
      have h2 := (slot_val h' hi).2.2.2.2 hc
      rw [hn] at this h2
      rw [this, h2, e i (slotPos_mem.2 ⟨hi, by rw [hc]; decide⟩)]
  · rintro ⟨⟨q1, q2, q3⟩, q4⟩ i hi
    obtain ⟨hi, hs⟩ := slotPos_mem.1 hi
    obtain ⟨a1, a2, a3, a4, a5⟩ := slot_val h hi
    obtain ⟨b1, b2, b3, b4, b5⟩ := slot_val h' hi
    rcases slot_cases hs with hc | hc | hc | hc | hc
    · obtain ⟨d, e1, e2⟩ := a1 hc
      obtain ⟨d', e1', e2'⟩ := b1 hc
      rw [e2, e2', ← hlet e1 e1']
      have := count_take_lt hi hc
      have := count_take_le f i 88
      exact q1 _ (by omega)
    · obtain ⟨d, e1, e2⟩ := a2 hc
      obtain ⟨d', e1', e2'⟩ := b2 hc
      rw [e2, e2', hup (in_letters e1).2 (in_letters e1').2, ← hlet e1 e1']
      have := count_take_lt hi hc
      have := count_take_le f i 120
      exact q1 _ (by omega)
    · have := q2 _ (count_take_lt hi hc)
      rw [a3 hc, b3 hc] at this
      simpa using this
    · have := q3 _ (count_take_lt hi hc)
      rw [a4 hc, b4 hc] at this
      simpa using this
    · have := q4 _ (count_take_lt hi hc)
      rw [a5 hc, b5 hc] at this
      simpa using this

theorem forA_from (pw : Str) : ∀ (f pre : Str), (pre ++ f).count 97 ≤ pw.length →
    (((List.range f.length).filter fun i => f.getD i 0 == 97).map fun i => (placed pw (pre ++ f.take i) (f.getD i 0)).headD 0) =
      (pw.drop (pre.count 97)).take (f.count 97)
  | [], pre, _ => by simp
  | c :: f, pre, h => by
    have ih := forA_from pw f (pre ++ [c]) (by simpa using h)
    have e : ((List.range f.length).filter fun i => (c :: f).getD (i + 1) 0 == 97).map (fun i => (placed pw (pre ++ (c :: f).take (i + 1)) ((c :: f).getD (i + 1) 0)).headD 0) =
        ((List.range f.length).filter fun i => f.getD i 0 == 97).map fun i => (placed pw ((pre ++ [c]) ++ f.take i) (f.getD i 0)).headD 0 := by
      simp
    rw [List.length_cons, List.range_succ_eq_map, List.filter_cons, List.filter_map]
    simp only [Function.comp_def, Nat.succ_eq_add_one]
    by_cases hc : c = 97
    · subst hc
      rw [if_pos (by simp), List.map_cons, List.map_map]
      simp only [Function.comp_def]
      rw [e, ih]
      rw [List.count_append, List.count_cons_self] at h
      have hk : pre.count 97 < pw.length := by omega
      have hp : placed pw pre 97 = [pw[pre.count 97]] := by
        unfold placed
        rw [if_neg (by decide), if_neg (by decide), if_neg (by decide), if_neg (by decide), if_pos (by decide), List.getElem?_eq_getElem hk]
        rfl
      rw [List.count_cons_self, ← List.getElem_cons_drop (h := hk), List.take_succ_cons]
      simp [hp]
    · rw [if_neg (by simpa using hc), List.map_map]
      simp only [Function.comp_def]
      rw [e, ih, List.count_cons_of_ne hc, List.count_append, List.count_cons_of_ne hc]
      simp

/-- What is printed for the `a` is the beginning of the password. -/
theorem forA_eq {a : GenerateCmd} {f pw : Str} (h : Asked a f pw) {vs : List (UInt8 × UInt8)} (hs : Slots f (filled f pw) vs) :
    printedForA vs = pw.take (f.count 97) := by
  obtain ⟨l1, l2, l3, l4⟩ := conforms_lengths f h
  rw [slots_unique hs (slots_filled h)]
  have := forA_from pw f [] (by simpa using l4)
  simp only [List.nil_append, List.count_nil, List.drop_zero] at this
  rw [← this]
  unfold printedForA slotPos slotVal
  rw [List.filter_map, List.filter_filter, List.map_map]
  simp only [Function.comp_def]
  congr 1
  apply List.filter_congr
  intro i _
  generalize f.getD i 0 = c
  by_cases hc : c = 97
  · rw [hc]; decide
  · rw [show (c == 97) = false by simpa using hc]; rfl

theorem arith (c x1 x2 x3 x4 : ℚ) (h1 : x1 ≠ 0) (h2 : x2 ≠ 0) (h3 : x3 ≠ 0) (h4 : x4 ≠ 0) :
    c / x4 = c * (x1 * x2 * x3) / x4 * (1 / x1) * (1 / x2) * (1 / x3) := by
  field_simp

/-- **C135** The probability of a text that may be printed for a form (without `--unique`). With `w` the characters printed for the `a`: the part of the
passwords that begin with `w` and, independently, each of the letters, digits and symbols that are not shown by `w` already. -/
theorem C135_probability (a : GenerateCmd) (f : Str) (hf : a.form = some f) (hu : a.unique = false) (fuel : Nat) (hfuel : 0 < fuel) (out : Str)
    (hp : ∃ stream, a.run fuel stream = .ok out) (vs : List (UInt8 × UInt8)) (hs : Slots f out vs) :
    let w := printedForA vs
    let letters := f.count 120 + f.count 88
    let digits := f.count 110
    let symbols := f.count 115
    let alphas := f.count 97
    (a.prog fuel).prob out =
      asked a.mixed (letters + digits + symbols) (digits + alphas / 3 - (digitsIn w).length) (symbols - (symbolsIn w).length) /
        asked a.mixed (letters + digits + symbols + alphas) (digits + alphas / 3) symbols *
      (1 / 26) ^ (letters - (lettersIn w).length) * (1 / 10) ^ (digits - (digitsIn w).length) * (1 / 30) ^ (symbols - (symbolsIn w).length) := by
  intro w p q s k
  obtain ⟨All, hAll, hcard, hprob⟩ := form_prob_count a f hf hu fuel hfuel
  obtain ⟨pw₀, hA₀, rfl⟩ := (run_iff a f hf fuel hfuel out).1 hp
  have hw : w = pw₀.take k := forA_eq hA₀ hs
  have hsh := (asked_shape hu).1 hA₀
  obtain ⟨g1, g2, g3, g4, g5⟩ := hsh
  have hl4 := (conforms_lengths f hA₀).2.2.2
  have hsplit : pw₀ = w ++ pw₀.drop k := by rw [hw, List.take_append_drop]
  obtain ⟨i1, i2, i3⟩ := in_app w (pw₀.drop k)
  rw [← hsplit] at i1 i2 i3
  have j1 := congrArg List.length i1
  have j2 := congrArg List.length i2
  have j3 := congrArg List.length i3
  rw [List.length_append] at j1 j2 j3
  have hwany : ∀ c ∈ w, Any c := fun c hc => g1 c (by rw [hsplit]; exact List.mem_append_left _ hc)
  have hwlen : (lettersIn w).length + (digitsIn w).length + (symbolsIn w).length = k := by
    rw [(class_lengths w hwany).2.2.2, hw, List.length_take]; omega
  obtain ⟨V, hV, hVc⟩ := shape_card a.mixed (p + (k - k / 3) - (lettersIn w).length) (q + k / 3 - (digitsIn w).length) (s - (symbolsIn w).length)
  have hv₀ : Shape a.mixed (p + (k - k / 3) - (lettersIn w).length) (q + k / 3 - (digitsIn w).length) (s - (symbolsIn w).length) (pw₀.drop k) := by
    refine ⟨fun c hc => g1 c (List.mem_of_mem_drop hc), ?_, ?_, ?_, fun hm c hc => g5 hm c (List.mem_of_mem_drop hc)⟩ <;> omega
  have hfib := fiber_card (p := p - (lettersIn w).length) (q := q - (digitsIn w).length) (by omega) (by omega) V hV _ (shown_showable (by omega) (by omega) hv₀)
  have hbij : (All.filter fun pw => filled f pw = filled f pw₀).card =
      (V.filter fun v => shown (p - (lettersIn w).length) (q - (digitsIn w).length) v =
        shown (p - (lettersIn w).length) (q - (digitsIn w).length) (pw₀.drop k)).card := by
    have key : ∀ v : Str, w ++ v ∈ All.filter (fun pw => filled f pw = filled f pw₀) ↔ v ∈ V.filter (fun v =>
        shown (p - (lettersIn w).length) (q - (digitsIn w).length) v = shown (p - (lettersIn w).length) (q - (digitsIn w).length) (pw₀.drop k)) := by
      intro v
      obtain ⟨o1, o2, o3⟩ := in_app w v
      have q1 := congrArg List.length o1
      have q2 := congrArg List.length o2
      have q3 := congrArg List.length o3
      rw [List.length_append] at q1 q2 q3
      have hiff : Asked a f (w ++ v) ↔ v ∈ V := by
        rw [hV, asked_shape hu]
        constructor
        · rintro ⟨x1, x2, x3, x4, x5⟩
          refine ⟨fun c hc => x1 c (List.mem_append_right _ hc), ?_, ?_, ?_, fun hm c hc => x5 hm c (List.mem_append_right _ hc)⟩ <;> omega
        · rintro ⟨x1, x2, x3, x4, x5⟩
          refine ⟨fun c hc => ?_, by omega, by omega, by omega, fun hm c hc => ?_⟩
          · rcases List.mem_append.1 hc with hc | hc
            · exact hwany c hc
            · exact x1 c hc
          · rcases List.mem_append.1 hc with hc | hc
            · exact g5 hm c (by rw [hsplit]; exact List.mem_append_left _ hc)
            · exact x5 hm c hc
      rw [Finset.mem_filter, Finset.mem_filter, hAll, hiff]
      refine and_congr_right fun hv => ?_
      rw [filled_eq_iff (hiff.2 hv) hA₀]
      have t1 : (w ++ v).take k = pw₀.take k := by
        rw [← hw]
        exact List.take_left' (by rw [hw, List.length_take]; omega)
      unfold shown
      rw [o1, o2, o3, i1, i2, i3]
      simp only [List.map_append, List.take_append, List.length_map, Prod.mk.injEq, List.append_cancel_left_eq]
      exact ⟨fun h => h.1, fun h => ⟨h, by rw [← List.take_append]; exact t1⟩⟩
    refine Finset.card_bij' (fun pw _ => pw.drop k) (fun v _ => w ++ v) (fun pw hpw => ?_) (fun v hv => (key v).2 hv) (fun pw hpw => ?_) (fun v hv => ?_)
    all_goals try
      have hpre : w ++ pw.drop k = pw := by
        obtain ⟨h1, h2⟩ := Finset.mem_filter.1 hpw
        rw [hw, ← ((filled_eq_iff ((hAll _).1 h1) hA₀).1 h2).2, List.take_append_drop]
    · rw [← key, hpre]; exact hpw
    · exact hpre
    · exact List.drop_left' (by rw [hw, List.length_take]; omega)
  have hpos : 0 < All.card := Finset.card_pos.2 ⟨pw₀, (hAll _).2 hA₀⟩
  rw [hprob, hbij, hcard]
  rw [hVc] at hfib
  have e1 : p + (k - k / 3) - (lettersIn w).length + (q + k / 3 - (digitsIn w).length) + (s - (symbolsIn w).length) = p + q + s := by omega
  have e2 : f.count 120 + f.count 88 + f.count 110 + f.count 115 + f.count 97 = p + q + s + k := rfl
  rw [e1] at hfib
  rw [hcard] at hpos
  rw [← hfib]
  push_cast
  have hne : ((asked a.mixed (p + q + s + k) (q + k / 3) s : Nat) : ℚ) ≠ 0 := by
    rw [e2] at hpos
    exact_mod_cast Nat.pos_iff_ne_zero.1 hpos
  rw [e2, one_div_pow, one_div_pow, one_div_pow]
  have h1 : (26 : ℚ) ^ (p - (lettersIn w).length) ≠ 0 := by positivity
  have h2 : (10 : ℚ) ^ (q - (digitsIn w).length) ≠ 0 := by positivity
  have h3 : (30 : ℚ) ^ (s - (symbolsIn w).length) ≠ 0 := by positivity
  exact arith _ _ _ _ _ h1 h2 h3 hne

/-- **C135** A text that cannot be printed has probability 0. -/
theorem C135_others (a : GenerateCmd) (f : Str) (hf : a.form = some f) (hu : a.unique = false) (fuel : Nat) (hfuel : 0 < fuel) (out : Str)
    (hp : ¬ ∃ stream, a.run fuel stream = .ok out) : (a.prog fuel).prob out = 0 := by
  obtain ⟨All, hAll, hcard, hprob⟩ := form_prob_count a f hf hu fuel hfuel
  rw [hprob]
  have : All.filter (fun pw => filled f pw = out) = ∅ := by
    rw [Finset.eq_empty_iff_forall_notMem]
    intro pw hpw
    obtain ⟨h1, h2⟩ := Finset.mem_filter.1 hpw
    exact hp ((run_iff a f hf fuel hfuel out).2 ⟨pw, (hAll pw).1 h1, h2.symm⟩)
  rw [this]
  simp

/-- **C135** Whatever the form, no text is more likely than by choosing every `x` and `X` among 26 letters, every `n` among 10 digits and every `s` among 30
symbols independently, and leaving out the `a`. -/
theorem C135_bound (a : GenerateCmd) (f : Str) (hf : a.form = some f) (hu : a.unique = false) (fuel : Nat) (hfuel : 0 < fuel) (out : Str) :
    (a.prog fuel).prob out ≤ (1 / 26) ^ (f.count 120 + f.count 88) * (1 / 10) ^ f.count 110 * (1 / 30) ^ f.count 115 := by
  by_cases hp : ∃ stream, a.run fuel stream = .ok out
  · obtain ⟨All, hAll, hcard, hprob⟩ := form_prob_count a f hf hu fuel hfuel
    obtain ⟨pw₀, hA₀, rfl⟩ := (run_iff a f hf fuel hfuel out).1 hp
    have hAll' : ∀ pw, pw ∈ All ↔ Shape a.mixed (f.count 120 + f.count 88 + (f.count 97 - f.count 97 / 3)) (f.count 110 + f.count 97 / 3) (f.count 115) pw := by
      intro pw; rw [hAll, asked_shape hu]
    have hfib := fiber_card (p := f.count 120 + f.count 88) (q := f.count 110) (by omega) (by omega) All hAll' _
      (shown_showable (by omega) (by omega) ((asked_shape hu).1 hA₀))
    have hle : (All.filter fun pw => filled f pw = filled f pw₀).card ≤
        (All.filter fun v => shown (f.count 120 + f.count 88) (f.count 110) v = shown (f.count 120 + f.count 88) (f.count 110) pw₀).card := by
      apply Finset.card_le_card
      intro pw hpw
      obtain ⟨h1, h2⟩ := Finset.mem_filter.1 hpw
      exact Finset.mem_filter.2 ⟨h1, ((filled_eq_iff ((hAll _).1 h1) hA₀).1 h2).1⟩
    have hpos : 0 < All.card := Finset.card_pos.2 ⟨pw₀, (hAll _).2 hA₀⟩
    rw [hprob, one_div_pow, one_div_pow, one_div_pow, one_div_mul_one_div, one_div_mul_one_div, div_le_div_iff₀ (by exact_mod_cast hpos) (by positivity), one_mul]
    rw [← hfib]
    push_cast
    exact mul_le_mul_of_nonneg_right (by exact_mod_cast hle) (by positivity)
  · rw [C135_others a f hf hu fuel hfuel out hp]
    positivity

/-- **C135** Who tries any number of texts finds the printed one with at most that many times this probability. -/
theorem C135_guessing (a : GenerateCmd) (f : Str) (hf : a.form = some f) (hu : a.unique = false) (fuel : Nat) (hfuel : 0 < fuel) (guesses : Finset Str) :
    ∑ out ∈ guesses, (a.prog fuel).prob out ≤
      guesses.card * ((1 / 26) ^ (f.count 120 + f.count 88) * (1 / 10) ^ f.count 110 * (1 / 30) ^ f.count 115) := by
  calc _ ≤ ∑ _o ∈ guesses, ((1 / 26 : ℚ) ^ (f.count 120 + f.count 88) * (1 / 10) ^ f.count 110 * (1 / 30) ^ f.count 115) :=
        Finset.sum_le_sum fun out _ => C135_bound a f hf hu fuel hfuel out
    _ = _ := by rw [Finset.sum_const, nsmul_eq_mul]

/-- What is printed for the `a` comes from the password. -/
theorem forA_lengths {a : GenerateCmd} {f pw : Str} (h : Asked a f pw) {vs : List (UInt8 × UInt8)} (hs : Slots f (filled f pw) vs) :
    (lettersIn (printedForA vs)).length + (digitsIn (printedForA vs)).length + (symbolsIn (printedForA vs)).length = f.count 97 ∧
    (digitsIn (printedForA vs)).length ≤ f.count 110 + f.count 97 / 3 ∧ (symbolsIn (printedForA vs)).length ≤ f.count 115 ∧
    (f.count 120 + f.count 88 + f.count 110 + f.count 115 = 0 → (digitsIn (printedForA vs)).length = f.count 97 / 3) := by
  obtain ⟨l1, l2, l3, l4⟩ := conforms_lengths f h
  rw [forA_eq h hs]
  obtain ⟨i1, i2, i3⟩ := in_app (pw.take (f.count 97)) (pw.drop (f.count 97))
  rw [List.take_append_drop] at i1 i2 i3
  have j1 := congrArg List.length i1
  have j2 := congrArg List.length i2
  have j3 := congrArg List.length i3
  rw [List.length_append] at j1 j2 j3
  have := (class_lengths (pw.take (f.count 97)) fun c hc => conforms_any h c (List.mem_of_mem_take hc)).2.2.2
  rw [List.length_take] at this
  have h5 := (class_lengths pw (conforms_any h)).2.2.2
  refine ⟨by omega, by omega, by omega, fun h0 => ?_⟩
  rw [List.take_of_length_le (by omega)]
  omega

theorem asked_none (mixed : Bool) : asked mixed 0 0 0 = 1 := by cases mixed <;> decide

/-- **C135** For a form with only `a` (and separators), `k` of them, every text that may be printed has the same probability: `k/3` of the places are those of
the digits, the others those of the letters. -/
theorem C135_only_a (a : GenerateCmd) (f : Str) (hf : a.form = some f) (hu : a.unique = false) (h0 : ∀ c ∈ lit "xXns", c ∉ f) (fuel : Nat) (hfuel : 0 < fuel)
    (out : Str) (hp : ∃ stream, a.run fuel stream = .ok out) :
    (a.prog fuel).prob out = 1 / (((f.count 97).choose (f.count 97 / 3) *
      ((if a.mixed then 52 else 26) ^ (f.count 97 - f.count 97 / 3) * 10 ^ (f.count 97 / 3)) : Nat) : ℚ) := by
  have z : ∀ c ∈ lit "xXns", f.count c = 0 := fun c hc => List.count_eq_zero_of_not_mem (h0 c hc)
  have z1 := z 120 (by decide)
  have z2 := z 88 (by decide)
  have z3 := z 110 (by decide)
  have z4 := z 115 (by decide)
  obtain ⟨pw, hA, e⟩ := (run_iff a f hf fuel hfuel out).1 hp
  obtain ⟨vs, hs⟩ : ∃ vs, Slots f out vs := ⟨_, by rw [e]; exact slots_filled hA⟩
  have hP := C135_probability a f hf hu fuel hfuel out hp vs hs
  subst e
  obtain ⟨b1, b2, b3, b4⟩ := forA_lengths hA hs
  have b5 := b4 (by omega)
  simp only [z1, z2, z3, z4, b5, Nat.zero_add, Nat.add_zero, Nat.zero_sub, Nat.sub_self, pow_zero, mul_one, asked_none, Nat.cast_one] at hP
  rw [hP]
  unfold asked passwords ways
  simp

/-- **C135** A form may be much easier to guess than it looks: with one or two `a`, without `n` and `s`, and without `--mixed`, the `a` repeat the first
letters, so that only as many letters are chosen as there are `x` and `X`, or `a`, whichever are more. -/
theorem C135_repeats (a : GenerateCmd) (f : Str) (hf : a.form = some f) (hu : a.unique = false) (hm : a.mixed = false) (h0 : ∀ c ∈ lit "ns", c ∉ f)
    (h2 : f.count 97 ≤ 2) (fuel : Nat) (hfuel : 0 < fuel) (out : Str) (hp : ∃ stream, a.run fuel stream = .ok out) :
    (a.prog fuel).prob out = (1 / 26) ^ max (f.count 120 + f.count 88) (f.count 97) := by
  have z : ∀ c ∈ lit "ns", f.count c = 0 := fun c hc => List.count_eq_zero_of_not_mem (h0 c hc)
  have z3 := z 110 (by decide)
  have z4 := z 115 (by decide)
  have z5 : f.count 97 / 3 = 0 := by omega
  obtain ⟨pw, hA, e⟩ := (run_iff a f hf fuel hfuel out).1 hp
  obtain ⟨vs, hs⟩ : ∃ vs, Slots f out vs := ⟨_, by rw [e]; exact slots_filled hA⟩
  have hP := C135_probability a f hf hu fuel hfuel out hp vs hs
  subst e
  obtain ⟨b1, b2, b3, -⟩ := forA_lengths hA hs
  have b6 : (digitsIn (printedForA vs)).length = 0 := by omega
  have b7 : (symbolsIn (printedForA vs)).length = 0 := by omega
  have b8 : (lettersIn (printedForA vs)).length = f.count 97 := by omega
  have ask : ∀ n, asked false n 0 0 = 26 ^ n := by intro n; unfold asked passwords ways; simp
  simp only [z3, z4, z5, b6, b7, b8, hm, ask, Nat.add_zero, Nat.sub_self, pow_zero, mul_one] at hP
  rw [hP]
  generalize f.count 120 + f.count 88 = p
  generalize f.count 97 = k
  push_cast
  rw [pow_add, div_mul_eq_div_div, div_self (by positivity), ← one_div_pow, ← pow_add]
  congr 1
  omega

/-- **C135** For the form `xa` the same letter is printed twice: 26 texts instead of 26 times 36. -/
theorem C135_counterexample (fuel : Nat) (stream out : Str) (h : GenerateCmd.run ⟨0, 0, 0, false, false, some (lit "xa")⟩ fuel stream = .ok out) :
    ∃ c, IsLower c ∧ out = [c, c] := by
  obtain ⟨pw, hA, rfl⟩ := run_asked ⟨0, 0, 0, false, false, some (lit "xa")⟩ (lit "xa") rfl h
  obtain ⟨g1, g2, g3, g4, g5⟩ := (asked_shape rfl).1 hA
  rw [show lit "xa" = [120, 97] by decide] at *
  simp at g2 g3 g4 g5
  have hlen := (class_lengths pw g1).2.2.2
  rw [show digitsIn pw = [] from g3, show symbolsIn pw = [] from g4, g2] at hlen
  match pw, hlen with
  | [c, d], _ =>
    have hc : IsLower c := by
      rcases g1 c (by simp) with h | h | h | h
      · exact h
      · exact absurd h (g5 c (by simp))
      · have : c ∈ digitsIn [c, d] := List.mem_filter.2 ⟨by simp, by simpa using h⟩
        rw [g3] at this; cases this
      · have : c ∈ symbolsIn [c, d] := List.mem_filter.2 ⟨by simp, by simpa using h⟩
        rw [g4] at this; cases this
    refine ⟨c, hc, ?_⟩
    have hl : (lettersIn [c, d])[0]? = some c := by rw [letters_cons, if_pos (.inl hc)]; rfl
    unfold filled
    rw [show List.range ([120, 97] : Str).length = [0, 1] by decide]
    simp only [List.flatMap_cons, List.flatMap_nil, List.append_nil]
    have p1 : placed [c, d] [] 120 = [c] := by
      unfold placed
      rw [if_pos (by decide)]
      simp [hl, lower_fixed c hc]
    have p2 : placed [c, d] [120] 97 = [c] := by
      unfold placed
      rw [if_neg (by decide), if_neg (by decide), if_neg (by decide), if_neg (by decide), if_pos (by decide)]
      rfl
    change placed [c, d] [] 120 ++ placed [c, d] [120] 97 = [c, c]
    rw [p1, p2]
    rfl

/-! ### Concrete cases -/

/-- The text `bb` of the form `xa`. -/
theorem xa_prints : ∃ stream, GenerateCmd.run ⟨0, 0, 0, false, false, some (lit "xa")⟩ 1 stream = .ok (lit "bb") :=
  (C106_form_exact _ (lit "xa") rfl 1 (by omega) _).2 ⟨lit "bq", by refine ⟨?_, ?_, ?_, ?_, ?_⟩ <;> decide, by decide⟩

example : ((⟨0, 0, 0, false, false, some (lit "xa")⟩ : GenerateCmd).prog 1).prob (lit "bb") = 1 / 26 := by
  rw [C135_repeats _ (lit "xa") rfl rfl rfl (by decide) (by decide) 1 (by omega) _ xa_prints, show (lit "xa").count 120 + (lit "xa").count 88 = 1 by decide,
    show (lit "xa").count 97 = 1 by decide]
  norm_num

/-- Nine `a`: three digits and six letters; about 2 to the 44. -/
example (out : Str) (h : ∃ stream, GenerateCmd.run ⟨0, 0, 0, false, false, some (lit "aaa-aaa-aaa")⟩ 1 stream = .ok out) :
    ((⟨0, 0, 0, false, false, some (lit "aaa-aaa-aaa")⟩ : GenerateCmd).prog 1).prob out = 1 / (84 * (26 ^ 6 * 10 ^ 3)) := by
  rw [C135_only_a _ (lit "aaa-aaa-aaa") rfl rfl (by decide) 1 (by omega) _ h, show (lit "aaa-aaa-aaa").count 97 = 9 by decide, show Nat.choose 9 (9 / 3) = 84 by decide]
  norm_num

/-- The form `as`: the text `!!` has probability 1 in 60 (the password is a symbol and a letter in any order), the text `b!` 1 in 1560. -/
example : ((⟨0, 0, 0, false, false, some (lit "as")⟩ : GenerateCmd).prog 1).prob (lit "!!") = 1 / 60 ∧
    ((⟨0, 0, 0, false, false, some (lit "as")⟩ : GenerateCmd).prog 1).prob (lit "b!") = 1 / 1560 := by
  have n1 : (lit "as").count 120 = 0 := by decide
  have n2 : (lit "as").count 88 = 0 := by decide
  have n3 : (lit "as").count 110 = 0 := by decide
  have n4 : (lit "as").count 115 = 1 := by decide
  have n5 : (lit "as").count 97 = 1 := by decide
  constructor
  · have h := C135_probability ⟨0, 0, 0, false, false, some (lit "as")⟩ (lit "as") rfl rfl 1 (by omega) (lit "!!")
      ((C106_form_exact _ (lit "as") rfl 1 (by omega) _).2 ⟨lit "!b", by refine ⟨?_, ?_, ?_, ?_, ?_⟩ <;> decide, by decide⟩) [(97, 33), (115, 33)]
      (by rw [show lit "as" = [97, 115] by decide, show lit "!!" = [33, 33] by decide]; exact .char (by decide) (.char (by decide) .nil))
    rw [show printedForA [(97, 33), (115, 33)] = lit "!" by decide] at h
    simp only [n1, n2, n3, n4, n5, show (lettersIn (lit "!")).length = 0 by decide, show (digitsIn (lit "!")).length = 0 by decide,
      show (symbolsIn (lit "!")).length = 1 by decide] at h
    rw [h, show asked false (0 + 0 + 0 + 1) (0 + 1 / 3 - 0) (1 - 1) = 26 by decide, show asked false (0 + 0 + 0 + 1 + 1) (0 + 1 / 3) 1 = 1560 by decide]
    norm_num
  · have h := C135_probability ⟨0, 0, 0, false, false, some (lit "as")⟩ (lit "as") rfl rfl 1 (by omega) (lit "b!")
      ((C106_form_exact _ (lit "as") rfl 1 (by omega) _).2 ⟨lit "b!", by refine ⟨?_, ?_, ?_, ?_, ?_⟩ <;> decide, by decide⟩) [(97, 98), (115, 33)]
      (by rw [show lit "as" = [97, 115] by decide, show lit "b!" = [98, 33] by decide]; exact .char (by decide) (.char (by decide) .nil))
    rw [show printedForA [(97, 98), (115, 33)] = lit "b" by decide] at h
    simp only [n1, n2, n3, n4, n5, show (lettersIn (lit "b")).length = 1 by decide, show (digitsIn (lit "b")).length = 0 by decide,
      show (symbolsIn (lit "b")).length = 0 by decide] at h
    rw [h, show asked false (0 + 0 + 0 + 1) (0 + 1 / 3 - 0) (1 - 0) = 30 by decide, show asked false (0 + 0 + 0 + 1 + 1) (0 + 1 / 3) 1 = 1560 by decide]
    norm_num

end Verif.FormGen
