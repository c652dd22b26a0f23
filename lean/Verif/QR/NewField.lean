import Verif.QR.RSLemmas
import Mathlib.FieldTheory.Finite.Basic
/-
C64: which polynomials and generators `NewField` accepts.
-/
namespace Verif.QR
open Polynomial

/-! ### polyDiv and reducible -/

theorem nbitAux_eq : ∀ (fuel k p : Nat), p ≤ fuel → 2 ^ k ≤ p → p < 2 ^ (k + 1) → nbitAux fuel p = k + 1
  | 0, k, p, h1, h2, _ => by have := Nat.two_pow_pos k; omega
  | fuel + 1, 0, p, _, h2, h3 => by
    have : p = 1 := by omega
    subst this
    cases fuel <;> simp [nbitAux]
  | fuel + 1, k + 1, p, h1, h2, h3 => by
    have hp := Nat.two_pow_pos (k + 1)
    rw [nbitAux, if_pos (by omega), nbitAux_eq fuel k]
    · rw [Nat.shiftRight_eq_div_pow]; omega
    · rw [Nat.shiftRight_eq_div_pow, Nat.le_div_iff_mul_le (by decide)]; rw [pow_succ] at h2; omega
    · rw [Nat.shiftRight_eq_div_pow, Nat.div_lt_iff_lt_mul (by decide)]; rw [pow_succ] at h3; omega

theorem toPoly_shl_n (q : Nat) : ∀ k, toPoly (q <<< k) = X ^ k * toPoly q
  | 0 => by simp
  | k + 1 => by
    rw [Nat.shiftLeft_add, toPoly_shl, toPoly_shl_n q k, pow_succ]; ring

theorem polyDivLoop_dvd (q nq : Nat) : ∀ (np p : Nat), toPoly q ∣ toPoly (polyDivLoop q nq np p) - toPoly p
  | 0, p => by simp [polyDivLoop]
  | np + 1, p => by
    rw [polyDivLoop]
    split
    · have ih := polyDivLoop_dvd q nq np (if p.testBit np then p ^^^ (q <<< (np + 1 - nq)) else p)
      split at ih
      · rename_i h
        rw [if_pos h]
        rw [toPoly_xor, toPoly_shl_n] at ih
        obtain ⟨w, hw⟩ := ih
        exact ⟨w + X ^ (np + 1 - nq), by linear_combination hw⟩
      · rename_i h
        rw [if_neg h]
        exact ih
    · simp

theorem toPoly_natDegree_ge {q k : Nat} (h : q.testBit k = true) : k ≤ (toPoly q).natDegree := by
  apply le_natDegree_of_ne_zero
  rw [toPoly_coeff, if_pos h]
  exact one_ne_zero

theorem irreducible_not_reducible {p : Nat} (h1 : 0x100 ≤ p) (h2 : p < 0x200) (h : Irreducible (toPoly p)) : reducible p = false := by
  by_contra hc
  rw [Bool.not_eq_false] at hc
  simp only [reducible, List.any_eq_true, List.mem_range, Bool.and_eq_true, decide_eq_true_eq, beq_iff_eq] at hc
  obtain ⟨q, hq1, hq2, hq3⟩ := hc
  have hn : nbit p = 9 := nbitAux_eq p 8 p (Nat.le_refl _) h1 h2
  rw [hn] at hq1
  have hq1 : q < 32 := hq1
  have hdvd : toPoly q ∣ toPoly p := by
    have := polyDivLoop_dvd q (nbit q) (nbit p) p
    change toPoly q ∣ toPoly (polyDiv p q) - toPoly p at this
    rw [hq3, toPoly_zero, zero_sub] at this
    exact (dvd_neg).1 this
  have hqne : toPoly q ≠ 0 := by
    intro e; rw [e, zero_dvd_iff] at hdvd; exact h.ne_zero hdvd
  have hqdeg : (toPoly q).natDegree < 5 := by
    rw [natDegree_lt_iff_degree_lt hqne]
    exact toPoly_degree (n := 5) hq1
  have hpos : 1 ≤ (toPoly q).natDegree := by
    have : ∀ q, q < 32 → 2 ≤ q → ∃ k, k ∈ [1, 2, 3, 4] ∧ q.testBit k = true := by decide
    obtain ⟨k, hk, hb⟩ := this q hq1 hq2
    have h0 := toPoly_natDegree_ge hb
    simp only [List.mem_cons, List.not_mem_nil, or_false] at hk
    omega
  obtain ⟨r, hr⟩ := hdvd
  rcases h.isUnit_or_isUnit hr with hu | hu
  · have := natDegree_eq_zero_of_isUnit hu
    omega
  · have h3 := natDegree_eq_zero_of_isUnit hu
    have h4 := congrArg natDegree hr
    have hrne : r ≠ 0 := by intro e; rw [e, mul_zero] at hr; exact h.ne_zero hr
    rw [natDegree_mul hqne hrne, (toPoly_monic h1 h2).2, h3] at h4
    omega

/-! ### The tables -/

theorem getD_set (l : List UInt8) (x y : Nat) (b : UInt8) (hx : x < l.length) :
    (l.set x b).getD y 0 = if x = y then b else l.getD y 0 := by
  by_cases h : x = y
  · subst h
    simp [List.getD, hx]
  · simp [List.getD, h]

theorem tableLoop_total {poly α : Nat} (h1 : 0x100 ≤ poly) (h2 : poly < 0x200) (hα : α < 256)
    (hinj : ∀ a b, a < 255 → b < 255 → res poly α ^ a = res poly α ^ b → a = b) (n : Nat) :
    ∀ (i x : Nat) (log : List UInt8), i + n = 255 → x < 256 → res poly x = res poly α ^ i → log.length = 256 →
    ∃ e l, tableLoop poly α n i x log = some (e, l) ∧ e.length = n ∧ l.length = 256 ∧
      (∀ j, j < n → res poly (e.getD j 0).toNat = res poly α ^ (i + j)) ∧
      (∀ j, j < n → l.getD (e.getD j 0).toNat 0 = UInt8.ofNat (i + j)) ∧
      (∀ y, (∀ j, j < n → (e.getD j 0).toNat ≠ y) → l.getD y 0 = log.getD y 0) := by
  induction n with
  | zero =>
    intro i x log hi hx hr hl
    exact ⟨[], log, rfl, rfl, hl, fun j hj => absurd hj (by omega), fun j hj => absurd hj (by omega), fun y _ => rfl⟩
  | succ n ih =>
    intro i x log hi hx hr hl
    have hne : ¬ (x = 1 ∧ i ≠ 0) := by
      rintro ⟨rfl, h0⟩
      rw [res_one] at hr
      exact h0 (hinj i 0 (by omega) (by omega) (by rw [pow_zero]; exact hr.symm))
    obtain ⟨e, l, r1, r2, r3, r4, r5, r6⟩ := ih (i + 1) (mul x α poly) (log.set x (UInt8.ofNat i)) (by omega)
      (mul_lt h1 h2 _ _ hα) (by rw [res_mul h1 h2 _ _ hα, hr, pow_succ]) (by simp [hl])
    have hxx : (UInt8.ofNat x).toNat = x := by rw [UInt8.toNat_ofNat', Nat.mod_eq_of_lt hx]
    have hdiff : ∀ j, j < n → (e.getD j 0).toNat ≠ x := by
      intro j hj hc
      have := r4 j hj
      rw [hc, hr] at this
      have := hinj _ _ (by omega) (by omega) this
      omega
    refine ⟨UInt8.ofNat x :: e, l, ?_, by simp [r2], r3, ?_, ?_, ?_⟩
    · rw [tableLoop, if_neg hne, if_pos hx, r1]; rfl
    · intro j hj
      cases j with
      | zero => simp only [List.getD_cons_zero, hxx, Nat.add_zero, hr]
      | succ j =>
        simp only [List.getD_cons_succ]
        rw [r4 j (by omega)]; congr 1; omega
    · intro j hj
      cases j with
      | zero =>
        simp only [List.getD_cons_zero, hxx, Nat.add_zero]
        rw [r6 x hdiff, getD_set _ _ _ _ (by omega), if_pos rfl]
      | succ j =>
        simp only [List.getD_cons_succ]
        rw [r5 j (by omega)]; congr 1; omega
    · intro y hy
      have h0 := hy 0 (by omega)
      simp only [List.getD_cons_zero, hxx] at h0
      rw [r6 y (fun j hj => by have := hy (j + 1) (by omega); simpa using this), getD_set _ _ _ _ (by omega), if_neg h0]

theorem newField_total {poly α : Nat} (h1 : 0x100 ≤ poly) (h2 : poly < 0x200) (hα : α < 256) (hirr : Irreducible (toPoly poly))
    (hord : orderOf (res poly α) = 255) : ∃ f, newField poly α = some f := by
  have hinj : ∀ a b, a < 255 → b < 255 → res poly α ^ a = res poly α ^ b → a = b := by
    intro a b ha hb h
    have := pow_injOn_Iio_orderOf (x := res poly α)
    exact this (by rw [hord]; exact ha) (by rw [hord]; exact hb) h
  obtain ⟨e, l, r1, r2, r3, r4, r5, r6⟩ := tableLoop_total h1 h2 hα hinj 255 0 1 (List.replicate 256 0) rfl (by decide)
    (by rw [res_one, pow_zero]) List.length_replicate
  have hnt : (1 : Res poly) ≠ 0 := by
    intro h0
    have : ∀ a : Res poly, a = 0 := fun a => by rw [← mul_one a, h0, mul_zero]
    have : res poly α ^ 1 = res poly α ^ 0 := by rw [this (res poly α ^ 1), this (res poly α ^ 0)]
    exact absurd (hinj 1 0 (by omega) (by omega) this) (by decide)
  have hnz : ∀ j, j < 255 → (e.getD j 0).toNat ≠ 0 := by
    intro j hj h0
    have := r4 j hj
    rw [h0, res_zero, Nat.zero_add] at this
    have h255 : res poly α ^ 255 = 1 := by rw [← hord]; exact pow_orderOf_eq_one _
    have : res poly α ^ 255 = 0 := by
      rw [show 255 = j + (255 - j) by omega, pow_add, ← this, zero_mul]
    rw [this] at h255
    exact hnt h255.symm
  have hlo : ∀ i, i < 255 → (e ++ e).getD i 0 = e.getD i 0 := by
    intro i hi
    simp [List.getD, List.getElem?_append_left (show i < e.length by omega)]
  have hhi : ∀ i, i < 255 → (e ++ e).getD (i + 255) 0 = e.getD i 0 := by
    intro i hi
    simp [List.getD, List.getElem?_append_right (show e.length ≤ i + 255 by omega), r2]
  have hset : ∀ y, y ≠ 0 → (l.set 0 255).getD y 0 = l.getD y 0 := by
    intro y hy
    rw [getD_set _ _ _ _ (by omega), if_neg (Ne.symm hy)]
  have hsurj : ∀ y, 0 < y → y < 256 → ∃ j, j < 255 ∧ (e.getD j 0).toNat = y := by
    intro y hy hy'
    have hsub : (Finset.range 255).image (fun j => (e.getD j 0).toNat) ⊆ Finset.Ioo 0 256 := by
      intro z hz
      obtain ⟨j, hj, rfl⟩ := Finset.mem_image.1 hz
      have := hnz j (Finset.mem_range.1 hj)
      exact Finset.mem_Ioo.2 ⟨by omega, u8_getD_lt _ _⟩
    have hcard : ((Finset.range 255).image (fun j => (e.getD j 0).toNat)).card = 255 := by
      rw [Finset.card_image_of_injOn, Finset.card_range]
      intro a ha b hb hab
      simp only [Finset.coe_range, Set.mem_Iio] at ha hb
      have ha' := r4 a ha
      have hb' := r4 b hb
      simp only at hab
      rw [hab, hb'] at ha'
      have := hinj _ _ (by omega) (by omega) ha'
      omega
    have heq := Finset.eq_of_subset_of_card_le hsub (by rw [hcard]; simp)
    have : y ∈ (Finset.range 255).image (fun j => (e.getD j 0).toNat) := by
      rw [heq]; exact Finset.mem_Ioo.2 ⟨hy, hy'⟩
    obtain ⟨j, hj, hj'⟩ := Finset.mem_image.1 this
    exact ⟨j, Finset.mem_range.1 hj, hj'⟩
  have hok : tablesOk (l.set 0 255) (e ++ e) = true := by
    simp only [tablesOk, Bool.and_eq_true, List.all_eq_true, List.mem_range, beq_iff_eq]
    refine ⟨⟨?_, ?_⟩, ?_⟩
    · intro i hi
      rw [hlo i hi, hset _ (hnz i hi), r5 i hi, Nat.zero_add]
    · intro i hi
      rw [hhi i hi, hset _ (hnz i hi), r5 i hi, Nat.zero_add]
    · intro i hi
      obtain ⟨j, hj, hj'⟩ := hsurj (i + 1) (by omega) (by omega)
      rw [← hj', hset _ (hnz j hj), r5 j hj, Nat.zero_add, UInt8.toNat_ofNat', Nat.mod_eq_of_lt (by omega), hlo j hj]
      simp
  refine ⟨⟨l.set 0 255, e ++ e⟩, ?_⟩
  unfold newField
  rw [if_neg (by rw [irreducible_not_reducible h1 h2 hirr]; simp; omega), r1]
  simp only [hok, if_true]

theorem Good.irreducible {f : Field} {poly α : Nat} (g : Good f poly α) : Irreducible (toPoly poly) := by
  have hd := g.domain
  have hne := (toPoly_monic g.lo g.hi).1.ne_zero
  have h1 : (Ideal.span {toPoly poly}).IsPrime := (Ideal.Quotient.isDomain_iff_prime _).1 hd
  exact ((Ideal.span_singleton_prime hne).1 h1).irreducible

theorem Good.order {f : Field} {poly α : Nat} (g : Good f poly α) : orderOf (res poly α) = 255 := by
  apply (orderOf_eq_iff (by decide)).2
  refine ⟨g.alpha_255, ?_⟩
  intro m hm hpos h
  have := g.pow_inj hm (by decide : 0 < 255) (by rw [h, pow_zero])
  omega

theorem natDegree_eight {p : Nat} (h : (toPoly p).natDegree = 8) : 0x100 ≤ p ∧ p < 0x200 := by
  constructor
  · have hne : toPoly p ≠ 0 := by intro e; rw [e] at h; simp at h
    have h1 : (toPoly p).coeff 8 ≠ 0 := by
      rw [← h]; exact leadingCoeff_ne_zero.2 hne
    rw [toPoly_coeff] at h1
    have h2 : p.testBit 8 = true := by
      by_contra hc
      rw [if_neg hc] at h1
      exact h1 rfl
    exact Nat.ge_two_pow_of_testBit h2
  · apply Nat.lt_pow_two_of_testBit (n := 9)
    intro i hi
    by_contra hc
    rw [Bool.not_eq_false] at hc
    have := toPoly_natDegree_ge hc
    omega

/-- **C64** `NewField(poly, α)` returns a field exactly if `poly` is an irreducible polynomial of degree 8 over GF(2) and `α` a byte whose
residue generates the non-zero residues (order 255); in all other cases it panics. -/
theorem C64_newField_accepts (poly α : Nat) : (∃ f, newField poly α = some f) ↔
    Irreducible (toPoly poly) ∧ (toPoly poly).natDegree = 8 ∧ α < 256 ∧
      orderOf (AdjoinRoot.mk (toPoly poly) (toPoly α)) = 255 := by
  constructor
  · rintro ⟨f, h⟩
    have g := newField_good h
    have hα : α < 256 := by
      unfold newField at h
      split at h
      · cases h
      · split at h
        · cases h
        · rename_i ht
          have := tableLoop_alpha ht
          rwa [mul_one_left] at this
    exact ⟨g.irreducible, (toPoly_monic g.lo g.hi).2, hα, g.order⟩
  · rintro ⟨h1, h2, h3, h4⟩
    obtain ⟨h5, h6⟩ := natDegree_eight h2
    exact newField_total h5 h6 h3 h1 h4

/-- The AES polynomial with the bytes 2 (order 51) and 3 (a generator), and a reducible polynomial. -/
example : newField 0x11b 2 = none ∧ newField 0x100 2 = none ∧ newField 0x11d 1 = none := by decide +kernel

set_option maxRecDepth 100000 in
example : ∃ f, newField 0x11b 3 = some f := Option.isSome_iff_exists.1 (by decide +kernel)

end Verif.QR
