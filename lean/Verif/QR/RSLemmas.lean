import Verif.QR.GFLemmas
import Verif.QR.RSSpec
import Mathlib.Algebra.Polynomial.Roots
import Mathlib.Algebra.Polynomial.BigOperators
/-
Lemmas about the Reed-Solomon encoder.
-/
namespace Verif.QR
open Polynomial

section
variable {f : Field} {poly α : Nat}

/-- A byte list as a polynomial, most significant coefficient first. -/
noncomputable def lpoly (poly : Nat) : List UInt8 → (Res poly)[X]
  | [] => 0
  | a :: l => C (val poly a) * X ^ l.length + lpoly poly l

theorem res_two (poly : Nat) : (2 : Res poly) = 0 := by
  have : AdjoinRoot.mk (toPoly poly) ((1 : (ZMod 2)[X]) + 1) = 0 := by
    have : (1 : (ZMod 2)[X]) + 1 = 0 := by
      rw [← C_1, ← C_add]
      rw [show (1 : ZMod 2) + 1 = 0 from by decide, C_0]
    rw [this, map_zero]
  rw [map_add, map_one] at this
  rw [← this]; norm_num

theorem poly_two (poly : Nat) : (2 : (Res poly)[X]) = 0 := by
  have : (2 : (Res poly)[X]) = C 2 := (map_ofNat C 2).symm
  rw [this, res_two, C_0]

theorem lpoly_append (l r : List UInt8) : lpoly poly (l ++ r) = lpoly poly l * X ^ r.length + lpoly poly r := by
  induction l with
  | nil => simp [lpoly]
  | cons a l ih =>
    simp only [List.cons_append, lpoly, ih, List.length_append, pow_add]
    ring

theorem lpoly_replicate (n : Nat) : lpoly poly (List.replicate n 0) = 0 := by
  induction n with
  | zero => rfl
  | succ n ih => rw [List.replicate_succ, lpoly, ih, val_zero]; simp

theorem lpoly_degree (l : List UInt8) : (lpoly poly l).degree < l.length := by
  induction l with
  | nil => simp [lpoly]
  | cons a l ih =>
    rw [lpoly, List.length_cons]
    refine lt_of_le_of_lt (degree_add_le _ _) (max_lt ?_ ?_)
    · exact lt_of_le_of_lt (degree_C_mul_X_pow_le _ _) (by exact_mod_cast Nat.lt_succ_self _)
    · exact lt_trans ih (by exact_mod_cast Nat.lt_succ_self _)

theorem Good.lpoly_inj (g : Good f poly α) : ∀ (l r : List UInt8), l.length = r.length → lpoly poly l = lpoly poly r → l = r
  | [], [], _, _ => rfl
  | a :: l, b :: r, hl, h => by
    simp only [List.length_cons, Nat.add_right_cancel_iff] at hl
    simp only [lpoly] at h
    have hc : ∀ (s : List UInt8), (lpoly poly s).coeff s.length = 0 := fun s =>
      coeff_eq_zero_of_degree_lt (lpoly_degree s)
    have h0 := congrArg (fun p => p.coeff l.length) h
    simp only [coeff_add, hc l] at h0
    rw [hl, hc r] at h0
    simp only [coeff_C_mul, coeff_X_pow_self, mul_one, add_zero] at h0
    have hab := g.val_inj h0
    subst hab
    rw [hl] at h
    rw [g.lpoly_inj l r hl (add_left_cancel h)]

theorem Good.eval_bytes (g : Good f poly α) (l : List UInt8) (x : UInt8) :
    val poly (evalBytes f l x) = (lpoly poly l).eval (val poly x) := by
  have key : ∀ (l : List UInt8) (acc : UInt8), val poly (l.foldl (fun acc b => f.add (f.mul acc x) b) acc) =
      val poly acc * val poly x ^ l.length + (lpoly poly l).eval (val poly x) := by
    intro l
    induction l with
    | nil => intro acc; simp [lpoly]
    | cons a l ih =>
      intro acc
      rw [List.foldl_cons, ih, Field.add, val_xor, g.val_mul, lpoly, eval_add, eval_mul, eval_C, eval_pow, eval_X,
        List.length_cons, pow_succ]
      ring
  rw [evalBytes, key, val_zero, zero_mul, zero_add]

theorem Good.codeword_iff (g : Good f poly α) (c : Nat) (l : List UInt8) :
    IsCodeword f c l ↔ ∀ i, i < c → (lpoly poly l).eval (res poly α ^ i) = 0 := by
  unfold IsCodeword
  constructor
  · intro h i hi
    rw [← g.val_Exp, ← g.eval_bytes, h i hi, val_zero]
  · intro h i hi
    apply g.val_inj
    rw [g.eval_bytes, g.val_Exp, h i hi, val_zero]

/-! ### Generator polynomial -/

noncomputable def G (poly α e : Nat) : (Res poly)[X] := ∏ i ∈ Finset.range e, (X + C (res poly α ^ i))

theorem Good.genStep_poly (g : Good f poly α) (c : UInt8) : ∀ (a : UInt8) (r : List UInt8),
    lpoly poly (genStep f c (a :: r)) + C (val poly a) * X ^ (r.length + 1) = lpoly poly (a :: r) * (X + C (val poly c))
  | a, [] => by
    simp only [genStep, lpoly, g.val_mul, List.length_nil, C_mul]
    ring
  | a, b :: r => by
    have ih := Good.genStep_poly g c b r
    have hl : (genStep f c (b :: r)).length = r.length + 1 := by
      clear ih
      induction r generalizing b with
      | nil => rfl
      | cons d r ih => simp only [genStep, List.length_cons, ih d]
    simp only [genStep, lpoly, val_xor, g.val_mul, C_add, C_mul, List.length_cons, hl] at *
    linear_combination ih

theorem mul_zero_left (f : Field) (c : UInt8) : f.mul 0 c = 0 := by simp [Field.mul]

theorem genStep_shape (f : Field) (c : UInt8) (t : List UInt8) : ∀ k, ∃ t', t'.length = t.length + 1 ∧
    genStep f c (List.replicate (k + 1) 0 ++ 1 :: t) = List.replicate k 0 ++ 1 :: t'
  | 0 => by
    refine ⟨genStep f c (1 :: t), ?_, ?_⟩
    · have : ∀ (t : List UInt8) (b : UInt8), (genStep f c (b :: t)).length = t.length + 1 := by
        intro t
        induction t with
        | nil => intro b; rfl
        | cons d r ih => intro b; simp only [genStep, List.length_cons, ih d]
      exact this t 1
    · simp [genStep, mul_zero_left]
  | k + 1 => by
    obtain ⟨t', h1, h2⟩ := genStep_shape f c t k
    refine ⟨t', h1, ?_⟩
    rw [List.replicate_succ (n := k + 1), List.replicate_succ (n := k)] at *
    simp only [List.cons_append, genStep, mul_zero_left]
    simp only [List.cons_append] at h2
    rw [h2]
    simp

theorem Good.genPoly_spec (g : Good f poly α) (e : Nat) :
    ∃ t, t.length = e ∧ f.genPoly e = 1 :: t ∧ lpoly poly (1 :: t) = G poly α e := by
  have key : ∀ i, i ≤ e → ∃ t, t.length = i ∧
      (List.range i).foldl (fun p (i : Nat) => genStep f (f.Exp (i : Int)) p) (List.replicate e 0 ++ [1]) =
        List.replicate (e - i) 0 ++ 1 :: t ∧
      lpoly poly (List.replicate (e - i) 0 ++ 1 :: t) = G poly α i := by
    intro i
    induction i with
    | zero =>
      intro _
      refine ⟨[], rfl, by simp, ?_⟩
      rw [lpoly_append, lpoly_replicate]
      simp [lpoly, G, val_one]
    | succ i ih =>
      intro hi
      obtain ⟨t, h1, h2, h3⟩ := ih (by omega)
      obtain ⟨t', h4, h5⟩ := genStep_shape f (f.Exp (i : Int)) t (e - (i + 1))
      rw [show e - (i + 1) + 1 = e - i by omega] at h5
      refine ⟨t', by omega, ?_, ?_⟩
      · rw [List.range_succ, List.foldl_append, h2]
        exact h5
      · rw [← h5]
        have h6 : List.replicate (e - i) (0 : UInt8) ++ 1 :: t = 0 :: (List.replicate (e - (i + 1)) 0 ++ 1 :: t) := by
          rw [show e - i = e - (i + 1) + 1 by omega, List.replicate_succ]; rfl
        have h7 := g.genStep_poly (f.Exp (i : Int)) 0 (List.replicate (e - (i + 1)) 0 ++ 1 :: t)
        rw [val_zero, C_0, zero_mul, add_zero, ← h6, h3, g.val_Exp] at h7
        rw [h7, G, G, Finset.prod_range_succ]
  obtain ⟨t, h1, h2, h3⟩ := key e (Nat.le_refl _)
  rw [Nat.sub_self, List.replicate_zero, List.nil_append] at *
  exact ⟨t, h1, h2, h3⟩

/-! ### Division -/

/-- Logarithm of a coefficient as stored in `lgen`. -/
def lgOf (f : Field) (c : UInt8) : UInt8 := if c = 0 then 255 else UInt8.ofNat (f.Log c).toNat

theorem lgOf_eq {c : UInt8} (h : c ≠ 0) : lgOf f c = f.log.getD c.toNat 0 := by
  rw [lgOf, if_neg h, Field.Log, if_neg h]
  simp

theorem xorGen_length (f : Field) (lc : Nat) : ∀ (lgen q : List UInt8), (xorGen f lc lgen q).length = q.length
  | [], q => by simp [xorGen]
  | _ :: _, [] => by simp [xorGen]
  | _ :: lgen, _ :: q => by simp [xorGen, xorGen_length f lc lgen q]

theorem xorGen_append (f : Field) (lc : Nat) (z : List UInt8) : ∀ (lgen q : List UInt8), lgen.length ≤ q.length →
    xorGen f lc lgen (q ++ z) = xorGen f lc lgen q ++ z
  | [], q, _ => by simp [xorGen]
  | _ :: _, [], h => by simp at h
  | _ :: lgen, _ :: q, h => by
    simp only [List.cons_append, xorGen, xorGen_append f lc z lgen q (by simpa using h)]

theorem divLoop_length (f : Field) (lgen : List UInt8) : ∀ (n : Nat) (p : List UInt8), (divLoop f lgen n p).length = p.length
  | 0, _ => rfl
  | _ + 1, [] => rfl
  | n + 1, c :: q => by
    simp only [divLoop, List.length_cons, divLoop_length f lgen n]
    split <;> simp [xorGen_length]

theorem divLoop_append (f : Field) (lgen z : List UInt8) : ∀ (n : Nat) (p : List UInt8), n + lgen.length ≤ p.length →
    divLoop f lgen n (p ++ z) = divLoop f lgen n p ++ z
  | 0, _, _ => rfl
  | _ + 1, [], h => by simp at h
  | n + 1, c :: q, h => by
    simp only [List.length_cons] at h
    simp only [List.cons_append, divLoop]
    split
    · rw [divLoop_append f lgen z n q (by omega)]
    · rw [xorGen_append f _ z lgen q (by omega), divLoop_append f lgen z n _ (by rw [xorGen_length]; omega)]

theorem Good.xorGen_poly (g : Good f poly α) {c : UInt8} (hc : c ≠ 0) : ∀ (t q : List UInt8), t.length ≤ q.length →
    lpoly poly (xorGen f (f.log.getD c.toNat 0).toNat (t.map (lgOf f)) q) =
      lpoly poly q + C (val poly c) * lpoly poly t * X ^ (q.length - t.length)
  | [], q, _ => by simp [xorGen, lpoly]
  | _ :: _, [], h => by simp at h
  | a :: t, b :: q, h => by
    simp only [List.length_cons, Nat.add_le_add_iff_right] at h
    have ih := Good.xorGen_poly g hc t q h
    have hv : val poly (if lgOf f a ≠ 255 then b ^^^ f.exp.getD ((f.log.getD c.toNat 0).toNat + (lgOf f a).toNat) 0 else b) =
        val poly b + val poly c * val poly a := by
      by_cases ha : a = 0
      · subst ha
        simp [lgOf, val_zero]
      · have h1 := g.log_lt _ (u8_pos ha) a.toNat_lt
        have h2 := g.log_lt _ (u8_pos hc) c.toNat_lt
        rw [lgOf_eq ha]
        rw [if_pos (by intro e; rw [e] at h1; exact absurd h1 (by decide)), val_xor, g.exp_val (by omega), pow_add,
          ← g.is_pow (u8_pos ha) a.toNat_lt, ← g.is_pow (u8_pos hc) c.toNat_lt]
        rfl
    simp only [List.map_cons, xorGen, lpoly, ih, xorGen_length, List.length_cons, hv, C_add, C_mul, Nat.add_sub_add_right]
    have hp : (X : (Res poly)[X]) ^ q.length = X ^ t.length * X ^ (q.length - t.length) := by
      rw [← pow_add]; congr 1; omega
    rw [hp]
    ring

/-- Division keeps the residue modulo the generator. -/
theorem Good.divLoop_poly (g : Good f poly α) {t : List UInt8} {e : Nat} (ht : t.length = e)
    (hG : lpoly poly (1 :: t) = G poly α e) : ∀ (n : Nat) (p : List UInt8), n + e ≤ p.length →
    ∃ q, lpoly poly p = q * G poly α e * X ^ (p.length - n - e) + lpoly poly ((divLoop f (t.map (lgOf f)) n p).drop n)
  | 0, p, _ => ⟨0, by simp [divLoop]⟩
  | _ + 1, [], h => by simp at h
  | n + 1, c :: q, h => by
    simp only [List.length_cons] at h
    simp only [divLoop, List.drop_succ_cons, List.length_cons]
    have hsub : q.length + 1 - (n + 1) - e = q.length - n - e := by omega
    by_cases hc : c = 0
    · subst hc
      rw [if_pos rfl]
      obtain ⟨w, hw⟩ := Good.divLoop_poly g ht hG n q (by omega)
      refine ⟨w, ?_⟩
      rw [hsub, lpoly, val_zero, C_0, zero_mul, zero_add]
      exact hw
    · rw [if_neg hc]
      obtain ⟨w, hw⟩ := Good.divLoop_poly g ht hG n
        (xorGen f (f.log.getD c.toNat 0).toNat (t.map (lgOf f)) q) (by rw [xorGen_length]; omega)
      rw [xorGen_length, g.xorGen_poly hc t q (by omega), ht] at hw
      refine ⟨w + C (val poly c) * X ^ n, ?_⟩
      have h1 : (X : (Res poly)[X]) ^ q.length = X ^ e * X ^ (q.length - e) := by
        rw [← pow_add]; congr 1; omega
      have h2 : (X : (Res poly)[X]) ^ (q.length - e) = X ^ n * X ^ (q.length - n - e) := by
        rw [← pow_add]; congr 1; omega
      have h3 := hG
      rw [lpoly, val_one, C_1, one_mul, ht] at h3
      rw [hsub, lpoly]
      rw [h2] at hw
      rw [h1, h2]
      linear_combination hw + C (val poly c) * (X : (Res poly)[X]) ^ n * X ^ (q.length - n - e) * h3 -
        C (val poly c) * lpoly poly t * (X ^ n * X ^ (q.length - n - e)) * poly_two poly

/-- The check bytes of `data`. -/
def checkBytes (f : Field) (c : Nat) (data : List UInt8) : List UInt8 :=
  (divLoop f (((f.genPoly c).map (lgOf f)).drop 1) data.length (data ++ List.replicate c 0)).drop data.length

theorem checkBytes_length (f : Field) (c : Nat) (data : List UInt8) : (checkBytes f c data).length = c := by
  simp [checkBytes, divLoop_length]

theorem Good.checkBytes_codeword (g : Good f poly α) (c : Nat) (data : List UInt8) :
    IsCodeword f c (data ++ checkBytes f c data) := by
  obtain ⟨t, h1, h2, h3⟩ := g.genPoly_spec c
  obtain ⟨q, hq⟩ := g.divLoop_poly h1 h3 data.length (data ++ List.replicate c 0) (by simp)
  rw [g.codeword_iff]
  intro i hi
  have e : ((f.genPoly c).map (lgOf f)).drop 1 = t.map (lgOf f) := by rw [h2]; rfl
  rw [lpoly_append, checkBytes_length]
  rw [lpoly_append, lpoly_replicate, List.length_replicate, add_zero, ← e] at hq
  change lpoly poly data * X ^ c = _ + lpoly poly (checkBytes f c data) at hq
  rw [hq]
  have hroot : (G poly α c).eval (res poly α ^ i) = 0 := by
    rw [G, eval_prod]
    apply Finset.prod_eq_zero (Finset.mem_range.2 hi)
    rw [eval_add, eval_X, eval_C]
    linear_combination (res poly α ^ i) * res_two poly
  have h2' : (2 : (Res poly)) = 0 := res_two poly
  rw [eval_add, eval_add, eval_mul, eval_mul, hroot]
  linear_combination (lpoly poly (checkBytes f c data)).eval (res poly α ^ i) * h2'

theorem Good.pow_inj (g : Good f poly α) {i j : Nat} (hi : i < 255) (hj : j < 255) (h : res poly α ^ i = res poly α ^ j) : i = j := by
  rw [← g.exp_pow i hi, ← g.exp_pow j hj] at h
  have := res_inj g.lo g.hi (u8_getD_lt _ _) (u8_getD_lt _ _) h
  rw [← g.log_exp i hi, ← g.log_exp j hj, this]

theorem Good.checkBytes_unique (g : Good f poly α) (c : Nat) (hc : c ≤ 255) (data chk : List UInt8) (hl : chk.length = c)
    (h : IsCodeword f c (data ++ chk)) : chk = checkBytes f c data := by
  have := g.domain
  apply g.lpoly_inj _ _ (by rw [checkBytes_length, hl])
  have h1 := (g.codeword_iff c _).1 h
  have h2 := (g.codeword_iff c _).1 (g.checkBytes_codeword c data)
  rw [← sub_eq_zero]
  by_contra hne
  have hdeg : (lpoly poly chk - lpoly poly (checkBytes f c data)).degree < c := by
    refine lt_of_le_of_lt (degree_sub_le _ _) (max_lt ?_ ?_)
    · have := lpoly_degree (poly := poly) chk
      rwa [hl] at this
    · have := lpoly_degree (poly := poly) (checkBytes f c data)
      rwa [checkBytes_length] at this
  have hcard : c ≤ (lpoly poly chk - lpoly poly (checkBytes f c data)).roots.toFinset.card := by
    have hsub : (Finset.range c).image (fun i => res poly α ^ i) ⊆ (lpoly poly chk - lpoly poly (checkBytes f c data)).roots.toFinset := by
      intro x hx
      obtain ⟨i, hi, rfl⟩ := Finset.mem_image.1 hx
      have hi := Finset.mem_range.1 hi
      rw [Multiset.mem_toFinset, mem_roots hne, IsRoot, eval_sub]
      have a1 := h1 i hi
      have a2 := h2 i hi
      rw [lpoly_append, eval_add, eval_mul, hl] at a1
      rw [lpoly_append, eval_add, eval_mul, checkBytes_length] at a2
      linear_combination a1 - a2
    have := Finset.card_le_card hsub
    rw [Finset.card_image_of_injOn, Finset.card_range] at this
    · exact this
    · intro i hi j hj hij
      simp only [Finset.coe_range, Set.mem_Iio] at hi hj
      exact g.pow_inj (by omega) (by omega) hij
  have h3 := (Multiset.toFinset_card_le _).trans (card_roots' (lpoly poly chk - lpoly poly (checkBytes f c data)))
  have h4 := (natDegree_lt_iff_degree_lt hne).2 hdeg
  omega


/-! ### Minimum distance -/

theorem Good.support_gt (g : Good f poly α) (P : (Res poly)[X]) (c : Nat) (hP : P ≠ 0) (hd : P.degree < 255)
    (h : ∀ i, i < c → P.eval (res poly α ^ i) = 0) : c < P.support.card := by
  have := g.domain
  classical
  by_contra hcard
  have hcard : P.support.card ≤ c := by omega
  have hlin : ∀ L : (Res poly)[X], L.natDegree < c → ∑ k ∈ P.support, P.coeff k * L.eval (res poly α ^ k) = 0 := by
    intro L hL
    have : ∀ k, L.eval (res poly α ^ k) = ∑ i ∈ Finset.range c, L.coeff i * (res poly α ^ k) ^ i := fun k =>
      eval_eq_sum_range' hL _
    simp only [this, Finset.mul_sum]
    rw [Finset.sum_comm]
    apply Finset.sum_eq_zero
    intro i hi
    have h0 := h i (Finset.mem_range.1 hi)
    rw [eval_eq_sum, Polynomial.sum] at h0
    calc ∑ k ∈ P.support, P.coeff k * (L.coeff i * (res poly α ^ k) ^ i)
        = L.coeff i * ∑ k ∈ P.support, P.coeff k * (res poly α ^ i) ^ k := by
          rw [Finset.mul_sum]
          apply Finset.sum_congr rfl
          intro k _
          rw [← pow_mul, ← pow_mul, Nat.mul_comm k i]
          ring
      _ = 0 := by rw [h0, mul_zero]
  obtain ⟨k0, hk0⟩ := Finset.nonempty_iff_ne_empty.2 (fun e => hP (support_eq_empty.1 e))
  have hlt : ∀ k ∈ P.support, k < 255 := by
    intro k hk
    have := le_degree_of_mem_supp k hk
    exact_mod_cast lt_of_le_of_lt this hd
  have hL : (∏ k ∈ P.support.erase k0, (X - C (res poly α ^ k))).natDegree < c := by
    rw [natDegree_prod_of_monic _ _ (fun k _ => monic_X_sub_C _)]
    simp only [natDegree_X_sub_C, Finset.sum_const, smul_eq_mul, mul_one]
    rw [Finset.card_erase_of_mem hk0]
    have := Finset.card_pos.2 ⟨k0, hk0⟩
    omega
  have h1 := hlin _ hL
  rw [Finset.sum_eq_single_of_mem k0 hk0] at h1
  · rcases mul_eq_zero.1 h1 with h2 | h2
    · exact (mem_support_iff.1 hk0) h2
    · rw [eval_prod, Finset.prod_eq_zero_iff] at h2
      obtain ⟨k, hk, h3⟩ := h2
      rw [eval_sub, eval_X, eval_C, sub_eq_zero] at h3
      obtain ⟨h4, h5⟩ := Finset.mem_erase.1 hk
      exact h4 (g.pow_inj (hlt _ hk0) (hlt _ h5) h3).symm
  · intro k hk hne
    rw [eval_prod, Finset.prod_eq_zero (Finset.mem_erase.2 ⟨hne, hk⟩), mul_zero]
    rw [eval_sub, eval_X, eval_C, sub_self]

theorem Good.distance_support (g : Good f poly α) : ∀ (u v : List UInt8), u.length = v.length →
    distance u v = (lpoly poly u - lpoly poly v).support.card
  | [], [], _ => by simp [distance, lpoly]
  | a :: u, b :: v, h => by
    simp only [List.length_cons, Nat.add_right_cancel_iff] at h
    have ih := g.distance_support u v h
    have hdeg : (lpoly poly u - lpoly poly v).degree < u.length := by
      refine lt_of_le_of_lt (degree_sub_le _ _) (max_lt (lpoly_degree u) ?_)
      rw [h]; exact lpoly_degree v
    have e : lpoly poly (a :: u) - lpoly poly (b :: v) =
        (lpoly poly u - lpoly poly v) + C (val poly a - val poly b) * X ^ u.length := by
      simp only [lpoly, C_sub, h]; ring
    rw [distance, e, ih]
    by_cases hab : a = b
    · subst hab; simp
    · rw [if_neg hab]
      have hne : val poly a - val poly b ≠ 0 := fun e => hab (g.val_inj (sub_eq_zero.1 e))
      have hnot : u.length ∉ (lpoly poly u - lpoly poly v).support := by
        rw [mem_support_iff, not_not]
        exact coeff_eq_zero_of_degree_lt hdeg
      have hs : ((lpoly poly u - lpoly poly v) + C (val poly a - val poly b) * X ^ u.length).support =
          insert u.length (lpoly poly u - lpoly poly v).support := by
        ext k
        rw [mem_support_iff, coeff_add, coeff_C_mul_X_pow, Finset.mem_insert, mem_support_iff]
        by_cases hk : k = u.length
        · subst hk
          rw [mem_support_iff, not_not] at hnot
          simp [hnot, hne]
        · simp [hk]
      rw [hs, Finset.card_insert_of_notMem hnot, Nat.add_comm]

theorem Good.min_distance (g : Good f poly α) (c : Nat) (u v : List UInt8) (hl : u.length = v.length) (hn : u.length ≤ 255)
    (hu : IsCodeword f c u) (hv : IsCodeword f c v) (hne : u ≠ v) : c < distance u v := by
  rw [g.distance_support u v hl]
  apply g.support_gt
  · intro e
    exact hne (g.lpoly_inj u v hl (sub_eq_zero.1 e))
  · refine lt_of_le_of_lt (degree_sub_le _ _) (max_lt ?_ ?_)
    · exact lt_of_lt_of_le (lpoly_degree u) (by exact_mod_cast hn)
    · exact lt_of_lt_of_le (lpoly_degree v) (by rw [← hl]; exact_mod_cast hn)
  · intro i hi
    rw [eval_sub, (g.codeword_iff c u).1 hu i hi, (g.codeword_iff c v).1 hv i hi, sub_self]

/-! ### ECC -/

/-- An encoder for `c` check bytes with any work buffer. -/
def RSEncoder.For (rs : RSEncoder) (f : Field) (c : Nat) : Prop :=
  rs.f = f ∧ rs.c = c ∧ rs.lgen = (f.genPoly c).map (lgOf f)

theorem newRSEncoder_for (f : Field) (c : Nat) : (newRSEncoder f c).For f c := ⟨rfl, rfl, rfl⟩

theorem Good.ecc_spec (g : Good f poly α) {rs : RSEncoder} {c : Nat} (hrs : rs.For f c) (data check : List UInt8)
    (h : c ≤ check.length) : ∃ rs' rest, rs.ecc data check = some (rs', checkBytes f c data ++ rest) ∧ rs'.For f c ∧
      rest.length + c = check.length ∧ (c = check.length → rest = []) := by
  obtain ⟨e1, e2, e3⟩ := hrs
  unfold RSEncoder.ecc
  rw [e2, if_neg (by omega)]
  by_cases hc : c = 0
  · subst hc
    rw [if_pos rfl]
    refine ⟨rs, check, ?_, ⟨e1, e2, e3⟩, by omega, fun h => List.eq_nil_of_length_eq_zero h.symm⟩
    have : checkBytes f 0 data = [] := List.eq_nil_of_length_eq_zero (checkBytes_length f 0 data)
    rw [this, List.nil_append]
  · rw [if_neg hc]
    dsimp only
    generalize hp : (if data.length + c ≤ rs.p.length then rs.p else List.replicate (data.length + c) 0) = p
    have hpl : data.length + c ≤ p.length := by
      rw [← hp]; split <;> simp [*]
    have hbuf : List.take data.length (data ++ List.drop data.length p) ++
        List.map (fun _ => (0 : UInt8)) (List.drop data.length (data ++ List.drop data.length p)) =
        (data ++ List.replicate c 0) ++ List.replicate (p.length - data.length - c) 0 := by
      rw [List.take_left, List.drop_left, List.map_const', List.length_drop, List.append_assoc, List.replicate_append_replicate]
      congr 2; omega
    obtain ⟨t, h1, h2, h3⟩ := g.genPoly_spec c
    have ht : (rs.lgen.drop 1).length = c := by rw [e3, h2]; simp [h1]
    rw [hbuf, e1, divLoop_append _ _ _ _ _ (by rw [ht]; simp), List.drop_append_of_le_length (by rw [divLoop_length]; simp), e3]
    have hcb : List.drop data.length (divLoop f (List.drop 1 (List.map (lgOf f) (f.genPoly c))) data.length
        (data ++ List.replicate c 0)) = checkBytes f c data := rfl
    rw [hcb]
    have hl := checkBytes_length f c data
    refine ⟨_, (List.replicate (p.length - data.length - c) (0 : UInt8)).take (check.length - c) ++
        check.drop (checkBytes f c data ++ List.replicate (p.length - data.length - c) 0).length,
      congrArg some (congrArg (Prod.mk _) ?_), ?_, ?_, ?_⟩
    · rw [List.take_append, hl, List.take_of_length_le (by omega), List.append_assoc]
    · exact ⟨rfl, rfl, rfl⟩
    · simp [hl]; omega
    · intro e
      rw [List.drop_eq_nil_of_le (by simp [hl]; omega), e, Nat.sub_self]
      simp

end
end Verif.QR
