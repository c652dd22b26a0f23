import Verif.QR.GFModel
import Verif.QR.GFSpec
import Mathlib.Tactic.LinearCombination
/-
Lemmas about the GF(256) model.
-/
namespace Verif.QR
open Polynomial

theorem toPoly_coeff (n i : Nat) : (toPoly n).coeff i = if n.testBit i then 1 else 0 := by
  have key : ∀ b, (if n.testBit b then (X : (ZMod 2)[X]) ^ b else 0).coeff i = if b = i then (if n.testBit i then 1 else 0) else 0 := by
    intro b
    by_cases hb : b = i
    · subst hb
      by_cases h : n.testBit b <;> simp [h]
    · by_cases h : n.testBit b
      · simp [h, hb, coeff_X_pow, Ne.symm hb]
      · simp [h, hb]
  unfold toPoly
  rw [finsetSum_coeff, Finset.sum_congr rfl (fun b _ => key b), Finset.sum_ite_eq']
  split
  · rfl
  · rename_i h
    have : n.testBit i = false := by
      by_contra hc
      have := Nat.ge_two_pow_of_testBit (by simpa using hc)
      have h2 := @Nat.lt_two_pow_self i
      simp at h
      omega
    simp [this]

theorem toPoly_zero : toPoly 0 = 0 := by simp [toPoly]

theorem toPoly_xor (x y : Nat) : toPoly (x ^^^ y) = toPoly x + toPoly y := by
  ext i
  rw [coeff_add, toPoly_coeff, toPoly_coeff, toPoly_coeff, Nat.testBit_xor]
  cases x.testBit i <;> cases y.testBit i <;> simp
  decide

theorem toPoly_shl (y : Nat) : toPoly (y <<< 1) = X * toPoly y := by
  ext i
  rw [toPoly_coeff, Nat.testBit_shiftLeft]
  cases i with
  | zero => simp
  | succ i => simp [coeff_X_mul, toPoly_coeff]

theorem toPoly_shr (x : Nat) : toPoly x = (if x &&& 1 ≠ 0 then (1 : (ZMod 2)[X]) else 0) + X * toPoly (x >>> 1) := by
  ext i
  rw [coeff_add, toPoly_coeff]
  cases i with
  | zero =>
    rw [mul_coeff_zero, coeff_X_zero, zero_mul, add_zero]
    have : x.testBit 0 = (x &&& 1 != 0) := by simp [Nat.testBit, Nat.and_comm]
    rw [this]
    by_cases h : x &&& 1 = 0
    · simp [h]
    · rw [if_pos h, if_pos (by simpa using h), coeff_one_zero]
  | succ i =>
    rw [coeff_X_mul, toPoly_coeff, Nat.testBit_shiftRight, Nat.add_comm 1 i]
    by_cases h : x &&& 1 = 0
    · simp [h]
    · rw [if_pos h, coeff_one, if_neg (show ¬ i + 1 = 0 by omega), zero_add]

theorem toPoly_inj {x y : Nat} (h : toPoly x = toPoly y) : x = y := by
  apply Nat.eq_of_testBit_eq
  intro i
  have := congrArg (fun p => p.coeff i) h
  simp only [toPoly_coeff] at this
  cases hx : x.testBit i <;> cases hy : y.testBit i <;> simp_all

theorem toPoly_degree {x n : Nat} (h : x < 2 ^ n) : (toPoly x).degree < n := by
  rw [degree_lt_iff_coeff_zero]
  intro m hm
  rw [toPoly_coeff, Nat.testBit_lt_two_pow (Nat.lt_of_lt_of_le h (Nat.pow_le_pow_right (by decide) hm))]
  rfl

theorem toPoly_surj (n : Nat) : ∀ p : (ZMod 2)[X], p.degree < n → ∃ x, x < 2 ^ n ∧ toPoly x = p := by
  induction n with
  | zero => intro p h; exact ⟨0, by decide, by
      rw [toPoly_zero]
      exact (degree_eq_bot.1 (by simpa [Nat.WithBot.lt_zero_iff] using h)).symm⟩
  | succ n ih =>
    intro p h
    obtain ⟨x, h1, h2⟩ := ih p.divX (by
      rw [degree_lt_iff_coeff_zero] at *
      intro m hm
      rw [coeff_divX]
      exact h (m + 1) (by omega))
    have hd := p.divX_mul_X_add
    by_cases h0 : p.coeff 0 = 0
    · refine ⟨x <<< 1, by rw [Nat.shiftLeft_eq]; omega, ?_⟩
      rw [toPoly_shl, h2]
      rw [h0, C_0, add_zero] at hd
      rw [mul_comm]; exact hd
    · have h1' : p.coeff 0 = 1 := by
        have : ∀ a : ZMod 2, a ≠ 0 → a = 1 := by decide
        exact this _ h0
      refine ⟨(x <<< 1) ^^^ 1, ?_, ?_⟩
      · exact Nat.xor_lt_two_pow (by rw [Nat.shiftLeft_eq]; omega) (by have := Nat.one_lt_two_pow (n := n + 1) (by omega); exact this)
      · rw [toPoly_xor, toPoly_shl, h2]
        have : toPoly 1 = 1 := by simp [toPoly]
        rw [this]
        rw [h1', C_1] at hd
        rw [mul_comm]; exact hd

theorem toPoly_monic {p : Nat} (h1 : 0x100 ≤ p) (h2 : p < 0x200) : (toPoly p).Monic ∧ (toPoly p).natDegree = 8 := by
  have hb : p.testBit 8 = true := by
    have : p / 2 ^ 8 % 2 = 1 := by omega
    rw [Nat.testBit_eq_decide_div_mod_eq, this]; rfl
  have hd : (toPoly p).natDegree = 8 := by
    apply natDegree_eq_of_degree_eq_some
    apply le_antisymm
    · have := toPoly_degree (n := 9) (x := p) (by omega)
      rw [degree_lt_iff_coeff_zero] at this
      rw [degree_le_iff_coeff_zero]
      intro m hm
      exact this m (by have h : (8 : WithBot ℕ) < (m : WithBot ℕ) := hm
                       have : 8 < m := by exact_mod_cast h
                       omega)
    · apply le_degree_of_ne_zero
      rw [toPoly_coeff, hb]
      simp
  refine ⟨?_, hd⟩
  rw [Monic, leadingCoeff, hd, toPoly_coeff, hb]
  rfl

/-! ### Residues modulo the field polynomial -/

/-- The residue ring. -/
abbrev Res (poly : Nat) := AdjoinRoot (toPoly poly)

noncomputable def res (poly n : Nat) : Res poly := AdjoinRoot.mk (toPoly poly) (toPoly n)

theorem res_xor (poly x y : Nat) : res poly (x ^^^ y) = res poly x + res poly y := by
  simp [res, toPoly_xor]

theorem res_zero (poly : Nat) : res poly 0 = 0 := by simp [res, toPoly_zero]
theorem toPoly_one : toPoly 1 = 1 := by simp [toPoly]
theorem res_one (poly : Nat) : res poly 1 = 1 := by simp [res, toPoly_one]

theorem res_inj {poly : Nat} (h1 : 0x100 ≤ poly) (h2 : poly < 0x200) {x y : Nat} (hx : x < 256) (hy : y < 256)
    (h : res poly x = res poly y) : x = y := by
  obtain ⟨hm, hd⟩ := toPoly_monic h1 h2
  rw [res, res, AdjoinRoot.mk_eq_mk] at h
  · have hdeg : (toPoly x - toPoly y).degree < (toPoly poly).degree := by
      rw [degree_eq_natDegree hm.ne_zero, hd]
      exact lt_of_le_of_lt (degree_sub_le _ _) (max_lt (toPoly_degree (n := 8) hx) (toPoly_degree (n := 8) hy))
    have := eq_zero_of_dvd_of_degree_lt (by simpa using h) hdeg
    exact toPoly_inj (sub_eq_zero.1 this)

theorem res_surj {poly : Nat} (h1 : 0x100 ≤ poly) (h2 : poly < 0x200) (r : Res poly) : ∃ x, x < 256 ∧ res poly x = r := by
  obtain ⟨hm, hd⟩ := toPoly_monic h1 h2
  obtain ⟨p, rfl⟩ := AdjoinRoot.mk_surjective r
  obtain ⟨x, hx, e⟩ := toPoly_surj 8 (p %ₘ toPoly poly) (by
    have := degree_modByMonic_lt p hm
    rwa [degree_eq_natDegree hm.ne_zero, hd] at this)
  refine ⟨x, hx, ?_⟩
  rw [res, e, AdjoinRoot.mk_eq_mk]
  have h := modByMonic_add_div p (toPoly poly)
  exact ⟨-(p /ₘ toPoly poly), by linear_combination h⟩

theorem and_bit8 (y : Nat) : (y &&& 0x100 ≠ 0) ↔ y.testBit 8 = true := by
  constructor
  · intro h
    by_contra hb
    apply h
    apply Nat.eq_of_testBit_eq
    intro i
    rw [Nat.testBit_and, Nat.zero_testBit, show (0x100 : Nat) = 2 ^ 8 from rfl, Nat.testBit_two_pow]
    by_cases hi : 8 = i
    · subst hi; simpa using hb
    · simp [hi]
  · intro h h0
    have := congrArg (fun n => n.testBit 8) h0
    simp only [Nat.testBit_and, h] at this
    exact absurd this (by decide)

theorem mulLoop_spec {poly : Nat} (h1 : 0x100 ≤ poly) (h2 : poly < 0x200) (fuel : Nat) : ∀ (x y z : Nat), x ≤ fuel → y < 256 → z < 256 →
    mulLoop poly fuel x y z < 256 ∧ res poly (mulLoop poly fuel x y z) = res poly z + res poly x * res poly y := by
  have hpoly : res poly poly = 0 := by simp [res]
  induction fuel with
  | zero =>
    intro x y z hx hy hz
    have : x = 0 := by omega
    subst this
    exact ⟨hz, by simp [mulLoop, res_zero]⟩
  | succ n ih =>
    intro x y z hx hy hz
    simp only [mulLoop]
    split
    · rename_i hpos
      have hz' : (if x &&& 1 ≠ 0 then z ^^^ y else z) < 256 := by
        split
        · exact Nat.xor_lt_two_pow (n := 8) hz hy
        · exact hz
      have hy512 : y <<< 1 < 512 := by rw [Nat.shiftLeft_eq]; omega
      have hy' : (if y <<< 1 &&& 0x100 ≠ 0 then y <<< 1 ^^^ poly else y <<< 1) < 256 := by
        split
        · rename_i hb
          rw [and_bit8] at hb
          have hp8 : poly.testBit 8 = true := by
            have : poly / 2 ^ 8 % 2 = 1 := by omega
            rw [Nat.testBit_eq_decide_div_mod_eq, this]; rfl
          have hlt : y <<< 1 ^^^ poly < 2 ^ 9 := Nat.xor_lt_two_pow (n := 9) hy512 h2
          by_contra hge
          have : (y <<< 1 ^^^ poly).testBit 8 = true := by
            have : (y <<< 1 ^^^ poly) / 2 ^ 8 % 2 = 1 := by omega
            rw [Nat.testBit_eq_decide_div_mod_eq, this]; rfl
          rw [Nat.testBit_xor, hb, hp8] at this
          simp at this
        · rename_i hb
          rw [and_bit8] at hb
          by_contra hge
          apply hb
          have : (y <<< 1) / 2 ^ 8 % 2 = 1 := by omega
          rw [Nat.testBit_eq_decide_div_mod_eq, this]; rfl
      obtain ⟨r1, r2⟩ := ih (x >>> 1) _ _ (by rw [Nat.shiftRight_eq_div_pow]; omega) hy' hz'
      refine ⟨r1, ?_⟩
      rw [r2]
      have ey : res poly (if y <<< 1 &&& 0x100 ≠ 0 then y <<< 1 ^^^ poly else y <<< 1) = AdjoinRoot.mk _ X * res poly y := by
        have : res poly (y <<< 1) = AdjoinRoot.mk _ X * res poly y := by simp [res, toPoly_shl]
        split
        · rw [res_xor, hpoly, add_zero, this]
        · exact this
      have ex : res poly x = (if x &&& 1 ≠ 0 then (1 : Res poly) else 0) + AdjoinRoot.mk _ X * res poly (x >>> 1) := by
        conv_lhs => rw [res, toPoly_shr x]
        rw [map_add, map_mul]
        congr 1
        split <;> simp
      rw [ey, ex]
      split
      · rw [res_xor]; ring
      · ring
    · rename_i hpos
      have : x = 0 := by omega
      subst this
      exact ⟨hz, by simp [res_zero]⟩

theorem mul_lt {poly : Nat} (h1 : 0x100 ≤ poly) (h2 : poly < 0x200) (x y : Nat) (hy : y < 256) : mul x y poly < 256 :=
  (mulLoop_spec h1 h2 x x y 0 (Nat.le_refl _) hy (by decide)).1

theorem res_mul {poly : Nat} (h1 : 0x100 ≤ poly) (h2 : poly < 0x200) (x y : Nat) (hy : y < 256) :
    res poly (mul x y poly) = res poly x * res poly y := by
  have := (mulLoop_spec h1 h2 x x y 0 (Nat.le_refl _) hy (by decide)).2
  rw [res_zero, zero_add] at this
  exact this

/-! ### The tables -/

theorem u8_getD_lt (l : List UInt8) (i : Nat) : (l.getD i 0).toNat < 256 := (l.getD i 0).toNat_lt

theorem tableLoop_spec {poly α : Nat} (h1 : 0x100 ≤ poly) (h2 : poly < 0x200) (hα : α < 256) (n : Nat) :
    ∀ (i x : Nat) (log : List UInt8) (e l : List UInt8), i + n = 255 → x < 256 → res poly x = res poly α ^ i →
    log.length = 256 → (∀ b ∈ log, b.toNat < 255) → tableLoop poly α n i x log = some (e, l) →
    e.length = n ∧ l.length = 256 ∧ (∀ b ∈ l, b.toNat < 255) ∧ ∀ j, j < n → res poly (e.getD j 0).toNat = res poly α ^ (i + j) := by
  induction n with
  | zero =>
    intro i x log e l hi hx hr hl hb h
    simp only [tableLoop, Option.some.injEq, Prod.mk.injEq] at h
    obtain ⟨rfl, rfl⟩ := h
    exact ⟨rfl, hl, hb, fun j hj => absurd hj (by omega)⟩
  | succ n ih =>
    intro i x log e l hi hx hr hl hb h
    simp only [tableLoop] at h
    split at h
    · cases h
    · simp only [Option.map_eq_some_iff] at h
      obtain ⟨⟨e', l'⟩, h', h''⟩ := h
      simp only [Prod.mk.injEq] at h''
      obtain ⟨rfl, rfl⟩ := h''
      obtain ⟨r1, r2, r3, r4⟩ := ih (i + 1) (mul x α poly) _ e' l' (by omega) (mul_lt h1 h2 _ _ hα)
        (by rw [res_mul h1 h2 _ _ hα, hr, pow_succ]) (by simp [hl])
        (by intro b hb'
            rcases List.mem_or_eq_of_mem_set hb' with h | h
            · exact hb b h
            · rw [h]; simp; omega) h'
      refine ⟨by simp [r1], r2, r3, ?_⟩
      intro j hj
      cases j with
      | zero =>
        simp only [List.getD_cons_zero, Nat.add_zero]
        rw [UInt8.toNat_ofNat', Nat.mod_eq_of_lt hx, hr]
      | succ j =>
        simp only [List.getD_cons_succ]
        rw [r4 j (by omega)]
        congr 1
        omega

/-- What `NewField` guarantees about its tables. -/
structure Good (f : Field) (poly α : Nat) : Prop where
  lo : 0x100 ≤ poly
  hi : poly < 0x200
  explen : f.exp.length = 510
  loglen : f.log.length = 256
  exp_pow : ∀ i, i < 255 → res poly (f.exp.getD i 0).toNat = res poly α ^ i
  exp_hi : ∀ i, i < 255 → f.exp.getD (i + 255) 0 = f.exp.getD i 0
  log_exp : ∀ i, i < 255 → (f.log.getD (f.exp.getD i 0).toNat 0).toNat = i
  exp_log : ∀ x, 0 < x → x < 256 → (f.exp.getD (f.log.getD x 0).toNat 0).toNat = x
  log_lt : ∀ x, 0 < x → x < 256 → (f.log.getD x 0).toNat < 255

theorem tableLoop_alpha {poly α n : Nat} {log : List UInt8} {r} (h : tableLoop poly α (n + 2) 0 1 log = some r) :
    mul 1 α poly < 256 := by
  simp only [tableLoop] at h
  rw [if_neg (by simp), if_pos (by decide)] at h
  by_contra hc
  rw [if_neg hc] at h
  split at h <;> simp at h

theorem mul_one_left (α poly : Nat) : mul 1 α poly = α := by
  simp [mul, mulLoop]

theorem newField_good {poly α : Nat} {f : Field} (h : newField poly α = some f) : Good f poly α := by
  unfold newField at h
  split at h
  · cases h
  · rename_i hc
    simp only [not_or, Nat.not_lt, Nat.not_le] at hc
    obtain ⟨h1, h2, _⟩ := hc
    split at h
    · cases h
    · rename_i e log ht
      have hα : α < 256 := by
        have := tableLoop_alpha ht
        rwa [mul_one_left] at this
      obtain ⟨r1, r2, r3, r4⟩ := tableLoop_spec h1 h2 hα 255 0 1 _ e log rfl (by decide) (by rw [res_one, pow_zero]) List.length_replicate
        (by intro b hb; rw [List.eq_of_mem_replicate hb]; decide) ht
      simp only at h
      split at h
      · rename_i hok
        injection h with h
        subst h
        simp only [tablesOk, Bool.and_eq_true, List.all_eq_true, List.mem_range, beq_iff_eq] at hok
        obtain ⟨⟨o1, o2⟩, o3⟩ := hok
        have hlo : ∀ i, i < 255 → (e ++ e).getD i 0 = e.getD i 0 := by
          intro i hi
          simp [List.getD, List.getElem?_append_left (show i < e.length by omega)]
        have hhi : ∀ i, i < 255 → (e ++ e).getD (i + 255) 0 = e.getD i 0 := by
          intro i hi
          simp [List.getD, List.getElem?_append_right (show e.length ≤ i + 255 by omega), r1]
        refine ⟨h1, h2, by simp [r1], by simp [r2], ?_, ?_, ?_, ?_, ?_⟩
        · intro i hi
          simp only [hlo i hi, r4 i hi, Nat.zero_add]
        · intro i hi
          simp only [hlo i hi, hhi i hi]
        · intro i hi
          rw [o1 i hi, UInt8.toNat_ofNat', Nat.mod_eq_of_lt (by omega)]
        · intro x hx hx'
          obtain ⟨y, rfl⟩ : ∃ y, x = y + 1 := ⟨x - 1, by omega⟩
          rw [o3 y (by omega), UInt8.toNat_ofNat', Nat.mod_eq_of_lt (by omega)]
        · intro x hx hx'
          have : (log.set 0 255).getD x 0 = log.getD x 0 := by
            simp [List.getD, show ¬ 0 = x by omega]
          simp only [this]
          have hm : log.getD x 0 ∈ log := by
            have : x < log.length := by omega
            simp [List.getD, this]
          exact r3 _ hm
      · cases h

section
variable {f : Field} {poly α : Nat}

/-- Every non-zero byte is a power of `α`. -/
theorem Good.is_pow (g : Good f poly α) {x : Nat} (hx : 0 < x) (hx' : x < 256) :
    res poly x = res poly α ^ (f.log.getD x 0).toNat := by
  rw [← g.exp_pow _ (g.log_lt x hx hx'), g.exp_log x hx hx']

theorem Good.res_ne_zero (g : Good f poly α) {x : Nat} (hx : 0 < x) (hx' : x < 256) : res poly x ≠ 0 := by
  rw [← res_zero]
  intro h
  have := res_inj g.lo g.hi hx' (by decide) h
  omega

theorem Good.nontrivial (g : Good f poly α) : (1 : Res poly) ≠ 0 := by
  rw [← res_one]; exact g.res_ne_zero (by decide) (by decide)

theorem Good.pow_ne (g : Good f poly α) : ∀ n, res poly α ^ n ≠ 0 := by
  have hz : res poly α ≠ 0 := by
    have := g.res_ne_zero (x := (f.exp.getD 1 0).toNat) (by
      have h := g.log_exp 1 (by decide)
      have h0 := g.exp_pow 1 (by decide)
      by_contra hc
      have hc0 : (f.exp.getD 1 0).toNat = 0 := by omega
      rw [hc0, res_zero, pow_one] at h0
      have h2 := g.exp_pow 2 (by decide)
      rw [← h0] at h2
      rw [zero_pow (by decide), ← res_zero poly] at h2
      have h3 := res_inj g.lo g.hi (u8_getD_lt _ _) (by decide) h2
      have e2 := g.log_exp 2 (by decide)
      rw [h3] at e2
      rw [hc0] at h
      omega) (u8_getD_lt _ _)
    rwa [g.exp_pow 1 (by decide), pow_one] at this
  have h1 : res poly α ≠ 1 := by
    intro h
    have e2 := g.exp_pow 2 (by decide)
    have e1 := g.exp_pow 1 (by decide)
    rw [h, one_pow] at e1 e2
    have := res_inj g.lo g.hi (u8_getD_lt _ _) (u8_getD_lt _ _) (e1.trans e2.symm)
    have l1 := g.log_exp 1 (by decide)
    have l2 := g.log_exp 2 (by decide)
    rw [this] at l1
    omega
  intro n hn
  have two : (2 : Res poly) = 0 := by
    have : AdjoinRoot.mk (toPoly poly) ((1 : (ZMod 2)[X]) + 1) = 0 := by
      have : (1 : (ZMod 2)[X]) + 1 = 0 := by
        rw [← C_1, ← C_add]
        rw [show (1 : ZMod 2) + 1 = 0 from by decide, C_0]
      rw [this, map_zero]
    rw [map_add, map_one] at this
    rw [← this]; norm_num
  obtain ⟨y, hy, e⟩ := res_surj g.lo g.hi (1 + res poly α)
  have hy0 : 0 < y := by
    by_contra hc
    have : y = 0 := by omega
    subst this
    rw [res_zero] at e
    apply h1
    linear_combination -e - two
  rw [g.is_pow hy0 hy] at e
  have unit : ∃ u, res poly α * u = 1 := by
    cases hk : (f.log.getD y 0).toNat with
    | zero =>
      rw [hk, pow_zero] at e
      exact absurd (by linear_combination -e) hz
    | succ k =>
      rw [hk, pow_succ] at e
      exact ⟨res poly α ^ k - 1, by linear_combination e⟩
  obtain ⟨u, hu⟩ := unit
  have : (res poly α * u) ^ n = 0 := by rw [mul_pow, hn, zero_mul]
  rw [hu, one_pow] at this
  exact g.nontrivial this

theorem Good.domain (g : Good f poly α) : IsDomain (Res poly) := by
  have : Nontrivial (Res poly) := ⟨1, 0, g.nontrivial⟩
  have : NoZeroDivisors (Res poly) := ⟨by
    intro a b hab
    by_contra hc
    rw [not_or] at hc
    obtain ⟨x, hx, rfl⟩ := res_surj g.lo g.hi a
    obtain ⟨y, hy, rfl⟩ := res_surj g.lo g.hi b
    have hx0 : 0 < x := by
      by_contra h
      have : x = 0 := by omega
      subst this
      exact hc.1 (res_zero _)
    have hy0 : 0 < y := by
      by_contra h
      have : y = 0 := by omega
      subst this
      exact hc.2 (res_zero _)
    rw [g.is_pow hx0 hx, g.is_pow hy0 hy, ← pow_add] at hab
    exact g.pow_ne _ hab⟩
  exact NoZeroDivisors.to_isDomain _

theorem Good.alpha_255 (g : Good f poly α) : res poly α ^ 255 = 1 := by
  have := g.domain
  obtain ⟨y, hy, e⟩ := res_surj g.lo g.hi (res poly α ^ 255)
  have hy0 : 0 < y := by
    by_contra hc
    have : y = 0 := by omega
    subst this
    rw [res_zero] at e
    exact g.pow_ne _ e.symm
  have hlt := g.log_lt y hy0 hy
  rw [g.is_pow hy0 hy] at e
  have hs : res poly α ^ 255 = res poly α ^ (f.log.getD y 0).toNat * res poly α ^ (255 - (f.log.getD y 0).toNat) := by
    rw [← pow_add]; congr 1; omega
  have h1 : res poly α ^ (255 - (f.log.getD y 0).toNat) = 1 := by
    have : res poly α ^ (f.log.getD y 0).toNat * (res poly α ^ (255 - (f.log.getD y 0).toNat) - 1) = 0 := by
      linear_combination -e - hs
    rcases mul_eq_zero.1 this with h | h
    · exact absurd h (g.pow_ne _)
    · exact sub_eq_zero.1 h
  by_cases h0 : (f.log.getD y 0).toNat = 0
  · rw [h0] at h1; exact h1
  · have e1 := g.exp_pow (255 - (f.log.getD y 0).toNat) (by omega)
    rw [h1, ← pow_zero (res poly α), ← g.exp_pow 0 (by decide)] at e1
    have := res_inj g.lo g.hi (u8_getD_lt _ _) (u8_getD_lt _ _) e1
    have l1 := g.log_exp (255 - (f.log.getD y 0).toNat) (by omega)
    rw [this, g.log_exp 0 (by decide)] at l1
    omega

/-- The byte as an element of the residue ring. -/
noncomputable def val (poly : Nat) (b : UInt8) : Res poly := res poly b.toNat

theorem Good.val_inj (g : Good f poly α) {a b : UInt8} (h : val poly a = val poly b) : a = b :=
  UInt8.toNat_inj.1 (res_inj g.lo g.hi a.toNat_lt b.toNat_lt h)

theorem val_xor (a b : UInt8) : val poly (a ^^^ b) = val poly a + val poly b := by
  rw [val, UInt8.toNat_xor, res_xor]; rfl

theorem val_zero : val poly 0 = 0 := res_zero _
theorem val_one : val poly 1 = 1 := res_one _

theorem Good.val_ne (g : Good f poly α) {a : UInt8} (h : a ≠ 0) : val poly a ≠ 0 := by
  rw [← val_zero (poly := poly)]
  intro h'
  exact h (g.val_inj h')

theorem u8_pos {a : UInt8} (h : a ≠ 0) : 0 < a.toNat := by
  rcases Nat.eq_zero_or_pos a.toNat with h' | h'
  · exact absurd (UInt8.toNat_inj.1 (by simpa using h')) h
  · exact h'

theorem Good.exp_val (g : Good f poly α) {i : Nat} (h : i < 510) : val poly (f.exp.getD i 0) = res poly α ^ i := by
  by_cases h' : i < 255
  · exact g.exp_pow i h'
  · obtain ⟨j, rfl⟩ : ∃ j, i = j + 255 := ⟨i - 255, by omega⟩
    rw [g.exp_hi j (by omega), val, g.exp_pow j (by omega), pow_add, g.alpha_255, mul_one]

theorem Good.val_mul (g : Good f poly α) (a b : UInt8) : val poly (f.mul a b) = val poly a * val poly b := by
  unfold Field.mul
  split
  · rename_i h
    rcases h with rfl | rfl <;> simp [val_zero]
  · rename_i h
    rw [not_or] at h
    have ha := u8_pos h.1
    have hb := u8_pos h.2
    have la := g.log_lt _ ha a.toNat_lt
    have lb := g.log_lt _ hb b.toNat_lt
    rw [g.exp_val (by omega), pow_add, ← g.is_pow ha a.toNat_lt, ← g.is_pow hb b.toNat_lt]
    rfl

theorem Good.val_inv (g : Good f poly α) {a : UInt8} (h : a ≠ 0) : val poly a * val poly (f.inv a) = 1 := by
  have ha := u8_pos h
  have la := g.log_lt _ ha a.toNat_lt
  have e : (255 - f.log.getD a.toNat 0 : UInt8).toNat = 255 - (f.log.getD a.toNat 0).toNat := by
    rw [UInt8.toNat_sub_of_le]
    · rfl
    · rw [UInt8.le_iff_toNat_le, show (255 : UInt8).toNat = 255 from rfl]; omega
  rw [Field.inv, if_neg h, e, g.exp_val (by omega), val, g.is_pow ha a.toNat_lt, ← pow_add, ← g.alpha_255]
  congr 1
  omega

theorem Good.val_Exp (g : Good f poly α) (i : Nat) : val poly (f.Exp i) = res poly α ^ i := by
  rw [Field.Exp, if_neg (by omega), Int.toNat_natCast, g.exp_val (by omega)]
  conv_rhs => rw [← Nat.div_add_mod i 255, pow_add, pow_mul, g.alpha_255, one_pow, one_mul]

end
end Verif.QR
