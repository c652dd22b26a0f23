import Verif.Password.WSum
import Verif.Password.Strength
import Mathlib.RingTheory.PowerSeries.Inverse
import Mathlib.Algebra.Order.Archimedean.Basic
/-
C153: the passwords made of uniformly distributed random bytes.
-/
namespace Verif.Password
open Finset PowerSeries

/-- The byte strings of length `L`. -/
def byteStrings (L : Nat) : Finset Str := (range (256 ^ L)).image (toBytes L)

theorem mem_byteStrings (L : Nat) (s : Str) : s ∈ byteStrings L ↔ s.length = L := by
  unfold byteStrings
  rw [Finset.mem_image]
  constructor
  · rintro ⟨n, -, rfl⟩; exact length_toBytes _ _
  · intro h
    have h1 := ofBytes_lt s
    rw [h] at h1
    exact ⟨ofBytes s, Finset.mem_range.2 h1, ofBytes_inj (by rw [length_toBytes, h]) (ofBytes_toBytes L _ h1)⟩

theorem card_byteStrings (L : Nat) : (byteStrings L).card = 256 ^ L := by
  unfold byteStrings
  rw [Finset.card_image_of_injOn, Finset.card_range]
  intro a ha b hb h
  have ha := Finset.mem_range.1 ha
  have hb := Finset.mem_range.1 hb
  rw [← ofBytes_toBytes L a ha, ← ofBytes_toBytes L b hb]
  exact congrArg ofBytes h

theorem sum_byteStrings (k L : Nat) (f : Str → ℚ) :
    ∑ s ∈ byteStrings (k + L), f s = ∑ a ∈ byteStrings k, ∑ b ∈ byteStrings L, f (a ++ b) := by
  rw [← Finset.sum_product']
  refine Finset.sum_nbij' (fun s => (s.take k, s.drop k)) (fun x => x.1 ++ x.2) ?_ ?_ ?_ ?_ ?_
  · intro s hs
    have := (mem_byteStrings _ _).1 hs
    rw [Finset.mem_product, mem_byteStrings, mem_byteStrings, List.length_take, List.length_drop]
    omega
  · intro x hx
    rw [Finset.mem_product, mem_byteStrings, mem_byteStrings] at hx
    rw [mem_byteStrings, List.length_append]; omega
  · intro s _; simp
  · intro x hx
    rw [Finset.mem_product, mem_byteStrings, mem_byteStrings] at hx
    simp [← hx.1]
  · intro s _; simp

/-- On the bytes `s` the computation returns `x`, not reading more than them. -/
def Gives {α} (p : Prog α) (s : Str) (x : α) : Prop := ∃ rest, p.run s = .ok (x, rest)

open Classical in
/-- How many byte strings of length `L` make the computation return `x`. -/
noncomputable def cnt {α} (p : Prog α) (L : Nat) (x : α) : ℚ := ∑ s ∈ byteStrings L, if Gives p s x then 1 else 0

theorem cnt_eq {α} (p : Prog α) (L : Nat) (x : α) : cnt p L x = (Nat.card {s : Str // s.length = L ∧ Gives p s x} : ℚ) := by
  classical
  unfold cnt
  rw [Finset.sum_boole, Nat.subtype_card ((byteStrings L).filter fun s => Gives p s x) (fun s => by rw [Finset.mem_filter, mem_byteStrings])]

theorem cnt_nonneg {α} (p : Prog α) (L : Nat) (x : α) : 0 ≤ cnt p L x := by rw [cnt_eq]; positivity

/-- The candidate of a block. -/
def cand (m : Nat) (a : Str) : Nat := ofBytes a % 2 ^ bitLen (m - 1)

theorem card_cand {m i : Nat} (h : 1 < m) (hi : i < m) : ∑ a ∈ byteStrings (blockLen m), (if cand m a = i then (1 : ℚ) else 0) = 2 ^ (8 - topBits m) := by
  have hc := card_blocks h hi
  have key : ∀ bs : Str, bs.length = blockLen m →
      ofBytes (maskTop (topBits m) bs) = cand m bs := by
    intro bs hl
    have hk := blockLen_pos h
    have hne : bs ≠ [] := by intro h0; subst h0; simp at hl; omega
    have := ofBytes_maskTop (topBits m) (topBits_le m) bs hne
    rwa [hl, topBits_add h] at this
  rw [Nat.subtype_card ((byteStrings (blockLen m)).filter fun s => cand m s = i) (fun s => by
    rw [Finset.mem_filter, mem_byteStrings]
    constructor
    · rintro ⟨h1, h2⟩; exact ⟨h1, by rw [key s h1, h2]⟩
    · rintro ⟨h1, h2⟩; exact ⟨h1, by rw [← key s h1, h2]⟩)] at hc
  rw [Finset.sum_boole, hc]
  push_cast; rfl

/-- Blocks that are rejected. -/
noncomputable def rej (m : Nat) : ℚ := 256 ^ blockLen m - m * 2 ^ (8 - topBits m)

theorem sum_cand {m : Nat} (h : 1 < m) (c : Nat → ℚ) (c' : ℚ) :
    ∑ a ∈ byteStrings (blockLen m), (if cand m a < m then c (cand m a) else c') = 2 ^ (8 - topBits m) * ∑ i ∈ range m, c i + rej m * c' := by
  have e : ∀ a, (if cand m a < m then c (cand m a) else c') = ∑ i ∈ range m, (if cand m a = i then (1 : ℚ) else 0) * (c i - c') + c' := by
    intro a
    split
    · rename_i h1
      rw [Finset.sum_eq_single (cand m a)]
      · simp
      · intro b _ hb; rw [if_neg (Ne.symm hb), zero_mul]
      · intro hn; exact absurd (Finset.mem_range.2 h1) hn
    · rename_i h1
      rw [Finset.sum_eq_zero, zero_add]
      intro i hi
      rw [if_neg, zero_mul]
      rintro rfl; exact h1 (Finset.mem_range.1 hi)
  simp only [e]
  rw [Finset.sum_add_distrib, Finset.sum_comm]
  have e2 : ∀ i ∈ range m, ∑ a ∈ byteStrings (blockLen m), (if cand m a = i then (1 : ℚ) else 0) * (c i - c') = 2 ^ (8 - topBits m) * (c i - c') := by
    intro i hi
    rw [← Finset.sum_mul, card_cand h (Finset.mem_range.1 hi)]
  rw [Finset.sum_congr rfl e2, Finset.sum_const, card_byteStrings, ← Finset.mul_sum, Finset.sum_sub_distrib, Finset.sum_const, Finset.card_range]
  unfold rej
  simp only [nsmul_eq_mul]
  push_cast
  ring

theorem randInt_short {m : Nat} (h : 1 < m) (s : Str) (hs : s.length < blockLen m) : randInt m s = .err .read := by
  have hb := bitLen_pos h
  unfold randInt
  rw [if_neg (by omega)]
  simp only [hb, dite_false]
  rw [randLoop, dif_pos]
  exact hs

theorem cnt_draw {α} {m : Nat} (h : 1 < m) (k : Nat → Prog α) (L : Nat) (x : α) :
    cnt (.draw m k) L x = if blockLen m ≤ L then
      2 ^ (8 - topBits m) * ∑ i ∈ range m, cnt (k i) (L - blockLen m) x + rej m * cnt (.draw m k) (L - blockLen m) x else 0 := by
  classical
  split
  · rename_i hL
    obtain ⟨L', rfl⟩ := Nat.exists_eq_add_of_le hL
    rw [Nat.add_sub_cancel_left]
    rw [cnt, sum_byteStrings, ← sum_cand h]
    refine Finset.sum_congr rfl fun a ha => ?_
    have ha' := (mem_byteStrings _ _).1 ha
    have e : ∀ b, Gives (.draw m k) (a ++ b) x ↔ if cand m a < m then Gives (k (cand m a)) b x else Gives (.draw m k) b x := by
      intro b
      unfold Gives
      rw [Prog.run, randInt_block h a b ha']
      unfold cand
      by_cases hh : ofBytes a % 2 ^ bitLen (m - 1) < m
      · simp only [hh, if_true]
      · simp only [hh, if_false, Prog.run]
    simp only [e]
    split
    · rfl
    · rfl
  · rename_i hL
    unfold cnt
    refine Finset.sum_eq_zero fun s hs => ?_
    rw [if_neg]
    rintro ⟨r, hr⟩
    rw [Prog.run, randInt_short h s (by have := (mem_byteStrings _ _).1 hs; omega)] at hr
    cases hr

theorem cnt_draw_one {α} (k : Nat → Prog α) (L : Nat) (x : α) : cnt (.draw 1 k) L x = cnt (k 0) L x := by
  unfold cnt
  refine Finset.sum_congr rfl fun s _ => ?_
  have : Gives (.draw 1 k) s x ↔ Gives (k 0) s x := Iff.rfl
  by_cases hg : Gives (k 0) s x
  · rw [if_pos hg, if_pos (this.2 hg)]
  · rw [if_neg hg, if_neg (fun h => hg (this.1 h))]

theorem cnt_draw_zero {α} (k : Nat → Prog α) (L : Nat) (x : α) : cnt (.draw 0 k) L x = 0 := by
  unfold cnt
  refine Finset.sum_eq_zero fun s _ => ?_
  rw [if_neg]
  rintro ⟨r, hr⟩
  cases hr

theorem cnt_ret {α} [DecidableEq α] (a : α) (L : Nat) (x : α) : cnt (.ret a) L x = if a = x then 256 ^ L else 0 := by
  unfold cnt
  have : ∀ s, Gives (.ret a) s x ↔ a = x := by
    intro s
    constructor
    · rintro ⟨r, hr⟩; cases hr; rfl
    · rintro rfl; exact ⟨s, rfl⟩
  simp only [this]
  split
  · rw [Finset.sum_const, card_byteStrings]; simp
  · simp

theorem cnt_other {α} (p : Prog α) (hp : (∃ e, p = .fail e) ∨ p = .stuck) (L : Nat) (x : α) : cnt p L x = 0 := by
  unfold cnt
  refine Finset.sum_eq_zero fun s _ => ?_
  rw [if_neg]
  rintro ⟨r, hr⟩
  rcases hp with ⟨e, rfl⟩ | rfl <;> cases hr

/-- The generating function of the byte strings that `rand.Int(_, m)` reads for a number. -/
noncomputable def alpha (m : Nat) : ℚ⟦X⟧ :=
  if m ≤ 1 then 1 else C (2 ^ (8 - topBits m)) * X ^ blockLen m * (1 - C (rej m) * X ^ blockLen m)⁻¹

theorem alpha_eq {m : Nat} (h : 1 < m) (S : ℚ⟦X⟧) : alpha m * S = X ^ blockLen m * (C (2 ^ (8 - topBits m)) * S + C (rej m) * (alpha m * S)) := by
  have hk := blockLen_pos h
  have hu : (1 - C (rej m) * X ^ blockLen m : ℚ⟦X⟧) * (1 - C (rej m) * X ^ blockLen m)⁻¹ = 1 := by
    apply PowerSeries.mul_inv_cancel
    simp [hk.ne']
  have ha : alpha m * (1 - C (rej m) * X ^ blockLen m) = C (2 ^ (8 - topBits m)) * X ^ blockLen m := by
    unfold alpha
    rw [if_neg (by omega)]
    linear_combination (C (2 ^ (8 - topBits m)) * X ^ blockLen m) * hu
  linear_combination S * ha

/-- All bytes that follow are free. -/
noncomputable def free : ℚ⟦X⟧ := PowerSeries.mk fun n => 256 ^ n

theorem coeff_wsum {α} [DecidableEq α] (x : α) (p : Prog α) : ∀ L, coeff L (p.wsum alpha fun a => if a = x then free else 0) = cnt p L x := by
  induction p with
  | ret a =>
    intro L
    rw [cnt_ret, Prog.wsum]
    split
    · rw [free, coeff_mk]
    · simp
  | fail e => intro L; rw [cnt_other _ (.inl ⟨e, rfl⟩)]; simp [Prog.wsum]
  | stuck => intro L; rw [cnt_other _ (.inr rfl)]; simp [Prog.wsum]
  | draw m k ih =>
    rw [Prog.wsum]
    rcases Nat.lt_or_ge 1 m with h | h
    · intro L
      induction L using Nat.strong_induction_on with
      | _ L ihL =>
        rw [cnt_draw h, alpha_eq h, coeff_X_pow_mul']
        split
        · rename_i hL
          have hk := blockLen_pos h
          rw [map_add, coeff_C_mul, coeff_C_mul, ihL _ (by omega), map_sum]
          simp only [ih]
        · rfl
    · intro L
      have : m = 0 ∨ m = 1 := by omega
      rcases this with rfl | rfl
      · rw [cnt_draw_zero]; simp
      · rw [cnt_draw_one, ← ih 0 L]; simp [alpha]

theorem cnt_wprob {α} [DecidableEq α] (x : α) (p : Prog α) (L : Nat) : cnt p L x = coeff L (p.wprob alpha x * free) := by
  rw [← coeff_wsum, Prog.wprob, ← WSum.wsum_mul]
  congr 2
  funext a
  split <;> simp

/-- **C153** Uniform random bytes give uniform passwords, exactly: for every number `L` of bytes the same number of byte strings of that length lead to each password that
satisfies the request, and none to any other string. -/
theorem C153_bytes (g : Generator) (hg : g.AllAscii) (hs : g.Separate) (hd : g.Distinct) (fuel : Nat)
    (length numDigits numSymbols : Int) (hd0 : 0 ≤ numDigits) (hs0 : 0 ≤ numSymbols) (noUpper allowRepeat : Bool) (L : Nat) :
    ∃ N : Nat, (∀ pw, Conforms g length numDigits numSymbols noUpper allowRepeat pw →
        Nat.card {s : Str // s.length = L ∧ ∃ rest, (g.generate fuel length numDigits numSymbols noUpper allowRepeat).run s = .ok (pw, rest)} = N) ∧
      (∀ pw, ¬ Conforms g length numDigits numSymbols noUpper allowRepeat pw →
        Nat.card {s : Str // s.length = L ∧ ∃ rest, (g.generate fuel length numDigits numSymbols noUpper allowRepeat).run s = .ok (pw, rest)} = 0) := by
  obtain ⟨v, h1, h2⟩ := WSum.uniform alpha (by simp [alpha]) g hg hs hd fuel length numDigits numSymbols hd0 hs0 noUpper allowRepeat
  have hz : ∀ pw, ¬ Conforms g length numDigits numSymbols noUpper allowRepeat pw →
        Nat.card {s : Str // s.length = L ∧ ∃ rest, (g.generate fuel length numDigits numSymbols noUpper allowRepeat).run s = .ok (pw, rest)} = 0 := by
    intro pw h
    have := cnt_wprob pw (g.generate fuel length numDigits numSymbols noUpper allowRepeat) L
    rw [h2 pw h, zero_mul, map_zero, cnt_eq] at this
    exact_mod_cast this
  by_cases hex : ∃ pw, Conforms g length numDigits numSymbols noUpper allowRepeat pw
  · obtain ⟨p0, h0⟩ := hex
    refine ⟨Nat.card {s : Str // s.length = L ∧ ∃ rest, (g.generate fuel length numDigits numSymbols noUpper allowRepeat).run s = .ok (p0, rest)}, fun pw h => ?_, hz⟩
    have e1 := cnt_wprob pw (g.generate fuel length numDigits numSymbols noUpper allowRepeat) L
    have e2 := cnt_wprob p0 (g.generate fuel length numDigits numSymbols noUpper allowRepeat) L
    rw [h1 pw h, ← h1 p0 h0, ← e2, cnt_eq, cnt_eq] at e1
    exact_mod_cast e1
  · exact ⟨0, fun pw h => absurd ⟨pw, h⟩ hex, hz⟩

/-! ### The limit -/

theorem prob_nonneg {α} [DecidableEq α] (p : Prog α) (x : α) : 0 ≤ p.prob x := expect_nonneg _ _ fun _ => by split <;> norm_num

/-- The part of the byte strings of length `L`. -/
noncomputable def part {α} (p : Prog α) (L : Nat) (x : α) : ℚ := cnt p L x / 256 ^ L

/-- The probability that a block is rejected. -/
noncomputable def rho (m : Nat) : ℚ := rej m / 256 ^ blockLen m

theorem rho_bounds {m : Nat} (h : 1 < m) : 0 ≤ rho m ∧ rho m < 1 := by
  have h0 : (0 : ℚ) < 256 ^ blockLen m := by positivity
  have h1 := sum_cand h (fun _ => 0) 1
  have h2 : 0 ≤ rej m := by
    rw [Finset.sum_const_zero, mul_zero, zero_add, mul_one] at h1
    rw [← h1]
    exact Finset.sum_nonneg fun _ _ => by split <;> norm_num
  refine ⟨div_nonneg h2 h0.le, ?_⟩
  unfold rho
  rw [div_lt_one₀ h0]
  unfold rej
  have : (0 : ℚ) < m * 2 ^ (8 - topBits m) := by
    have : (0 : ℚ) < m := by exact_mod_cast (by omega : 0 < m)
    positivity
  linarith

theorem part_draw {α} {m : Nat} (h : 1 < m) (k : Nat → Prog α) (L : Nat) (x : α) :
    part (.draw m k) (blockLen m + L) x = (1 - rho m) * ((∑ i ∈ range m, part (k i) L x) / m) + rho m * part (.draw m k) L x := by
  unfold part
  rw [cnt_draw h, if_pos (Nat.le_add_right _ _), Nat.add_sub_cancel_left, ← Finset.sum_div]
  have h0 : (256 : ℚ) ^ blockLen m ≠ 0 := by positivity
  have h1 : (256 : ℚ) ^ L ≠ 0 := by positivity
  have h2 : (m : ℚ) ≠ 0 := by exact_mod_cast (by omega : m ≠ 0)
  unfold rho rej
  rw [pow_add]
  field_simp
  ring

theorem part_short {α} {m : Nat} (h : 1 < m) (k : Nat → Prog α) (L : Nat) (x : α) (hL : L < blockLen m) : part (.draw m k) L x = 0 := by
  unfold part
  rw [cnt_draw h, if_neg (by omega), zero_div]

theorem prob_draw {α} [DecidableEq α] (m : Nat) (k : Nat → Prog α) (x : α) : (Prog.draw m k).prob x = (∑ i ∈ range m, (k i).prob x) / m := rfl

theorem part_le {α} [DecidableEq α] (x : α) (p : Prog α) : ∀ L, part p L x ≤ p.prob x := by
  induction p with
  | ret a =>
    intro L
    unfold part
    rw [cnt_ret, Prog.prob, Prog.expect]
    split
    · rw [div_self (by positivity)]
    · simp
  | fail e => intro L; rw [part, cnt_other _ (.inl ⟨e, rfl⟩), zero_div]; exact le_rfl
  | stuck => intro L; rw [part, cnt_other _ (.inr rfl), zero_div]; exact le_rfl
  | draw m k ih =>
    rcases Nat.lt_or_ge 1 m with h | h
    · intro L
      induction L using Nat.strong_induction_on with
      | _ L ihL =>
        rcases Nat.lt_or_ge L (blockLen m) with hL | hL
        · rw [part_short h _ _ _ hL]; exact prob_nonneg _ _
        · obtain ⟨L', rfl⟩ := Nat.exists_eq_add_of_le hL
          have hk := blockLen_pos h
          have h1 := ihL L' (by omega)
          obtain ⟨r0, r1⟩ := rho_bounds h
          have h2 : (∑ i ∈ range m, part (k i) L' x) / m ≤ (Prog.draw m k).prob x := by
            rw [prob_draw]
            exact div_le_div_of_nonneg_right (Finset.sum_le_sum fun i _ => ih i L') (by positivity)
          rw [part_draw h]
          nlinarith
    · intro L
      have : m = 0 ∨ m = 1 := by omega
      rcases this with rfl | rfl
      · rw [part, cnt_draw_zero, zero_div]; exact prob_nonneg _ _
      · rw [part, cnt_draw_one, prob_draw]
        simpa [part] using ih 0 L

theorem part_nonneg {α} (p : Prog α) (L : Nat) (x : α) : 0 ≤ part p L x := div_nonneg (cnt_nonneg _ _ _) (by positivity)

theorem prob_le_one {α} [DecidableEq α] (p : Prog α) (x : α) : p.prob x ≤ 1 :=
  (expect_mono p _ (fun _ => 1) fun a _ => by split <;> norm_num).trans (probDone_le p)

theorem part_lim {α} [DecidableEq α] (x : α) (p : Prog α) : ∀ ε : ℚ, 0 < ε → ∃ L0, ∀ L, L0 ≤ L → p.prob x - ε ≤ part p L x := by
  induction p with
  | ret a =>
    intro ε hε
    refine ⟨0, fun L _ => ?_⟩
    unfold part
    rw [cnt_ret, Prog.prob, Prog.expect]
    split
    · rw [div_self (by positivity)]; linarith
    · simp; linarith
  | fail e => intro ε hε; exact ⟨0, fun L _ => by rw [part, cnt_other _ (.inl ⟨e, rfl⟩), zero_div]; simp [Prog.prob, Prog.expect]; linarith⟩
  | stuck => intro ε hε; exact ⟨0, fun L _ => by rw [part, cnt_other _ (.inr rfl), zero_div]; simp [Prog.prob, Prog.expect]; linarith⟩
  | draw m k ih =>
    intro ε hε
    rcases Nat.lt_or_ge 1 m with h | h
    · have hm : (0 : ℚ) < m := by exact_mod_cast (by omega : 0 < m)
      obtain ⟨r0, r1⟩ := rho_bounds h
      have hex : ∃ L0, ∀ i < m, ∀ L, L0 ≤ L → (k i).prob x - ε / 2 ≤ part (k i) L x := by
        choose f hf using fun i => ih i (ε / 2) (by linarith)
        refine ⟨∑ i ∈ range m, f i, fun i hi L hL => hf i L (le_trans ?_ hL)⟩
        exact Finset.single_le_sum (f := f) (fun _ _ => Nat.zero_le _) (Finset.mem_range.2 hi)
      obtain ⟨L0, h0⟩ := hex
      have havg : ∀ L, L0 ≤ L → (Prog.draw m k).prob x - ε / 2 ≤ (∑ i ∈ range m, part (k i) L x) / m := by
        intro L hL
        rw [prob_draw, le_div_iff₀ hm, sub_mul, div_mul_cancel₀ _ hm.ne']
        have := Finset.sum_le_sum (s := range m) fun i hi => h0 i (Finset.mem_range.1 hi) L hL
        rw [Finset.sum_sub_distrib, Finset.sum_const, Finset.card_range, nsmul_eq_mul] at this
        linarith
      have key : ∀ t L, L0 + t * blockLen m ≤ L → (1 - rho m ^ t) * ((Prog.draw m k).prob x - ε / 2) ≤ part (.draw m k) L x := by
        intro t
        induction t with
        | zero => intro L _; simpa using part_nonneg (.draw m k) L x
        | succ t iht =>
          intro L hL
          rw [Nat.add_mul, Nat.one_mul] at hL
          obtain ⟨L', rfl⟩ := Nat.exists_eq_add_of_le (show blockLen m ≤ L by omega)
          have a1 := iht L' (by omega)
          have a2 := havg L' (by nlinarith)
          rw [part_draw h, pow_succ]
          nlinarith
      obtain ⟨t, ht⟩ := exists_pow_lt_of_lt_one (show (0 : ℚ) < ε / 2 by linarith) r1
      refine ⟨L0 + t * blockLen m, fun L hL => le_trans ?_ (key t L hL)⟩
      have p1 := prob_le_one (Prog.draw m k) x
      have p2 : 0 ≤ rho m ^ t := pow_nonneg r0 t
      nlinarith
    · have : m = 0 ∨ m = 1 := by omega
      rcases this with rfl | rfl
      · refine ⟨0, fun L _ => ?_⟩
        rw [part, cnt_draw_zero, zero_div, prob_draw]; simp; linarith
      · obtain ⟨L0, h0⟩ := ih 0 ε hε
        refine ⟨L0, fun L hL => ?_⟩
        rw [part, cnt_draw_one, prob_draw]
        simpa [part] using h0 L hL

/-- **C153** The probabilities of the other properties (C06, C107, C134, C135, C152), in which every `rand.Int` is uniform, are those for uniform random bytes: for any computation, the part
of the byte strings of length `L` on which it returns `x` never exceeds the probability of `x`, and comes as close to it as wanted if `L` is large. -/
theorem C153_probability {α} [DecidableEq α] (p : Prog α) (x : α) :
    (∀ L, (Nat.card {s : Str // s.length = L ∧ ∃ rest, p.run s = .ok (x, rest)} : ℚ) / 256 ^ L ≤ p.prob x) ∧
    ∀ ε : ℚ, 0 < ε → ∃ L0, ∀ L, L0 ≤ L → p.prob x - ε ≤ (Nat.card {s : Str // s.length = L ∧ ∃ rest, p.run s = .ok (x, rest)} : ℚ) / 256 ^ L := by
  have e : ∀ L, (Nat.card {s : Str // s.length = L ∧ ∃ rest, p.run s = .ok (x, rest)} : ℚ) / 256 ^ L = part p L x := fun L => by rw [part, cnt_eq]; rfl
  simp only [e]
  exact ⟨part_le x p, part_lim x p⟩

/-- **C153** From some length on there are byte strings for each password that satisfies the request. -/
theorem C153_enough (g : Generator) (hg : g.AllAscii) (hs : g.Separate) (fuel : Nat) (hf : 0 < fuel)
    (length numDigits numSymbols : Int) (noUpper allowRepeat : Bool) (pw : Str) (h : Conforms g length numDigits numSymbols noUpper allowRepeat pw) :
    ∃ L0, ∀ L, L0 ≤ L →
      0 < Nat.card {s : Str // s.length = L ∧ ∃ rest, (g.generate fuel length numDigits numSymbols noUpper allowRepeat).run s = .ok (pw, rest)} := by
  classical
  obtain ⟨st, hst⟩ := C05_every_password g hg hs fuel hf length numDigits numSymbols noUpper allowRepeat pw h
  refine ⟨st.length, fun L hL => ?_⟩
  rw [Nat.subtype_card ((byteStrings L).filter fun s => ∃ rest, (g.generate fuel length numDigits numSymbols noUpper allowRepeat).run s = .ok (pw, rest))
    (fun s => by rw [Finset.mem_filter, mem_byteStrings])]
  refine Finset.card_pos.2 ⟨st ++ List.replicate (L - st.length) 0, Finset.mem_filter.2 ⟨(mem_byteStrings _ _).2 ?_, _, hst _⟩⟩
  rw [List.length_append, List.length_replicate]; omega

/-- **C153** Who tries `k` passwords, chosen in whatever way without seeing the random bytes, is right for at most `k` in the number of passwords (C134) of the byte strings. -/
theorem C153_guessing (g : Generator) (hg : g.AllAscii) (hs : g.Separate) (hd : g.Distinct) (fuel : Nat) (hf : 0 < fuel)
    (n d s : Nat) (noUpper allowRepeat : Bool) (guesses : Finset Str) (L : Nat) :
    (Nat.card {bs : Str // bs.length = L ∧ ∃ pw ∈ guesses, ∃ rest, (g.generate fuel n d s noUpper allowRepeat).run bs = .ok (pw, rest)} : ℚ) ≤
      guesses.card / passwords allowRepeat (g.letters noUpper).length g.digits.length g.symbols.length n d s * 256 ^ L := by
  classical
  have h := C134_guessing g hg hs hd fuel hf n d s noUpper allowRepeat guesses
  have h2 : (Nat.card {bs : Str // bs.length = L ∧ ∃ pw ∈ guesses, ∃ rest, (g.generate fuel n d s noUpper allowRepeat).run bs = .ok (pw, rest)} : ℚ) ≤
      ∑ pw ∈ guesses, cnt (g.generate fuel n d s noUpper allowRepeat) L pw := by
    rw [Nat.subtype_card ((byteStrings L).filter fun bs => ∃ pw ∈ guesses, ∃ rest, (g.generate fuel n d s noUpper allowRepeat).run bs = .ok (pw, rest))
      (fun s => by rw [Finset.mem_filter, mem_byteStrings]), ← Finset.sum_boole]
    unfold cnt
    rw [Finset.sum_comm]
    refine Finset.sum_le_sum fun bs _ => ?_
    split
    · rename_i hh
      obtain ⟨pw, hp, hr⟩ := hh
      have := Finset.single_le_sum (f := fun pw => if Gives (g.generate fuel n d s noUpper allowRepeat) bs pw then (1 : ℚ) else 0)
        (fun _ _ => by split <;> norm_num) hp
      rw [if_pos (show Gives _ bs pw from hr)] at this
      exact this
    · exact Finset.sum_nonneg fun _ _ => by split <;> norm_num
  refine h2.trans ?_
  have h3 : ∑ pw ∈ guesses, cnt (g.generate fuel n d s noUpper allowRepeat) L pw ≤ (∑ pw ∈ guesses, (g.generate fuel n d s noUpper allowRepeat).prob pw) * 256 ^ L := by
    rw [Finset.sum_mul]
    refine Finset.sum_le_sum fun pw _ => ?_
    have := part_le pw (g.generate fuel n d s noUpper allowRepeat) L
    rwa [part, div_le_iff₀ (by positivity)] at this
  exact h3.trans (mul_le_mul_of_nonneg_right h (by positivity))

/-- A case: of the 256 single bytes 16 lead to the digit 7, and as many to each of the others. -/
theorem C153_case : Nat.card {s : Str // s.length = 1 ∧ ∃ rest, (generate 1 1 1 0 true true).run s = .ok (lit "7", rest)} = 16 := by
  rw [Nat.subtype_card ((byteStrings 1).filter fun s => (generate 1 1 1 0 true true).run s = .ok (lit "7", [])) (fun s => by
    rw [Finset.mem_filter, mem_byteStrings]
    refine ⟨fun h => ⟨h.1, [], h.2⟩, fun h => ⟨h.1, ?_⟩⟩
    obtain ⟨h1, rest, h2⟩ := h
    have h3 : ∀ s ∈ byteStrings 1, (∃ e, (generate 1 1 1 0 true true).run s = .err e) ∨ ∃ x, (generate 1 1 1 0 true true).run s = .ok (x, []) := by
      have h4 : ∀ s ∈ byteStrings 1, (match (generate 1 1 1 0 true true).run s with
        | .ok (_, r) => decide (r = [])
        | .err _ => true
        | _ => false) = true := by decide +kernel
      intro s hs
      have := h4 s hs
      split at this
      · rename_i x r hr; exact .inr ⟨x, by rw [hr, of_decide_eq_true this]⟩
      · rename_i e hr; exact .inl ⟨e, hr⟩
      · cases this
    rcases h3 s ((mem_byteStrings _ _).2 h1) with ⟨e, he⟩ | ⟨x, hx⟩
    · rw [he] at h2; cases h2
    · rw [hx] at h2; cases h2; exact hx)]
  decide +kernel

end Verif.Password
