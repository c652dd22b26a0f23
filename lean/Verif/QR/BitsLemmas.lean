import Verif.QR.QRSpec
import Mathlib.Tactic.Ring
import Mathlib.Data.List.GetD
/-
Lemmas about the bit buffer and segments.
-/
namespace Verif.QR
open Iso

/-- Bit `k` of a byte string (most significant bit of each byte first). -/
def bitAt (bs : List UInt8) (k : Nat) : Bool := (bs.getD (k / 8) 0).toNat.testBit (7 - k % 8)

/-- The buffer holds the bit string `l`. -/
structure Rep (b : Bits) (l : List Bool) : Prop where
  nbit : b.nbit = l.length
  len : b.b.length = (l.length + 7) / 8
  bit : ∀ k, bitAt b.b k = l.getD k false

theorem Rep.empty : Rep Bits.empty [] := ⟨rfl, rfl, fun k => by simp [bitAt, Bits.empty]⟩

/-! ### Bit strings -/

theorem beBits_length (v n : Nat) : (beBits v n).length = n := by simp [beBits]

theorem beBits_getD (v n k : Nat) : (beBits v n).getD k false = (decide (k < n) && v.testBit (n - 1 - k)) := by
  unfold beBits
  by_cases h : k < n
  · simp [List.getD, h]
  · simp [List.getD, h]

theorem list_ext_getD {l r : List Bool} (hl : l.length = r.length) (h : ∀ k, l.getD k false = r.getD k false) : l = r := by
  apply List.ext_getElem hl
  intro i h1 h2
  have := h i
  rwa [List.getD_eq_getElem _ _ h1, List.getD_eq_getElem _ _ h2] at this

theorem getD_append_bool (l r : List Bool) (k : Nat) :
    (l ++ r).getD k false = if k < l.length then l.getD k false else r.getD (k - l.length) false := by
  split
  · rename_i h; rw [List.getD_append _ _ _ _ h]
  · rename_i h; rw [List.getD_append_right _ _ _ _ (by omega)]

theorem beBits_split (v n s : Nat) : beBits v (n + s) = beBits (v >>> s) n ++ beBits (v % 2 ^ s) s := by
  apply list_ext_getD
  · simp [beBits_length]
  · intro k
    rw [getD_append_bool, beBits_length, beBits_getD, beBits_getD, beBits_getD]
    by_cases h : k < n
    · rw [if_pos h, Nat.testBit_shiftRight]
      have : s + (n - 1 - k) = n + s - 1 - k := by omega
      rw [this]
      simp [h, show k < n + s by omega]
    · rw [if_neg h, Nat.testBit_mod_two_pow]
      by_cases h2 : k < n + s
      · have h3 : s - 1 - (k - n) = n + s - 1 - k := by omega
        simp [h2, show k - n < s by omega, h3]
        intro _; omega
      · simp [h2, show ¬ k - n < s by omega]

theorem beBits_zero (v : Nat) : beBits v 0 = [] := rfl

/-! ### Write -/

theorem orLast_length (x : UInt8) : ∀ l, (orLast x l).length = l.length
  | [] => rfl
  | [_] => rfl
  | _ :: c :: r => by simp [orLast, orLast_length x (c :: r)]

theorem orLast_getD (x : UInt8) : ∀ (l : List UInt8) (i : Nat), (orLast x l).getD i 0 =
    if i + 1 = l.length then l.getD i 0 ||| x else l.getD i 0
  | [], i => by simp [orLast]
  | [a], i => by
    cases i with
    | zero => simp [orLast]
    | succ i => simp [orLast]
  | a :: c :: r, i => by
    cases i with
    | zero => simp [orLast]
    | succ i =>
      simp only [orLast, List.getD_cons_succ, orLast_getD x (c :: r) i, List.length_cons]
      simp only [Nat.add_right_cancel_iff]

theorem bitAt_append_zero (bs : List UInt8) (k : Nat) : bitAt (bs ++ [0]) k = bitAt bs k := by
  unfold bitAt
  by_cases h : k / 8 < bs.length
  · rw [List.getD_append _ _ _ _ h]
  · rw [List.getD_append_right _ _ _ _ (by omega)]
    by_cases h2 : k / 8 - bs.length = 0
    · rw [h2]; simp [List.getD, show bs.length ≤ k / 8 by omega]
    · obtain ⟨m, hm⟩ := Nat.exists_eq_succ_of_ne_zero h2
      rw [hm]; simp [List.getD, show bs.length ≤ k / 8 by omega]

theorem bitAt_orLast (x : UInt8) (bs : List UInt8) (k : Nat) :
    bitAt (orLast x bs) k = (bitAt bs k || (decide (k / 8 + 1 = bs.length) && x.toNat.testBit (7 - k % 8))) := by
  unfold bitAt
  rw [orLast_getD]
  split
  · rename_i h; simp [h, UInt8.toNat_or, Nat.testBit_or]
  · rename_i h; simp [h]

theorem write_step {b : Bits} {l : List Bool} (h : Rep b l) (w n : Nat) (hn : 0 < n) (hn' : n ≤ 8 - l.length % 8) (hw : w < 2 ^ n) :
    Rep ⟨orLast (UInt8.ofNat (w <<< negAnd7 (b.nbit + n))) (if b.nbit % 8 = 0 then b.b ++ [0] else b.b), b.nbit + n⟩
      (l ++ beBits w n) := by
  obtain ⟨h1, h2, h3⟩ := h
  generalize hbs : (if b.nbit % 8 = 0 then b.b ++ [0] else b.b) = bs
  have hlen : bs.length = l.length / 8 + 1 := by
    rw [← hbs, h1]
    split
    · rw [List.length_append, h2, List.length_singleton]; omega
    · rw [h2]; omega
  have hbit : ∀ k, bitAt bs k = l.getD k false := by
    intro k
    rw [← hbs]
    split
    · rw [bitAt_append_zero, h3]
    · rw [h3]
  have hs : negAnd7 (b.nbit + n) = 8 - l.length % 8 - n := by
    rw [negAnd7, h1]; omega
  have hx : (UInt8.ofNat (w <<< negAnd7 (b.nbit + n))).toNat = w <<< (8 - l.length % 8 - n) := by
    rw [UInt8.toNat_ofNat', hs, Nat.mod_eq_of_lt]
    rw [Nat.shiftLeft_eq]
    calc w * 2 ^ (8 - l.length % 8 - n) < 2 ^ n * 2 ^ (8 - l.length % 8 - n) :=
          Nat.mul_lt_mul_of_pos_right hw (Nat.two_pow_pos _)
      _ = 2 ^ (8 - l.length % 8) := by rw [← pow_add]; congr 1; omega
      _ ≤ 2 ^ 8 := Nat.pow_le_pow_right (by decide) (by omega)
  refine ⟨by simp [beBits_length, h1], ?_, ?_⟩
  · simp only [orLast_length, hlen, List.length_append, beBits_length]; omega
  · intro k
    rw [bitAt_orLast, hbit, hx, hlen, getD_append_bool, beBits_getD, Nat.testBit_shiftLeft]
    by_cases hk : k < l.length
    · rw [if_pos hk]
      by_cases hq : k / 8 + 1 = l.length / 8 + 1
      · have hsmall : w.testBit (7 - k % 8 - (8 - l.length % 8 - n)) = false := by
          apply Nat.testBit_lt_two_pow
          exact lt_of_lt_of_le hw (Nat.pow_le_pow_right (by decide) (by omega))
        simp [hsmall]
      · simp [show ¬ (k / 8 = l.length / 8) by omega]
    · rw [if_neg hk]
      have hl : l.getD k false = false := List.getD_eq_default _ _ (by omega)
      rw [hl, Bool.false_or]
      by_cases hkn : k - l.length < n
      · have h7 : k / 8 + 1 = l.length / 8 + 1 := by omega
        have h8 : 7 - k % 8 - (8 - l.length % 8 - n) = n - 1 - (k - l.length) := by omega
        have h9 : 7 - k % 8 ≥ 8 - l.length % 8 - n := by omega
        simp only [h7, h8, h9, hkn, decide_true, Bool.true_and]
      · by_cases hq : k / 8 + 1 = l.length / 8 + 1
        · have : ¬ (7 - k % 8 ≥ 8 - l.length % 8 - n) := by omega
          simp [hkn, this]
        · simp [hkn, show ¬ (k / 8 = l.length / 8) by omega]

theorem writeLoop_rep : ∀ (fuel : Nat) (b : Bits) (l : List Bool) (v n : Nat), n ≤ fuel → Rep b l → v < 2 ^ n →
    Rep (writeLoop fuel b v n) (l ++ beBits v n)
  | 0, b, l, v, n, hf, h, _ => by
    have : n = 0 := by omega
    subst this
    simpa [writeLoop, beBits_zero] using h
  | fuel + 1, b, l, v, n, hf, h, hv => by
    rw [writeLoop]
    by_cases h0 : 0 < n
    · rw [if_pos h0]
      obtain ⟨m, hm⟩ : ∃ m, m = (if b.nbit % 8 = 0 then (b.b ++ [0], if n > 8 then 8 else n)
          else (b.b, if (if n > 8 then 8 else n) > negAnd7 b.nbit then negAnd7 b.nbit else if n > 8 then 8 else n)).2 := ⟨_, rfl⟩
      have hb1 : (if b.nbit % 8 = 0 then (b.b ++ [0], if n > 8 then 8 else n)
          else (b.b, if (if n > 8 then 8 else n) > negAnd7 b.nbit then negAnd7 b.nbit else if n > 8 then 8 else n)).1 =
          if b.nbit % 8 = 0 then b.b ++ [0] else b.b := by split <;> rfl
      have hm1 : 0 < m ∧ m ≤ n ∧ m ≤ 8 - l.length % 8 := by
        rw [hm, h.nbit, negAnd7]
        split
        · simp only; split <;> omega
        · simp only; split <;> split <;> omega
      simp only [hb1, ← hm]
      have hsplit : v < 2 ^ (m + (n - m)) := by rwa [show m + (n - m) = n by omega]
      have hw : v >>> (n - m) < 2 ^ m := by
        rw [Nat.shiftRight_eq_div_pow, Nat.div_lt_iff_lt_mul (Nat.two_pow_pos _), ← pow_add]; exact hsplit
      have hstep := write_step h (v >>> (n - m)) m hm1.1 hm1.2.2 hw
      have hrest : v - (v >>> (n - m)) <<< (n - m) = v % 2 ^ (n - m) := by
        rw [Nat.shiftRight_eq_div_pow, Nat.shiftLeft_eq]
        have := Nat.div_add_mod v (2 ^ (n - m))
        rw [Nat.mul_comm] at this
        omega
      rw [hrest]
      have ih := writeLoop_rep fuel _ _ (v % 2 ^ (n - m)) (n - m) (by omega) hstep (Nat.mod_lt _ (Nat.two_pow_pos _))
      have := beBits_split v m (n - m)
      rw [show m + (n - m) = n by omega] at this
      rw [this, ← List.append_assoc]
      exact ih
    · rw [if_neg h0]
      have : n = 0 := by omega
      subst this
      simpa [beBits_zero] using h

theorem Rep.write {b : Bits} {l : List Bool} (h : Rep b l) {v n : Nat} (hv : v < 2 ^ n) : Rep (b.write v n) (l ++ beBits v n) :=
  writeLoop_rep n b l v n (Nat.le_refl _) h hv

/-! ### Numbers from bits -/

theorem ofBits_append_one (l : List Bool) (b : Bool) : ofBits (l ++ [b]) = 2 * ofBits l + b.toNat := by
  simp [ofBits]

theorem ofBits_beBits : ∀ (n v : Nat), v < 2 ^ n → ofBits (beBits v n) = v
  | 0, v, h => by
    have : v = 0 := by omega
    subst this; rfl
  | n + 1, v, h => by
    rw [beBits_split v n 1]
    have h1 : beBits (v % 2 ^ 1) 1 = [(v % 2).testBit 0] := rfl
    rw [h1, ofBits_append_one, ofBits_beBits n (v >>> 1) (by rw [Nat.shiftRight_eq_div_pow, Nat.div_lt_iff_lt_mul (by decide)]; rw [pow_succ] at h; omega)]
    rw [Nat.shiftRight_eq_div_pow, Nat.testBit_zero]
    rcases Nat.mod_two_eq_zero_or_one v with h2 | h2
    · simp [h2]; omega
    · simp [h2]; omega

theorem takeNum_beBits {n v : Nat} (h : v < 2 ^ n) (r : List Bool) : takeNum n (beBits v n ++ r) = some (v, r) := by
  unfold takeNum
  rw [if_neg (by simp [beBits_length]), List.take_append_of_le_length (by rw [beBits_length]),
    List.take_of_length_le (by rw [beBits_length]), ofBits_beBits n v h, List.drop_append_of_le_length (by rw [beBits_length]),
    List.drop_eq_nil_of_le (by rw [beBits_length]), List.nil_append]

end Verif.QR
