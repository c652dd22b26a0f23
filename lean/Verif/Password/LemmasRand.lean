import Verif.Password.Spec
import Mathlib.Tactic.Ring
import Mathlib.Tactic.Linarith
import Mathlib.SetTheory.Cardinal.Finite
/-
Facts about the model of crypto/rand.Int.
-/
namespace Verif.Password

theorem foldl_ofBytes (bs : Str) (acc : Nat) :
    bs.foldl (fun acc b => acc * 256 + b.toNat) acc = acc * 256 ^ bs.length + ofBytes bs := by
  induction bs generalizing acc with
  | nil => simp [ofBytes]
  | cons x xs ih =>
    simp only [ofBytes, List.foldl_cons, List.length_cons]
    rw [ih, ih (0 * 256 + x.toNat)]
    ring

theorem ofBytes_cons (x : UInt8) (xs : Str) :
    ofBytes (x :: xs) = x.toNat * 256 ^ xs.length + ofBytes xs := by
  have := foldl_ofBytes xs (0 * 256 + x.toNat)
  simp only [ofBytes, List.foldl_cons] at *
  rw [this]; ring

theorem ofBytes_lt (bs : Str) : ofBytes bs < 256 ^ bs.length := by
  induction bs with
  | nil => simp [ofBytes]
  | cons x xs ih =>
    rw [ofBytes_cons, List.length_cons, pow_succ]
    have hx : x.toNat < 256 := x.toNat_lt
    have : x.toNat * 256 ^ xs.length ≤ 255 * 256 ^ xs.length := Nat.mul_le_mul_right _ (by omega)
    omega

theorem ofBytes_inj {a b : Str} (hl : a.length = b.length) (h : ofBytes a = ofBytes b) : a = b := by
  induction a generalizing b with
  | nil => cases b with
    | nil => rfl
    | cons => simp at hl
  | cons x xs ih =>
    cases b with
    | nil => simp at hl
    | cons y ys =>
      simp only [List.length_cons, Nat.add_right_cancel_iff] at hl
      rw [ofBytes_cons, ofBytes_cons, hl] at h
      have h1 := ofBytes_lt xs
      have h2 := ofBytes_lt ys
      rw [hl] at h1
      have hpos : 0 < 256 ^ ys.length := by positivity
      have hq : x.toNat = y.toNat := by
        have e1 : (x.toNat * 256 ^ ys.length + ofBytes xs) / 256 ^ ys.length = x.toNat := by
          rw [Nat.mul_comm, Nat.mul_add_div hpos, Nat.div_eq_of_lt h1, Nat.add_zero]
        have e2 : (y.toNat * 256 ^ ys.length + ofBytes ys) / 256 ^ ys.length = y.toNat := by
          rw [Nat.mul_comm, Nat.mul_add_div hpos, Nat.div_eq_of_lt h2, Nat.add_zero]
        rw [← e1, h, e2]
      rw [hq] at h
      have hr := ih hl (by omega)
      rw [hr, UInt8.toNat_inj.mp hq]

/-- Big-endian bytes of `n`, `k` of them. -/
def toBytes : Nat → Nat → Str
  | 0, _ => []
  | k + 1, n => UInt8.ofNat (n / 256 ^ k) :: toBytes k (n % 256 ^ k)

theorem length_toBytes (k n : Nat) : (toBytes k n).length = k := by
  induction k generalizing n with
  | zero => rfl
  | succ k ih => simp [toBytes, ih]

theorem ofBytes_toBytes (k n : Nat) (h : n < 256 ^ k) : ofBytes (toBytes k n) = n := by
  induction k generalizing n with
  | zero => simp at h; subst h; rfl
  | succ k ih =>
    have hpos : 0 < 256 ^ k := by positivity
    rw [toBytes, ofBytes_cons, length_toBytes, ih _ (Nat.mod_lt _ hpos)]
    have : n / 256 ^ k < 256 := by
      rw [Nat.div_lt_iff_lt_mul hpos]; rw [pow_succ] at h; linarith
    rw [UInt8.toNat_ofNat']
    have h8 : (2:Nat) ^ 8 = 256 := by norm_num
    rw [h8, Nat.mod_eq_of_lt this]
    have := Nat.div_add_mod n (256 ^ k)
    linarith [Nat.mul_comm (256 ^ k) (n / 256 ^ k)]

theorem toNat_mask (x : UInt8) (b : Nat) (hb : b ≤ 8) :
    (x &&& UInt8.ofNat (2 ^ b - 1)).toNat = x.toNat % 2 ^ b := by
  rw [UInt8.toNat_and, UInt8.toNat_ofNat']
  have h1 : 2 ^ b ≤ 2 ^ 8 := Nat.pow_le_pow_right (by norm_num) hb
  have hpos : 0 < 2 ^ b := by positivity
  rw [Nat.mod_eq_of_lt (by omega), Nat.and_two_pow_sub_one_eq_mod]

/-- Masking keeps exactly the low bits of the big-endian value. -/
theorem ofBytes_maskTop (b : Nat) (hb : b ≤ 8) (bs : Str) (hne : bs ≠ []) :
    ofBytes (maskTop b bs) = ofBytes bs % 2 ^ (b + 8 * (bs.length - 1)) := by
  cases bs with
  | nil => exact absurd rfl hne
  | cons x xs =>
    rw [maskTop, ofBytes_cons, ofBytes_cons, toNat_mask x b hb]
    simp only [List.length_cons, Nat.add_sub_cancel]
    have hp : 2 ^ (b + 8 * xs.length) = 256 ^ xs.length * 2 ^ b := by
      rw [pow_add, pow_mul]; norm_num [Nat.mul_comm]
    rw [hp, Nat.mod_mul]
    have hlt := ofBytes_lt xs
    have hpos : 0 < 256 ^ xs.length := by positivity
    have e1 : (x.toNat * 256 ^ xs.length + ofBytes xs) % 256 ^ xs.length = ofBytes xs := by
      rw [Nat.mul_comm, Nat.mul_add_mod, Nat.mod_eq_of_lt hlt]
    have e2 : (x.toNat * 256 ^ xs.length + ofBytes xs) / 256 ^ xs.length = x.toNat := by
      rw [Nat.mul_comm, Nat.mul_add_div hpos, Nat.div_eq_of_lt hlt, Nat.add_zero]
    rw [e1, e2]; ring

/-- Number of bits kept in the top byte by rand.Int for bound `max`. -/
def topBits (max : Nat) : Nat := if bitLen (max - 1) % 8 = 0 then 8 else bitLen (max - 1) % 8

/-- Number of bytes read per attempt. -/
def blockLen (max : Nat) : Nat := (bitLen (max - 1) + 7) / 8

theorem lt_two_pow_bitLen (n : Nat) : n < 2 ^ bitLen n := by
  unfold bitLen
  split
  · subst_vars; simp
  · exact Nat.lt_log2_self

theorem bitLen_pos {max : Nat} (h : 1 < max) : bitLen (max - 1) ≠ 0 := by
  unfold bitLen; split <;> omega

theorem topBits_le (max : Nat) : topBits max ≤ 8 := by unfold topBits; split <;> omega

theorem blockLen_pos {max : Nat} (h : 1 < max) : 0 < blockLen max := by
  have := bitLen_pos h; unfold blockLen; omega

theorem topBits_add {max : Nat} (h : 1 < max) :
    topBits max + 8 * (blockLen max - 1) = bitLen (max - 1) := by
  have := bitLen_pos h
  unfold topBits blockLen; split <;> omega

theorem max_le_pow {max : Nat} (h : 1 < max) : max ≤ 2 ^ bitLen (max - 1) := by
  have := lt_two_pow_bitLen (max - 1); omega

/-- One attempt of the rejection sampler. -/
theorem randInt_block {max : Nat} (h : 1 < max) (bs rest : Str) (hl : bs.length = blockLen max) :
    randInt max (bs ++ rest) =
      if ofBytes bs % 2 ^ bitLen (max - 1) < max then .ok (ofBytes bs % 2 ^ bitLen (max - 1), rest)
      else randInt max rest := by
  have hb := bitLen_pos h
  have hk := blockLen_pos h
  have hne : bs ≠ [] := by intro h0; subst h0; simp at hl; omega
  have hm := ofBytes_maskTop (topBits max) (topBits_le max) bs hne
  rw [hl, topBits_add h] at hm
  have e0 : max ≠ 0 := by omega
  unfold randInt
  simp only [e0, hb, if_false, dif_neg, not_false_iff]
  rw [randLoop]
  have e1 : ¬ (bs ++ rest).length < (bitLen (max - 1) + 7) / 8 := by
    rw [List.length_append, hl]; unfold blockLen; omega
  have e2 : (bs ++ rest).take ((bitLen (max - 1) + 7) / 8) = bs := by
    rw [← show blockLen max = (bitLen (max - 1) + 7) / 8 from rfl, ← hl, List.take_left]
  have e3 : (bs ++ rest).drop ((bitLen (max - 1) + 7) / 8) = rest := by
    rw [← show blockLen max = (bitLen (max - 1) + 7) / 8 from rfl, ← hl, List.drop_left]
  rw [dif_neg e1, e2, e3]
  simp only [topBits] at hm
  rw [hm]

theorem randLoop_ok {max k b : Nat} {hk : 0 < k} {r : Str} {i : Nat} {r' : Str}
    (h : randLoop max k b hk r = .ok (i, r')) : i < max := by
  induction hn : r.length using Nat.strong_induction_on generalizing r with
  | _ n ih =>
    rw [randLoop] at h
    split at h
    · exact absurd h (by simp)
    · rename_i hlen
      simp only at h
      split at h
      · rename_i hlt
        simp only [Out.ok.injEq, Prod.mk.injEq] at h
        omega
      · exact ih (r.drop k).length (by simp; omega) h rfl

theorem randLoop_err {max k b : Nat} {hk : 0 < k} {r : Str} :
    (∃ i r', randLoop max k b hk r = .ok (i, r')) ∨ randLoop max k b hk r = .err .read := by
  induction hn : r.length using Nat.strong_induction_on generalizing r with
  | _ n ih =>
    rw [randLoop]
    split
    · right; rfl
    · simp only
      split
      · left; exact ⟨_, _, rfl⟩
      · exact ih (r.drop k).length (by simp; omega) rfl

theorem randInt_lt {max : Nat} {r : Str} {i : Nat} {r' : Str}
    (h : randInt max r = .ok (i, r')) : i < max := by
  unfold randInt at h
  split at h
  · exact absurd h (by simp)
  · simp only at h
    split at h
    · simp only [Out.ok.injEq, Prod.mk.injEq] at h; omega
    · exact randLoop_ok h

theorem randInt_cases {max : Nat} (hm : 0 < max) (r : Str) :
    (∃ i r', randInt max r = .ok (i, r')) ∨ randInt max r = .err .read := by
  unfold randInt
  rw [if_neg (by omega)]
  simp only
  split
  · left; exact ⟨_, _, rfl⟩
  · exact randLoop_err

/-- Every index below the bound is reachable by some block of bytes. -/
theorem randInt_surj {max i : Nat} (h : i < max) : ∃ bs : Str, ∀ rest, randInt max (bs ++ rest) = .ok (i, rest) := by
  by_cases h1 : max = 1
  · subst h1
    refine ⟨[], fun rest => ?_⟩
    have : i = 0 := by omega
    subst this
    simp [randInt, bitLen]
  · have hm : 1 < max := by omega
    refine ⟨toBytes (blockLen max) i, fun rest => ?_⟩
    rw [randInt_block hm _ _ (length_toBytes _ _)]
    have hi : i < 2 ^ bitLen (max - 1) := lt_of_lt_of_le h (max_le_pow hm)
    have hle : (2 : Nat) ^ bitLen (max - 1) ≤ 256 ^ blockLen max := by
      rw [show (256 : Nat) = 2 ^ 8 by norm_num, ← pow_mul]
      apply Nat.pow_le_pow_right (by norm_num); unfold blockLen; omega
    rw [ofBytes_toBytes _ _ (lt_of_lt_of_le hi hle), Nat.mod_eq_of_lt hi, if_pos h]

/-- The byte blocks one attempt maps to candidate `i` number `2^(8*blockLen - bitLen)`, for every `i`. -/
theorem card_blocks {max i : Nat} (h : 1 < max) (hi : i < max) :
    Nat.card {bs : Str // bs.length = blockLen max ∧ ofBytes (maskTop (topBits max) bs) = i}
      = 2 ^ (8 - topBits max) := by
  have hk := blockLen_pos h
  have hi' : i < 2 ^ bitLen (max - 1) := lt_of_lt_of_le hi (max_le_pow h)
  have hbl : 8 * blockLen max = bitLen (max - 1) + (8 - topBits max) := by
    have := topBits_add h; have := topBits_le max; omega
  have h256 : (256 : Nat) ^ blockLen max = 2 ^ bitLen (max - 1) * 2 ^ (8 - topBits max) := by
    rw [show (256 : Nat) = 2 ^ 8 by norm_num, ← pow_mul, hbl, pow_add]
  have hpos : 0 < 2 ^ bitLen (max - 1) := by positivity
  have key : ∀ bs : Str, bs.length = blockLen max →
      ofBytes (maskTop (topBits max) bs) = ofBytes bs % 2 ^ bitLen (max - 1) := by
    intro bs hl
    have hne : bs ≠ [] := by intro h0; subst h0; simp at hl; omega
    have := ofBytes_maskTop (topBits max) (topBits_le max) bs hne
    rwa [hl, topBits_add h] at this
  have e : {bs : Str // bs.length = blockLen max ∧ ofBytes (maskTop (topBits max) bs) = i} ≃ Fin (2 ^ (8 - topBits max)) :=
    { toFun := fun x => ⟨ofBytes x.1 / 2 ^ bitLen (max - 1), by
        rw [Nat.div_lt_iff_lt_mul hpos, Nat.mul_comm, ← h256]
        have := ofBytes_lt x.1
        rwa [x.2.1] at this⟩
      invFun := fun j => ⟨toBytes (blockLen max) (i + 2 ^ bitLen (max - 1) * j.1), by
        have hj := j.2
        have hlt : i + 2 ^ bitLen (max - 1) * j.1 < 256 ^ blockLen max := by
          rw [h256]
          calc i + 2 ^ bitLen (max - 1) * j.1 < 2 ^ bitLen (max - 1) + 2 ^ bitLen (max - 1) * j.1 := by omega
            _ = 2 ^ bitLen (max - 1) * (j.1 + 1) := by ring
            _ ≤ _ := Nat.mul_le_mul_left _ (by omega)
        refine ⟨length_toBytes _ _, ?_⟩
        rw [key _ (length_toBytes _ _), ofBytes_toBytes _ _ hlt, Nat.add_mul_mod_self_left, Nat.mod_eq_of_lt hi']⟩
      left_inv := by
        rintro ⟨bs, hl, hv⟩
        apply Subtype.ext
        simp only
        have hv' := key bs hl
        rw [hv] at hv'
        have hval : i + 2 ^ bitLen (max - 1) * (ofBytes bs / 2 ^ bitLen (max - 1)) = ofBytes bs := by
          rw [hv']; exact Nat.mod_add_div _ _
        apply ofBytes_inj
        · rw [length_toBytes, hl]
        · rw [hval, ofBytes_toBytes]; rw [← hl]; exact ofBytes_lt _
      right_inv := by
        intro j
        have hj := j.2
        have hlt : i + 2 ^ bitLen (max - 1) * j.1 < 256 ^ blockLen max := by
          rw [h256]
          calc i + 2 ^ bitLen (max - 1) * j.1 < 2 ^ bitLen (max - 1) + 2 ^ bitLen (max - 1) * j.1 := by omega
            _ = 2 ^ bitLen (max - 1) * (j.1 + 1) := by ring
            _ ≤ _ := Nat.mul_le_mul_left _ (by omega)
        apply Fin.ext
        simp only
        rw [ofBytes_toBytes _ _ hlt, Nat.add_mul_div_left _ _ hpos, Nat.div_eq_of_lt hi', Nat.zero_add] }
  rw [Nat.card_congr e, Nat.card_fin]

end Verif.Password
