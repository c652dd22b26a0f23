import Verif.QR.BitsLemmas
/-
Lemmas about segments: what `Encode` appends, and that the standard's decoder reads it back.
-/
namespace Verif.QR
open Iso

/-! ### Lengths -/

theorem writeLoop_nbit : ∀ (fuel : Nat) (b : Bits) (v n : Nat), n ≤ fuel → (writeLoop fuel b v n).nbit = b.nbit + n
  | 0, b, v, n, h => by
    have : n = 0 := by omega
    subst this; rfl
  | fuel + 1, b, v, n, h => by
    rw [writeLoop]
    by_cases h0 : 0 < n
    · rw [if_pos h0]
      obtain ⟨m, hm⟩ : ∃ m, m = (if b.nbit % 8 = 0 then (b.b ++ [0], if n > 8 then 8 else n)
          else (b.b, if (if n > 8 then 8 else n) > negAnd7 b.nbit then negAnd7 b.nbit else if n > 8 then 8 else n)).2 := ⟨_, rfl⟩
      have hm1 : 0 < m ∧ m ≤ n := by
        rw [hm, negAnd7]
        split
        · simp only; split <;> omega
        · simp only; split <;> split <;> omega
      simp only [← hm]
      rw [writeLoop_nbit fuel _ _ _ (by omega)]
      simp only
      omega
    · rw [if_neg h0]; omega

theorem write_nbit (b : Bits) (v n : Nat) : (b.write v n).nbit = b.nbit + n := writeLoop_nbit n b v n (Nat.le_refl _)

theorem encodeNum_nbit : ∀ (s : Str) (b : Bits), (encodeNum b s).nbit = b.nbit + (10 * s.length + 2) / 3
  | [], b => by simp [encodeNum]
  | [x], b => by simp [encodeNum, write_nbit]
  | [x, y], b => by simp [encodeNum, write_nbit]
  | x :: y :: z :: s, b => by
    rw [encodeNum, encodeNum_nbit s, write_nbit]
    simp only [List.length_cons]
    omega

theorem encodeAlpha_nbit : ∀ (s : Str) (b : Bits), (encodeAlpha b s).nbit = b.nbit + (11 * s.length + 1) / 2
  | [], b => by simp [encodeAlpha]
  | [x], b => by simp [encodeAlpha, write_nbit]
  | x :: y :: s, b => by
    rw [encodeAlpha, encodeAlpha_nbit s, write_nbit]
    simp only [List.length_cons]
    omega

theorem encodeStr_nbit : ∀ (s : Str) (b : Bits), (s.foldl (fun b c => b.write c.toNat 8) b).nbit = b.nbit + 8 * s.length
  | [], b => by simp
  | x :: s, b => by
    rw [List.foldl_cons, encodeStr_nbit s, write_nbit]
    simp only [List.length_cons]
    omega

theorem encode_nbit (b : Bits) (v : Nat) (e : Encoding) : (e.encode b v).nbit = b.nbit + e.bits v := by
  cases e with
  | num s => simp only [Encoding.encode, encodeNum_nbit, write_nbit, Encoding.bits]; omega
  | alpha s => simp only [Encoding.encode, encodeAlpha_nbit, write_nbit, Encoding.bits]; omega
  | str s => simp only [Encoding.encode, encodeStr_nbit, write_nbit, Encoding.bits]; omega

/-! ### Contents -/

/-- The bits of the characters of each mode. -/
def numBits : Str → List Bool
  | x :: y :: z :: s => beBits (digit x * 100 + digit y * 10 + digit z) 10 ++ numBits s
  | [x, y] => beBits (digit x * 10 + digit y) 7
  | [x] => beBits (digit x) 4
  | [] => []

def alphaBits : Str → List Bool
  | x :: y :: s => beBits (alphaIndex x * 45 + alphaIndex y) 11 ++ alphaBits s
  | [x] => beBits (alphaIndex x) 6
  | [] => []

def segBits (v : Nat) : Encoding → List Bool
  | .num s => beBits 1 4 ++ beBits s.length (numLen.getD (sizeClass v) 0) ++ numBits s
  | .alpha s => beBits 2 4 ++ beBits s.length (alphaLen.getD (sizeClass v) 0) ++ alphaBits s
  | .str s => beBits 4 4 ++ beBits s.length (stringLen.getD (sizeClass v) 0) ++ s.flatMap fun c => beBits c.toNat 8

/-- The text of a segment. -/
def Encoding.text : Encoding → Str
  | .num s => s
  | .alpha s => s
  | .str s => s

/-- Width of the length field. -/
def Encoding.lenWidth (v : Nat) : Encoding → Nat
  | .num _ => numLen.getD (sizeClass v) 0
  | .alpha _ => alphaLen.getD (sizeClass v) 0
  | .str _ => stringLen.getD (sizeClass v) 0

theorem digit_lt {c : UInt8} (h : (48 ≤ c && c ≤ 57) = true) : digit c < 10 ∧ digitChar (digit c) = c := by
  have : ∀ n, n < 256 → (48 ≤ UInt8.ofNat n && UInt8.ofNat n ≤ 57) = true → digit (UInt8.ofNat n) < 10 ∧
      digitChar (digit (UInt8.ofNat n)) = UInt8.ofNat n := by decide +kernel
  have h2 := this c.toNat c.toNat_lt
  rw [UInt8.ofNat_toNat] at h2
  exact h2 h

theorem alphaIndex_lt {c : UInt8} (h : c ∈ alphabet) : alphaIndex c < 45 ∧ alnumChar (alphaIndex c) = some c := by
  have : ∀ n, n < 256 → UInt8.ofNat n ∈ alphabet → alphaIndex (UInt8.ofNat n) < 45 ∧
      alnumChar (alphaIndex (UInt8.ofNat n)) = some (UInt8.ofNat n) := by decide +kernel
  have h2 := this c.toNat c.toNat_lt
  rw [UInt8.ofNat_toNat] at h2
  exact h2 h

theorem encodeNum_rep : ∀ (s : Str) (b : Bits) (l : List Bool), (∀ c ∈ s, (48 ≤ c && c ≤ 57) = true) → Rep b l →
    Rep (encodeNum b s) (l ++ numBits s)
  | [], b, l, _, h => by simpa [encodeNum, numBits] using h
  | [x], b, l, hc, h => by
    have := (digit_lt (hc x (by simp))).1
    exact h.write (by omega)
  | [x, y], b, l, hc, h => by
    have h1 := (digit_lt (hc x (by simp))).1
    have h2 := (digit_lt (hc y (by simp))).1
    exact h.write (by omega)
  | x :: y :: z :: s, b, l, hc, h => by
    have h1 := (digit_lt (hc x (by simp))).1
    have h2 := (digit_lt (hc y (by simp))).1
    have h3 := (digit_lt (hc z (by simp))).1
    rw [encodeNum, numBits, ← List.append_assoc]
    exact encodeNum_rep s _ _ (fun c hc' => hc c (by simp [hc'])) (h.write (by omega))

theorem encodeAlpha_rep : ∀ (s : Str) (b : Bits) (l : List Bool), (∀ c ∈ s, c ∈ alphabet) → Rep b l →
    Rep (encodeAlpha b s) (l ++ alphaBits s)
  | [], b, l, _, h => by simpa [encodeAlpha, alphaBits] using h
  | [x], b, l, hc, h => by
    have := (alphaIndex_lt (hc x (by simp))).1
    exact h.write (by omega)
  | x :: y :: s, b, l, hc, h => by
    have h1 := (alphaIndex_lt (hc x (by simp))).1
    have h2 := (alphaIndex_lt (hc y (by simp))).1
    rw [encodeAlpha, alphaBits, ← List.append_assoc]
    exact encodeAlpha_rep s _ _ (fun c hc' => hc c (by simp [hc'])) (h.write (by omega))

theorem encodeStr_rep : ∀ (s : Str) (b : Bits) (l : List Bool), Rep b l →
    Rep (s.foldl (fun b c => b.write c.toNat 8) b) (l ++ s.flatMap fun c => beBits c.toNat 8)
  | [], b, l, h => by simpa using h
  | x :: s, b, l, h => by
    rw [List.foldl_cons, List.flatMap_cons, ← List.append_assoc]
    exact encodeStr_rep s _ _ (h.write x.toNat_lt)

theorem encode_rep (v : Nat) (e : Encoding) (b : Bits) (l : List Bool) (hc : e.check = true) (hl : e.text.length < 2 ^ e.lenWidth v)
    (h : Rep b l) : Rep (e.encode b v) (l ++ segBits v e) := by
  cases e with
  | num s =>
    simp only [Encoding.encode, segBits, ← List.append_assoc]
    apply encodeNum_rep
    · simpa [Encoding.check] using hc
    · exact (h.write (by decide)).write hl
  | alpha s =>
    simp only [Encoding.encode, segBits, ← List.append_assoc]
    apply encodeAlpha_rep
    · simpa [Encoding.check] using hc
    · exact (h.write (by decide)).write hl
  | str s =>
    simp only [Encoding.encode, segBits, ← List.append_assoc]
    apply encodeStr_rep
    exact (h.write (by decide)).write hl

/-! ### Decoding -/

theorem decNum_numBits : ∀ (s : Str) (r : List Bool), (∀ c ∈ s, (48 ≤ c && c ≤ 57) = true) →
    decNum s.length (numBits s ++ r) = some (s, r)
  | [], r, _ => by simp [decNum, numBits]
  | [x], r, hc => by
    obtain ⟨h1, h2⟩ := digit_lt (hc x (by simp))
    simp only [List.length_cons, List.length_nil, decNum, numBits]
    rw [takeNum_beBits (by omega)]
    simp [h1, h2]
  | [x, y], r, hc => by
    obtain ⟨h1, h2⟩ := digit_lt (hc x (by simp))
    obtain ⟨h3, h4⟩ := digit_lt (hc y (by simp))
    simp only [List.length_cons, List.length_nil, decNum, numBits]
    rw [takeNum_beBits (by omega)]
    have e1 : (digit x * 10 + digit y) / 10 = digit x := by omega
    have e2 : (digit x * 10 + digit y) % 10 = digit y := by omega
    simp [e1, e2, h2, h4, show digit x * 10 + digit y < 100 by omega]
  | x :: y :: z :: s, r, hc => by
    obtain ⟨h1, h2⟩ := digit_lt (hc x (by simp))
    obtain ⟨h3, h4⟩ := digit_lt (hc y (by simp))
    obtain ⟨h5, h6⟩ := digit_lt (hc z (by simp))
    simp only [List.length_cons, decNum, numBits, List.append_assoc]
    rw [takeNum_beBits (by omega)]
    have e1 : (digit x * 100 + digit y * 10 + digit z) / 100 = digit x := by omega
    have e2 : (digit x * 100 + digit y * 10 + digit z) / 10 % 10 = digit y := by omega
    have e3 : (digit x * 100 + digit y * 10 + digit z) % 10 = digit z := by omega
    have ih := decNum_numBits s r (fun c hc' => hc c (by simp [hc']))
    simp [e1, e2, e3, h2, h4, h6, ih, show digit x * 100 + digit y * 10 + digit z < 1000 by omega]

theorem decAlnum_alphaBits : ∀ (s : Str) (r : List Bool), (∀ c ∈ s, c ∈ alphabet) →
    decAlnum s.length (alphaBits s ++ r) = some (s, r)
  | [], r, _ => by simp [decAlnum, alphaBits]
  | [x], r, hc => by
    obtain ⟨h1, h2⟩ := alphaIndex_lt (hc x (by simp))
    simp only [List.length_cons, List.length_nil, decAlnum, alphaBits]
    rw [takeNum_beBits (by omega)]
    simp [h2]
  | x :: y :: s, r, hc => by
    obtain ⟨h1, h2⟩ := alphaIndex_lt (hc x (by simp))
    obtain ⟨h3, h4⟩ := alphaIndex_lt (hc y (by simp))
    simp only [List.length_cons, decAlnum, alphaBits, List.append_assoc]
    rw [takeNum_beBits (by omega)]
    have e1 : (alphaIndex x * 45 + alphaIndex y) / 45 = alphaIndex x := by omega
    have e2 : (alphaIndex x * 45 + alphaIndex y) % 45 = alphaIndex y := by omega
    have ih := decAlnum_alphaBits s r (fun c hc' => hc c (by simp [hc']))
    simp [e1, e2, h2, h4, ih]

theorem decByte_bits : ∀ (s : Str) (r : List Bool), decByte s.length ((s.flatMap fun c => beBits c.toNat 8) ++ r) = some (s, r)
  | [], r => by simp [decByte]
  | x :: s, r => by
    simp only [List.length_cons, decByte, List.flatMap_cons, List.append_assoc]
    rw [takeNum_beBits x.toNat_lt]
    simp [decByte_bits s r]

theorem lenWidth_countBits (v : Nat) : numLen.getD (sizeClass v) 0 = countBits v 10 12 14 ∧
    alphaLen.getD (sizeClass v) 0 = countBits v 9 11 13 ∧ stringLen.getD (sizeClass v) 0 = countBits v 8 16 16 := by
  unfold sizeClass countBits
  by_cases h1 : v ≤ 9
  · simp [h1, show v < 10 by omega, numLen, alphaLen, stringLen]
  · by_cases h2 : v ≤ 26
    · simp [h1, h2, show ¬ v < 10 by omega, show v < 27 by omega, numLen, alphaLen, stringLen]
    · simp [h1, h2, show ¬ v < 10 by omega, show ¬ v < 27 by omega, numLen, alphaLen, stringLen]

theorem decSegment_segBits (v : Nat) (e : Encoding) (r : List Bool) (hc : e.check = true)
    (hl : e.text.length < 2 ^ e.lenWidth v) : decSegment v (segBits v e ++ r) = some (e.text, r) := by
  obtain ⟨w1, w2, w3⟩ := lenWidth_countBits v
  unfold decSegment
  cases e with
  | num s =>
    simp only [Encoding.lenWidth, w1, Encoding.text] at hl
    simp only [segBits, List.append_assoc, w1]
    rw [takeNum_beBits (by decide)]
    simp only [Option.bind_some, if_true]
    rw [takeNum_beBits hl]
    simp only [Option.bind_some]
    exact decNum_numBits s r (by simpa [Encoding.check] using hc)
  | alpha s =>
    simp only [Encoding.lenWidth, w2, Encoding.text] at hl
    simp only [segBits, List.append_assoc, w2]
    rw [takeNum_beBits (by decide)]
    simp only [Option.bind_some, if_true]
    rw [if_neg (by decide), takeNum_beBits hl]
    simp only [Option.bind_some]
    exact decAlnum_alphaBits s r (by simpa [Encoding.check] using hc)
  | str s =>
    simp only [Encoding.lenWidth, w3, Encoding.text] at hl
    simp only [segBits, List.append_assoc, w3]
    rw [takeNum_beBits (by decide)]
    simp only [Option.bind_some, if_true]
    rw [if_neg (by decide), if_neg (by decide), takeNum_beBits hl]
    simp only [Option.bind_some]
    exact decByte_bits s r

theorem segBits_length (v : Nat) (e : Encoding) (hc : e.check = true) (hl : e.text.length < 2 ^ e.lenWidth v) :
    (segBits v e).length = e.bits v := by
  have h1 := encode_rep v e Bits.empty [] hc hl Rep.empty
  have h2 := encode_nbit Bits.empty v e
  rw [h1.nbit] at h2
  simpa [Bits.empty] using h2

end Verif.QR
