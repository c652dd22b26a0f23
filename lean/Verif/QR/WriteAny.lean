import Verif.QR.AnyArgsProps
/-
C128: the bit buffer for all arguments: `Write` of values that do not fit into the given number of bits (or a number that is not positive),
`Pad` of any number of bits, and `Encode` of texts that `Check` rejects.
-/
namespace Verif.QR
open Iso

/-! ### Model -/

/-- coding/qr.go:86-106 `Write` for an int as the number of bits: the loop does not run if it is not positive. (`v` is a uint below 2^64; the
arithmetic is the same: `v>>sh<<k` is cut to a byte, and `v -= v>>sh<<sh` does not wrap around.) -/
def Bits.writeI (b : Bits) (v : Nat) (nbit : Int) : Bits := if nbit > 0 then b.write v nbit.toNat else b

/-- coding/qr.go:375-395 `Pad`; `none` is the panic. `n/8` truncates, and for a negative `n` the loop does not run. -/
def Bits.padI (b : Bits) (n : Int) : Option Bits :=
  if n < 0 then none
  else if n ≤ 4 then some (b.writeI 0 n)
  else
    let b := b.write 0 4
    let n := n - 4
    let n := n - negAnd7 b.nbit
    let b := b.write 0 (negAnd7 b.nbit)
    some (padLoop (n.tdiv 8).toNat 0 b)

/-- coding/qr.go:178: `uint(strings.IndexRune(alphabet, rune(c)))`: for a byte that is not in the alphabet it is the uint of -1. -/
def alphaIndexU (c : UInt8) : UInt64 := if c ∈ alphabet then UInt64.ofNat (alphabet.idxOf c) else 0 - 1

/-- coding/qr.go:177-187: two characters at a time, in 64-bit arithmetic. -/
def encodeAlphaU (b : Bits) : Str → Bits
  | x :: y :: s => encodeAlphaU (b.write (alphaIndexU x * 45 + alphaIndexU y).toNat 11) s
  | [x] => b.write (alphaIndexU x).toNat 6
  | [] => b

/-- coding/qr.go:131-147, 174-188, 207-213 `Encode`, without `Check` before. -/
def Encoding.encodeU (b : Bits) (v : Nat) : Encoding → Bits
  | .num s => encodeNum ((b.write 1 4).write s.length (numLen.getD (sizeClass v) 0)) s
  | .alpha s => encodeAlphaU ((b.write 2 4).write s.length (alphaLen.getD (sizeClass v) 0)) s
  | .str s => s.foldl (fun b c => b.write c.toNat 8) ((b.write 4 4).write s.length (stringLen.getD (sizeClass v) 0))

/-! ### Specification -/

/-- The bits of `l` in an unfinished last byte, ORed with the low bits of `h`. -/
def orInto (l : List Bool) (h : Nat) : List Bool :=
  l.take (l.length / 8 * 8) ++ List.zipWith (· || ·) (l.drop (l.length / 8 * 8)) (beBits h (l.length % 8))

/-- Buffers a caller can build with any arguments. -/
inductive AnyBuilt : Bits → Prop where
  | empty : AnyBuilt Bits.empty
  | write {b} (v : Nat) (n : Int) : AnyBuilt b → AnyBuilt (b.writeI v n)
  | append {b b'} (p : List UInt8) : AnyBuilt b → b.append p = some b' → AnyBuilt b'
  | pad {b b'} (n : Int) : AnyBuilt b → b.padI n = some b' → AnyBuilt b'

/-! ### Lemmas -/

theorem orInto_length (l : List Bool) (h : Nat) : (orInto l h).length = l.length := by
  unfold orInto
  simp only [List.length_append, List.length_take, List.length_zipWith, List.length_drop, beBits_length]
  omega

theorem orInto_getD (l : List Bool) (h k : Nat) : (orInto l h).getD k false =
    (l.getD k false || (decide (k < l.length) && decide (k / 8 = l.length / 8) && h.testBit (l.length % 8 - 1 - k % 8))) := by
  unfold orInto
  rw [getD_append_bool]
  have hlen : (l.take (l.length / 8 * 8)).length = l.length / 8 * 8 := by rw [List.length_take]; omega
  rw [hlen]
  by_cases hk : k < l.length / 8 * 8
  · rw [if_pos hk]
    have : ¬ k / 8 = l.length / 8 := by omega
    simp only [List.getD, List.getElem?_take_of_lt hk, this, decide_false, Bool.and_false, Bool.false_and, Bool.or_false]
  · rw [if_neg hk]
    by_cases hl : k < l.length
    · have hq : k / 8 = l.length / 8 := by omega
      have h1 : k - l.length / 8 * 8 < (List.zipWith (· || ·) (l.drop (l.length / 8 * 8)) (beBits h (l.length % 8))).length := by
        rw [List.length_zipWith, List.length_drop, beBits_length]; omega
      rw [List.getD_eq_getElem _ _ h1, List.getElem_zipWith, List.getElem_drop, List.getD_eq_getElem _ _ hl]
      have e : l.length / 8 * 8 + (k - l.length / 8 * 8) = k := by omega
      have hb : k - l.length / 8 * 8 < (beBits h (l.length % 8)).length := by rw [beBits_length]; omega
      have hb2 := beBits_getD h (l.length % 8) (k - l.length / 8 * 8)
      rw [List.getD_eq_getElem _ _ hb, decide_eq_true (by omega), Bool.true_and] at hb2
      rw [hb2]
      simp only [e, hl, hq, decide_true, Bool.true_and]
      rw [show l.length % 8 - 1 - (k - l.length / 8 * 8) = l.length % 8 - 1 - k % 8 by omega]
    · rw [List.getD_eq_default _ _ (by rw [List.length_zipWith, List.length_drop]; omega), List.getD_eq_default _ _ (by omega)]
      simp [hl]

theorem orInto_zero (l : List Bool) (h : Nat) (hh : h % 2 ^ (l.length % 8) = 0) : orInto l h = l := by
  apply list_ext_getD (orInto_length l h)
  intro k
  rw [orInto_getD]
  by_cases hk : k < l.length ∧ k / 8 = l.length / 8
  · have : h.testBit (l.length % 8 - 1 - k % 8) = false := by
      have := Nat.testBit_mod_two_pow h (l.length % 8) (l.length % 8 - 1 - k % 8)
      rw [hh, Nat.zero_testBit, decide_eq_true (by omega), Bool.true_and] at this
      exact this.symm
    simp [this]
  · rcases not_and_or.1 hk with h' | h' <;> simp [h']

theorem write_stepU {b : Bits} {l : List Bool} (h : Rep b l) (w n : Nat) (hn : 0 < n) (hn' : n ≤ 8 - l.length % 8) :
    Rep ⟨orLast (UInt8.ofNat (w <<< negAnd7 (b.nbit + n))) (if b.nbit % 8 = 0 then b.b ++ [0] else b.b), b.nbit + n⟩
      (orInto l (w >>> n) ++ beBits w n) := by
  obtain ⟨h1, h2, h3⟩ := h
  generalize hbs : (if b.nbit % 8 = 0 then b.b ++ [0] else b.b) = bs
  have hlen : bs.length = l.length / 8 + 1 := by
    rw [← hbs, h1]
    split
    · rw [List.length_append, h2, List.length_singleton]; omega
    · rw [h2]; omega
  have hbit : ∀ k, bitAt bs k = l.getD k false := by
    intro k
    rw [← hbs]
    split
    · rw [bitAt_append_zero, h3]
    · rw [h3]
  have hs : negAnd7 (b.nbit + n) = 8 - l.length % 8 - n := by
    rw [negAnd7, h1]; omega
  have hx : ∀ i, i < 8 → (UInt8.ofNat (w <<< negAnd7 (b.nbit + n))).toNat.testBit i = (w <<< (8 - l.length % 8 - n)).testBit i := by
    intro i hi
    rw [UInt8.toNat_ofNat', hs, show (2 ^ 8 : Nat) = 2 ^ 8 from rfl, Nat.testBit_mod_two_pow, decide_eq_true hi, Bool.true_and]
  refine ⟨by simp [beBits_length, h1, orInto_length], ?_, ?_⟩
  · simp only [orLast_length, hlen, List.length_append, beBits_length, orInto_length]; omega
  · intro k
    rw [bitAt_orLast, hbit, hx _ (by omega), hlen, getD_append_bool, beBits_getD, Nat.testBit_shiftLeft, orInto_length, orInto_getD]
    by_cases hk : k < l.length
    · rw [if_pos hk]
      by_cases hq : k / 8 = l.length / 8
      · have e1 : w.testBit (7 - k % 8 - (8 - l.length % 8 - n)) = (w >>> n).testBit (l.length % 8 - 1 - k % 8) := by
          rw [Nat.testBit_shiftRight]; congr 1; omega
        have e2 : 7 - k % 8 ≥ 8 - l.length % 8 - n := by omega
        simp only [hk, hq, e1, e2, decide_true, Bool.true_and]
      · simp [hq]
    · rw [if_neg hk]
      have hl : l.getD k false = false := List.getD_eq_default _ _ (by omega)
      rw [hl, Bool.false_or]
      by_cases hkn : k - l.length < n
      · have h7 : k / 8 + 1 = l.length / 8 + 1 := by omega
        have h8 : 7 - k % 8 - (8 - l.length % 8 - n) = n - 1 - (k - l.length) := by omega
        have h9 : 7 - k % 8 ≥ 8 - l.length % 8 - n := by omega
        simp only [h7, h8, h9, hkn, decide_true, Bool.true_and]
      · by_cases hq : k / 8 + 1 = l.length / 8 + 1
        · have : ¬ (7 - k % 8 ≥ 8 - l.length % 8 - n) := by omega
          simp [hkn, this]
        · simp [hkn, show ¬ (k / 8 = l.length / 8) by omega]

/-- One write, whatever the value. -/
theorem Rep.writeU {b : Bits} {l : List Bool} (h : Rep b l) (v n : Nat) (hn : 0 < n) : Rep (b.write v n) (orInto l (v >>> n) ++ beBits v n) := by
  obtain ⟨f, rfl⟩ : ∃ f, n = f + 1 := ⟨n - 1, by omega⟩
  generalize hN : f + 1 = n at *
  unfold Bits.write
  rw [← hN, writeLoop, hN]
  rw [if_pos hn]
  obtain ⟨m, hm⟩ : ∃ m, m = (if b.nbit % 8 = 0 then (b.b ++ [0], if n > 8 then 8 else n)
      else (b.b, if (if n > 8 then 8 else n) > negAnd7 b.nbit then negAnd7 b.nbit else if n > 8 then 8 else n)).2 := ⟨_, rfl⟩
  have hb1 : (if b.nbit % 8 = 0 then (b.b ++ [0], if n > 8 then 8 else n)
      else (b.b, if (if n > 8 then 8 else n) > negAnd7 b.nbit then negAnd7 b.nbit else if n > 8 then 8 else n)).1 =
      if b.nbit % 8 = 0 then b.b ++ [0] else b.b := by split <;> rfl
  have hm1 : 0 < m ∧ m ≤ n ∧ m ≤ 8 - l.length % 8 := by
    rw [hm, h.nbit, negAnd7]
    split
    · simp only; split <;> omega
    · simp only; split <;> split <;> omega
  simp only [hb1, ← hm]
  have hstep := write_stepU h (v >>> (n - m)) m hm1.1 hm1.2.2
  have hrest : v - (v >>> (n - m)) <<< (n - m) = v % 2 ^ (n - m) := by
    rw [Nat.shiftRight_eq_div_pow, Nat.shiftLeft_eq]
    have := Nat.div_add_mod v (2 ^ (n - m))
    rw [Nat.mul_comm] at this
    omega
  rw [hrest]
  have ih := writeLoop_rep f _ _ (v % 2 ^ (n - m)) (n - m) (by omega) hstep (Nat.mod_lt _ (Nat.two_pow_pos _))
  have := beBits_split v m (n - m)
  rw [show m + (n - m) = n by omega] at this
  rw [this, ← List.append_assoc]
  have e : (v >>> (n - m)) >>> m = v >>> n := by rw [← Nat.shiftRight_add]; congr 1; omega
  rw [e] at ih
  exact ih

theorem Rep.exists_write {b : Bits} {l : List Bool} (h : Rep b l) (v n : Nat) : ∃ l', Rep (b.write v n) l' := by
  by_cases hn : 0 < n
  · exact ⟨_, h.writeU v n hn⟩
  · obtain rfl : n = 0 := by omega
    exact ⟨l, h⟩

theorem Rep.exists_padLoop : ∀ (n k : Nat) (b : Bits) (l : List Bool), Rep b l → ∃ l', Rep (padLoop n k b) l'
  | 0, _, _, l, h => ⟨l, h⟩
  | n + 1, k, b, l, h => by
    rw [padLoop]
    obtain ⟨l', h'⟩ := h.exists_write (if k % 2 = 0 then 0xec else 0x11) 8
    exact exists_padLoop n (k + 1) _ l' h'

theorem AnyBuilt.rep {b : Bits} (h : AnyBuilt b) : Rep b (contents b) := by
  have key : ∃ l, Rep b l := by
    induction h with
    | empty => exact ⟨_, Rep.empty⟩
    | @write b v n hb ih =>
      obtain ⟨l, h⟩ := ih
      unfold Bits.writeI
      split
      · exact h.exists_write v _
      · exact ⟨l, h⟩
    | @append b b' p hb e ih =>
      obtain ⟨l, h⟩ := ih
      have h8 : l.length % 8 = 0 := by
        rw [← h.nbit]
        unfold Bits.append at e
        split at e
        · cases e
        · rename_i h; omega
      obtain ⟨b2, e2, hr, -⟩ := h.append h8 p
      rw [e2] at e
      injection e with e
      subst e
      exact ⟨_, hr⟩
    | @pad b b' n hb e ih =>
      obtain ⟨l, h⟩ := ih
      unfold Bits.padI at e
      split at e
      · cases e
      · split at e
        · injection e with e
          subst e
          unfold Bits.writeI
          split
          · exact h.exists_write 0 _
          · exact ⟨l, h⟩
        · injection e with e
          subst e
          obtain ⟨l1, h1⟩ := h.exists_write 0 4
          obtain ⟨l2, h2⟩ := h1.exists_write 0 (negAnd7 (b.write 0 4).nbit)
          exact Rep.exists_padLoop _ _ _ _ h2
  obtain ⟨l, h⟩ := key
  rw [h.contents]
  exact h

/-! ### Theorems -/

/-- **C128** What `Write(v, n)` does for every value and every number of bits, on every buffer: nothing if `n` is not positive; otherwise it
appends the `n` low bits of `v`, and ORs the bits of `v` above them into the bits of an unfinished last byte. -/
theorem C128_write_partial {b : Bits} (hb : AnyBuilt b) (v : Nat) (n : Int) :
    (n ≤ 0 → b.writeI v n = b) ∧
    (0 < n → contents (b.writeI v n) = orInto (contents b) (v / 2 ^ n.toNat) ++ beBits v n.toNat ∧ (b.writeI v n).nbit = b.nbit + n.toNat) := by
  constructor
  · intro h; unfold Bits.writeI; rw [if_neg (by omega)]
  · intro h
    unfold Bits.writeI
    rw [if_pos h, ← Nat.shiftRight_eq_div_pow]
    exact ⟨(hb.rep.writeU v _ (by omega)).contents, write_nbit _ _ _⟩

/-- **C128** The earlier bits stay as they are in exactly the right cases: if the buffer holds whole bytes, or `v` has no bits above the `n`
low ones that would set a clear bit of the last byte. In particular if `v` fits into `n` bits. -/
theorem C128_write_keeps {b : Bits} (hb : AnyBuilt b) (v n : Nat) (hn : 0 < n) (h : b.nbit % 8 = 0 ∨ v < 2 ^ n) :
    contents (b.writeI v n) = contents b ++ beBits v n := by
  rw [((C128_write_partial hb v n).2 (by omega)).1, Int.toNat_natCast, orInto_zero]
  rw [← hb.rep.nbit]
  rcases h with h | h
  · rw [h]; exact Nat.mod_one _
  · rw [Nat.div_eq_of_lt h]; exact Nat.zero_mod _

/-- **C128** is false: writing the two-bit value 3 into one bit changes the bit before it. -/
theorem C128_write_false : contents ((Bits.empty.writeI 0 1).writeI 3 1) = [true, true] ∧ contents (Bits.empty.writeI 0 1) = [false] := by decide

/-- Whole bytes are never changed. -/
theorem C128_write_whole_bytes {b : Bits} (hb : AnyBuilt b) (v : Nat) (n : Int) :
    (contents (b.writeI v n)).take (b.nbit / 8 * 8) = (contents b).take (b.nbit / 8 * 8) := by
  by_cases h : 0 < n
  · rw [((C128_write_partial hb v n).2 h).1, hb.rep.nbit, List.take_append_of_le_length (by rw [orInto_length]; omega)]
    unfold orInto
    rw [List.take_append_of_le_length (by rw [List.length_take]; omega), List.take_take, Nat.min_self]
  · rw [(C128_write_partial hb v n).1 (by omega)]

theorem padLoop_nbit : ∀ (n k : Nat) (b : Bits), (padLoop n k b).nbit = b.nbit + 8 * n
  | 0, _, _ => rfl
  | n + 1, k, b => by rw [padLoop, padLoop_nbit n, write_nbit]; omega

/-- **C128** `Pad(n)` panics exactly if `n` is negative; up to 4 it appends `n` zero bits; above, it appends `n` bits if that fills the last
byte, and otherwise 4 bits, the rest of the last byte, and as many whole bytes as there is room for (which may be more or fewer bits than `n`). -/
theorem C128_pad (b : Bits) (n : Int) : (b.padI n = none ↔ n < 0) ∧ ∀ b', b.padI n = some b' →
    (n ≤ 4 → (b'.nbit : Int) = b.nbit + n) ∧ (4 < n → (b.nbit + n) % 8 = 0 → (b'.nbit : Int) = b.nbit + n) ∧
    (4 < n → b'.nbit % 8 = 0 ∧ (b'.nbit : Int) < b.nbit + n + 7 ∧ (b.nbit : Int) + n - 8 < b'.nbit) := by
  unfold Bits.padI
  by_cases h0 : n < 0
  · simp [h0]
  · rw [if_neg h0]
    by_cases h4 : n ≤ 4
    · rw [if_pos h4]
      refine ⟨by simp [h0], ?_⟩
      rintro b' ⟨⟩
      refine ⟨?_, by omega, by omega⟩
      intro _
      unfold Bits.writeI
      split
      · rw [write_nbit]; push_cast; omega
      · omega
    · rw [if_neg h4]
      refine ⟨by simp [h0], ?_⟩
      intro b' hb'
      dsimp only at hb'
      injection hb' with hb'
      have e : b'.nbit = b.nbit + 4 + negAnd7 (b.nbit + 4) + 8 * ((n - 4 - (negAnd7 (b.nbit + 4) : Nat)).tdiv 8).toNat := by
        rw [← hb', padLoop_nbit, write_nbit, write_nbit]
      have hr : negAnd7 (b.nbit + 4) = (8 - (b.nbit + 4) % 8) % 8 := rfl
      generalize hd : n - 4 - (negAnd7 (b.nbit + 4) : Nat) = d at e
      have ht : d.tdiv 8 = if 0 ≤ d then d / 8 else 0 := by
        split
        · exact Int.tdiv_eq_ediv_of_nonneg ‹_›
        · have h1 : d = -(-d) := by omega
          rw [h1, Int.neg_tdiv, Int.tdiv_eq_ediv_of_nonneg (by omega)]
          omega
      rw [ht] at e
      refine ⟨by omega, ?_, ?_⟩
      · intro _ h8
        omega
      · intro _
        omega

/-! ### Segments that `Check` rejects -/

theorem encodeAlphaU_nbit : ∀ (s : Str) (b : Bits), (encodeAlphaU b s).nbit = b.nbit + (11 * s.length + 1) / 2
  | [], b => by simp [encodeAlphaU]
  | [x], b => by simp [encodeAlphaU, write_nbit]
  | x :: y :: s, b => by
    rw [encodeAlphaU, encodeAlphaU_nbit s, write_nbit]
    simp only [List.length_cons]
    omega

theorem alphaIndexU_toNat : ∀ n < 256, UInt8.ofNat n ∈ alphabet → (alphaIndexU (UInt8.ofNat n)).toNat = alphaIndex (UInt8.ofNat n) ∧
    alphaIndex (UInt8.ofNat n) < 45 := by decide +kernel

theorem alphaIndexU_eq {c : UInt8} (h : c ∈ alphabet) : (alphaIndexU c).toNat = alphaIndex c ∧ alphaIndex c < 45 := by
  have := alphaIndexU_toNat c.toNat c.toNat_lt
  rw [UInt8.ofNat_toNat] at this
  exact this h

theorem encodeAlphaU_eq : ∀ (s : Str) (b : Bits), (∀ c ∈ s, c ∈ alphabet) → encodeAlphaU b s = encodeAlpha b s
  | [], b, _ => rfl
  | [x], b, h => by rw [encodeAlphaU, encodeAlpha, (alphaIndexU_eq (h x (by simp))).1]
  | x :: y :: s, b, h => by
    obtain ⟨e1, h1⟩ := alphaIndexU_eq (h x (by simp))
    obtain ⟨e2, h2⟩ := alphaIndexU_eq (h y (by simp))
    rw [encodeAlphaU, encodeAlpha, encodeAlphaU_eq s _ (fun c hc => h c (by simp [hc]))]
    congr 2
    rw [UInt64.toNat_add, UInt64.toNat_mul, e1, e2, show (45 : UInt64).toNat = 45 from rfl]
    omega

/-- **C128** For texts that `Check` accepts this is the function of C26 and C27. -/
theorem encodeU_checked (b : Bits) (v : Nat) (e : Encoding) (h : e.check = true) : e.encodeU b v = e.encode b v := by
  cases e with
  | num s => rfl
  | str s => rfl
  | alpha s =>
    unfold Encoding.encodeU Encoding.encode
    apply encodeAlphaU_eq
    simpa [Encoding.check] using h

/-- **C128** `Encode` appends the announced number of bits for every text, also one that `Check` rejects. -/
theorem C128_encode_length (b : Bits) (v : Nat) (e : Encoding) : (e.encodeU b v).nbit = b.nbit + e.bits v := by
  cases e with
  | num s => simp only [Encoding.encodeU, encodeNum_nbit, write_nbit, Encoding.bits]; omega
  | alpha s => simp only [Encoding.encodeU, encodeAlphaU_nbit, write_nbit, Encoding.bits]; omega
  | str s => simp only [Encoding.encodeU, encodeStr_nbit, write_nbit, Encoding.bits]; omega

/-- **C128** is false of `Encode` without `Check`: the three colons in Num(":::000") change the character count from 6 to 7. -/
theorem C128_encode_false : ofBits (((contents ((Encoding.num (lit ":::000")).encodeU Bits.empty 1)).drop 4).take 10) = 7 ∧
    ofBits (((contents ((Encoding.num (lit "000000")).encodeU Bits.empty 1)).drop 4).take 10) = 6 := by decide +kernel

theorem encode_alpha_bad : ∀ n < 256, UInt8.ofNat n ∉ alphabet → ofBits (((contents ((Encoding.alpha [UInt8.ofNat n]).encodeU Bits.empty 1)).drop 4).take 9) = 31 ∧
    ((contents ((Encoding.alpha [UInt8.ofNat n]).encodeU Bits.empty 1)).drop 13) = List.replicate 6 true := by decide +kernel

/-- **C128** Every character outside the alphabet, encoded alone with `Alpha`, writes six ones and changes the character count from 1 to 31. -/
theorem C128_encode_alpha_false (c : UInt8) (h : c ∉ alphabet) :
    ofBits (((contents ((Encoding.alpha [c]).encodeU Bits.empty 1)).drop 4).take 9) = 31 ∧
    ((contents ((Encoding.alpha [c]).encodeU Bits.empty 1)).drop 13) = List.replicate 6 true := by
  have := encode_alpha_bad c.toNat c.toNat_lt
  rw [UInt8.ofNat_toNat] at this
  exact this h

example : AnyBuilt ((Bits.empty.writeI 0 1).writeI 3 1) := (AnyBuilt.empty.write 0 1).write 3 1
example : (Bits.empty.writeI 1 3).padI 5 = some ⟨[32], 8⟩ ∧ (Bits.empty.writeI 1 6).padI 5 = some ⟨[4, 0], 16⟩ ∧
    (Bits.empty.writeI 1 5).padI 6 = some ⟨[8, 0], 16⟩ := by decide

end Verif.QR
