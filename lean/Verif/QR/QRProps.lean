import Verif.QR.DecodeLemmas
import Verif.QR.GFProps
import Verif.QR.NewField
/-
C25-C32, C65-C67: the QR encoder against the standard (QRSpec).
-/
namespace Verif.QR
open Iso

/-! ## C25: bit buffers -/

/-- Buffers a caller can build: `Write` of values below `2^n`, and `Append`. -/
inductive Built : Bits → Prop where
  | empty : Built Bits.empty
  | write {b} (v n : Nat) : Built b → v < 2 ^ n → Built (b.write v n)
  | append {b b'} (p : List UInt8) : Built b → b.append p = some b' → Built b'

/-- The bit string held by a buffer. -/
def contents (b : Bits) : List Bool := (bitsOfBytes b.b).take b.nbit

theorem Rep.contents {b : Bits} {l : List Bool} (h : Rep b l) : Verif.QR.contents b = l := by
  unfold Verif.QR.contents
  apply list_ext_getD
  · rw [List.length_take, bitsOfBytes_length, h.len, h.nbit]; omega
  · intro k
    by_cases hk : k < l.length
    · have e : ((bitsOfBytes b.b).take b.nbit).getD k false = (bitsOfBytes b.b).getD k false := by
        simp [List.getD, h.nbit, hk]
      rw [e, bitsOfBytes_getD, h.bit]
    · rw [List.getD_eq_default (l := l) (hn := by omega), List.getD_eq_default]
      rw [List.length_take, h.nbit]; omega

theorem Built.rep {b : Bits} (h : Built b) : Rep b (contents b) := by
  induction h with
  | empty => exact Rep.empty
  | write v n hb hv ih =>
    have := ih.write hv
    rwa [this.contents]
  | @append b b' p hb e ih =>
    have h8 : (Verif.QR.contents b).length % 8 = 0 := by
      rw [← ih.nbit]
      unfold Bits.append at e
      split at e
      · cases e
      · rename_i h; omega
    obtain ⟨b2, e2, hr, -⟩ := ih.append h8 p
    rw [e2] at e
    injection e with e
    subst e
    rwa [hr.contents]

/-- **C25** `Write(v, n)` appends the `n` bits of `v`, most significant first, at any alignment, and changes nothing before them. -/
theorem C25_write_appends_bits {b : Bits} (hb : Built b) (v n : Nat) (hv : v < 2 ^ n) :
    contents (b.write v n) = contents b ++ beBits v n ∧ (b.write v n).nbit = b.nbit + n ∧ (contents (b.write v n)).length = (b.write v n).nbit := by
  have h := hb.rep.write hv
  refine ⟨h.contents, ?_, ?_⟩
  · exact write_nbit b v n
  · rw [h.contents, h.nbit]

/-- **C25** `Append` and `Bytes` need a whole number of bytes; then `Append(p)` adds the bits of `p`, and `Bytes` returns the contents. -/
theorem C25_append_bytes {b : Bits} (hb : Built b) (p : List UInt8) :
    (b.nbit % 8 ≠ 0 → b.append p = none ∧ b.bytes = none) ∧
    (b.nbit % 8 = 0 → (∃ b', b.append p = some b' ∧ contents b' = contents b ++ bitsOfBytes p) ∧
      ∃ bs, b.bytes = some bs ∧ bitsOfBytes bs = contents b) := by
  constructor
  · intro h; exact ⟨by rw [Bits.append, if_pos h], by rw [Bits.bytes, if_pos h]⟩
  · intro h
    have h8 : (contents b).length % 8 = 0 := by rw [← hb.rep.nbit]; exact h
    obtain ⟨b', e, hr, -⟩ := hb.rep.append h8 p
    exact ⟨⟨b', e, hr.contents⟩, b.b, by rw [Bits.bytes, if_neg (by omega)], hb.rep.bits h8⟩

/-- Two unaligned writes. -/
example : Built ((Bits.empty.write 5 3).write 0x1ff 9) ∧
    contents ((Bits.empty.write 5 3).write 0x1ff 9) = [true, false, true] ++ List.replicate 9 true :=
  ⟨(Built.empty.write 5 3 (by decide)).write 0x1ff 9 (by decide), by decide⟩

/-! ## C26, C27: segments -/

/-- **C26** `Encode` writes exactly `Bits(v)` bits. -/
theorem C26_announced_length (b : Bits) (v : Nat) (e : Encoding) : (e.encode b v).nbit = b.nbit + e.bits v := encode_nbit b v e

/-- **C26** The announced length is the one the standard prescribes. -/
theorem C26_announced_length_standard (v : Nat) (s : Str) : (Encoding.num s).bits v = numericNeed v s.length ∧
    (Encoding.alpha s).bits v = alnumNeed v s.length ∧ (Encoding.str s).bits v = byteNeed v s.length := by
  obtain ⟨w1, w2, w3⟩ := lenWidth_countBits v
  simp only [Encoding.bits, w1, w2, w3, numericNeed, alnumNeed, byteNeed]
  refine ⟨?_, ?_, trivial⟩
  · split
    · omega
    · split <;> omega
  · omega

example : (Encoding.num (lit "12345678")).bits 1 = 41 := by decide

/-- **C27** A text accepted by `Check` and not longer than its length field can say is written as a segment that the standard's decoder
turns back into the text, whatever comes before and after it. -/
theorem C27_segment_decodes {b : Bits} (hb : Built b) (v : Nat) (e : Encoding) (hc : e.check = true)
    (hl : e.text.length < 2 ^ e.lenWidth v) : ∃ s, contents (e.encode b v) = contents b ++ s ∧
      ∀ rest, decSegment v (s ++ rest) = some (e.text, rest) :=
  ⟨segBits v e, (encode_rep v e b _ hc hl hb.rep).contents, fun rest => decSegment_segBits v e rest hc hl⟩

/-- **C27** `Num` accepts exactly digits, `Alpha` exactly the characters of table 5. -/
theorem C27_check (s : Str) : ((Encoding.num s).check = s.all isDigit) ∧ ((Encoding.alpha s).check = s.all isAlnum) ∧
    (Encoding.str s).check = true := by
  have h1 : ∀ n < 256, (48 ≤ UInt8.ofNat n && UInt8.ofNat n ≤ 57) = isDigit (UInt8.ofNat n) := by decide +kernel
  have h2 : ∀ n < 256, decide (UInt8.ofNat n ∈ alphabet) = isAlnum (UInt8.ofNat n) := by decide +kernel
  refine ⟨?_, ?_, rfl⟩
  · simp only [Encoding.check]
    congr 1
    funext c
    have := h1 c.toNat c.toNat_lt
    rwa [UInt8.ofNat_toNat] at this
  · simp only [Encoding.check]
    congr 1
    funext c
    have := h2 c.toNat c.toNat_lt
    rwa [UInt8.ofNat_toNat] at this

example : (Encoding.alpha (lit "AC-42")).check = true ∧ (Encoding.alpha (lit "AC-42")).text.length < 2 ^ (Encoding.alpha (lit "AC-42")).lenWidth 1 ∧
    decSegment 1 (contents ((Encoding.alpha (lit "AC-42")).encode Bits.empty 1)) = some (lit "AC-42", []) := by decide

/-! ## C28: padding and check bytes -/

/-- **C28** For every version and level, a buffer that fits is completed without a panic: the data bytes hold the bits followed by the
standard's padding, the check bytes of every block follow (each block with its check bytes is a code word), and the total is the
symbol's number of code words. -/
theorem C28_padding_and_check_bytes {v : Nat} (h1 : 1 ≤ v) (h2 : v ≤ 40) (l : Level) {b : Bits} (hb : Built b)
    (hfit : b.nbit ≤ 8 * dataCodewords v l) :
    ∃ b' data chk, b.addCheckBytes v l = some b' ∧ b'.bytes = some (data ++ chk) ∧ data.length = dataCodewords v l ∧
      bitsOfBytes data = padTo (8 * dataCodewords v l) (contents b) ∧
      (data ++ chk).length = totalCodewords v ∧ chk.length = numBlocks v l * eccPerBlock v l ∧
      ∀ j, j < numBlocks v l → IsCodeword qrField (eccPerBlock v l)
        ((data.drop (blockStart (dataCodewords v l) (numBlocks v l) j)).take (blockLen (dataCodewords v l) (numBlocks v l) j) ++
          (chk.drop (j * eccPerBlock v l)).take (eccPerBlock v l)) := by
  rw [dataCodewords_eq h1 h2] at *
  obtain ⟨b', data, e, hd, hbits, hby⟩ := addCheckBytes_spec h1 h2 l hb.rep (by rw [← hb.rep.nbit]; exact hfit)
  refine ⟨b', data, _, e, hby, hd, hbits, ?_, ?_, ?_⟩
  · rw [totalCodewords_eq h1 h2]
    exact codeBytes_length h1 h2 hd
  · rw [List.range_eq_range', flatMap_check_length _ (eccPerBlock v l) _ (fun j => checkBytes_length _ _ _)]
  · intro j hj
    have : (((List.range (numBlocks v l)).flatMap (fun j => checkBytes qrField (eccPerBlock v l) (block (dataBytes v l) (numBlocks v l) data j))).drop
        (j * eccPerBlock v l)).take (eccPerBlock v l) = checkBytes qrField (eccPerBlock v l) (block (dataBytes v l) (numBlocks v l) data j) := by
      have hl : ((List.range (numBlocks v l)).flatMap (fun j => checkBytes qrField (eccPerBlock v l) (block (dataBytes v l) (numBlocks v l) data j))).length =
          numBlocks v l * eccPerBlock v l := by
        rw [List.range_eq_range', flatMap_check_length _ (eccPerBlock v l) _ (fun j => checkBytes_length _ _ _)]
      have hj1 : (j + 1) * eccPerBlock v l ≤ numBlocks v l * eccPerBlock v l := Nat.mul_le_mul_right _ hj
      rw [Nat.add_mul, Nat.one_mul] at hj1
      apply List.ext_getElem
      · rw [List.length_take, List.length_drop, hl, checkBytes_length]; omega
      · intro i hi1 hi2
        rw [checkBytes_length] at hi2
        have := flatMap_getD (eccPerBlock v l) (fun j => checkBytes qrField (eccPerBlock v l) (block (dataBytes v l) (numBlocks v l) data j))
          (fun j => checkBytes_length _ _ _) (numBlocks v l) j i hj hi2
        rw [List.getD_eq_getElem _ _ (by rw [hl]; omega), List.getD_eq_getElem _ _ (by rw [checkBytes_length]; omega)] at this
        simpa using this
    rw [this]
    exact (newField_good newField_qr).checkBytes_codeword _ _

/-- **C28** A buffer that does not fit makes `AddCheckBytes` panic. -/
theorem C28_too_much_data {v : Nat} (h1 : 1 ≤ v) (h2 : v ≤ 40) (l : Level) (b : Bits) (h : 8 * dataCodewords v l < b.nbit) :
    b.addCheckBytes v l = none := by
  rw [dataCodewords_eq h1 h2] at h
  unfold Bits.addCheckBytes
  have e : (if b.nbit < dataBytes v l * 8 then b.pad (dataBytes v l * 8 - b.nbit) else b) = b := if_neg (by omega)
  dsimp only
  rw [e, if_pos (by omega)]

/-- The standard's example "01234567" in version 1-M. -/
example : Built ((Encoding.num (lit "01234567")).encode Bits.empty 1) ∧ ((Encoding.num (lit "01234567")).encode Bits.empty 1).nbit = 41 ∧
    (((Encoding.num (lit "01234567")).encode Bits.empty 1).addCheckBytes 1 .M).bind Bits.bytes = some [0x10, 0x20, 0x0c, 0x56, 0x61, 0x80, 0xec, 0x11, 0xec,
      0x11, 0xec, 0x11, 0xec, 0x11, 0xec, 0x11, 0xa5, 0x24, 0xd4, 0xc1, 0xed, 0x36, 0xc7, 0x87, 0x2c, 0x55] := by
  refine ⟨?_, by decide, by decide +kernel⟩
  exact ((((Built.empty.write 1 4 (by decide)).write 8 10 (by decide)).write 12 10 (by decide)).write 345 10 (by decide)).write 67 7 (by decide)

/-! ## C29: choice of version and mode -/

theorem chooseEncoding_text (text : Str) : (chooseEncoding text).text = text ∧ (chooseEncoding text).check = true ∧
    (∀ v, (chooseEncoding text).bits v = need v text) := by
  obtain ⟨c1, c2, c3⟩ := C27_check text
  unfold chooseEncoding need
  cases h1 : (Encoding.num text).check with
  | true => rw [← c1, h1]; exact ⟨rfl, h1, fun v => (C26_announced_length_standard v text).1⟩
  | false =>
    rw [← c1, h1]
    cases h2 : (Encoding.alpha text).check with
    | true => rw [← c2, h2]; exact ⟨rfl, h2, fun v => (C26_announced_length_standard v text).2.1⟩
    | false => rw [← c2, h2]; exact ⟨rfl, rfl, fun v => (C26_announced_length_standard v text).2.2⟩

theorem chooseVersion_spec (e : Encoding) (l : Level) : ∀ (fuel v : Nat), v + fuel = 42 → 
    (∃ w, chooseVersion e l fuel v = some w ∧ v ≤ w ∧ w ≤ 40 ∧ e.bits w ≤ 8 * dataBytes w l ∧ ∀ u, v ≤ u → u < w → 8 * dataBytes u l < e.bits u) ∨
    (chooseVersion e l fuel v = none ∧ ∀ u, v ≤ u → u ≤ 40 → 8 * dataBytes u l < e.bits u)
  | 0, v, h => Or.inr ⟨rfl, fun u h1 h2 => by omega⟩
  | fuel + 1, v, h => by
    rw [chooseVersion]
    split
    · exact Or.inr ⟨rfl, fun u h1 h2 => by omega⟩
    · split
      · rename_i h40 hf
        exact Or.inl ⟨v, rfl, Nat.le_refl _, by omega, by omega, fun u h1 h2 => by omega⟩
      · rename_i h40 hf
        rcases chooseVersion_spec e l fuel (v + 1) (by omega) with ⟨w, e1, e2, e3, e4, e5⟩ | ⟨e1, e2⟩
        · refine Or.inl ⟨w, e1, by omega, e3, e4, ?_⟩
          intro u h1 h2
          by_cases hu : u = v
          · subst hu; omega
          · exact e5 u (by omega) h2
        · refine Or.inr ⟨e1, ?_⟩
          intro u h1 h2
          by_cases hu : u = v
          · subst hu; omega
          · exact e2 u (by omega) h2

theorem encode_cases (text : Str) (l : Level) :
    (∃ v c data, 1 ≤ v ∧ v ≤ 40 ∧ encode text l = .ok c ∧ need v text ≤ 8 * dataBytes v l ∧
      (∀ u, 1 ≤ u → u < v → 8 * dataBytes u l < need u text) ∧ data.length = dataBytes v l ∧
      bitsOfBytes data = padTo (8 * dataBytes v l) (segBits v (chooseEncoding text)) ∧ CodeSpec v l 0 (codeBytes v l data) c) ∨
    (encode text l = .err ∧ ∀ u, 1 ≤ u → u ≤ 40 → 8 * dataBytes u l < need u text) := by
  obtain ⟨-, c2, c3⟩ := chooseEncoding_text text
  unfold encode
  dsimp only
  rcases chooseVersion_spec (chooseEncoding text) l 41 1 (by omega) with ⟨v, e1, h1, h2, hf, hs⟩ | ⟨e1, hs⟩
  · rw [e1]
    obtain ⟨p, e2, hp⟩ := newPlan_spec h1 h2 l 0
    obtain ⟨c, data, e3, hd, hb, hcs⟩ := planEncode_ok h1 h2 hp (ts := [chooseEncoding text]) (by simpa using c2)
      (by simpa [totalBits] using hf)
    refine Or.inl ⟨v, c, data, h1, h2, ?_, by rw [← c3]; exact hf, ?_, hd, by simpa using hb, hcs⟩
    · simp only
      rw [e2]
      exact e3
    · intro u hu1 hu2
      rw [← c3]; exact hs u hu1 hu2
  · rw [e1]
    exact Or.inr ⟨rfl, fun u h1 h2 => by rw [← c3]; exact hs u h1 h2⟩

/-- **C29** `Encode` never panics; it fails exactly if no version can hold the text in its densest mode; otherwise the symbol has the
size of the smallest version that can. -/
theorem C29_smallest_version (text : Str) (l : Level) : encode text l ≠ .panic ∧
    (encode text l = .err ↔ ∀ v, 1 ≤ v → v ≤ 40 → 8 * dataCodewords v l < need v text) ∧
    ∀ c, encode text l = .ok c → ∃ v, 1 ≤ v ∧ v ≤ 40 ∧ c.size = size v ∧ need v text ≤ 8 * dataCodewords v l ∧
      ∀ u, 1 ≤ u → u < v → 8 * dataCodewords u l < need u text := by
  rcases encode_cases text l with ⟨v, c, data, h1, h2, e, hn, hs, -, -, hcs⟩ | ⟨e, hs⟩
  · rw [e]
    refine ⟨by simp, ⟨by simp, fun h => ?_⟩, ?_⟩
    · have := h v h1 h2
      rw [dataCodewords_eq h1 h2] at this
      omega
    · intro c' hc'
      cases hc'
      refine ⟨v, h1, h2, hcs.size, by rw [dataCodewords_eq h1 h2]; exact hn, ?_⟩
      intro u hu1 hu2
      rw [dataCodewords_eq hu1 (by omega)]
      exact hs u hu1 hu2
  · rw [e]
    refine ⟨by simp, ⟨fun _ v h1 h2 => by rw [dataCodewords_eq h1 h2]; exact hs v h1 h2, fun _ => rfl⟩, by simp⟩

/-- The code words of a symbol as read by `Iso.read`. -/
def symbolWords (c : Code) : List UInt8 :=
  readCodewords ((c.size - 17) / 4) (readFormat (fun y x => c.black x y) / 1024 % 8) (fun y x => c.black x y)

/-- **C29** The mode indicator in the symbol is that of the densest single mode. -/
theorem C29_densest_mode (text : Str) (l : Level) (c : Code) (h : encode text l = .ok c) :
    ofBits ((bitsOfBytes (readData ((c.size - 17) / 4) l (symbolWords c))).take 4) = bestMode text := by
  rcases encode_cases text l with ⟨v, c', data, h1, h2, e, hn, hs, hd, hb, hcs⟩ | ⟨e, -⟩
  · rw [e] at h
    cases h
    have hv : (c.size - 17) / 4 = v := by rw [hcs.size]; unfold Iso.size; omega
    unfold symbolWords
    rw [hv, hcs.readFormat h1, (format_facts l (mem_levels l) 0).2.1, hcs.readCodewords h1 h2]
    change ofBits ((bitsOfBytes (readData v l (symbolBytes v l data))).take 4) = _
    rw [readData_eq h1 h2 hd, hb]
    obtain ⟨cc, c2, c3⟩ := chooseEncoding_text text
    obtain ⟨r, hr, -⟩ := padTo_split (8 * dataBytes v l) (segBits v (chooseEncoding text)) (by omega) (by
      rw [segBits_length v _ c2 (fits_lenWidth h1 h2 _ (by rw [c3]; exact hn)), c3]; exact hn)
    rw [hr]
    obtain ⟨k1, k2, k3⟩ := C27_check text
    have hm : ∀ w s t, ((beBits w 4 ++ s ++ t) ++ r).take 4 = beBits w 4 := by
      intro w s t
      rw [List.append_assoc, List.append_assoc, List.take_append_of_le_length (by rw [beBits_length]), List.take_of_length_le (by rw [beBits_length])]
    unfold chooseEncoding bestMode
    cases g1 : (Encoding.num text).check with
    | true =>
      rw [if_pos rfl, ← k1, g1, if_pos rfl]
      simp only [segBits]
      rw [hm]; decide
    | false =>
      rw [← k1, g1]
      cases g2 : (Encoding.alpha text).check with
      | true =>
        rw [if_neg (by simp), if_pos rfl, if_neg (by simp), ← k2, g2, if_pos rfl]
        simp only [segBits]
        rw [hm]; decide
      | false =>
        rw [if_neg (by simp), if_neg (by simp), if_neg (by simp), ← k2, g2, if_neg (by simp)]
        simp only [segBits]
        rw [hm]; decide
  · rw [e] at h; cases h

set_option maxRecDepth 10000 in
example : need 1 (lit "HELLO") = 41 ∧ 8 * (26 - numBlocks 1 .L * eccPerBlock 1 .L) = 152 ∧ bestMode (lit "HELLO") = 2 ∧ bestMode (lit "Hello") = 4 := by decide

/-! ## C30: code word bits and pixels -/

/-- **C30** `NewPlan` succeeds for every version 1 to 40, level and mask. Each code word bit (numbered from 0) has exactly one pixel among
the data and check pixels, every such pixel has a code word bit, and the data pixels are those of the data bytes. -/
theorem C30_codeword_bits_bijection {v : Nat} (h1 : 1 ≤ v) (h2 : v ≤ 40) (l : Level) (m : Fin 8) : ∃ p, newPlan v l m = .ok p ∧
    (∀ o, o < 8 * totalCodewords v → ∃ a : Nat × Nat, (∃ q, p.pixel.get a.1 a.2 = some q ∧ (q.role = .data ∨ q.role = .check) ∧ q.offset = o) ∧
      ∀ a' : Nat × Nat, (∃ q, p.pixel.get a'.1 a'.2 = some q ∧ (q.role = .data ∨ q.role = .check) ∧ q.offset = o) → a' = a) ∧
    (∀ y x q, p.pixel.get y x = some q → (q.role = .data ∨ q.role = .check) →
      q.offset < 8 * totalCodewords v ∧ (q.role = .data ↔ q.offset < 8 * dataCodewords v l)) := by
  obtain ⟨p, e, hp⟩ := newPlan_spec h1 h2 l m
  have t := vl h1 h2 l
  have htot : (vinfo v).bytes = dataBytes v l + numBlocks v l * eccPerBlock v l := by
    have := t.nd; have := t.lt; omega
  have hlen : 8 * (vinfo v).bytes ≤ (dataCells v).length := by
    have := totalCodewords_eq h1 h2
    unfold totalCodewords at this
    omega
  refine ⟨p, e, ?_⟩
  rw [totalCodewords_eq h1 h2, dataCodewords_eq h1 h2]
  -- a data or check pixel is in a known position
  have key : ∀ y x q, p.pixel.get y x = some q → (q.role = .data ∨ q.role = .check) →
      ∃ s u, s < (vinfo v).bytes ∧ u < 8 ∧ (dataCells v)[8 * s + u]? = some (y, x) ∧
        q.offset = 8 * byteOrder (dataBytes v l) (numBlocks v l) (eccPerBlock v l) s + u ∧ q.role = (codePixel (dataBytes v l) q.offset).role := by
    intro y x q hq hr
    obtain ⟨hy, hx⟩ := hp.wf.get_none hq
    cases hf : isFunction v y x with
    | true =>
      have := fnPixel_some h1 h2 l m hy hx
      rw [hf, Option.isSome_iff_exists] at this
      obtain ⟨q', hq'⟩ := this
      rw [hp.fn y x q' hy hx hq'] at hq
      cases hq
      have := fnPixel_role h1 h2 l m hy hx hq'
      unfold Role.isFn at this
      rcases hr with hr | hr <;> simp [hr] at this
    | false =>
      obtain ⟨k, hk⟩ := List.mem_iff_getElem?.1 (mem_dataCells.2 ⟨hy, hx, hf⟩)
      have hd := hp.data k (y, x) hk
      simp only at hd
      rw [hq] at hd
      by_cases hlt : k < 8 * (vinfo v).bytes
      · have hk' : k = 8 * (k / 8) + k % 8 := (Nat.div_add_mod k 8).symm
        refine ⟨k / 8, k % 8, by omega, by omega, by rw [← hk']; exact hk, ?_⟩
        rw [hk', orderedPixels_get (by omega) (by omega), Option.map_some] at hd
        injection hd with hd
        have ho : ∀ P : Pixel, (maskPixelG (maskInvert m) y x P).offset = P.offset ∧ (maskPixelG (maskInvert m) y x P).role = P.role := by
          intro P; unfold maskPixelG; split <;> exact ⟨rfl, rfl⟩
        have e1 := (ho (codePixel (dataBytes v l) (8 * byteOrder (dataBytes v l) (numBlocks v l) (eccPerBlock v l) (k / 8) + k % 8)))
        rw [← hd] at e1
        refine ⟨e1.1, ?_⟩
        rw [e1.2, e1.1]
        rfl
      · rw [List.getElem?_append_right (by rw [orderedPixels_length]; omega)] at hd
        have hk2 := (List.getElem?_eq_some_iff.1 hk).1
        have htc := totalCodewords_eq h1 h2
        unfold totalCodewords at htc
        rw [orderedPixels_length, List.getElem?_replicate, if_pos (by omega), Option.map_some] at hd
        injection hd with hd
        have : q.role = .extra := by
          rw [hd]; unfold maskPixelG; split <;> rfl
        rw [this] at hr
        rcases hr with hr | hr <;> cases hr
  have hinj : ∀ s s', s < (vinfo v).bytes → s' < (vinfo v).bytes →
      byteOrder (dataBytes v l) (numBlocks v l) (eccPerBlock v l) s = byteOrder (dataBytes v l) (numBlocks v l) (eccPerBlock v l) s' → s = s' := by
    have hn : ((List.range (dataBytes v l + numBlocks v l * eccPerBlock v l)).map (byteOrder (dataBytes v l) (numBlocks v l) (eccPerBlock v l))).Nodup :=
      (byteOrder_perm t.pos).nodup_iff.2 List.nodup_range
    intro s s' hs hs' he
    exact List.inj_on_of_nodup_map hn (List.mem_range.2 (by omega)) (List.mem_range.2 (by omega)) he
  constructor
  · intro o ho
    obtain ⟨s, hs, hso⟩ := byteOrder_surj (nd := dataBytes v l) (nb := numBlocks v l) (ne := eccPerBlock v l) (o := o / 8) t.pos (by omega)
    have hk : 8 * s + o % 8 < (dataCells v).length := by omega
    have hg := List.getElem?_eq_getElem hk
    have hd := hp.data _ _ hg
    rw [orderedPixels_get (by omega) (by omega), Option.map_some, hso, Nat.div_add_mod] at hd
    refine ⟨(dataCells v)[8 * s + o % 8], ⟨_, hd, ?_, ?_⟩, ?_⟩
    · have : (maskPixelG (maskInvert m) (dataCells v)[8 * s + o % 8].1 (dataCells v)[8 * s + o % 8].2 (codePixel (dataBytes v l) o)).role = (codePixel (dataBytes v l) o).role := by
        unfold maskPixelG; split <;> rfl
      rw [this]
      unfold codePixel
      simp only
      split <;> simp
    · unfold maskPixelG; split <;> rfl
    · rintro ⟨y, x⟩ ⟨q, hq, hr, ho'⟩
      obtain ⟨s', u', hs', hu', hc', hof, -⟩ := key y x q hq hr
      rw [ho'] at hof
      have e1 : byteOrder (dataBytes v l) (numBlocks v l) (eccPerBlock v l) s' = o / 8 := by omega
      have e2 : s' = s := hinj s' s hs' (by omega) (by rw [e1, hso])
      have e3 : u' = o % 8 := by omega
      rw [e2, e3, hg] at hc'
      injection hc' with hc'
      exact hc'.symm
  · intro y x q hq hr
    obtain ⟨s, u, hs, hu, -, hof, hrole⟩ := key y x q hq hr
    have := byteOrder_lt (ne := eccPerBlock v l) t.pos (show s < dataBytes v l + numBlocks v l * eccPerBlock v l by omega)
    refine ⟨by omega, ?_⟩
    rw [hrole]
    unfold codePixel
    simp only
    split
    · rename_i h; simp [h]
    · rename_i h; simp [h]

/-- **C30** Other versions are refused. -/
theorem C30_bad_version (v : Nat) (h : v = 0 ∨ 40 < v) (l : Level) (m : Fin 8) : newPlan v l m = .err := by
  unfold newPlan
  rw [if_pos (by omega)]

/-! ## C31: reading -/

/-- **C31** A code returned by `Encode` is a symbol from which the standard's reader obtains the text, and each of its blocks is a
Reed-Solomon code word. -/
theorem C31_symbol_decodes (text : Str) (l : Level) (c : Code) (h : encode text l = .ok c) :
    Iso.read c.size (fun y x => c.black x y) = some text ∧
    levelOfBits (readFormat (fun y x => c.black x y) / 8192) = l ∧ BlocksOk ((c.size - 17) / 4) l (symbolWords c) := by
  rcases encode_cases text l with ⟨v, c', data, h1, h2, e, hn, hs, hd, hb, hcs⟩ | ⟨e, -⟩
  · rw [e] at h
    cases h
    obtain ⟨t1, t2, t3⟩ := chooseEncoding_text text
    have hv : (c.size - 17) / 4 = v := by rw [hcs.size]; unfold Iso.size; omega
    refine ⟨?_, ?_, ?_⟩
    · have := read_ok (ts := [chooseEncoding text]) h1 h2 (by simpa using t2) (by simpa [totalBits, t3] using hn) hd (by simpa using hb) hcs
      simpa [t1] using this
    · rw [hcs.readFormat h1]
      exact (format_facts l (mem_levels l) 0).2.2
    · unfold symbolWords
      rw [hv, hcs.readFormat h1, (format_facts l (mem_levels l) 0).2.1, hcs.readCodewords h1 h2]
      exact blocksOk h1 h2 hd
  · rw [e] at h; cases h

/-- **C31** The same for a plan of any version, level and mask and any sequence of segments: `Encode` fails exactly if a text is not accepted
by its `Check` or the segments do not fit, and otherwise the symbol reads as the concatenation of the texts. -/
theorem C31_plan_encode_decodes {v : Nat} (h1 : 1 ≤ v) (h2 : v ≤ 40) (l : Level) (m : Fin 8) (p : Plan) (hp : newPlan v l m = .ok p)
    (ts : List Encoding) : p.encode ts ≠ .panic ∧
    (p.encode ts = .err ↔ (∃ e ∈ ts, e.check = false) ∨ 8 * dataCodewords v l < (ts.map (Encoding.bits v)).sum) ∧
    ∀ c, p.encode ts = .ok c → c.size = size v ∧ Iso.read c.size (fun y x => c.black x y) = some (ts.flatMap Encoding.text) ∧
      readFormat (fun y x => c.black x y) / 1024 % 8 = m ∧
      levelOfBits (readFormat (fun y x => c.black x y) / 8192) = l ∧ BlocksOk v l (symbolWords c) := by
  obtain ⟨p', e, hs⟩ := newPlan_spec h1 h2 l m
  rw [hp] at e
  cases e
  rw [dataCodewords_eq h1 h2]
  by_cases hbad : (∃ e ∈ ts, e.check = false) ∨ 8 * dataBytes v l < totalBits v ts
  · rw [planEncode_err hs hbad]
    exact ⟨by simp, ⟨fun _ => hbad, fun _ => rfl⟩, by simp⟩
  · have hc : ∀ e ∈ ts, e.check = true := by
      intro e he
      cases h' : e.check with
      | true => rfl
      | false => exact absurd (Or.inl ⟨e, he, h'⟩) hbad
    have hf : totalBits v ts ≤ 8 * dataBytes v l := by
      have : ¬ 8 * dataBytes v l < totalBits v ts := fun h => hbad (Or.inr h)
      omega
    obtain ⟨c, data, e1, hd, hb, hcs⟩ := planEncode_ok h1 h2 hs hc hf
    rw [e1]
    refine ⟨by simp, ⟨by simp, fun h => absurd h hbad⟩, ?_⟩
    intro c' hc'
    cases hc'
    have hv : (c.size - 17) / 4 = v := by rw [hcs.size]; unfold Iso.size; omega
    refine ⟨hcs.size, read_ok h1 h2 hc hf hd hb hcs, ?_, ?_, ?_⟩
    · rw [hcs.readFormat h1]; exact (format_facts l (mem_levels l) m).2.1
    · rw [hcs.readFormat h1]; exact (format_facts l (mem_levels l) m).2.2
    · unfold symbolWords
      rw [hv, hcs.readFormat h1, (format_facts l (mem_levels l) m).2.1, hcs.readCodewords h1 h2]
      exact blocksOk h1 h2 hd

/-! ## C32, C65, C66: format and version information, function modules -/

/-- Any symbol the encoder can produce. -/
def IsSymbol (v : Nat) (l : Level) (m : Fin 8) (c : Code) : Prop := ∃ p ts, newPlan v l m = .ok p ∧ p.encode ts = .ok c

theorem IsSymbol.spec {v : Nat} {l : Level} {m : Fin 8} {c : Code} (h : IsSymbol v l m c) :
    1 ≤ v ∧ v ≤ 40 ∧ ∃ data, data.length = dataBytes v l ∧ CodeSpec v l m (codeBytes v l data) c := by
  obtain ⟨p, ts, e1, e2⟩ := h
  by_cases hv : 1 ≤ v ∧ v ≤ 40
  · obtain ⟨h1, h2⟩ := hv
    obtain ⟨p', e, hs⟩ := newPlan_spec h1 h2 l m
    rw [e1] at e
    cases e
    refine ⟨h1, h2, ?_⟩
    by_cases hbad : (∃ e ∈ ts, e.check = false) ∨ 8 * dataBytes v l < totalBits v ts
    · rw [planEncode_err hs hbad] at e2; cases e2
    · rw [not_or] at hbad
      obtain ⟨c', data, e3, hd, hb, hcs⟩ := planEncode_ok h1 h2 hs (ts := ts) (fun e he => by
        cases h' : e.check with
        | true => rfl
        | false => exact absurd ⟨e, he, h'⟩ hbad.1) (by omega)
      rw [e3] at e2
      cases e2
      exact ⟨data, hd, hcs⟩
  · rw [C30_bad_version v (by omega) l m] at e1; cases e1

/-- What `Encode` returns is such a symbol. -/
theorem IsSymbol.of_encode {text : Str} {l : Level} {c : Code} (h : encode text l = .ok c) : IsSymbol ((c.size - 17) / 4) l 0 c := by
  unfold encode at h
  dsimp only at h
  split at h
  · cases h
  · rename_i v hv
    have h12 : 1 ≤ v ∧ v ≤ 40 := by
      rcases chooseVersion_spec (chooseEncoding text) l 41 1 (by omega) with ⟨w, e1, h1, h2, -⟩ | ⟨e1, -⟩
      · rw [e1] at hv; cases hv; exact ⟨h1, h2⟩
      · rw [e1] at hv; cases hv
    obtain ⟨p, e, hs⟩ := newPlan_spec h12.1 h12.2 l 0
    rw [e] at h
    have hsym : IsSymbol v l 0 c := ⟨p, _, e, h⟩
    obtain ⟨_, _, d, -, hcs⟩ := hsym.spec
    have : (c.size - 17) / 4 = v := by rw [hcs.size]; unfold Iso.size; omega
    rw [this]; exact hsym

theorem capacity_ge : ∀ v ∈ List.range' 1 40, ∀ l ∈ levels, 9 ≤ dataBytes v l := by decide +kernel

/-- There are symbols of every version, level and mask (here: of the text "abc"), so the theorems about symbols are not empty. -/
theorem IsSymbol.exists {v : Nat} (h1 : 1 ≤ v) (h2 : v ≤ 40) (l : Level) (m : Fin 8) :
    ∃ c, IsSymbol v l m c ∧ Iso.read c.size (fun y x => c.black x y) = some (lit "abc") := by
  obtain ⟨p, e, -⟩ := newPlan_spec h1 h2 l m
  obtain ⟨k1, k2, k3⟩ := C31_plan_encode_decodes h1 h2 l m p e [.str (lit "abc")]
  cases h : p.encode [.str (lit "abc")] with
  | panic => exact absurd h k1
  | err =>
    have := k2.1 h
    rw [dataCodewords_eq h1 h2] at this
    have hc := capacity_ge v (mem_versions h1 h2) l (mem_levels l)
    rcases this with ⟨e, he, hf⟩ | hlt
    · simp only [List.mem_cons, List.not_mem_nil, or_false] at he
      subst he
      cases hf
    · simp only [List.map_cons, List.map_nil, List.sum_cons, List.sum_nil, (C26_announced_length_standard v (lit "abc")).2.2, byteNeed, countBits] at hlt
      have : (lit "abc").length = 3 := rfl
      repeat' split at hlt
      all_goals omega
  | ok c => exact ⟨c, ⟨p, _, e, h⟩, by have := (k3 c h).2.1; simpa [Encoding.text] using this⟩

theorem formatPixel_black : ∀ l ∈ levels, ∀ m : Fin 8, ∀ i < 15,
    (formatPixel (formatBits l m) i).black = (formatBits l m ^^^ 0x5412).testBit i := by decide +kernel

theorem formatBits_bch : ∀ l ∈ levels, ∀ m : Fin 8, formatBits l m < 2 ^ 15 ∧ polyDivLoop 0x537 11 15 (formatBits l m) = 0 := by decide +kernel

/-- **C32** Both copies of the format information hold the same 15 bits, XORed with the standard's mask: a number `F` whose five high bits are
the level indicator and the mask, and which as a polynomial is a multiple of `x^10+x^8+x^5+x^4+x^2+x+1`. -/
theorem C32_format_information {v : Nat} {l : Level} {m : Fin 8} {c : Code} (h : IsSymbol v l m c) : ∃ F, F < 2 ^ 15 ∧
    levelOfBits (F / 8192) = l ∧ F / 1024 % 8 = m ∧ toPoly 0b10100110111 ∣ toPoly F ∧
    ∀ i < 15, c.black (formatCell1 i).2 (formatCell1 i).1 = (F ^^^ 0b101010000010010).testBit i ∧
      c.black (formatCell2 v i).2 (formatCell2 v i).1 = (F ^^^ 0b101010000010010).testBit i := by
  obtain ⟨h1, h2, data, hd, hcs⟩ := h.spec
  obtain ⟨f1, f2⟩ := formatBits_bch l (mem_levels l) m
  refine ⟨formatBits l m, f1, (format_facts l (mem_levels l) m).2.2, (format_facts l (mem_levels l) m).2.1, ?_, ?_⟩
  · have := polyDivLoop_dvd 0x537 11 15 (formatBits l m)
    rw [f2, toPoly_zero, zero_sub] at this
    exact (dvd_neg).1 this
  · intro i hi
    have := formatPixel_black l (mem_levels l) m i hi
    obtain ⟨m1, m2⟩ := mem_formatCells (v := v) hi
    rw [hcs.format h1 hi m1, hcs.format h1 hi m2]
    exact ⟨this, this⟩

theorem pattern_bch : ∀ v ∈ List.range' 1 40, (vinfo v).pattern < 2 ^ 18 ∧ polyDivLoop 0x1f25 13 18 (vinfo v).pattern = 0 := by decide +kernel

theorem fnPixel_version {v : Nat} (h1 : 1 ≤ v) (h2 : v ≤ 40) (l : Level) (m : Nat) {y x : Nat} (hy : y < size v) (hx : x < size v)
    (h : inVersion v y x = true) : fnPixel v l m y x = some { role := .pversion, black := versionDark v y x } := by
  have hv := h
  simp only [inVersion, Bool.or_eq_true, Bool.and_eq_true, decide_eq_true_eq] at hv
  have hs : size v = 17 + 4 * v := rfl
  unfold fnPixel
  rw [format_last_none h1 l m (Or.inl _), Option.none_or, vplan_last h1 h2 hy hx, if_neg, if_pos h]
  · intro e; rw [Prod.mk.injEq] at e; omega
  · rw [Bool.eq_false_iff]
    intro hf
    simp only [inFormat, Bool.or_eq_true, Bool.and_eq_true, decide_eq_true_eq] at hf
    omega

/-- **C65** From version 7 on both version information areas hold the same 18 bits: the version in the six high bits, the whole number
being a multiple of `x^12+x^11+x^10+x^9+x^8+x^5+x^2+1`. -/
theorem C65_version_information {v : Nat} {l : Level} {m : Fin 8} {c : Code} (h : IsSymbol v l m c) (h7 : 7 ≤ v) : ∃ W, W < 2 ^ 18 ∧
    W / 4096 = v ∧ toPoly 0b1111100100101 ∣ toPoly W ∧
    ∀ i < 18, c.black (versionCell v i).2 (versionCell v i).1 = W.testBit i ∧ c.black (versionCell v i).1 (versionCell v i).2 = W.testBit i := by
  obtain ⟨h1, h2, data, hd, hcs⟩ := h.spec
  obtain ⟨f1, f2⟩ := pattern_bch v (mem_versions h1 h2)
  have f3 := (pattern_facts v (mem_versions h1 h2)).2
  rw [if_pos h7] at f3
  refine ⟨(vinfo v).pattern, f1, f3, ?_, ?_⟩
  · have := polyDivLoop_dvd 0x1f25 13 18 (vinfo v).pattern
    rw [f2, toPoly_zero, zero_sub] at this
    exact (dvd_neg).1 this
  · intro i hi
    have hs : size v = 17 + 4 * v := rfl
    unfold versionCell
    constructor
    · have hin : inVersion v (size v - 11 + i % 3) (i / 3) = true := by
        simp only [inVersion, Bool.or_eq_true, Bool.and_eq_true, decide_eq_true_eq]; omega
      rw [hcs.fn _ _ _ (by omega) (by omega) (fnPixel_version h1 h2 l m (by omega) (by omega) hin)]
      simp only [versionDark]
      rw [if_pos (by omega)]
      congr 1; omega
    · have hin : inVersion v (i / 3) (size v - 11 + i % 3) = true := by
        simp only [inVersion, Bool.or_eq_true, Bool.and_eq_true, decide_eq_true_eq]; omega
      rw [hcs.fn _ _ _ (by omega) (by omega) (fnPixel_version h1 h2 l m (by omega) (by omega) hin)]
      simp only [versionDark]
      rw [if_neg (by omega)]
      congr 1; omega

/-- **C66** Finder patterns, separators, timing patterns, alignment patterns and the dark module are as in the standard. -/
theorem C66_function_modules {v : Nat} {l : Level} {m : Fin 8} {c : Code} (h : IsSymbol v l m c) :
    c.size = size v ∧ c.black 8 (size v - 8) = true ∧
    ∀ y x, y < size v → x < size v → isFunction v y x = true → inVersion v y x = false → (inFormat v y x = false ∨ y = 6 ∨ x = 6) →
      c.black x y = functionDark v y x := by
  obtain ⟨h1, h2, data, hd, hcs⟩ := h.spec
  have hs : size v = 17 + 4 * v := rfl
  refine ⟨hcs.size, ?_, ?_⟩
  · have : fnPixel v l m (size v - 8) 8 = some { role := .unused, black := true } := by
      unfold fnPixel
      rw [format_last_none h1 l m (Or.inr rfl), Option.none_or, vplan_last h1 h2 (by omega) (by omega), if_pos rfl]
    rw [hcs.fn _ _ _ (by omega) (by omega) this]
  · intro y x hy hx hf hver hfmt
    have hfl : lastWrite y x (fplanWrites (size v) l m) = none := by
      rw [lastWrite_none]
      rintro w hw ⟨rfl, rfl⟩
      obtain ⟨i, hi, a, ha, rfl⟩ := format_mem.1 hw
      have hin := (formatIndex_eq h1 hi ha).2.2.2.1
      rcases hfmt with hh | hh | hh
      · simp only at hh; rw [hin] at hh; cases hh
      all_goals
        rw [formatCells_eq hi] at ha
        simp only [List.mem_cons, List.not_mem_nil, or_false, formatCell1, formatCell2] at ha
        simp only at hh
        rcases ha with ha | ha
        · rw [ha] at hh
          split at hh
          · simp only at hh; omega
          · split at hh
            · simp only at hh; omega
            · split at hh
              · simp only at hh; omega
              · split at hh <;> simp only at hh <;> omega
        · rw [ha] at hh
          split at hh <;> simp only at hh <;> omega
    have hnd : (y, x) ≠ (size v - 8, 8) := by
      intro e
      rw [Prod.mk.injEq] at e
      rcases hfmt with hh | hh | hh
      · have : inFormat v y x = true := by
          simp only [inFormat, Bool.or_eq_true, Bool.and_eq_true, decide_eq_true_eq]; omega
        rw [this] at hh; cases hh
      · omega
      · omega
    have hp : ∃ q, fnPixel v l m y x = some q ∧ q.black = functionDark v y x := by
      have hsome := fnPixel_some h1 h2 l m hy hx
      rw [hf] at hsome
      unfold fnPixel at *
      rw [hfl, Option.none_or, vplan_last h1 h2 hy hx, if_neg hnd, if_neg (by simp [hver])] at *
      unfold functionDark
      -- alignment patterns do not meet finder patterns
      have hdisj : inAlign v y x = true → inFinder v y x = false := by
        intro ha
        unfold inAlign at ha
        rw [List.any_eq_true] at ha
        obtain ⟨a, ha, hd⟩ := ha
        rw [decide_eq_true_eq] at hd
        have h5 := (align_facts v (mem_versions h1 h2)).2.2.2.2 a ha
        rw [Bool.eq_false_iff]
        intro hfi
        simp only [inFinder, Bool.or_eq_true, Bool.and_eq_true, decide_eq_true_eq] at hfi
        unfold cheb at hd
        omega
      by_cases ca : inAlign v y x = true
      · rw [if_pos ca, hdisj ca]
        exact ⟨_, rfl, by rw [if_neg (by simp), if_pos ca]; rfl⟩
      · rw [if_neg ca] at hsome ⊢
        by_cases cf : inFinder v y x = true
        · rw [if_pos cf]
          exact ⟨_, rfl, by rw [if_pos cf]⟩
        · rw [if_neg cf] at hsome ⊢
          by_cases ct : y = 6 ∨ x = 6
          · rw [if_pos ct]
            refine ⟨_, rfl, ?_⟩
            rw [if_neg cf, if_neg ca]
            simp only
            by_cases cy : y = 6
            · rw [if_pos cy, if_pos cy]
            · rw [if_neg cy, if_neg cy, if_pos (ct.resolve_left cy)]
          · rw [if_neg ct] at hsome; cases hsome
    obtain ⟨q, hq, hb⟩ := hp
    rw [hcs.fn y x q hy hx hq, hb]

/-! ## C67: damaged symbols -/

theorem block_le_255 : ∀ v ∈ List.range' 1 40, ∀ l ∈ levels, dataBytes v l / numBlocks v l + 1 + eccPerBlock v l ≤ 255 := by decide +kernel

theorem blockData_length (v : Nat) (l : Level) (cw : List UInt8) (j : Nat) : (blockData v l cw j).length =
    dataCodewords v l / numBlocks v l + if numBlocks v l - dataCodewords v l % numBlocks v l ≤ j then 1 else 0 := by
  unfold blockData
  rw [List.length_append, List.length_map, List.length_range]
  congr 1
  split <;> rfl

/-- **C67** If a damaged reading `r` of a symbol has at most half as many wrong bytes in every block as the block has check bytes, the data
bytes are determined: any code word sequence whose blocks are code words and which explains `r` equally well has the same data. -/
theorem C67_damage_correctable {v : Nat} {l : Level} {m : Fin 8} {c : Code} (h : IsSymbol v l m c) (r w : List UInt8)
    (hr : ∀ j < numBlocks v l, distance (blockData v l r j ++ blockCheck v l r j)
      (blockData v l (symbolWords c) j ++ blockCheck v l (symbolWords c) j) ≤ eccPerBlock v l / 2)
    (hok : BlocksOk v l w)
    (hw : ∀ j < numBlocks v l, distance (blockData v l r j ++ blockCheck v l r j) (blockData v l w j ++ blockCheck v l w j) ≤ eccPerBlock v l / 2) :
    readData v l w = readData v l (symbolWords c) := by
  obtain ⟨h1, h2, data, hd, hcs⟩ := h.spec
  have hv : (c.size - 17) / 4 = v := by rw [hcs.size]; unfold Iso.size; omega
  have hsw : symbolWords c = symbolBytes v l data := by
    unfold symbolWords
    rw [hv, hcs.readFormat h1, (format_facts l (mem_levels l) m).2.1, hcs.readCodewords h1 h2]
    rfl
  rw [hsw] at hr ⊢
  have hb := blocksOk h1 h2 hd
  unfold readData
  apply flatMap_congr'
  intro j hj
  rw [List.mem_range] at hj
  have hlen : ∀ a b : List UInt8, (blockData v l a j ++ blockCheck v l a j).length = (blockData v l b j ++ blockCheck v l b j).length := by
    intro a b
    simp only [List.length_append, blockData_length]
    unfold blockCheck
    simp
  by_contra hne
  have h255 := block_le_255 v (mem_versions h1 h2) l (mem_levels l)
  have hd1 := C24_minimum_distance newField_qr (eccPerBlock v l) _ _ (hlen w (symbolBytes v l data)) (by
    rw [List.length_append, blockData_length, dataCodewords_eq h1 h2]
    have : (blockCheck v l w j).length = eccPerBlock v l := by unfold blockCheck; simp
    rw [this]
    split <;> omega) (hok j hj) (hb j hj) (by
      intro e
      apply hne
      exact (List.append_inj e (by rw [blockData_length, blockData_length])).1)
  have hd2 := distance_triangle (blockData v l w j ++ blockCheck v l w j) (blockData v l r j ++ blockCheck v l r j)
    (blockData v l (symbolBytes v l data) j ++ blockCheck v l (symbolBytes v l data) j) (hlen _ _) (hlen _ _)
  have := hr j hj
  have := hw j hj
  omega

end Verif.QR
