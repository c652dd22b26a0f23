import Verif.QR.ReadLemmas
/-
Reading a code made by `Plan.Encode`.
-/
namespace Verif.QR
open Iso

/-! ### Format information -/

theorem format_facts : ∀ l ∈ levels, ∀ m : Fin 8,
    ofBits ((List.range 15).reverse.map fun i => (formatPixel (formatBits l m) i).black) ^^^ 0x5412 = formatBits l m ∧
    formatBits l m / 1024 % 8 = m ∧ levelOfBits (formatBits l m / 8192) = l := by
  decide +kernel

theorem mem_formatCells {v i : Nat} (hi : i < 15) : formatCell1 i ∈ formatCells (size v) i ∧ formatCell2 v i ∈ formatCells (size v) i := by
  rw [formatCells_eq hi]; simp

theorem fnPixel_format {v : Nat} (h1 : 1 ≤ v) (l : Level) (m : Nat) {i : Nat} (hi : i < 15) {c : Nat × Nat} (hc : c ∈ formatCells (size v) i) :
    fnPixel v l m c.1 c.2 = some (formatPixel (formatBits l m) i) := by
  rw [fnPixel, format_last_cell h1 l m hi hc, Option.some_or]

variable {v : Nat} {l lf : Level} {m mf : Fin 8} {inv : Nat → Nat → Bool} {bytes : List UInt8} {c : Code}

theorem CodeSpecG.format (h1 : 1 ≤ v) (h : CodeSpecG v l lf mf inv bytes c) {i : Nat} (hi : i < 15) {a : Nat × Nat}
    (ha : a ∈ formatCells (Iso.size v) i) : c.black a.2 a.1 = (formatPixel (formatBits lf mf) i).black := by
  obtain ⟨h3, h4, -⟩ := formatIndex_eq h1 hi ha
  exact h.fn _ _ _ h3 h4 (fnPixel_format h1 lf mf hi ha)

theorem CodeSpecG.readFormat (h1 : 1 ≤ v) (h : CodeSpecG v l lf mf inv bytes c) : readFormat (fun y x => c.black x y) = formatBits lf mf := by
  unfold Iso.readFormat
  rw [List.map_congr_left (g := fun i => (formatPixel (formatBits lf mf) i).black)]
  · exact (format_facts lf (mem_levels lf) mf).1
  · intro i hi
    rw [List.mem_reverse, List.mem_range] at hi
    exact h.format h1 hi (mem_formatCells hi).1

/-! ### Code words -/

theorem maskBit_eq : ∀ (m y x : Nat), maskBit m y x = maskInvert m y x
  | 0, _, _ | 1, _, _ | 2, _, _ | 3, _, _ | 4, _, _ | 5, _, _ | 6, _, _ => rfl
  | m + 7, y, x => by
    change decide (((y + x) % 2 + (y * x) % 3) % 2 = 0) = decide ((y * x % 3 + (y + x) % 2) % 2 = 0)
    rw [Nat.add_comm ((y + x) % 2)]

theorem bytesOfBits_eq : ∀ (n : Nat) (L : List Bool),
    bytesOfBits n L = (List.range n).map fun t => UInt8.ofNat (ofBits ((L.drop (8 * t)).take 8))
  | 0, L => rfl
  | n + 1, L => by
    rw [bytesOfBits, bytesOfBits_eq n, List.range_succ_eq_map, List.map_cons, List.map_map]
    congr 1
    apply List.map_congr_left
    intro t _
    simp only [Function.comp, List.drop_drop]
    rw [show 8 + 8 * t = 8 * (t + 1) by omega]

/-- Where the code word in position `t` comes from. -/
def order (v : Nat) (l : Level) (t : Nat) : Nat := byteOrder (dataBytes v l) (numBlocks v l) (eccPerBlock v l) t

theorem bitAt_byte (bytes : List UInt8) (o u : Nat) (hu : u < 8) : bitAt bytes (8 * o + u) = (bytes.getD o 0).toNat.testBit (7 - u) := by
  unfold bitAt
  rw [show (8 * o + u) / 8 = o by omega, show (8 * o + u) % 8 = u by omega]

/-- Reading the code words with the mask function that was applied. -/
theorem CodeSpecG.readCodewordsG (h1 : 1 ≤ v) (h2 : v ≤ 40) (h : CodeSpecG v l lf mf inv bytes c) :
    bytesOfBits (totalCodewords v) ((dataCells v).map fun a => c.black a.2 a.1 ^^ inv a.1 a.2) =
      (List.range (vinfo v).bytes).map fun t => bytes.getD (order v l t) 0 := by
  rw [bytesOfBits_eq, totalCodewords_eq h1 h2]
  apply List.map_congr_left
  intro t ht
  rw [List.mem_range] at ht
  have hlen : 8 * (vinfo v).bytes ≤ (dataCells v).length := by
    have := totalCodewords_eq h1 h2
    unfold totalCodewords at this
    omega
  have e : ((((dataCells v).map fun a => c.black a.2 a.1 ^^ inv a.1 a.2).drop (8 * t)).take 8) =
      beBits (bytes.getD (order v l t) 0).toNat 8 := by
    apply List.ext_getElem
    · rw [beBits_length]; simp; omega
    · intro u hu1 hu2
      rw [beBits_length] at hu2
      have hk : 8 * t + u < (dataCells v).length := by omega
      simp only [List.getElem_take, List.getElem_drop, List.getElem_map]
      have := h.data t u ((dataCells v)[8 * t + u]) ht hu2 (List.getElem?_eq_getElem hk)
      rw [this, bitAt_byte _ _ _ hu2]
      simp only [beBits, List.getElem_map, List.getElem_range]
      rw [Bool.xor_assoc, Bool.xor_self, Bool.xor_false]
      rfl
  rw [e, ofBits_beBits _ _ (UInt8.toNat_lt _), UInt8.ofNat_toNat]

theorem CodeSpecG.readCodewords (h1 : 1 ≤ v) (h2 : v ≤ 40) (h : CodeSpec v l m bytes c) :
    readCodewords v m (fun y x => c.black x y) = (List.range (vinfo v).bytes).map fun t => bytes.getD (order v l t) 0 := by
  unfold Iso.readCodewords
  rw [← CodeSpecG.readCodewordsG h1 h2 h]
  simp only [maskBit_eq]

/-! ### Blocks -/

/-- The code bytes: data followed by the check bytes of each block. -/
def codeBytes (v : Nat) (l : Level) (data : List UInt8) : List UInt8 :=
  data ++ (List.range (numBlocks v l)).flatMap
        (fun j => checkBytes qrField (eccPerBlock v l) (block (dataBytes v l) (numBlocks v l) data j))

theorem flatMap_getD (ne : Nat) (f : Nat → List UInt8) (hf : ∀ j, (f j).length = ne) : ∀ (nb j i : Nat), j < nb → i < ne →
    ((List.range nb).flatMap f).getD (j * ne + i) 0 = (f j).getD i 0
  | 0, j, i, hj, _ => by omega
  | nb + 1, j, i, hj, hi => by
    have hl : ∀ k, ((List.range k).flatMap f).length = k * ne := by
      intro k; rw [List.range_eq_range']; exact flatMap_check_length k ne f hf
    rw [range_flatMap_add]
    by_cases h : j < nb
    · have : (j + 1) * ne ≤ nb * ne := Nat.mul_le_mul_right _ h
      rw [Nat.add_mul, Nat.one_mul] at this
      rw [List.getD_append _ _ _ _ (by rw [hl]; omega)]
      exact flatMap_getD ne f hf nb j i h hi
    · have : j = nb := by omega
      subst this
      rw [List.getD_append_right _ _ _ _ (by rw [hl]; omega), hl, Nat.add_sub_cancel_left]
      simp

theorem codeBytes_length (h1 : 1 ≤ v) (h2 : v ≤ 40) {data : List UInt8} (hd : data.length = dataBytes v l) :
    (codeBytes v l data).length = (vinfo v).bytes := by
  have t := vl h1 h2 l
  unfold codeBytes
  rw [List.length_append, List.range_eq_range', flatMap_check_length _ (eccPerBlock v l) _ (fun j => checkBytes_length _ _ _), hd]
  have := t.nd; have := t.lt
  omega

theorem codeBytes_data {data : List UInt8} {k : Nat} (hk : k < data.length) : (codeBytes v l data).getD k 0 = data.getD k 0 := by
  unfold codeBytes
  rw [List.getD_append _ _ _ _ hk]

theorem codeBytes_check {data : List UInt8} (hd : data.length = dataBytes v l) {j i : Nat} (hj : j < numBlocks v l) (hi : i < eccPerBlock v l) :
    (codeBytes v l data).getD (dataBytes v l + j * eccPerBlock v l + i) 0 =
      (checkBytes qrField (eccPerBlock v l) (block (dataBytes v l) (numBlocks v l) data j)).getD i 0 := by
  unfold codeBytes
  rw [Nat.add_assoc, List.getD_append_right _ _ _ _ (by omega), hd, Nat.add_sub_cancel_left]
  exact flatMap_getD _ _ (fun j => checkBytes_length _ _ _) _ _ _ hj hi

theorem block_length {nd nb : Nat} {data : List UInt8} (hb : 0 < nb) (hd : data.length = nd) {j : Nat} (hj : j < nb) :
    (block nd nb data j).length = blockLen nd nb j := by
  unfold block
  have := blockStart_le (nd := nd) hb (show j + 1 ≤ nb by omega)
  rw [blockStart_succ] at this
  rw [List.length_take, List.length_drop, hd]
  omega

theorem block_getD {nd nb : Nat} {data : List UInt8} {j i : Nat} (hi : i < blockLen nd nb j) :
    (block nd nb data j).getD i 0 = data.getD (blockStart nd nb j + i) 0 := by
  unfold block
  simp [List.getD, hi]

/-- Code words in symbol order. -/
def symbolBytes (v : Nat) (l : Level) (data : List UInt8) : List UInt8 :=
  (List.range (vinfo v).bytes).map fun t => (codeBytes v l data).getD (order v l t) 0

theorem symbolBytes_getD {data : List UInt8} {t : Nat} (ht : t < (vinfo v).bytes) :
    (symbolBytes v l data).getD t 0 = (codeBytes v l data).getD (order v l t) 0 := by
  unfold symbolBytes
  simp [List.getD, ht]

theorem blockData_eq (h1 : 1 ≤ v) (h2 : v ≤ 40) {data : List UInt8} (hd : data.length = dataBytes v l) {j : Nat} (hj : j < numBlocks v l) :
    blockData v l (symbolBytes v l data) j = block (dataBytes v l) (numBlocks v l) data j := by
  have t := vl h1 h2 l
  have hlt := t.lt
  have hnd := t.nd
  have hb := t.pos
  have hle := blockStart_le (nd := dataBytes v l) hb (show j + 1 ≤ numBlocks v l by omega)
  rw [blockStart_succ] at hle
  unfold blockData
  simp only [dataCodewords_eq h1 h2]
  have hbl := block_length hb hd hj
  have hmap : ((List.range (dataBytes v l / numBlocks v l)).map fun i => (symbolBytes v l data).getD (i * numBlocks v l + j) 0) =
      (List.range (dataBytes v l / numBlocks v l)).map fun i => (block (dataBytes v l) (numBlocks v l) data j).getD i 0 := by
    apply List.map_congr_left
    intro i hi
    rw [List.mem_range] at hi
    obtain ⟨a1, a2⟩ := byteOrder_at_data (ne := eccPerBlock v l) hb hj hi
    have hil : i < blockLen (dataBytes v l) (numBlocks v l) j := blockLen_pos_iff.2 (Or.inl hi)
    rw [symbolBytes_getD (by omega), order, a2, codeBytes_data (by omega), block_getD hil]
  rw [hmap]
  split
  · rename_i hl
    obtain ⟨a1, a2⟩ := byteOrder_at_last (ne := eccPerBlock v l) hb hj hl
    have hil : dataBytes v l / numBlocks v l < blockLen (dataBytes v l) (numBlocks v l) j := blockLen_pos_iff.2 (Or.inr ⟨rfl, hl⟩)
    rw [symbolBytes_getD (by omega), order, a2, codeBytes_data (by omega), ← block_getD hil]
    apply List.ext_getElem
    · rw [hbl, blockLen, if_pos hl]; simp
    · intro i hi1 hi2
      by_cases h : i < dataBytes v l / numBlocks v l
      · rw [List.getElem_append_left (by simpa using h)]
        simp [List.getD, hi2]
      · have : i = dataBytes v l / numBlocks v l := by simp at hi1; omega
        subst this
        rw [List.getElem_append_right (by simp)]
        simp [List.getD, hi2]
  · rename_i hl
    rw [List.append_nil]
    apply List.ext_getElem
    · rw [hbl, blockLen, if_neg hl]; simp
    · intro i hi1 hi2
      simp [List.getD, hi2]

theorem blockCheck_eq (h1 : 1 ≤ v) (h2 : v ≤ 40) {data : List UInt8} (hd : data.length = dataBytes v l) {j : Nat} (hj : j < numBlocks v l) :
    blockCheck v l (symbolBytes v l data) j = checkBytes qrField (eccPerBlock v l) (block (dataBytes v l) (numBlocks v l) data j) := by
  have t := vl h1 h2 l
  have hlt := t.lt
  have hnd := t.nd
  have hb := t.pos
  unfold blockCheck
  apply List.ext_getElem
  · rw [checkBytes_length]; simp
  · intro i hi1 hi2
    rw [checkBytes_length] at hi2
    simp only [List.getElem_map, List.getElem_range, dataCodewords_eq h1 h2]
    have hi3 : (i + 1) * numBlocks v l ≤ eccPerBlock v l * numBlocks v l := Nat.mul_le_mul_right _ hi2
    rw [Nat.add_mul, Nat.one_mul, Nat.mul_comm (eccPerBlock v l)] at hi3
    rw [symbolBytes_getD (by omega), order, byteOrder_at_check hb hj, codeBytes_check hd hj hi2]
    rw [List.getD_eq_getElem]

theorem blocks_flatMap {nd nb : Nat} (hb : 0 < nb) (data : List UInt8) (hd : data.length = nd) : (List.range nb).flatMap (block nd nb data) = data := by
  have key : ∀ k, k ≤ nb → (List.range k).flatMap (block nd nb data) = data.take (blockStart nd nb k) := by
    intro k
    induction k with
    | zero => intro _; simp [blockStart]
    | succ k ih =>
      intro hk
      rw [range_flatMap_add, ih (by omega), blockStart_succ, List.take_add]
      simp [block]
  rw [key nb (Nat.le_refl _), blockStart_end hb, ← hd, List.take_length]

theorem readData_eq (h1 : 1 ≤ v) (h2 : v ≤ 40) {data : List UInt8} (hd : data.length = dataBytes v l) :
    readData v l (symbolBytes v l data) = data := by
  unfold readData
  rw [flatMap_congr' (g := block (dataBytes v l) (numBlocks v l) data)]
  · exact blocks_flatMap (vl h1 h2 l).pos data hd
  · intro j hj
    exact blockData_eq h1 h2 hd (List.mem_range.1 hj)

theorem blocksOk (h1 : 1 ≤ v) (h2 : v ≤ 40) {data : List UInt8} (hd : data.length = dataBytes v l) : BlocksOk v l (symbolBytes v l data) := by
  intro j hj
  rw [blockData_eq h1 h2 hd hj, blockCheck_eq h1 h2 hd hj]
  exact (newField_good newField_qr).checkBytes_codeword _ _

/-! ### Segments -/

theorem cap_facts : ∀ v ∈ List.range' 1 40, ∀ l ∈ levels,
    8 * dataBytes v l < 4 + numLen.getD (sizeClass v) 0 + (10 * 2 ^ (numLen.getD (sizeClass v) 0) + 2) / 3 ∧
    8 * dataBytes v l < 4 + alphaLen.getD (sizeClass v) 0 + (11 * 2 ^ (alphaLen.getD (sizeClass v) 0) + 1) / 2 ∧
    8 * dataBytes v l < 4 + stringLen.getD (sizeClass v) 0 + 8 * 2 ^ (stringLen.getD (sizeClass v) 0) := by
  decide +kernel

theorem fits_lenWidth (h1 : 1 ≤ v) (h2 : v ≤ 40) (e : Encoding) (h : e.bits v ≤ 8 * dataBytes v l) : e.text.length < 2 ^ e.lenWidth v := by
  obtain ⟨c1, c2, c3⟩ := cap_facts v (mem_versions h1 h2) l (mem_levels l)
  cases e with
  | num s =>
    simp only [Encoding.bits, Encoding.text, Encoding.lenWidth] at *
    generalize numLen.getD (sizeClass v) 0 = w at *
    generalize 2 ^ w = W at *
    omega
  | alpha s =>
    simp only [Encoding.bits, Encoding.text, Encoding.lenWidth] at *
    generalize alphaLen.getD (sizeClass v) 0 = w at *
    generalize 2 ^ w = W at *
    omega
  | str s =>
    simp only [Encoding.bits, Encoding.text, Encoding.lenWidth] at *
    generalize stringLen.getD (sizeClass v) 0 = w at *
    generalize 2 ^ w = W at *
    omega

/-- Total length of the segments. -/
def totalBits (v : Nat) (ts : List Encoding) : Nat := (ts.map (Encoding.bits v)).sum

theorem bits_le_total {ts : List Encoding} {e : Encoding} (he : e ∈ ts) : e.bits v ≤ totalBits v ts :=
  List.le_sum_of_mem (List.mem_map.2 ⟨e, he, rfl⟩)

theorem encodeAll_ok (v : Nat) : ∀ (ts : List Encoding) (b : Bits), (∀ e ∈ ts, e.check = true) →
    encodeAll v ts b = .ok (ts.foldl (fun b e => e.encode b v) b)
  | [], b, _ => rfl
  | e :: ts, b, h => by
    rw [encodeAll, if_pos (h e List.mem_cons_self), encodeAll_ok v ts _ (fun e' he' => h e' (List.mem_cons_of_mem _ he'))]
    rfl

theorem encodeAll_err (v : Nat) : ∀ (ts : List Encoding) (b : Bits), (∃ e ∈ ts, e.check = false) → encodeAll v ts b = .err
  | [], b, h => by obtain ⟨e, he, _⟩ := h; cases he
  | e :: ts, b, h => by
    rw [encodeAll]
    split
    · rename_i hc
      apply encodeAll_err
      obtain ⟨e', he', hf⟩ := h
      rcases List.mem_cons.1 he' with rfl | h'
      · rw [hc] at hf; cases hf
      · exact ⟨e', h', hf⟩
    · rfl

theorem foldl_nbit (v : Nat) : ∀ (ts : List Encoding) (b : Bits), (ts.foldl (fun b e => e.encode b v) b).nbit = b.nbit + totalBits v ts
  | [], b => by simp [totalBits]
  | e :: ts, b => by
    rw [List.foldl_cons, foldl_nbit v ts, encode_nbit]
    simp [totalBits, Nat.add_assoc]

theorem foldl_rep (v : Nat) : ∀ (ts : List Encoding) (b : Bits) (L : List Bool), (∀ e ∈ ts, e.check = true ∧ e.text.length < 2 ^ e.lenWidth v) →
    Rep b L → Rep (ts.foldl (fun b e => e.encode b v) b) (L ++ ts.flatMap (segBits v))
  | [], b, L, _, h => by simpa using h
  | e :: ts, b, L, h, hr => by
    rw [List.foldl_cons, List.flatMap_cons, ← List.append_assoc]
    obtain ⟨hc, hl⟩ := h e List.mem_cons_self
    exact foldl_rep v ts _ _ (fun e' he' => h e' (List.mem_cons_of_mem _ he')) (encode_rep v e b L hc hl hr)

theorem segBits_head (v : Nat) (e : Encoding) (r : List Bool) : 4 ≤ (segBits v e ++ r).length ∧
    (segBits v e ++ r).take 4 ≠ [false, false, false, false] := by
  cases e with
  | num s =>
    simp only [segBits, List.append_assoc]
    rw [List.take_append_of_le_length (by simp [beBits_length]), List.length_append, beBits_length]
    exact ⟨by omega, by decide⟩
  | alpha s =>
    simp only [segBits, List.append_assoc]
    rw [List.take_append_of_le_length (by simp [beBits_length]), List.length_append, beBits_length]
    exact ⟨by omega, by decide⟩
  | str s =>
    simp only [segBits, List.append_assoc]
    rw [List.take_append_of_le_length (by simp [beBits_length]), List.length_append, beBits_length]
    exact ⟨by omega, by decide⟩

theorem decStream_segs (v : Nat) (r : List Bool) (hr : r.length < 4 ∨ r.take 4 = [false, false, false, false]) :
    ∀ (ts : List Encoding) (fuel : Nat), (∀ e ∈ ts, e.check = true ∧ e.text.length < 2 ^ e.lenWidth v) → ts.length < fuel →
    decStream v fuel (ts.flatMap (segBits v) ++ r) = some (ts.flatMap Encoding.text)
  | [], fuel + 1, _, _ => by
    rw [decStream, if_pos (by simpa using hr)]; rfl
  | e :: ts, fuel + 1, h, hf => by
    obtain ⟨hc, hl⟩ := h e List.mem_cons_self
    obtain ⟨a1, a2⟩ := segBits_head v e (ts.flatMap (segBits v) ++ r)
    rw [List.flatMap_cons, List.append_assoc, decStream, if_neg (by rw [not_or]; exact ⟨by omega, a2⟩), decSegment_segBits v e _ hc hl]
    simp only [Option.bind_some]
    rw [decStream_segs v r hr ts fuel (fun e' he' => h e' (List.mem_cons_of_mem _ he')) (by simpa using hf)]
    rfl
  | [], 0, _, hf => by omega
  | _ :: _, 0, _, hf => by omega

/-- A padded bit string continues with a terminator. -/
theorem padTo_split (cap : Nat) (L : List Bool) (hc : cap % 8 = 0) (hL : L.length ≤ cap) :
    ∃ r, padTo cap L = L ++ r ∧ (r.length < 4 ∨ r.take 4 = [false, false, false, false]) := by
  by_cases h : cap - L.length < 4
  · have hl := padTo_length cap L hc hL
    have : ∃ r, padTo cap L = L ++ r := by
      unfold padTo
      simp only [List.append_assoc]
      exact ⟨_, rfl⟩
    obtain ⟨r, e⟩ := this
    refine ⟨r, e, Or.inl ?_⟩
    rw [e, List.length_append] at hl
    omega
  · unfold padTo
    simp only [List.append_assoc]
    refine ⟨_, rfl, Or.inr ?_⟩
    rw [show min 4 (cap - L.length) = 4 by omega, List.take_append_of_le_length (by simp)]
    rfl

/-! ### Everything together -/

/-- `Plan.Encode`: what the code looks like when the texts fit. -/
theorem planEncode_ok (h1 : 1 ≤ v) (h2 : v ≤ 40) {p : Plan} (hp : PlanSpecG v l lf mf inv p) {ts : List Encoding} (hc : ∀ e ∈ ts, e.check = true)
    (hfit : totalBits v ts ≤ 8 * dataBytes v l) : ∃ c data, p.encode ts = .ok c ∧ data.length = dataBytes v l ∧
      bitsOfBytes data = padTo (8 * dataBytes v l) (ts.flatMap (segBits v)) ∧ CodeSpecG v l lf mf inv (codeBytes v l data) c := by
  have hok : ∀ e ∈ ts, e.check = true ∧ e.text.length < 2 ^ e.lenWidth v := fun e he =>
    ⟨hc e he, fits_lenWidth h1 h2 e (Nat.le_trans (bits_le_total he) hfit)⟩
  have hrep := foldl_rep v ts Bits.empty [] hok Rep.empty
  rw [List.nil_append] at hrep
  have hnb := foldl_nbit v ts Bits.empty
  rw [show Bits.empty.nbit = 0 from rfl, Nat.zero_add] at hnb
  obtain ⟨b', data, e1, hd, hbits, hby⟩ := addCheckBytes_spec h1 h2 l hrep (by rw [← hrep.nbit, hnb]; exact hfit)
  obtain ⟨bm, e2, hcs⟩ := code_spec h1 h2 hp (codeBytes v l data) (codeBytes_length h1 h2 hd)
  refine ⟨_, data, ?_, hd, hbits, hcs⟩
  unfold Plan.encode
  rw [hp.version, encodeAll_ok v ts _ hc]
  change (if _ then _ else _) = _
  rw [if_neg (by rw [hnb, hp.dataBytes]; omega), hp.level, e1, Option.bind_some, hby, Option.bind_some]
  change Out.ofOption ((bitmapRows (codeBytes v l data) _ _).map _) = _
  rw [e2]
  rfl

theorem planEncode_err {p : Plan} (hp : PlanSpecG v l lf mf inv p) {ts : List Encoding}
    (h : (∃ e ∈ ts, e.check = false) ∨ 8 * dataBytes v l < totalBits v ts) : p.encode ts = .err := by
  unfold Plan.encode
  rw [hp.version]
  by_cases hc : ∃ e ∈ ts, e.check = false
  · rw [encodeAll_err v ts _ hc]; rfl
  · have hc' : ∀ e ∈ ts, e.check = true := by
      intro e he
      cases h' : e.check with
      | true => rfl
      | false => exact absurd ⟨e, he, h'⟩ hc
    rw [encodeAll_ok v ts _ hc']
    change (if _ then _ else _) = _
    rw [if_pos]
    rw [foldl_nbit, hp.dataBytes, show Bits.empty.nbit = 0 from rfl]
    have := h.resolve_left hc
    omega

/-- Decoding the data bytes. -/
theorem decode_ok (h1 : 1 ≤ v) (h2 : v ≤ 40) {ts : List Encoding} (hc : ∀ e ∈ ts, e.check = true)
    (hfit : totalBits v ts ≤ 8 * dataBytes v l) {data : List UInt8} (hd : data.length = dataBytes v l)
    (hbits : bitsOfBytes data = padTo (8 * dataBytes v l) (ts.flatMap (segBits v))) :
    decStream v ((bitsOfBytes (readData v l (symbolBytes v l data))).length + 1) (bitsOfBytes (readData v l (symbolBytes v l data))) =
      some (ts.flatMap Encoding.text) := by
  have hok : ∀ e ∈ ts, e.check = true ∧ e.text.length < 2 ^ e.lenWidth v := fun e he =>
    ⟨hc e he, fits_lenWidth h1 h2 e (Nat.le_trans (bits_le_total he) hfit)⟩
  have hlen : (ts.flatMap (segBits v)).length = totalBits v ts := by
    have hrep := foldl_rep v ts Bits.empty [] hok Rep.empty
    have hnb := foldl_nbit v ts Bits.empty
    rw [hrep.nbit, show Bits.empty.nbit = 0 from rfl, Nat.zero_add] at hnb
    simpa using hnb
  rw [readData_eq h1 h2 hd, hbits]
  obtain ⟨r, e, hr⟩ := padTo_split (8 * dataBytes v l) (ts.flatMap (segBits v)) (by omega) (by rw [hlen]; exact hfit)
  rw [e]
  apply decStream_segs v r hr ts _ hok
  rw [List.length_append, hlen]
  have : ts.length ≤ totalBits v ts := by
    clear hok hlen e hbits hfit hc hr
    unfold totalBits
    induction ts with
    | nil => simp
    | cons e ts ih =>
      have : 1 ≤ e.bits v := by cases e <;> simp only [Encoding.bits] <;> omega
      simp only [List.length_cons, List.map_cons, List.sum_cons]
      omega
  omega

/-- Reading back. -/
theorem read_ok (h1 : 1 ≤ v) (h2 : v ≤ 40) {ts : List Encoding} (hc : ∀ e ∈ ts, e.check = true)
    (hfit : totalBits v ts ≤ 8 * dataBytes v l) {c : Code} {data : List UInt8} (hd : data.length = dataBytes v l)
    (hbits : bitsOfBytes data = padTo (8 * dataBytes v l) (ts.flatMap (segBits v))) (hcs : CodeSpec v l m (codeBytes v l data) c) :
    Iso.read c.size (fun y x => c.black x y) = some (ts.flatMap Encoding.text) := by
  have hv : (c.size - 17) / 4 = v := by rw [hcs.size]; unfold Iso.size; omega
  unfold Iso.read
  simp only [hv, hcs.readFormat h1, (format_facts l (mem_levels l) m).2.1, (format_facts l (mem_levels l) m).2.2]
  rw [hcs.readCodewords h1 h2]
  exact decode_ok h1 h2 hc hfit hd hbits

end Verif.QR
