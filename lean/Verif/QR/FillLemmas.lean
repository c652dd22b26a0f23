import Verif.QR.SegLemmas
import Verif.QR.RSLemmas
/-
Lemmas about padding and check bytes.
-/
namespace Verif.QR
open Iso

/-! ### Bytes and bits -/

theorem bitsOfBytes_length (l : List UInt8) : (bitsOfBytes l).length = 8 * l.length := by
  induction l with
  | nil => rfl
  | cons a l ih =>
    rw [bitsOfBytes, List.flatMap_cons] at *
    rw [List.length_append, beBits_length, ih, List.length_cons]; omega

theorem bitsOfBytes_getD : ∀ (l : List UInt8) (k : Nat), (bitsOfBytes l).getD k false = bitAt l k
  | [], k => by simp [bitsOfBytes, bitAt]
  | a :: l, k => by
    rw [bitsOfBytes, List.flatMap_cons, getD_append_bool, beBits_length]
    have ih := bitsOfBytes_getD l (k - 8)
    rw [bitsOfBytes] at ih
    rw [ih]
    unfold bitAt
    by_cases h : k < 8
    · rw [if_pos h, beBits_getD]
      have : k / 8 = 0 := by omega
      rw [this]
      simp [h, Nat.mod_eq_of_lt h]
    · rw [if_neg h]
      have h1 : k / 8 = (k - 8) / 8 + 1 := by omega
      have h2 : (k - 8) % 8 = k % 8 := by omega
      rw [h1, h2, List.getD_cons_succ]

theorem bitsOfBytes_append (l r : List UInt8) : bitsOfBytes (l ++ r) = bitsOfBytes l ++ bitsOfBytes r := by
  simp [bitsOfBytes]

theorem Rep.bits {b : Bits} {l : List Bool} (h : Rep b l) (h8 : l.length % 8 = 0) : bitsOfBytes b.b = l := by
  apply list_ext_getD
  · rw [bitsOfBytes_length, h.len]; omega
  · intro k; rw [bitsOfBytes_getD, h.bit]

theorem Rep.append {b : Bits} {l : List Bool} (h : Rep b l) (h8 : l.length % 8 = 0) (p : List UInt8) :
    ∃ b', b.append p = some b' ∧ Rep b' (l ++ bitsOfBytes p) ∧ b'.b = b.b ++ p := by
  refine ⟨⟨b.b ++ p, b.nbit + 8 * p.length⟩, ?_, ⟨?_, ?_, ?_⟩, rfl⟩
  · rw [Bits.append, if_neg (by rw [h.nbit]; omega)]
  · simp [bitsOfBytes_length, h.nbit]
  · simp only [List.length_append, h.len, bitsOfBytes_length]; omega
  · intro k
    rw [← bitsOfBytes_getD, bitsOfBytes_append, h.bits h8]

theorem bytes_bits_inj {l r : List UInt8} (hl : l.length = r.length) (h : bitsOfBytes l = bitsOfBytes r) : l = r := by
  induction l generalizing r with
  | nil => exact (List.eq_nil_of_length_eq_zero hl.symm).symm
  | cons a l ih =>
    cases r with
    | nil => simp at hl
    | cons b r =>
      simp only [bitsOfBytes, List.flatMap_cons] at h
      obtain ⟨h1, h2⟩ := List.append_inj h (by simp [beBits_length])
      have h3 := congrArg ofBits h1
      rw [ofBits_beBits _ _ a.toNat_lt, ofBits_beBits _ _ b.toNat_lt] at h3
      rw [UInt8.toNat_inj.1 h3, ih (by simpa using hl) h2]

/-! ### Padding -/

theorem beBits_zero_value (n : Nat) : beBits 0 n = List.replicate n false := by
  apply list_ext_getD (by simp [beBits_length])
  intro k
  rw [beBits_getD]
  by_cases h : k < n
  · simp [List.getD, h]
  · simp [List.getD, h]

theorem padLoop_rep : ∀ (n k : Nat) (b : Bits) (l : List Bool), Rep b l →
    Rep (padLoop n k b) (l ++ bitsOfBytes ((List.range n).map fun j => if (k + j) % 2 = 0 then 0xec else 0x11))
  | 0, k, b, l, h => by simpa [padLoop, bitsOfBytes] using h
  | n + 1, k, b, l, h => by
    have hw : Rep (b.write (if k % 2 = 0 then 0xec else 0x11) 8) (l ++ beBits (if k % 2 = 0 then 0xec else 0x11) 8) :=
      h.write (by split <;> decide)
    have ih := padLoop_rep n (k + 1) _ _ hw
    rw [padLoop]
    rw [List.range_succ_eq_map, List.map_cons, List.map_map]
    have e1 : bitsOfBytes ((if (k + 0) % 2 = 0 then (0xec : UInt8) else 0x11) ::
        List.map ((fun j => if (k + j) % 2 = 0 then (0xec : UInt8) else 0x11) ∘ Nat.succ) (List.range n)) =
        beBits (if k % 2 = 0 then 0xec else 0x11) 8 ++
        bitsOfBytes (List.map (fun j => if (k + 1 + j) % 2 = 0 then (0xec : UInt8) else 0x11) (List.range n)) := by
      rw [bitsOfBytes, List.flatMap_cons]
      congr 1
      · rw [Nat.add_zero]; split <;> rfl
      · rw [bitsOfBytes]; congr 2; funext j; simp only [Function.comp, Nat.succ_eq_add_one]; rw [show k + (j + 1) = k + 1 + j by omega]
    rw [e1, ← List.append_assoc]
    exact ih

theorem pad_rep {b : Bits} {l : List Bool} (h : Rep b l) (cap : Nat) (hc : cap % 8 = 0) (hl : l.length < cap) :
    Rep (b.pad (cap - b.nbit)) (padTo cap l) := by
  unfold Bits.pad padTo
  rw [h.nbit]
  by_cases h4 : cap - l.length ≤ 4
  · rw [if_pos h4, Nat.min_eq_right h4]
    have hw := h.write (v := 0) (n := cap - l.length) (Nat.two_pow_pos _)
    rw [beBits_zero_value] at hw
    simp only [List.length_append, List.length_replicate]
    have e1 : (8 - (l.length + (cap - l.length)) % 8) % 8 = 0 := by omega
    have e2 : (cap - (l.length + (cap - l.length) + 0)) / 8 = 0 := by omega
    simp only [e1, e2, List.replicate_zero, List.append_nil, List.range_zero, List.map_nil]
    simpa [bitsOfBytes] using hw
  · rw [if_neg h4, Nat.min_eq_left (by omega)]
    have h1 := h.write (v := 0) (n := 4) (by decide)
    rw [beBits_zero_value] at h1
    have hn1 : (b.write 0 4).nbit = l.length + 4 := by rw [h1.nbit]; simp
    have h2 := h1.write (v := 0) (n := negAnd7 (b.write 0 4).nbit) (Nat.two_pow_pos _)
    rw [beBits_zero_value] at h2
    have h3 := padLoop_rep ((cap - l.length - 4 - negAnd7 (b.write 0 4).nbit) / 8) 0 _ _ h2
    simp only [Nat.zero_add] at h3
    rw [hn1] at h3
    simp only [List.length_append, List.length_replicate, hn1]
    have e : (cap - (l.length + 4 + (8 - (l.length + 4) % 8) % 8)) / 8 = (cap - l.length - 4 - negAnd7 (l.length + 4)) / 8 := by
      rw [negAnd7]; congr 1; omega
    rw [e]
    exact h3

theorem padTo_length (cap : Nat) (l : List Bool) (hc : cap % 8 = 0) (hl : l.length ≤ cap) : (padTo cap l).length = cap := by
  unfold padTo
  simp only [List.length_append, List.length_replicate, bitsOfBytes_length, List.length_map, List.length_range]
  omega

theorem padTo_full (cap : Nat) (l : List Bool) (hc : cap % 8 = 0) (hl : l.length = cap) : padTo cap l = l := by
  unfold padTo
  have e1 : min 4 (cap - l.length) = 0 := by omega
  have e2 : (8 - l.length % 8) % 8 = 0 := by omega
  simp only [e1, List.replicate_zero, List.append_nil, e2]
  rw [show (cap - l.length) / 8 = 0 by omega]
  simp [bitsOfBytes]

/-! ### Blocks -/

/-- Start and length of block `j` when `nd` bytes are cut into `nb` blocks, the last `nd % nb` one byte longer. -/
def blockStart (nd nb j : Nat) : Nat := j * (nd / nb) + (j - (nb - nd % nb))
def blockLen (nd nb j : Nat) : Nat := nd / nb + if nb - nd % nb ≤ j then 1 else 0
def block (nd nb : Nat) (data : List UInt8) (j : Nat) : List UInt8 := (data.drop (blockStart nd nb j)).take (blockLen nd nb j)

theorem blockStart_succ (nd nb j : Nat) : blockStart nd nb (j + 1) = blockStart nd nb j + blockLen nd nb j := by
  unfold blockStart blockLen
  rw [Nat.add_mul, Nat.one_mul]
  split <;> omega

theorem blockStart_end {nd nb : Nat} (h : 0 < nb) : blockStart nd nb nb = nd := by
  unfold blockStart
  have h1 := Nat.mod_lt nd h
  have h2 := Nat.div_add_mod nd nb
  omega

theorem blockStart_le {nd nb j : Nat} (h : 0 < nb) (hj : j ≤ nb) : blockStart nd nb j ≤ nd := by
  have he := blockStart_end h (nd := nd)
  unfold blockStart at *
  have := Nat.mul_le_mul_right (nd / nb) hj
  generalize nb * (nd / nb) = A at *
  generalize j * (nd / nb) = B at *
  omega

theorem checkLoop_spec {nd nb ne : Nat} (h0 : 0 < nb) (data : List UInt8) (hd : data.length = nd) (k : Nat) :
    ∀ (i : Nat) (dat chk : List UInt8) (rs : RSEncoder) (b : Bits) (l : List Bool), i + k = nb → dat = data.drop (blockStart nd nb i) →
      chk.length = ne → rs.For qrField ne → Rep b l → l.length % 8 = 0 →
      ∃ b', checkLoop nb (nd % nb) k (nd / nb + if nb - nd % nb < i then 1 else 0) dat chk rs b = some b' ∧
        b'.b = b.b ++ (List.range' i k).flatMap (fun j => checkBytes qrField ne (block nd nb data j)) ∧
        ∃ l', Rep b' l' ∧ l'.length % 8 = 0 := by
  have g := newField_good newField_qr
  induction k with
  | zero =>
    intro i dat chk rs b l hi hdat hchk hrs hb h8
    exact ⟨b, rfl, by simp, l, hb, h8⟩
  | succ k ih =>
    intro i dat chk rs b l hi hdat hchk hrs hb h8
    have hidx : nb - (k + 1) = i := by omega
    have hdb : (if i = nb - nd % nb then (nd / nb + if nb - nd % nb < i then 1 else 0) + 1 else nd / nb + if nb - nd % nb < i then 1 else 0) =
        blockLen nd nb i := by
      unfold blockLen
      split <;> split <;> split <;> omega
    have hlen : dat.length = nd - blockStart nd nb i := by rw [hdat, List.length_drop, hd]
    have hle := blockStart_le (nd := nd) h0 (show i + 1 ≤ nb by omega)
    rw [blockStart_succ] at hle
    rw [checkLoop]
    simp only [hidx]
    rw [hdb, if_neg (by omega)]
    have hblk : dat.take (blockLen nd nb i) = block nd nb data i := by rw [hdat]; rfl
    obtain ⟨rs', rest, e1, hrs', hr1, hr2⟩ := g.ecc_spec hrs (dat.take (blockLen nd nb i)) chk (by omega)
    rw [e1]
    simp only
    have hrest := hr2 hchk.symm
    subst hrest
    rw [List.append_nil, hblk]
    obtain ⟨b1, e2, hb1, hb1'⟩ := hb.append h8 (checkBytes qrField ne (block nd nb data i))
    rw [e2]
    simp only
    have hnext : blockLen nd nb i = nd / nb + if nb - nd % nb < i + 1 then 1 else 0 := by
      unfold blockLen; congr 1; split <;> split <;> omega
    obtain ⟨b2, e3, hb2, hl2⟩ := ih (i + 1) (dat.drop (blockLen nd nb i)) (checkBytes qrField ne (block nd nb data i)) rs' b1 _
      (by omega) (by rw [hdat, List.drop_drop, blockStart_succ]) (checkBytes_length _ _ _) hrs' hb1
      (by rw [List.length_append, bitsOfBytes_length]; omega)
    refine ⟨b2, ?_, ?_, hl2⟩
    · rw [hnext]
      rw [hnext] at e3
      exact e3
    · rw [hb2, hb1', List.range'_succ, List.flatMap_cons, List.append_assoc]

/-! ### Tables -/

def levels : List Level := [.L, .M, .Q, .H]

theorem mem_levels (l : Level) : l ∈ levels := by cases l <;> simp [levels]

theorem table_facts : ∀ v ∈ List.range' 1 40, ∀ l ∈ levels,
    (linfo v l).nblock = numBlocks v l ∧ (linfo v l).check = eccPerBlock v l ∧ 0 < numBlocks v l ∧
    numBlocks v l * eccPerBlock v l < (vinfo v).bytes ∧ 0 < eccPerBlock v l := by decide +kernel

theorem mem_versions {v : Nat} (h1 : 1 ≤ v) (h2 : v ≤ 40) : v ∈ List.range' 1 40 := by
  rw [List.mem_range'_1]; omega

structure VL (v : Nat) (l : Level) : Prop where
  nb : (linfo v l).nblock = numBlocks v l
  ne : (linfo v l).check = eccPerBlock v l
  pos : 0 < numBlocks v l
  lt : numBlocks v l * eccPerBlock v l < (vinfo v).bytes
  epos : 0 < eccPerBlock v l
  nd : dataBytes v l = (vinfo v).bytes - numBlocks v l * eccPerBlock v l

theorem vl {v : Nat} (h1 : 1 ≤ v) (h2 : v ≤ 40) (l : Level) : VL v l := by
  obtain ⟨a, b, c, d, e⟩ := table_facts v (mem_versions h1 h2) l (mem_levels l)
  exact ⟨a, b, c, d, e, by rw [dataBytes, a, b]⟩

theorem flatMap_check_length (nb ne : Nat) (f : Nat → List UInt8) (h : ∀ j, (f j).length = ne) : ((List.range' 0 nb).flatMap f).length = nb * ne := by
  rw [List.length_flatMap]
  rw [List.map_congr_left (g := fun _ => ne) (fun j _ => h j)]
  simp

theorem addCheckBytes_spec {v : Nat} (h1 : 1 ≤ v) (h2 : v ≤ 40) (lev : Level) {b : Bits} {l : List Bool} (hb : Rep b l)
    (hl : l.length ≤ 8 * dataBytes v lev) :
    ∃ b' data, b.addCheckBytes v lev = some b' ∧ data.length = dataBytes v lev ∧ bitsOfBytes data = padTo (8 * dataBytes v lev) l ∧
      b'.bytes = some (data ++ (List.range (numBlocks v lev)).flatMap
        (fun j => checkBytes qrField (eccPerBlock v lev) (block (dataBytes v lev) (numBlocks v lev) data j))) := by
  have t := vl h1 h2 lev
  generalize hnd : dataBytes v lev = nd at *
  have hb1 : Rep (if b.nbit < nd * 8 then b.pad (nd * 8 - b.nbit) else b) (padTo (8 * nd) l) := by
    split
    · rename_i h
      rw [Nat.mul_comm nd 8]
      apply pad_rep hb _ (by omega)
      rw [hb.nbit] at h; omega
    · rename_i h
      rw [hb.nbit] at h
      rw [padTo_full _ _ (by omega) (by omega)]
      exact hb
  unfold Bits.addCheckBytes
  dsimp only
  rw [hnd]
  generalize (if b.nbit < nd * 8 then b.pad (nd * 8 - b.nbit) else b) = b1 at hb1 ⊢
  have hlen := padTo_length (8 * nd) l (by omega) hl
  have hn := hb1.nbit
  rw [hlen] at hn
  have hbytes : b1.bytes = some b1.b := by rw [Bits.bytes, if_neg (by omega)]
  rw [if_neg (by omega), hbytes]
  simp only
  have hbl : b1.b.length = nd := by rw [hb1.len, hlen]; omega
  obtain ⟨b2, e2, hb2, l2, hr2, h82⟩ := checkLoop_spec (nd := nd) (nb := numBlocks v lev) (ne := eccPerBlock v lev) t.pos b1.b hbl
    (numBlocks v lev) 0 b1.b (List.replicate (eccPerBlock v lev) 0) (newRSEncoder qrField (eccPerBlock v lev)) b1 _ (by omega)
    (by simp [blockStart]) (by simp) (newRSEncoder_for _ _) hb1 (by omega)
  have hneg : ¬ (numBlocks v lev - nd % numBlocks v lev < 0) := by omega
  rw [if_neg hneg, Nat.add_zero] at e2
  rw [t.nb, t.ne, e2]
  simp only
  have hbytes2 : b2.bytes = some b2.b := by rw [Bits.bytes, if_neg (by rw [hr2.nbit]; omega)]
  rw [hbytes2]
  simp only
  rw [if_neg]
  · refine ⟨b2, b1.b, rfl, hbl, hb1.bits (by omega), ?_⟩
    rw [hbytes2, hb2, List.range_eq_range']
  · rw [not_not, hb2, List.length_append, flatMap_check_length _ (eccPerBlock v lev) _ (fun j => checkBytes_length _ _ _), hbl, ← hnd, t.nd]
    have := t.lt
    omega

end Verif.QR
