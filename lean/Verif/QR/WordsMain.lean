import Verif.QR.WordsPlan
/-
C129: the theorems.
-/
namespace Verif.QR
namespace Words
open Iso

/-! ### Words and their parts -/

theorem bit_role (w : Word) (k : Nat) : (role w).getLsbD k = (decide (k < 4) && w.getLsbD (k + 2)) := by
  have h15 : (15#32).getLsbD k = decide (k < 4) := by
    rcases k with _ | _ | _ | _ | k
    · rfl
    · rfl
    · rfl
    · rfl
    · rw [show (15#32) = BitVec.ofNat 32 (2 ^ 4 - 1) from rfl, BitVec.getLsbD_ofNat, Nat.testBit_two_pow_sub_one]
      simp
  unfold role
  rw [BitVec.getLsbD_and, BitVec.getLsbD_ushiftRight, h15, Bool.and_comm, Nat.add_comm]

theorem bit_offset (w : Word) (k : Nat) : (offset w).getLsbD k = w.getLsbD (k + 6) := by
  unfold offset
  rw [BitVec.getLsbD_setWidth, BitVec.getLsbD_ushiftRight, Nat.add_comm]
  by_cases h : k < 64
  · simp [h]
  · simp [h, BitVec.getLsbD_of_ge w (k + 6) (by omega)]

theorem bit_rolePixel (r : BitVec 32) (k : Nat) : (rolePixel r).getLsbD k = (decide (k < 32) && decide (2 ≤ k) && r.getLsbD (k - 2)) := by
  unfold rolePixel
  rw [BitVec.getLsbD_shiftLeft]
  by_cases h : k < 2
  · simp [h, show ¬ 2 ≤ k by omega]
  · simp [h, show 2 ≤ k by omega]

theorem bit_offsetPixel (o : BitVec 64) (k : Nat) : (offsetPixel o).getLsbD k = (decide (k < 32) && decide (6 ≤ k) && o.getLsbD (k - 6)) := by
  unfold offsetPixel
  rw [BitVec.getLsbD_setWidth, BitVec.getLsbD_shiftLeft]
  by_cases h : k < 32
  · by_cases h6 : k < 6
    · simp [h, h6, show ¬ 6 ≤ k by omega]
    · simp [h, h6, show 6 ≤ k by omega, show k < 64 by omega]
  · simp [h]

theorem bit_black (k : Nat) : black.getLsbD k = decide (k = 0) := by
  rcases k with _ | k
  · rfl
  · simp [black, BitVec.getLsbD_ofNat, Nat.testBit_succ]

theorem bit_invert (k : Nat) : invert.getLsbD k = decide (k = 1) := by
  rcases k with _ | _ | k
  · rfl
  · rfl
  · simp [invert, BitVec.getLsbD_ofNat, Nat.testBit_succ]

theorem black_bit (w : Word) : w &&& black ≠ 0 ↔ w.getLsbD 0 = true := by
  rw [black_iff, BitVec.getLsbD, Nat.testBit_zero, decide_eq_true_eq]

theorem invert_bit (w : Word) : w &&& invert ≠ 0 ↔ w.getLsbD 1 = true := by
  rw [invert_iff, BitVec.getLsbD, Nat.testBit_eq_decide_div_mod_eq, decide_eq_true_eq, Nat.pow_one]

theorem high_bit {n m : Nat} {r : BitVec n} (h : r.toNat < 2 ^ m) {k : Nat} (hk : m ≤ k) : r.getLsbD k = false :=
  Nat.testBit_lt_two_pow (Nat.lt_of_lt_of_le h (Nat.pow_le_pow_right (by omega) hk))

/-- Making a word and reading it. -/
theorem parts_of_made (r : BitVec 32) (o : BitVec 64) (b i : Bool) (hr : r.toNat < 16) (ho : o.toNat < 2 ^ 26) (w : Word)
    (hw : w = rolePixel r ||| offsetPixel o ||| (if b then black else 0) ||| (if i then invert else 0)) :
    role w = r ∧ offset w = o ∧ decide (w &&& black ≠ 0) = b ∧ decide (w &&& invert ≠ 0) = i := by
  have hb : ∀ k, (if b then black else 0).getLsbD k = (decide (k = 0) && b) := by intro k; cases b <;> simp [bit_black]
  have hi : ∀ k, (if i then invert else 0).getLsbD k = (decide (k = 1) && i) := by intro k; cases i <;> simp [bit_invert]
  have e : ∀ k, w.getLsbD k = ((decide (k < 32) && decide (2 ≤ k) && r.getLsbD (k - 2)) || (decide (k < 32) && decide (6 ≤ k) && o.getLsbD (k - 6)) || (decide (k = 0) && b) || (decide (k = 1) && i)) := by
    intro k
    rw [hw, BitVec.getLsbD_or, BitVec.getLsbD_or, BitVec.getLsbD_or, bit_rolePixel, bit_offsetPixel, hb, hi]
  refine ⟨?_, ?_, ?_, ?_⟩
  · refine BitVec.eq_of_getLsbD_eq fun k hk => ?_
    rw [bit_role, e]
    by_cases h : k < 4
    · simp [h, show k + 2 < 32 by omega, show ¬ 6 ≤ k + 2 by omega]
    · rw [high_bit (m := 4) (k := k) hr (by omega)]; simp [h]
  · refine BitVec.eq_of_getLsbD_eq fun k hk => ?_
    rw [bit_offset, e]
    by_cases h : k < 26
    · rw [high_bit (m := 4) hr (by omega)]; simp [show k + 6 < 32 by omega]
    · rw [high_bit (m := 26) (k := k) ho (by omega)]; simp [show ¬ k + 6 < 32 by omega]
  · rw [Bool.eq_iff_iff, decide_eq_true_eq, black_bit, e]; simp
  · rw [Bool.eq_iff_iff, decide_eq_true_eq, invert_bit, e]; simp

/-- Every word is made of its parts. -/
theorem made_of_parts (w : Word) : w = rolePixel (role w) ||| offsetPixel (offset w) ||| (w &&& black) ||| (w &&& invert) := by
  refine BitVec.eq_of_getLsbD_eq fun k hk => ?_
  rw [BitVec.getLsbD_or, BitVec.getLsbD_or, BitVec.getLsbD_or, bit_rolePixel, bit_offsetPixel, BitVec.getLsbD_and, BitVec.getLsbD_and, bit_black, bit_invert, bit_role, bit_offset]
  rcases k with _ | _ | k
  · simp
  · simp
  · by_cases h : k < 4
    · simp [h, hk, show ¬ 6 ≤ k + 2 by omega]
    · simp [h, hk, show 6 ≤ k + 2 by omega, show k - 4 + 6 = k + 2 by omega]

/-! ### Text -/

theorem decimal_eq (n : Nat) : decimal n = (Nat.toDigits 10 n).map fun c => UInt8.ofNat c.toNat := by
  unfold decimal lit
  have e : (toString n).toList = Nat.toDigits 10 n := by
    show (Nat.repr n).toList = _
    simp [Nat.repr]
  rw [e]

theorem digit_toNat {n : Nat} {c : Char} (h : c ∈ Nat.toDigits 10 n) : 48 ≤ c.toNat ∧ c.toNat ≤ 57 := by
  have hd := Nat.isDigit_of_mem_toDigits (by omega) (by omega) h
  simp only [Char.isDigit, Bool.and_eq_true, decide_eq_true_eq] at hd
  exact ⟨hd.1, hd.2⟩

theorem digit_byte {n : Nat} {b : UInt8} (h : b ∈ decimal n) : 48 ≤ b.toNat ∧ b.toNat ≤ 57 := by
  rw [decimal_eq] at h
  obtain ⟨c, hc, rfl⟩ := List.mem_map.1 h
  have := digit_toNat hc
  rw [UInt8.toNat_ofNat']
  omega

theorem decimal_ne_nil (n : Nat) : decimal n ≠ [] := by
  rw [decimal_eq]
  simp [Nat.toDigits_ne_nil]

theorem decimal_inj {n m : Nat} (h : decimal n = decimal m) : n = m := by
  have : Nat.toDigits 10 n = Nat.toDigits 10 m := by
    rw [decimal_eq, decimal_eq] at h
    apply List.ext_getElem
    · simpa using congrArg List.length h
    · intro i h1 h2
      have e : ((Nat.toDigits 10 n).map fun c => UInt8.ofNat c.toNat)[i]'(by simpa using h1) = ((Nat.toDigits 10 m).map fun c => UInt8.ofNat c.toNat)[i]'(by simpa using h2) := by
        simp only [h]
      rw [List.getElem_map, List.getElem_map] at e
      have a := digit_toNat (List.getElem_mem h1)
      have b := digit_toNat (List.getElem_mem h2)
      have e' := congrArg UInt8.toNat e
      rw [UInt8.toNat_ofNat', UInt8.toNat_ofNat'] at e'
      apply Char.ext
      apply UInt32.toNat_inj.1
      change (Nat.toDigits 10 n)[i].toNat = (Nat.toDigits 10 m)[i].toNat
      omega
  rw [← Nat.ofDigitChars_ten_toDigits (n := n), this, Nat.ofDigitChars_ten_toDigits]

/-- What follows the role. -/
theorem tail_inj {b i b' i' : Bool} {n m : Nat}
    (h : (if b then lit "+black" else []) ++ (if i then lit "+invert" else []) ++ lit "+" ++ decimal n =
      (if b' then lit "+black" else []) ++ (if i' then lit "+invert" else []) ++ lit "+" ++ decimal m) : b = b' ∧ i = i' ∧ n = m := by
  have hb : lit "+black" = 43 :: 98 :: lit "lack" := by decide
  have hi : lit "+invert" = 43 :: 105 :: lit "nvert" := by decide
  have hp : lit "+" = [43] := by decide
  rw [hb, hi, hp] at h
  have key : ∀ n, ∃ d ds, decimal n = d :: ds ∧ d ≠ 98 ∧ d ≠ 105 := by
    intro n
    cases e : decimal n with
    | nil => exact absurd e (decimal_ne_nil n)
    | cons d ds =>
      have := digit_byte (n := n) (b := d) (by rw [e]; simp)
      refine ⟨d, ds, rfl, ?_, ?_⟩ <;> (rintro rfl; revert this; decide)
  obtain ⟨d, ds, e, h1, h2⟩ := key n
  obtain ⟨d', ds', e', h1', h2'⟩ := key m
  suffices b = b' ∧ i = i' ∧ decimal n = decimal m from ⟨this.1, this.2.1, decimal_inj this.2.2⟩
  rw [e, e'] at h ⊢
  generalize lit "lack" = L at h
  generalize lit "nvert" = V at h
  cases b <;> cases b' <;> cases i <;> cases i' <;>
    simp only [Bool.false_eq_true, if_false, if_true, List.nil_append, List.cons_append, List.append_assoc, List.cons.injEq, true_and, List.append_cancel_left_eq] at h <;>
    first
    | exact ⟨rfl, rfl, by rw [h.1, h.2]⟩
    | (exfalso; revert h; simp_all; done)
    | (exfalso; revert h; simp_all [eq_comm]; done)

theorem role_text_ok : ∀ k < 16, 43 ∉ roleString (BitVec.ofNat 32 k) ∧ ∀ j < 16, roleString (BitVec.ofNat 32 k) = roleString (BitVec.ofNat 32 j) → k = j := by decide +kernel

theorem role_small (w : Word) : ∃ k < 16, role w = BitVec.ofNat 32 k :=
  ⟨(role w).toNat, by rw [role_toNat]; omega, by simp⟩

theorem string_inj {p q : Word} (h : pixelString p = pixelString q) : p = q := by
  obtain ⟨j, hj, ej⟩ := role_small p
  obtain ⟨k, hk, ek⟩ := role_small q
  have tl : ∀ w : Word, ∃ t, (if w &&& black ≠ 0 then lit "+black" else []) ++ (if w &&& invert ≠ 0 then lit "+invert" else []) ++ lit "+" ++ decimal (offset w).toNat = 43 :: t := by
    intro w
    have hb : lit "+black" = 43 :: lit "black" := by decide
    have hi : lit "+invert" = 43 :: lit "invert" := by decide
    have hp : lit "+" = [43] := by decide
    rw [hb, hi, hp]
    split <;> split <;> exact ⟨_, rfl⟩
  have cutp : ∀ (a t b s : Str), 43 ∉ a → 43 ∉ b → a ++ 43 :: t = b ++ 43 :: s → a = b ∧ t = s := by
    intro a
    induction a with
    | nil =>
      intro t b s _ hb e
      cases b with
      | nil => simpa using e
      | cons x b => simp only [List.nil_append, List.cons_append, List.cons.injEq] at e; exact absurd (by rw [← e.1]; simp) hb
    | cons x a ih =>
      intro t b s ha hb e
      cases b with
      | nil => simp only [List.nil_append, List.cons_append, List.cons.injEq] at e; exact absurd (by rw [e.1]; simp) ha
      | cons y b =>
        simp only [List.cons_append, List.cons.injEq] at e
        obtain ⟨h1, h2⟩ := ih t b s (fun h => ha (by simp [h])) (fun h => hb (by simp [h])) e.2
        exact ⟨by rw [e.1, h1], h2⟩
  have tp := tl p
  have tq := tl q
  obtain ⟨t, tp⟩ := tp
  obtain ⟨s, tq⟩ := tq
  unfold pixelString at h
  simp only [List.append_assoc] at h tp tq
  have h' := h
  rw [tp, tq] at h'
  have hnp := (role_text_ok j hj).1
  have hnq := (role_text_ok k hk).1
  rw [← ej] at hnp
  rw [← ek] at hnq
  obtain ⟨hr, hts⟩ := cutp _ _ _ _ hnp hnq h'
  have hjk := (role_text_ok j hj).2 k hk (by rw [← ej, ← ek]; exact hr)
  have htail := tp.trans ((congrArg (43 :: ·) hts).trans tq.symm)
  have := tail_inj (b := decide (p &&& black ≠ 0)) (i := decide (p &&& invert ≠ 0)) (b' := decide (q &&& black ≠ 0)) (i' := decide (q &&& invert ≠ 0))
    (n := (offset p).toNat) (m := (offset q).toNat) (by simpa only [decide_eq_true_eq, List.append_assoc] using htail)
  apply read_inj
  unfold read
  rw [Fields.mk.injEq]
  exact ⟨by rw [ej, ek, hjk], this.2.2, this.1, this.2.1⟩

/-! ### The theorems -/

/-- The operations on pixels: a word made from a role below 16, an offset below 2^26 and two flags reads back as these; every word is made of what it reads as; a larger offset
loses its high bits, a larger role spills into the offset; and the two operations that change pixels change the flags they name and nothing else. -/
theorem C129_pixel :
    (∀ (r : BitVec 32) (o : BitVec 64) (b i : Bool), r.toNat < 16 → o.toNat < 2 ^ 26 →
      read (rolePixel r ||| offsetPixel o ||| (if b then black else 0) ||| (if i then invert else 0)) = ⟨r.toNat, o.toNat, b, i⟩) ∧
    (∀ w : Word, w = rolePixel (role w) ||| offsetPixel (offset w) ||| (w &&& black) ||| (w &&& invert)) ∧
    (∀ p q : Word, read p = read q → p = q) ∧
    (∀ o : BitVec 64, read (offsetPixel o) = ⟨0, o.toNat % 2 ^ 26, false, false⟩) ∧
    (∀ r : BitVec 32, read (rolePixel r) = ⟨r.toNat % 16, r.toNat / 16 % 2 ^ 26, false, false⟩) ∧
    (∀ w : Word, read (w ^^^ black) = { read w with black := !(read w).black }) ∧
    (∀ w : Word, read (w ^^^ (black ||| invert)) = { read w with black := !(read w).black, invert := !(read w).invert }) := by
  have hflip : ∀ w z : Word, (∀ k, 2 ≤ k → z.getLsbD k = false) →
      read (w ^^^ z) = ⟨(role w).toNat, (offset w).toNat, decide (w &&& black ≠ 0) ^^ z.getLsbD 0, decide (w &&& invert ≠ 0) ^^ z.getLsbD 1⟩ := by
    intro w z hz
    have e1 : role (w ^^^ z) = role w := by
      refine BitVec.eq_of_getLsbD_eq fun k hk => ?_
      rw [bit_role, bit_role, BitVec.getLsbD_xor, hz (k + 2) (by omega), Bool.xor_false]
    have e2 : offset (w ^^^ z) = offset w := by
      refine BitVec.eq_of_getLsbD_eq fun k hk => ?_
      rw [bit_offset, bit_offset, BitVec.getLsbD_xor, hz (k + 6) (by omega), Bool.xor_false]
    unfold read
    simp only [e1, e2, black_bit, invert_bit, BitVec.getLsbD_xor, Bool.decide_eq_true]
  refine ⟨?_, made_of_parts, fun p q => read_inj, ?_, ?_, ?_, ?_⟩
  · intro r o b i hr ho
    obtain ⟨h1, h2, h3, h4⟩ := parts_of_made r o b i hr ho _ rfl
    unfold read
    rw [h1, h2, h3, h4]
  · intro o
    have : (offsetPixel o).toNat = 64 * (o.toNat % 2 ^ 26) := by
      unfold offsetPixel
      rw [BitVec.toNat_setWidth, BitVec.toNat_shiftLeft, Nat.shiftLeft_eq]
      omega
    rw [read_eq, this, Fields.mk.injEq]
    refine ⟨by omega, by omega, ?_, ?_⟩ <;> (rw [decide_eq_false_iff_not]; omega)
  · intro r
    have : (rolePixel r).toNat = 4 * (r.toNat % 2 ^ 30) := by
      unfold rolePixel
      rw [BitVec.toNat_shiftLeft, Nat.shiftLeft_eq]
      omega
    rw [read_eq, this, Fields.mk.injEq]
    refine ⟨by omega, by omega, ?_, ?_⟩ <;> (rw [decide_eq_false_iff_not]; omega)
  · intro w
    rw [hflip w black (by intro k hk; rw [bit_black]; exact decide_eq_false (by omega))]
    unfold read
    rw [bit_black, bit_black]
    simp
  · intro w
    rw [hflip w (black ||| invert) (by intro k hk; rw [BitVec.getLsbD_or, bit_black, bit_invert]; simp; omega)]
    unfold read
    simp only [BitVec.getLsbD_or, bit_black, bit_invert]
    simp

/-- `Pixel.String` loses nothing: pixels with the same text are the same pixel. -/
theorem C129_string (p q : Word) : pixelString p = pixelString q ↔ p = q := ⟨string_inj, fun h => by rw [h]⟩

/-- The texts of some pixels; the role `Extra` is written as a number. -/
theorem C129_string_case :
    pixelString (rolePixel data ||| offsetPixel 12 ||| black ||| invert) = lit "data+black+invert+12" ∧
    pixelString (rolePixel timing ||| black) = lit "timing+black+0" ∧
    pixelString (rolePixel extra) = lit "9+0" ∧ roles.getD extra.toNat "" = "extra" ∧ pixelString 0 = lit "0+0" := by decide +kernel

/-- What the words of a plan say, for every version, level and mask. -/
theorem C129_plan {v : Nat} (h1 : 1 ≤ v) (h2 : v ≤ 40) (l : Level) (m : Fin 8) : ∃ p, newPlan v l m = .ok p ∧
    p.version = v ∧ p.level = l ∧ p.pixel.length = 17 + 4 * v ∧ (∀ row ∈ p.pixel, row.length = 17 + 4 * v) ∧
    -- every bit of the data and of the check bytes has one place
    (∀ o < 8 * (p.dataBytes + p.checkBytes), ∃! c : Nat × Nat, ∃ w, get p.pixel c.1 c.2 = some w ∧ (role w = data ∨ role w = check) ∧ (offset w).toNat = o) ∧
    (∀ y x w, get p.pixel y x = some w →
      1 ≤ (role w).toNat ∧ (role w).toNat ≤ 9 ∧
      (role w = data → (offset w).toNat < 8 * p.dataBytes) ∧
      (role w = check → 8 * p.dataBytes ≤ (offset w).toNat ∧ (offset w).toNat < 8 * (p.dataBytes + p.checkBytes)) ∧
      (role w = format → (offset w).toNat < 15 ∧ (w &&& invert ≠ 0 ↔ (0x5412 : Nat).testBit (offset w).toNat = true)) ∧
      (role w ≠ data → role w ≠ check → role w ≠ format → offset w = 0) ∧
      ((role w = data ∨ role w = check ∨ role w = extra) → (w &&& black ≠ 0 ↔ maskBit m y x = true) ∧ (w &&& invert ≠ 0 ↔ maskBit m y x = true)) ∧
      (isFunction v y x = true ↔ role w ≠ data ∧ role w ≠ check ∧ role w ≠ extra)) := by
  obtain ⟨q, hq, hp, -⟩ := newPlan_spec' h1 h2 l m
  have t := vl h1 h2 l
  have htot : q.dataBytes + q.checkBytes = (vinfo v).bytes := by
    rw [hp.dataBytes, hp.checkBytes]; have := t.nd; have := t.lt; omega
  have hsz : size v = 17 + 4 * v := by unfold size; omega
  have cell : ∀ {y x w}, get (packG q.pixel) y x = some w → ∃ r, q.pixel.get y x = some r ∧ w = packW r ∧ read w = ⟨r.role.code, r.offset, r.black, r.invert⟩ := by
    intro y x w hw
    rw [get_pack] at hw
    obtain ⟨r, hr, e⟩ := Option.map_eq_some_iff.1 hw
    refine ⟨r, hr, e.symm, ?_⟩
    rw [← e, read_pack, Nat.mod_eq_of_lt (small h1 h2 hp hr)]
  refine ⟨packP q, ?_, hp.version, hp.level, ?_, ?_, ?_, ?_⟩
  · rw [newPlan_pack, hq]; rfl
  · change (packG q.pixel).length = _
    rw [← hsz, ← hp.wf.rows]; simp [packG]
  · intro row hrow
    change row ∈ packG q.pixel at hrow
    obtain ⟨r, hr, rfl⟩ := List.mem_map.1 hrow
    rw [List.length_map, hp.wf.cols r hr, hsz]
  · intro o ho
    change o < 8 * (q.dataBytes + q.checkBytes) at ho
    rw [htot] at ho
    obtain ⟨k, hk, ek⟩ := bitNo_surj h1 h2 l ho
    have hlen : 8 * (vinfo v).bytes ≤ (dataCells v).length := by
      have htc := totalCodewords_eq h1 h2
      unfold totalCodewords at htc
      omega
    have hc : (dataCells v)[k]? = some (dataCells v)[k] := List.getElem?_eq_getElem (by omega)
    have hd := data_pixel hp hc hk
    obtain ⟨P, hP⟩ : ∃ P : Pixel, P = { role := if bitNo v l k < 8 * dataBytes v l then .data else .check, offset := bitNo v l k, black := maskInvert m (dataCells v)[k].1 (dataCells v)[k].2, invert := maskInvert m (dataCells v)[k].1 (dataCells v)[k].2 } := ⟨_, rfl⟩
    rw [← hP] at hd
    refine ⟨(dataCells v)[k], ⟨packW P, ?_, ?_, ?_⟩, ?_⟩
    · change get (packG q.pixel) _ _ = _
      rw [get_pack, hd]; rfl
    · by_cases hb : bitNo v l k < 8 * dataBytes v l
      · left; exact (role_is _ .data).2 (by simp [hP, hb])
      · right; exact (role_is _ .check).2 (by simp [hP, hb])
    · have := congrArg Fields.offset (read_pack P)
      simp only [read] at this
      have hs := bytes_small h1 h2
      have hPo : P.offset = o := by rw [hP]; exact ek
      rw [this, hPo, Nat.mod_eq_of_lt (by omega)]
    · rintro ⟨y, x⟩ ⟨w, hw, hrole, hoff⟩
      change get (packG q.pixel) y x = some w at hw
      obtain ⟨r, hr, rfl, hread⟩ := cell hw
      have ho' : r.offset = o := by rw [← hoff]; exact (congrArg Fields.offset hread).symm
      have hrr : r.role = .data ∨ r.role = .check := hrole.imp (role_is r .data).1 (role_is r .check).1
      obtain ⟨hy, hx⟩ := hp.wf.get_none hr
      rcases cell_cases h1 h2 hp hr with ⟨-, h⟩ | ⟨j, hj, hlt, e⟩ | ⟨-, e⟩
      · have := fnPixel_role h1 h2 l m hy hx h
        unfold Role.isFn at this
        rcases hrr with h | h <;> simp [h] at this
      · rw [e] at ho'
        have : j = k := bitNo_inj h1 h2 l hlt hk (by rw [ek]; exact ho')
        subst this
        rw [hc] at hj
        exact (Option.some.inj hj).symm
      · rw [e] at hrr; simp at hrr
  · intro y x w hw
    change get (packG q.pixel) y x = some w at hw
    obtain ⟨r, hr, rfl, hread⟩ := cell hw
    obtain ⟨hy, hx⟩ := hp.wf.get_none hr
    have eoff : (offset (packW r)).toNat = r.offset := congrArg Fields.offset hread
    have erole : (role (packW r)).toNat = r.role.code := congrArg Fields.role hread
    have eblack : packW r &&& black ≠ 0 ↔ r.black = true := by
      have e : decide (packW r &&& black ≠ 0) = r.black := congrArg Fields.black hread
      rw [← e, decide_eq_true_eq]
    have einv : packW r &&& invert ≠ 0 ↔ r.invert = true := by
      have e : decide (packW r &&& invert ≠ 0) = r.invert := congrArg Fields.invert hread
      rw [← e, decide_eq_true_eq]
    have ezero : offset (packW r) = 0 ↔ r.offset = 0 := by rw [← eoff, ← BitVec.toNat_inj]; rfl
    have ed : role (packW r) = data ↔ r.role = .data := role_is r .data
    have ec : role (packW r) = check ↔ r.role = .check := role_is r .check
    have ex : role (packW r) = extra ↔ r.role = .extra := role_is r .extra
    have ef : role (packW r) = format ↔ r.role = .format := role_is r .format
    change 1 ≤ _ ∧ _ ≤ 9 ∧ (_ → _ < 8 * q.dataBytes) ∧ (_ → 8 * q.dataBytes ≤ _ ∧ _ < 8 * (q.dataBytes + q.checkBytes)) ∧ _
    rw [htot, hp.dataBytes, eblack, einv, ezero, ne_eq, ne_eq, ne_eq, ne_eq, ed, ec, ex, ef, eoff, erole, maskBit_eq]
    rcases cell_cases h1 h2 hp hr with ⟨hf, h⟩ | ⟨j, hj, hlt, e⟩ | ⟨hf, e⟩
    · have hfn := fnPixel_role h1 h2 l m hy hx h
      unfold Role.isFn at hfn
      have hfl := fn_fields h1 h2 l m hy hx h
      rw [hf]
      generalize r.role = rr at *
      cases rr <;> simp_all [Role.code]
    · have hfun : isFunction v y x = false := (mem_dataCells.1 (List.mem_of_getElem? hj)).2.2
      rw [hfun, e]
      have := bitNo_lt h1 h2 l hlt
      by_cases hb : bitNo v l j < 8 * dataBytes v l
      · simp [hb, Role.code]
      · simp [hb, Role.code, this]; omega
    · rw [hf, e]
      simp [Role.code]

/-- The code that `Plan.Encode` makes from the words: it is the code that the model with records makes, and the module in a place is black if and only if its word is,
or, for a word that stands for a bit of the data and check bytes, that bit and the word's colour differ. -/
theorem C129_encode {v : Nat} (h1 : 1 ≤ v) (h2 : v ≤ 40) (l : Level) (m : Fin 8) : ∃ p q, newPlan v l m = .ok p ∧ Verif.QR.newPlan v l m = .ok q ∧
    ∀ ts, p.encode ts = q.encode ts ∧
      ∀ c, p.encode ts = .ok c → c.size = 17 + 4 * v ∧ ∃ bytes : List UInt8, bytes.length = p.dataBytes + p.checkBytes ∧
        ∀ y x w, get p.pixel y x = some w →
          c.black x y = (decide (w &&& black ≠ 0) ^^ (decide (role w = data ∨ role w = check) && bitAt bytes (offset w).toNat)) := by
  obtain ⟨q, hq, hp, -⟩ := newPlan_spec' h1 h2 l m
  have t := vl h1 h2 l
  have htot : q.dataBytes + q.checkBytes = (vinfo v).bytes := by
    rw [hp.dataBytes, hp.checkBytes]; have := t.nd; have := t.lt; omega
  refine ⟨packP q, q, ?_, hq, fun ts => ?_⟩
  · rw [newPlan_pack, hq]; rfl
  have henc := encode_pack q (small_mem h1 h2 hp) ts
  refine ⟨henc, fun c hc => ?_⟩
  rw [henc] at hc
  by_cases hbad : (∃ e ∈ ts, e.check = false) ∨ 8 * dataBytes v l < totalBits v ts
  · rw [planEncode_err hp hbad] at hc; cases hc
  · rw [not_or] at hbad
    obtain ⟨c', dat, hc', hd, -, hs⟩ := planEncode_ok h1 h2 hp (ts := ts) (fun e he => by
      cases h : e.check with
      | true => rfl
      | false => exact absurd ⟨e, he, h⟩ hbad.1) (by omega)
    rw [hc] at hc'
    cases hc'
    refine ⟨by rw [hs.size]; unfold size; omega, codeBytes v l dat, ?_, ?_⟩
    · change _ = q.dataBytes + q.checkBytes
      rw [htot, codeBytes_length h1 h2 hd]
    · intro y x w hw
      change get (packG q.pixel) y x = some w at hw
      rw [get_pack] at hw
      obtain ⟨r, hr, rfl⟩ := Option.map_eq_some_iff.1 hw
      obtain ⟨hy, hx⟩ := hp.wf.get_none hr
      have hread := read_pack r
      rw [Nat.mod_eq_of_lt (small h1 h2 hp hr)] at hread
      have eoff : (offset (packW r)).toNat = r.offset := congrArg Fields.offset hread
      have eblack : decide (packW r &&& black ≠ 0) = r.black := congrArg Fields.black hread
      have ed : role (packW r) = data ↔ r.role = .data := role_is r .data
      have ec : role (packW r) = check ↔ r.role = .check := role_is r .check
      rw [eoff, eblack]
      simp only [ed, ec]
      rcases cell_cases h1 h2 hp hr with ⟨-, h⟩ | ⟨j, hj, hlt, e⟩ | ⟨hf, e⟩
      · rw [hs.fn y x r hy hx h]
        have := fnPixel_role h1 h2 l m hy hx h
        unfold Role.isFn at this
        simp [this.2.1, this.2.2.1]
      · have := hs.data (j / 8) (j % 8) (y, x) (by omega) (by omega) (by rw [Nat.div_add_mod]; exact hj)
        rw [this, e]
        have hdc : (if bitNo v l j < 8 * dataBytes v l then Role.data else Role.check) = .data ∨ (if bitNo v l j < 8 * dataBytes v l then Role.data else Role.check) = .check := by
          split <;> simp
        simp only [hdc, decide_true, Bool.true_and]
        rw [Bool.xor_comm]
        rfl
      · obtain ⟨k, hk⟩ := List.getElem?_of_mem (mem_dataCells.2 ⟨hy, hx, hf⟩)
        by_cases hlt : k < 8 * (vinfo v).bytes
        · have := data_pixel hp hk hlt
          rw [hr, e] at this
          have := congrArg Pixel.role (Option.some.inj this)
          simp only at this
          split at this <;> cases this
        · rw [hs.rest k (y, x) (by omega) hk, e]
          simp

/-- The upper left corner of a version 1 plan, and a code made from such a plan. -/
theorem C129_case :
    (match newPlan 1 .L 3 with
     | .ok p => decide (get p.pixel 0 0 = some (rolePixel position ||| black) ∧ get p.pixel 20 20 = some (rolePixel data ||| offsetPixel 0) ∧
        get p.pixel 20 19 = some (rolePixel data ||| offsetPixel 1 ||| black ||| invert)) && (match p.encode [.str (lit "hello")] with | .ok c => c.size == 21 | _ => false)
     | _ => false) = true := by decide +kernel

end Words
end Verif.QR
