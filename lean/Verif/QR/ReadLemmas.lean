import Verif.QR.PlanLemmas
/-
The bitmap made by `Plan.Encode`, and reading it back.
-/
namespace Verif.QR
open Iso

/-! ### Bits of bytes -/

theorem byte_bit : ∀ n < 256, ∀ k < 8, decide ((UInt8.ofNat n) &&& ((1 : UInt8) <<< UInt8.ofNat (7 - k)) ≠ 0) = n.testBit (7 - k) := by
  decide +kernel

theorem byte_testBit (b : UInt8) (k : Nat) :
    decide (b &&& ((1 : UInt8) <<< UInt8.ofNat (7 - k % 8)) ≠ 0) = b.toNat.testBit (7 - k % 8) := by
  have := byte_bit b.toNat b.toNat_lt (k % 8) (Nat.mod_lt _ (by omega))
  rwa [UInt8.ofNat_toNat] at this

theorem one_shift : ∀ k < 8, ((1 : UInt8) <<< UInt8.ofNat (7 - k)).toNat = 2 ^ (7 - k) := by decide

theorem bitAt_set (bs : List UInt8) (k j : Nat) (hk : k / 8 < bs.length) :
    bitAt (bs.set (k / 8) (bs.getD (k / 8) 0 ||| ((1 : UInt8) <<< UInt8.ofNat (7 - k % 8)))) j = (bitAt bs j || decide (j = k)) := by
  unfold bitAt
  by_cases h : j / 8 = k / 8
  · rw [h]
    have : (bs.set (k / 8) (bs.getD (k / 8) 0 ||| ((1 : UInt8) <<< UInt8.ofNat (7 - k % 8)))).getD (k / 8) 0 =
        bs.getD (k / 8) 0 ||| ((1 : UInt8) <<< UInt8.ofNat (7 - k % 8)) := by
      simp [List.getD, hk]
    rw [this, UInt8.toNat_or, Nat.testBit_or, one_shift _ (Nat.mod_lt _ (by omega)), Nat.testBit_two_pow]
    congr 1
    rw [decide_eq_decide]
    omega
  · have : (bs.set (k / 8) (bs.getD (k / 8) 0 ||| ((1 : UInt8) <<< UInt8.ofNat (7 - k % 8)))).getD (j / 8) 0 = bs.getD (j / 8) 0 := by
      simp only [List.getD]
      rw [List.getElem?_set_ne (by omega)]
    rw [this]
    have hne : decide (j = k) = false := by simp; omega
    rw [hne, Bool.or_false]

theorem bitAt_zeros (n k : Nat) : bitAt (List.replicate n 0) k = false := by
  unfold bitAt
  have : (List.replicate n (0 : UInt8)).getD (k / 8) 0 = 0 := by
    simp only [List.getD, List.getElem?_replicate]
    split <;> rfl
  rw [this]
  exact Nat.zero_testBit _

theorem rowBytes_spec (bytes : List UInt8) : ∀ (row : List Pixel) (x : Nat) (crow : List UInt8),
    (∀ p ∈ row, (pixelBlack bytes p).isSome) → x + row.length ≤ 8 * crow.length →
    ∃ r, rowBytes bytes x row crow = some r ∧ r.length = crow.length ∧
      ∀ k, bitAt r k = (bitAt crow k || (decide (x ≤ k) && decide ((row[k - x]?).bind (pixelBlack bytes) = some true)))
  | [], x, crow, _, _ => ⟨crow, rfl, rfl, fun k => by simp⟩
  | p :: row, x, crow, hp, hl => by
    obtain ⟨b, hb⟩ := Option.isSome_iff_exists.1 (hp p List.mem_cons_self)
    rw [List.length_cons] at hl
    have hrow : ∀ q ∈ row, (pixelBlack bytes q).isSome := fun q hq => hp q (List.mem_cons_of_mem _ hq)
    have hidx : ∀ k, (decide (x ≤ k) && decide (((p :: row)[k - x]?).bind (pixelBlack bytes) = some true)) =
        ((decide (k = x) && b) || (decide (x + 1 ≤ k) && decide ((row[k - (x + 1)]?).bind (pixelBlack bytes) = some true))) := by
      intro k
      rcases Nat.lt_trichotomy k x with h | h | h
      · simp [show ¬ x ≤ k by omega, show ¬ x + 1 ≤ k by omega, show k ≠ x by omega]
      · subst h
        simp [hb]
      · obtain ⟨d, rfl⟩ := Nat.exists_eq_add_of_lt h
        have e1 : x + d + 1 - x = d + 1 := by omega
        have e2 : x + d + 1 - (x + 1) = d := by omega
        rw [e1, e2, List.getElem?_cons_succ]
        simp [show x ≤ x + d + 1 by omega, show x + d + 1 ≠ x by omega]
    unfold rowBytes
    rw [hb, Option.bind_some]
    cases b with
    | false =>
      obtain ⟨r, e, h1, h2⟩ := rowBytes_spec bytes row (x + 1) crow hrow (by omega)
      refine ⟨r, by simpa using e, h1, ?_⟩
      intro k
      rw [h2, hidx]; simp
    | true =>
      have hx : x / 8 < crow.length := by omega
      obtain ⟨r, e, h1, h2⟩ := rowBytes_spec bytes row (x + 1)
        (crow.set (x / 8) (crow.getD (x / 8) 0 ||| ((1 : UInt8) <<< UInt8.ofNat (7 - x % 8)))) hrow (by rw [List.length_set]; omega)
      refine ⟨r, by simpa [hx] using e, by rw [h1, List.length_set], ?_⟩
      intro k
      rw [h2, hidx, bitAt_set _ _ _ hx]
      simp [Bool.or_assoc]

theorem bitmapRows_spec (bytes : List UInt8) (stride : Nat) : ∀ (rows : List (List Pixel)),
    (∀ row ∈ rows, row.length ≤ 8 * stride ∧ ∀ p ∈ row, (pixelBlack bytes p).isSome) →
    ∃ bm, bitmapRows bytes stride rows = some bm ∧ bm.length = rows.length * stride ∧
      ∀ y x, y < rows.length → x < 8 * stride →
        (bm.getD (y * stride + x / 8) 0).toNat.testBit (7 - x % 8) = decide ((Grid.get rows y x).bind (pixelBlack bytes) = some true)
  | [], _ => ⟨[], rfl, by simp, fun y x h => by simp at h⟩
  | row :: rows, h => by
    obtain ⟨h1, h2⟩ := h row List.mem_cons_self
    obtain ⟨r, e, hl, hb⟩ := rowBytes_spec bytes row 0 (List.replicate stride 0) h2 (by rw [List.length_replicate]; omega)
    obtain ⟨bm, e', hl', hb'⟩ := bitmapRows_spec bytes stride rows (fun q hq => h q (List.mem_cons_of_mem _ hq))
    rw [List.length_replicate] at hl
    refine ⟨r ++ bm, ?_, ?_, ?_⟩
    · rw [bitmapRows, e, Option.bind_some, e']; rfl
    · rw [List.length_append, hl, hl', List.length_cons, Nat.add_mul, Nat.one_mul, Nat.add_comm]
    · intro y x hy hx
      cases y with
      | zero =>
        rw [Nat.zero_mul, Nat.zero_add, List.getD_append _ _ _ _ (by omega)]
        have := hb x
        rw [bitAt_zeros] at this
        unfold bitAt at this
        rw [this]
        simp [Grid.get]
      | succ y =>
        have e1 : (y + 1) * stride + x / 8 = r.length + (y * stride + x / 8) := by rw [hl, Nat.add_mul]; omega
        rw [e1, List.getD_append_right _ _ _ _ (by omega), Nat.add_sub_cancel_left, hb' y x (by simpa using hy) hx]
        have : Grid.get (row :: rows) (y + 1) x = Grid.get rows y x := by simp [Grid.get]
        rw [this]

/-! ### The code's pixels -/

/-- Colours of the modules of the code made from a plan and the code bytes. -/
structure CodeSpecG (v : Nat) (l lf : Level) (mf : Nat) (inv : Nat → Nat → Bool) (bytes : List UInt8) (c : Code) : Prop where
  size : c.size = size v
  bitmap : c.bitmap.length = c.size * c.stride
  stride : c.size ≤ 8 * c.stride
  fn : ∀ y x q, y < Iso.size v → x < Iso.size v → fnPixel v lf mf y x = some q → c.black x y = q.black
  data : ∀ (t u : Nat) (a : Nat × Nat), t < (vinfo v).bytes → u < 8 → (dataCells v)[8 * t + u]? = some a →
    c.black a.2 a.1 = (bitAt bytes (8 * byteOrder (dataBytes v l) (numBlocks v l) (eccPerBlock v l) t + u) ^^ inv a.1 a.2)
  rest : ∀ (k : Nat) (a : Nat × Nat), 8 * (vinfo v).bytes ≤ k → (dataCells v)[k]? = some a → c.black a.2 a.1 = inv a.1 a.2

/-- The codes of the plans of `NewPlan`. -/
abbrev CodeSpec (v : Nat) (l : Level) (m : Fin 8) (bytes : List UInt8) (c : Code) : Prop := CodeSpecG v l l m (maskInvert m) bytes c

theorem byteOrder_lt {nd nb ne t : Nat} (hb : 0 < nb) (ht : t < nd + nb * ne) : byteOrder nd nb ne t < nd + nb * ne := by
  have := (byteOrder_perm (nd := nd) (ne := ne) hb).mem_iff (a := byteOrder nd nb ne t)
  rw [List.mem_range] at this
  exact this.1 (List.mem_map.2 ⟨t, List.mem_range.2 ht, rfl⟩)

theorem pixelBlack_code (bytes : List UInt8) (nd o : Nat) (inv : Nat → Nat → Bool) (y x : Nat) (h : o / 8 < bytes.length) :
    pixelBlack bytes (maskPixelG inv y x (codePixel nd o)) = some (bitAt bytes o ^^ inv y x) := by
  have hr : (codePixel nd o).role = .data ∨ (codePixel nd o).role = .check := by
    unfold codePixel; simp only; split <;> simp
  have hg : bytes[o / 8]? = some (bytes.getD (o / 8) 0) := by
    rw [List.getElem?_eq_getElem h, List.getD_eq_getElem _ _ h]
  unfold pixelBlack maskPixelG
  have hr3 : (codePixel nd o).role = .data ∨ (codePixel nd o).role = .check ∨ (codePixel nd o).role = .extra := by
    rcases hr with h | h <;> simp [h]
  have hbit : ∀ (b : Bool), (if (bytes.getD (o / 8) 0) &&& ((1 : UInt8) <<< UInt8.ofNat (7 - o % 8)) ≠ 0 then !b else b) = (bitAt bytes o ^^ b) := by
    intro b
    have := byte_testBit (bytes.getD (o / 8) 0) o
    unfold bitAt
    rw [← this]
    by_cases hc : (bytes.getD (o / 8) 0) &&& ((1 : UInt8) <<< UInt8.ofNat (7 - o % 8)) ≠ 0
    · rw [if_pos hc, decide_eq_true hc]; simp
    · rw [if_neg hc, decide_eq_false hc]; simp
  cases hm : inv y x with
  | true =>
    simp only [hr3, true_and, if_true]
    have e : (codePixel nd o).offset = o := rfl
    have e2 : (codePixel nd o).black = false := rfl
    rw [e, hg, if_pos hr, Option.map_some, hbit, e2]; rfl
  | false =>
    simp only [and_false, if_false, Bool.false_eq_true]
    have e : (codePixel nd o).offset = o := rfl
    have e2 : (codePixel nd o).black = false := rfl
    rw [e, hg, if_pos hr, Option.map_some, hbit, e2]

theorem pixelBlack_extra (bytes : List UInt8) (inv : Nat → Nat → Bool) (y x : Nat) :
    pixelBlack bytes (maskPixelG inv y x { role := .extra }) = some (inv y x) := by
  unfold pixelBlack maskPixelG
  cases hm : inv y x <;> simp

theorem pixelBlack_fn (bytes : List UInt8) {p : Pixel} (h : p.role.isFn) : pixelBlack bytes p = some p.black := by
  unfold pixelBlack
  rw [if_neg]
  unfold Role.isFn at h
  rintro (hh | hh) <;> simp [hh] at h

theorem code_spec {v : Nat} (h1 : 1 ≤ v) (h2 : v ≤ 40) {l lf : Level} {mf : Nat} {inv : Nat → Nat → Bool} {p : Plan} (hp : PlanSpecG v l lf mf inv p) (bytes : List UInt8)
    (hb : bytes.length = (vinfo v).bytes) : ∃ bm, bitmapRows bytes ((p.pixel.length + 7) / 8 * 8) p.pixel = some bm ∧
      CodeSpecG v l lf mf inv bytes ⟨bm, p.pixel.length, (p.pixel.length + 7) / 8 * 8⟩ := by
  have t := vl h1 h2 l
  have htot : (vinfo v).bytes = dataBytes v l + numBlocks v l * eccPerBlock v l := by
    have := t.nd; have := t.lt; omega
  have hrows := hp.wf.rows
  -- colour of every cell
  have hD : ∀ (t u : Nat) (a : Nat × Nat), t < (vinfo v).bytes → u < 8 → (dataCells v)[8 * t + u]? = some a →
      (p.pixel.get a.1 a.2).bind (pixelBlack bytes) =
      some (bitAt bytes (8 * byteOrder (dataBytes v l) (numBlocks v l) (eccPerBlock v l) t + u) ^^ inv a.1 a.2) := by
    intro s u a hs hu ha
    rw [hp.data _ _ ha, orderedPixels_get hs hu, Option.map_some, Option.bind_some]
    apply pixelBlack_code
    have := byteOrder_lt (ne := eccPerBlock v l) t.pos (show s < dataBytes v l + numBlocks v l * eccPerBlock v l by omega)
    omega
  have hX : ∀ (k : Nat) (a : Nat × Nat), 8 * (vinfo v).bytes ≤ k → (dataCells v)[k]? = some a →
      (p.pixel.get a.1 a.2).bind (pixelBlack bytes) = some (inv a.1 a.2) := by
    intro k a hk ha
    have hk2 := (List.getElem?_eq_some_iff.1 ha).1
    have htc := totalCodewords_eq h1 h2
    unfold totalCodewords at htc
    rw [hp.data _ _ ha, List.getElem?_append_right (by rw [orderedPixels_length]; exact hk), orderedPixels_length,
      List.getElem?_replicate, if_pos (by omega), Option.map_some, Option.bind_some, pixelBlack_extra]
  have hF : ∀ y x q, y < size v → x < size v → fnPixel v lf mf y x = some q → (p.pixel.get y x).bind (pixelBlack bytes) = some q.black := by
    intro y x q hy hx hq
    rw [hp.fn y x q hy hx hq, Option.bind_some, pixelBlack_fn _ (fnPixel_role h1 h2 lf mf hy hx hq)]
  have hall : ∀ y x, y < size v → x < size v → ((p.pixel.get y x).bind (pixelBlack bytes)).isSome := by
    intro y x hy hx
    cases hf : isFunction v y x with
    | true =>
      have := fnPixel_some h1 h2 lf mf hy hx
      rw [hf, Option.isSome_iff_exists] at this
      obtain ⟨q, hq⟩ := this
      rw [hF y x q hy hx hq]; rfl
    | false =>
      have hm := mem_dataCells.2 ⟨hy, hx, hf⟩
      obtain ⟨k, hk⟩ := List.mem_iff_getElem?.1 hm
      by_cases hlt : k < 8 * (vinfo v).bytes
      · have hk' : (dataCells v)[8 * (k / 8) + k % 8]? = some (y, x) := by rw [Nat.div_add_mod]; exact hk
        have := hD (k / 8) (k % 8) (y, x) (by omega) (by omega) hk'
        simp only at this
        rw [this]; rfl
      · have := hX k (y, x) (by omega) hk
        simp only at this
        rw [this]; rfl
  have hs8 : p.pixel.length ≤ 8 * ((p.pixel.length + 7) / 8 * 8) := by omega
  obtain ⟨bm, e, hl, hbit⟩ := bitmapRows_spec bytes ((p.pixel.length + 7) / 8 * 8) p.pixel (by
    intro row hr
    refine ⟨by rw [hp.wf.cols row hr, ← hrows]; exact hs8, ?_⟩
    intro q hq
    obtain ⟨y, hy, rfl⟩ := List.getElem_of_mem hr
    obtain ⟨x, hx, rfl⟩ := List.getElem_of_mem hq
    have hx' : x < size v := by rw [← hp.wf.cols _ hr]; exact hx
    have := hall y x (by rw [← hrows]; exact hy) hx'
    simpa [Grid.get, hy, hx] using this)
  refine ⟨bm, e, ?_⟩
  have hblack : ∀ y x b, y < size v → x < size v → (p.pixel.get y x).bind (pixelBlack bytes) = some b →
      Code.black ⟨bm, p.pixel.length, (p.pixel.length + 7) / 8 * 8⟩ x y = b := by
    intro y x b hy hx h
    have := hbit y x (by omega) (by omega)
    rw [h] at this
    unfold Code.black
    simp only
    rw [byte_testBit, this, hrows]
    simp [hy, hx]
  have hcell : ∀ (k : Nat) (a : Nat × Nat), (dataCells v)[k]? = some a → a.1 < size v ∧ a.2 < size v := by
    rintro k ⟨y, x⟩ ha
    obtain ⟨hy, hx, -⟩ := mem_dataCells.1 (List.mem_of_getElem? ha)
    exact ⟨hy, hx⟩
  refine ⟨hrows, by simp only [hl], hs8, ?_, ?_, ?_⟩
  · intro y x q hy hx hq
    exact hblack y x _ hy hx (hF y x q hy hx hq)
  · intro s u a hs hu ha
    exact hblack _ _ _ (hcell _ _ ha).1 (hcell _ _ ha).2 (hD s u a hs hu ha)
  · intro k a hk ha
    exact hblack _ _ _ (hcell _ _ ha).1 (hcell _ _ ha).2 (hX k a hk ha)

end Verif.QR
