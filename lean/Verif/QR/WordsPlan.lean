import Verif.QR.WordsProps
import Verif.QR.DecodeLemmas
/-
C129: what the words of a plan say, and the code that `Plan.Encode` makes from them.
-/
namespace Verif.QR
namespace Words
open Iso

theorem formatPixel_fields (fb i : Nat) : (Verif.QR.formatPixel fb i).role = .format ∧ (Verif.QR.formatPixel fb i).offset = i ∧
    (Verif.QR.formatPixel fb i).invert = (0x5412 : Nat).testBit i := by
  have hb : (0x5412 >>> i) &&& 1 = 1 ↔ (0x5412 : Nat).testBit i = true := by
    rw [Nat.testBit_eq_decide_div_mod_eq, Nat.shiftRight_eq_div_pow, Nat.and_one_is_mod, decide_eq_true_eq]
  unfold Verif.QR.formatPixel
  simp only
  split
  · rename_i h
    exact ⟨rfl, rfl, by rw [hb.1 h]; rfl⟩
  · rename_i h
    refine ⟨rfl, rfl, ?_⟩
    rw [hb, Bool.not_eq_true] at h
    rw [h]

/-- The pixels of function modules. -/
theorem fn_fields {v : Nat} (h1 : 1 ≤ v) (h2 : v ≤ 40) (l : Level) (m : Nat) {y x : Nat} (hy : y < size v) (hx : x < size v) {p : Pixel}
    (h : fnPixel v l m y x = some p) :
    (p.role = .format ∧ p.offset < 15 ∧ p.invert = (0x5412 : Nat).testBit p.offset) ∨
    ((p.role = .position ∨ p.role = .alignment ∨ p.role = .timing ∨ p.role = .pversion ∨ p.role = .unused) ∧ p.offset = 0 ∧ p.invert = false) := by
  unfold fnPixel at h
  cases hl : lastWrite y x (Verif.QR.fplanWrites (size v) l m) with
  | some q =>
    rw [hl, Option.some_or, Option.some.injEq] at h
    subst h
    obtain ⟨w, hw, -, -, rfl⟩ := lastWrite_some hl
    obtain ⟨i, hi, c, hc, rfl⟩ := format_mem.1 hw
    obtain ⟨a, b, c⟩ := formatPixel_fields (formatBits l m) i
    exact Or.inl ⟨a, by rw [b]; exact hi, by rw [b]; exact c⟩
  | none =>
    rw [hl, Option.none_or, vplan_last h1 h2 hy hx] at h
    right
    split at h
    · injection h with h; subst h; simp
    · split at h
      · injection h with h; subst h; simp
      · split at h
        · injection h with h; subst h; simp
        · split at h
          · injection h with h; subst h; simp
          · split at h
            · injection h with h; subst h; simp
            · cases h

/-- The number of the code bit in the `k`th data module. -/
def bitNo (v : Nat) (l : Level) (k : Nat) : Nat := 8 * byteOrder (dataBytes v l) (numBlocks v l) (eccPerBlock v l) (k / 8) + k % 8

theorem data_pixel {v : Nat} {l lf : Level} {mf : Nat} {inv : Nat → Nat → Bool} {p : Verif.QR.Plan} (hp : PlanSpecG v l lf mf inv p)
    {k : Nat} {c : Nat × Nat} (hc : (dataCells v)[k]? = some c) (hk : k < 8 * (vinfo v).bytes) :
    p.pixel.get c.1 c.2 = some { role := if bitNo v l k < 8 * dataBytes v l then .data else .check, offset := bitNo v l k, black := inv c.1 c.2, invert := inv c.1 c.2 } := by
  rw [hp.data k c hc]
  have := orderedPixels_get (v := v) (l := l) (t := k / 8) (u := k % 8) (by omega) (by omega)
  rw [Nat.div_add_mod] at this
  rw [this, Option.map_some, Option.some.injEq]
  unfold maskPixelG codePixel bitNo
  simp only
  generalize 8 * byteOrder (dataBytes v l) (numBlocks v l) (eccPerBlock v l) (k / 8) + k % 8 = o
  by_cases h : o < 8 * dataBytes v l <;> cases inv c.1 c.2 <;> simp [h]

theorem extra_pixel {v : Nat} {l lf : Level} {mf : Nat} {inv : Nat → Nat → Bool} {p : Verif.QR.Plan} (hp : PlanSpecG v l lf mf inv p)
    {k : Nat} {c : Nat × Nat} (hc : (dataCells v)[k]? = some c) (hk : ¬ k < 8 * (vinfo v).bytes) :
    p.pixel.get c.1 c.2 = some { role := .extra, black := inv c.1 c.2, invert := inv c.1 c.2 } := by
  have hm : (c.1, c.2) ∈ dataCells v := by rw [Prod.mk.eta]; exact List.mem_of_getElem? hc
  obtain ⟨q, hq⟩ := hp.wf.get_isSome (mem_dataCells.1 hm).1 (mem_dataCells.1 hm).2.1
  have hd := hp.data k c hc
  rw [hq] at hd
  rw [List.getElem?_append_right (by rw [orderedPixels_length]; omega)] at hd
  cases he : (List.replicate 7 ({ role := .extra } : Pixel))[k - (orderedPixels v l).length]? with
  | none => rw [he] at hd; cases hd
  | some e =>
    have := List.mem_of_getElem? he
    rw [List.mem_replicate] at this
    rw [he, this.2, Option.map_some] at hd
    rw [hq, hd, Option.some.injEq]
    unfold maskPixelG
    cases inv c.1 c.2 <;> simp

theorem bitNo_lt {v : Nat} (h1 : 1 ≤ v) (h2 : v ≤ 40) (l : Level) {k : Nat} (hk : k < 8 * (vinfo v).bytes) : bitNo v l k < 8 * (vinfo v).bytes := by
  have t := vl h1 h2 l
  have hn : dataBytes v l + numBlocks v l * eccPerBlock v l = (vinfo v).bytes := by rw [t.nd]; have := t.lt; omega
  have hm : byteOrder (dataBytes v l) (numBlocks v l) (eccPerBlock v l) (k / 8) ∈ List.range (dataBytes v l + numBlocks v l * eccPerBlock v l) :=
    (byteOrder_perm t.pos).mem_iff.1 (List.mem_map.2 ⟨k / 8, List.mem_range.2 (by omega), rfl⟩)
  rw [List.mem_range, hn] at hm
  unfold bitNo
  omega

theorem bitNo_inj {v : Nat} (h1 : 1 ≤ v) (h2 : v ≤ 40) (l : Level) {k j : Nat} (hk : k < 8 * (vinfo v).bytes) (hj : j < 8 * (vinfo v).bytes)
    (h : bitNo v l k = bitNo v l j) : k = j := by
  have t := vl h1 h2 l
  have hn : dataBytes v l + numBlocks v l * eccPerBlock v l = (vinfo v).bytes := by rw [t.nd]; have := t.lt; omega
  have hnd := (byteOrder_perm (nd := dataBytes v l) (ne := eccPerBlock v l) t.pos).nodup_iff.2 List.nodup_range
  have e : byteOrder (dataBytes v l) (numBlocks v l) (eccPerBlock v l) (k / 8) = byteOrder (dataBytes v l) (numBlocks v l) (eccPerBlock v l) (j / 8) := by
    unfold bitNo at h; omega
  have := List.inj_on_of_nodup_map hnd (List.mem_range.2 (show k / 8 < _ by omega)) (List.mem_range.2 (show j / 8 < _ by omega)) e
  unfold bitNo at h
  omega

theorem bitNo_surj {v : Nat} (h1 : 1 ≤ v) (h2 : v ≤ 40) (l : Level) {o : Nat} (ho : o < 8 * (vinfo v).bytes) : ∃ k < 8 * (vinfo v).bytes, bitNo v l k = o := by
  have t := vl h1 h2 l
  have hn : dataBytes v l + numBlocks v l * eccPerBlock v l = (vinfo v).bytes := by rw [t.nd]; have := t.lt; omega
  obtain ⟨s, hs, e⟩ := byteOrder_surj (nd := dataBytes v l) (ne := eccPerBlock v l) (o := o / 8) t.pos (by omega)
  refine ⟨8 * s + o % 8, by omega, ?_⟩
  unfold bitNo
  rw [show (8 * s + o % 8) / 8 = s by omega, e]
  omega

theorem bytes_small {v : Nat} (h1 : 1 ≤ v) (h2 : v ≤ 40) : 8 * (vinfo v).bytes < 2 ^ 26 := by
  have : ∀ v ∈ List.range' 1 40, 8 * (vinfo v).bytes < 2 ^ 26 := by decide +kernel
  exact this v (mem_versions h1 h2)

/-- What the cells of a plan can be. -/
theorem cell_cases {v : Nat} (h1 : 1 ≤ v) (h2 : v ≤ 40) {l lf : Level} {mf : Nat} {inv : Nat → Nat → Bool} {p : Verif.QR.Plan}
    (hp : PlanSpecG v l lf mf inv p) {y x : Nat} {q : Pixel} (hq : p.pixel.get y x = some q) :
    (isFunction v y x = true ∧ fnPixel v lf mf y x = some q) ∨
    (∃ k, (dataCells v)[k]? = some (y, x) ∧ k < 8 * (vinfo v).bytes ∧
      q = { role := if bitNo v l k < 8 * dataBytes v l then .data else .check, offset := bitNo v l k, black := inv y x, invert := inv y x }) ∨
    (isFunction v y x = false ∧ q = { role := .extra, black := inv y x, invert := inv y x }) := by
  obtain ⟨hy, hx⟩ := hp.wf.get_none hq
  cases hf : isFunction v y x with
  | true =>
    left
    have := fnPixel_some h1 h2 lf mf hy hx
    rw [hf] at this
    obtain ⟨r, hr⟩ := Option.isSome_iff_exists.1 this
    have := hp.fn y x r hy hx hr
    rw [hq] at this
    exact ⟨rfl, by rw [hr, this]⟩
  | false =>
    right
    obtain ⟨k, hk⟩ := List.getElem?_of_mem (mem_dataCells.2 ⟨hy, hx, hf⟩)
    by_cases hlt : k < 8 * (vinfo v).bytes
    · left
      have := data_pixel hp hk hlt
      rw [hq] at this
      exact ⟨k, hk, hlt, Option.some.inj this⟩
    · right
      have := extra_pixel hp hk hlt
      rw [hq] at this
      exact ⟨rfl, Option.some.inj this⟩

theorem small {v : Nat} (h1 : 1 ≤ v) (h2 : v ≤ 40) {l lf : Level} {mf : Nat} {inv : Nat → Nat → Bool} {p : Verif.QR.Plan}
    (hp : PlanSpecG v l lf mf inv p) {y x : Nat} {q : Pixel} (hq : p.pixel.get y x = some q) : q.offset < 2 ^ 26 := by
  obtain ⟨hy, hx⟩ := hp.wf.get_none hq
  rcases cell_cases h1 h2 hp hq with ⟨-, h⟩ | ⟨k, -, hk, rfl⟩ | ⟨-, rfl⟩
  · rcases fn_fields h1 h2 lf mf hy hx h with ⟨-, h, -⟩ | ⟨-, h, -⟩ <;> omega
  · have := bitNo_lt h1 h2 l hk
    have := bytes_small h1 h2
    simp only
    omega
  · simp

/-! ### Encoding -/

theorem pixelBlack_pack (bytes : List UInt8) (p : Pixel) (h : p.offset < 2 ^ 26) : pixelBlack bytes (packW p) = Verif.QR.pixelBlack bytes p := by
  have e1 : role (packW p) = data ↔ p.role = .data := role_is p .data
  have e2 : role (packW p) = check ↔ p.role = .check := role_is p .check
  have hr := read_pack p
  rw [Nat.mod_eq_of_lt h] at hr
  have ho : (offset (packW p)).toNat = p.offset := congrArg Fields.offset hr
  have hb : ∀ p : Pixel, decide (packW p &&& black ≠ 0) = p.black := fun p => congrArg Fields.black (read_pack p)
  unfold pixelBlack Verif.QR.pixelBlack
  simp only [e1, e2, ho]
  split
  · congr 1
    funext b
    split
    · rw [(toggle p).1, hb]
    · exact hb p
  · rw [hb]

theorem row_pack (bytes : List UInt8) : ∀ (row : List Pixel) (x : Nat) (crow : List UInt8), (∀ q ∈ row, q.offset < 2 ^ 26) →
    rowBytes bytes x (row.map packW) crow = Verif.QR.rowBytes bytes x row crow
  | [], _, _, _ => rfl
  | p :: row, x, crow, h => by
    simp only [List.map_cons, rowBytes, Verif.QR.rowBytes, pixelBlack_pack bytes p (h p (by simp))]
    congr 1
    funext b
    split
    · split
      · exact row_pack bytes row _ _ fun q hq => h q (by simp [hq])
      · rfl
    · exact row_pack bytes row _ _ fun q hq => h q (by simp [hq])

theorem rows_pack (bytes : List UInt8) (stride : Nat) : ∀ g : Grid, (∀ row ∈ g, ∀ q ∈ row, q.offset < 2 ^ 26) →
    bitmapRows bytes stride (packG g) = Verif.QR.bitmapRows bytes stride g
  | [], _ => rfl
  | row :: g, h => by
    have ih := rows_pack bytes stride g fun r hr => h r (by simp [hr])
    unfold packG at ih ⊢
    simp only [List.map_cons, bitmapRows, Verif.QR.bitmapRows, ih]
    rw [row_pack bytes row _ _ (h row (by simp))]

theorem encode_pack (p : Verif.QR.Plan) (h : ∀ row ∈ p.pixel, ∀ q ∈ row, q.offset < 2 ^ 26) (ts : List Encoding) : (packP p).encode ts = p.encode ts := by
  have hl : (packG p.pixel).length = p.pixel.length := by simp [packG]
  unfold Plan.encode Verif.QR.Plan.encode packP
  simp only [hl, rows_pack _ _ _ h]

theorem small_mem {v : Nat} (h1 : 1 ≤ v) (h2 : v ≤ 40) {l lf : Level} {mf : Nat} {inv : Nat → Nat → Bool} {p : Verif.QR.Plan}
    (hp : PlanSpecG v l lf mf inv p) : ∀ row ∈ p.pixel, ∀ q ∈ row, q.offset < 2 ^ 26 := by
  intro row hr q hq
  obtain ⟨y, hy⟩ := List.getElem?_of_mem hr
  obtain ⟨x, hx⟩ := List.getElem?_of_mem hq
  exact small h1 h2 hp (y := y) (x := x) (by simp [Grid.get, hy, hx])

end Words
end Verif.QR
