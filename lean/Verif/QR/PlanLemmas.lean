import Verif.QR.LPlanLemmas
/-
The plan made by `NewPlan`, cell by cell.
-/
namespace Verif.QR
open Iso

/-- The pixel of a function module. -/
def fnPixel (v : Nat) (l : Level) (m y x : Nat) : Option Pixel :=
  (lastWrite y x (fplanWrites (size v) l m)).or (lastWrite y x (vplanWrites v))

/-- A role given by `vplan` or `fplan`. -/
def Role.isFn (r : Role) : Prop := r ≠ .none ∧ r ≠ .data ∧ r ≠ .check ∧ r ≠ .extra

theorem fnPixel_some {v : Nat} (h1 : 1 ≤ v) (h2 : v ≤ 40) (l : Level) (m : Nat) {y x : Nat} (hy : y < size v) (hx : x < size v) :
    (fnPixel v l m y x).isSome = isFunction v y x := by
  unfold fnPixel
  by_cases hf : (y, x) = (size v - 8, 8)
  · rw [format_last_none h1 l m (Or.inr hf), Option.none_or, vplan_last h1 h2 hy hx, if_pos hf]
    rw [Prod.mk.injEq] at hf
    symm
    simp only [isFunction, Bool.or_eq_true, inFormat, Bool.and_eq_true, decide_eq_true_eq, Option.isSome_some]
    have : size v - 8 ≤ y := by omega
    simp [hf.2, this]
  · by_cases hF : inFormat v y x = true ∧ y ≠ 6 ∧ x ≠ 6
    · obtain ⟨i, hi, hc⟩ := formatCell_cover h1 hy hx hF.1 hf hF.2.1 hF.2.2
      have := format_last_cell h1 l m hi hc
      simp only at this
      rw [this, Option.some_or]
      simp [isFunction, hF.1]
    · rw [Option.isSome_or, vplan_last h1 h2 hy hx, if_neg hf]
      by_cases c2 : inVersion v y x
      · simp [c2, isFunction]
      · by_cases c3 : inAlign v y x
        · simp [c2, c3, isFunction]
        · by_cases c4 : inFinder v y x
          · simp [c2, c3, c4, isFunction]
          · by_cases c5 : y = 6 ∨ x = 6
            · rw [if_neg c2, if_neg c3, if_neg c4, if_pos c5, Option.isSome_some, Bool.or_true]
              symm
              unfold isFunction
              simp only [Bool.or_eq_true, decide_eq_true_eq]
              rcases c5 with c5 | c5
              · exact Or.inl (Or.inr c5)
              · exact Or.inr c5
            · have hn : inFormat v y x = false := by
                rw [Bool.eq_false_iff]
                intro h
                exact hF ⟨h, by omega, by omega⟩
              rw [format_last_none h1 l m (Or.inl hn)]
              rw [not_or] at c5
              simp [c2, c3, c4, c5, hn, isFunction]

theorem fnPixel_role {v : Nat} (h1 : 1 ≤ v) (h2 : v ≤ 40) (l : Level) (m : Nat) {y x : Nat} (hy : y < size v) (hx : x < size v) {p : Pixel}
    (h : fnPixel v l m y x = some p) : p.role.isFn := by
  unfold fnPixel at h
  cases hl : lastWrite y x (fplanWrites (size v) l m) with
  | some q =>
    rw [hl, Option.some_or, Option.some.injEq] at h
    subst h
    obtain ⟨w, hw, -, -, rfl⟩ := lastWrite_some hl
    obtain ⟨i, hi, c, hc, rfl⟩ := format_mem.1 hw
    unfold Role.isFn
    simp only [formatPixel_role]
    decide
  | none =>
    rw [hl, Option.none_or, vplan_last h1 h2 hy hx] at h
    split at h
    · injection h with h; subst h; unfold Role.isFn; simp
    · split at h
      · injection h with h; subst h; unfold Role.isFn; simp
      · split at h
        · injection h with h; subst h; unfold Role.isFn; simp
        · split at h
          · injection h with h; subst h; unfold Role.isFn; simp
          · split at h
            · injection h with h; subst h; unfold Role.isFn; simp
            · cases h

/-- The code word bits in the order in which they are placed. -/
def orderedPixels (v : Nat) (l : Level) : List Pixel :=
  (List.range (vinfo v).bytes).flatMap fun t =>
      chunk (codePixel (dataBytes v l)) (byteOrder (dataBytes v l) (numBlocks v l) (eccPerBlock v l) t)

theorem orderedPixels_length (v : Nat) (l : Level) : (orderedPixels v l).length = 8 * (vinfo v).bytes := flatMap_chunk_length _ _ _

/-- A description of a plan's cells: version `v`, code words of level `l`, format information for level `lf` and mask `mf`, and the mask
function `inv` applied. -/
structure PlanSpecG (v : Nat) (l lf : Level) (mf : Nat) (inv : Nat → Nat → Bool) (p : Plan) : Prop where
  version : p.version = v
  level : p.level = l
  dataBytes : p.dataBytes = dataBytes v l
  checkBytes : p.checkBytes = numBlocks v l * eccPerBlock v l
  blocks : p.blocks = numBlocks v l
  wf : WF (size v) p.pixel
  fn : ∀ y x q, y < size v → x < size v → fnPixel v lf mf y x = some q → p.pixel.get y x = some q
  data : ∀ (k : Nat) (c : Nat × Nat), (dataCells v)[k]? = some c →
    p.pixel.get c.1 c.2 = ((orderedPixels v l ++ List.replicate 7 { role := .extra })[k]?).map (maskPixelG inv c.1 c.2)

/-- The plans of `NewPlan`. -/
abbrev PlanSpec (v : Nat) (l : Level) (m : Fin 8) (p : Plan) : Prop := PlanSpecG v l l m (maskInvert m) p

/-- The grid before masking. -/
theorem prePlan_spec {v : Nat} (h1 : 1 ≤ v) (h2 : v ≤ 40) (l lf : Level) (mf : Nat) : ∃ g1 g2 g3,
    runWrites (newGrid (size v)) (vplanWrites v) = some g1 ∧ runWrites g1 (fplanWrites (size v) lf mf) = some g2 ∧
    lplanBits v l = some (orderedPixels v l) ∧
    place (sweepCells (size v)) (orderedPixels v l ++ List.replicate 7 { role := .extra }) g2 = some g3 ∧ WF (size v) g3 ∧
    (∀ y x q, y < size v → x < size v → fnPixel v lf mf y x = some q → g3.get y x = some q ∧ q.role.isFn) ∧
    (∀ (k : Nat) (c : Nat × Nat), (dataCells v)[k]? = some c →
      g3.get c.1 c.2 = (orderedPixels v l ++ List.replicate 7 { role := .extra })[k]?) := by
  have t := vl h1 h2 l
  have hsz : 17 + v * 4 = size v := by unfold size; omega
  obtain ⟨b1, b2⟩ := planWrites_bounds h1 h2 lf mf
  obtain ⟨g1, e1, w1, r1⟩ := runWrites_spec (vplanWrites v) (newGrid (size v)) (newGrid_wf _) b1
  obtain ⟨g2, e2, w2, r2⟩ := runWrites_spec (fplanWrites (size v) lf mf) g1 w1 b2
  have r : ∀ y x, y < size v → x < size v → g2.get y x = (fnPixel v lf mf y x).or (some {}) := by
    intro y x hy hx
    rw [r2, r1, newGrid_get hy hx, fnPixel, Option.or_assoc]
  have hfree : freeCells g2 (zigzag v) = dataCells v := by
    unfold freeCells dataCells
    apply List.filter_congr
    rintro ⟨y, x⟩ hc
    obtain ⟨hy, hx, -⟩ := mem_zigzag.1 hc
    simp only [r y x hy hx]
    have hs := fnPixel_some h1 h2 lf mf hy hx
    cases hp : fnPixel v lf mf y x with
    | none =>
      rw [hp] at hs
      rw [← hs]
      simp
    | some q =>
      rw [hp] at hs
      rw [← hs]
      have := (fnPixel_role h1 h2 lf mf hy hx hp).1
      simp [this]
  have hlen : (dataCells v).length ≤ (orderedPixels v l ++ List.replicate 7 ({ role := .extra } : Pixel)).length := by
    rw [List.length_append, orderedPixels_length, List.length_replicate]
    have := totalCodewords_eq h1 h2
    unfold totalCodewords at this
    omega
  obtain ⟨g3, e3, w3, r3, r3'⟩ := place_spec (siz := size v) (zigzag v) (orderedPixels v l ++ List.replicate 7 { role := .extra }) g2 w2
    (by rintro ⟨y, x⟩ hc; obtain ⟨hy, hx, -⟩ := mem_zigzag.1 hc; exact ⟨hy, hx⟩) (zigzag_nodup v) (by rw [hfree]; exact hlen)
  rw [hfree] at r3 r3'
  refine ⟨g1, g2, g3, e1, e2, lplanBits_eq h1 h2 l, by rw [sweepCells_eq h1 h2]; exact e3, w3, ?_, fun k c hk => r3 k c hk⟩
  intro y x q hy hx hq
  have hnd : (y, x) ∉ dataCells v := by
    rw [mem_dataCells]
    rintro ⟨-, -, hf⟩
    have := fnPixel_some h1 h2 lf mf hy hx
    rw [hq, hf] at this
    cases this
  refine ⟨?_, fnPixel_role h1 h2 lf mf hy hx hq⟩
  rw [r3' y x hnd, r y x hy hx, hq]
  rfl

theorem newPlan_spec' {v : Nat} (h1 : 1 ≤ v) (h2 : v ≤ 40) (l : Level) (m : Fin 8) : ∃ p, newPlan v l m = .ok p ∧ PlanSpec v l m p ∧ p.mask = m.val := by
  have t := vl h1 h2 l
  have hsz : 17 + v * 4 = size v := by unfold size; omega
  obtain ⟨g1, g2, g3, e1, e2, eb, e3, w3, hfn, hdata⟩ := prePlan_spec h1 h2 l l m
  have hnew : newPlan v l m = .ok
        { version := v, level := l, mask := (m.val : Int),
          dataBytes := (vinfo v).bytes - (linfo v l).check * (linfo v l).nblock,
          checkBytes := (linfo v l).check * (linfo v l).nblock, blocks := (linfo v l).nblock,
          pixel := mplan m g3 } := by
    unfold newPlan
    rw [if_neg (by omega)]
    simp only [hsz, e1, e2, Option.bind_some, eb, e3]
    rfl
  refine ⟨_, hnew, ⟨rfl, rfl, ?_, ?_, ?_, mplan_wf _ w3, ?_, ?_⟩, rfl⟩
  · simp only [t.nb, t.ne, t.nd, Nat.mul_comm]
  · simp only [t.nb, t.ne, Nat.mul_comm]
  · exact t.nb
  · intro y x q hy hx hq
    simp only
    obtain ⟨hg, hr⟩ := hfn y x q hy hx hq
    rw [mplan_get, hg]
    simp only [Option.map_some, maskPixel, maskPixelG]
    rw [if_neg]
    rintro ⟨hh, -⟩
    unfold Role.isFn at hr
    rcases hh with hh | hh | hh <;> simp [hh] at hr
  · intro k c hk
    simp only
    rw [mplan_get, hdata k c hk]
    rfl

theorem newPlan_spec {v : Nat} (h1 : 1 ≤ v) (h2 : v ≤ 40) (l : Level) (m : Fin 8) : ∃ p, newPlan v l m = .ok p ∧ PlanSpec v l m p := by
  obtain ⟨p, e, h, -⟩ := newPlan_spec' h1 h2 l m
  exact ⟨p, e, h⟩

/-- Pixels in data positions. -/
theorem orderedPixels_get {v : Nat} {l : Level} {t u : Nat} (ht : t < (vinfo v).bytes) (hu : u < 8) :
    (orderedPixels v l ++ List.replicate 7 { role := .extra })[8 * t + u]? =
      some (codePixel (dataBytes v l) (8 * byteOrder (dataBytes v l) (numBlocks v l) (eccPerBlock v l) t + u)) := by
  have key : ∀ (F : Nat → Pixel) (f : Nat → Nat) (n t u : Nat), t < n → u < 8 →
      ((List.range n).flatMap fun t => chunk F (f t))[8 * t + u]? = some (F (8 * f t + u)) := by
    intro F f n
    induction n with
    | zero => intro t u h; omega
    | succ n ih =>
      intro t u ht hu
      rw [range_flatMap_add]
      by_cases h : t < n
      · rw [List.getElem?_append_left (by rw [flatMap_chunk_length]; omega)]
        exact ih t u h hu
      · have : t = n := by omega
        subst this
        rw [List.getElem?_append_right (by rw [flatMap_chunk_length]; omega), flatMap_chunk_length]
        simp [chunk, hu]
  rw [List.getElem?_append_left (by rw [orderedPixels_length]; omega)]
  exact key _ _ _ _ _ ht hu

end Verif.QR

namespace Verif.QR

/-! ### The packed form of a pixel -/

/-- coding/qr.go:252-265: the numbers of the roles. -/
def Role.code : Role → Nat
  | .none => 0 | .position => 1 | .alignment => 2 | .timing => 3 | .format => 4 | .pversion => 5 | .unused => 6 | .data => 7 | .check => 8 | .extra => 9

/-- coding/qr.go:216-237: the word holding a pixel, `OffsetPixel(o) | role.Pixel() | Black? | Invert?`. -/
def Pixel.pack (p : Pixel) : Nat := (p.offset <<< 6) ||| ((p.role.code <<< 2) ||| ((p.invert.toNat <<< 1) ||| p.black.toNat))

/-- The record is a faithful view of the packed word: if the offset fits, the word fits in 32 bits and the accessors `Offset`, `Role`, and
the tests of `Invert` and `Black` (coding/qr.go:224-237) return the fields. -/
theorem pack_fields (p : Pixel) (h : p.offset < 2 ^ 26) : p.pack < 2 ^ 32 ∧ p.pack >>> 6 = p.offset ∧ (p.pack >>> 2) &&& 15 = p.role.code ∧
    p.pack.testBit 1 = p.invert ∧ p.pack.testBit 0 = p.black := by
  obtain ⟨r, o, b, i⟩ := p
  have hr : r.code < 10 := by cases r <;> decide
  have hi : i.toNat < 2 := by cases i <;> decide
  have hb : b.toNat < 2 := by cases b <;> decide
  have e : (Pixel.mk r o b i).pack = 64 * o + (4 * r.code + (2 * i.toNat + b.toNat)) := by
    unfold Pixel.pack
    simp only
    rw [← Nat.shiftLeft_add_eq_or_of_lt (a := i.toNat) (b := b.toNat) (by omega),
      ← Nat.shiftLeft_add_eq_or_of_lt (a := r.code) (i := 2) (b := i.toNat <<< 1 + b.toNat) (by simp only [Nat.shiftLeft_eq]; omega),
      ← Nat.shiftLeft_add_eq_or_of_lt (by simp only [Nat.shiftLeft_eq]; omega)]
    simp only [Nat.shiftLeft_eq]
    omega
  simp only at h
  rw [e]
  refine ⟨by omega, ?_, ?_, ?_, ?_⟩
  · rw [Nat.shiftRight_eq_div_pow]; simp only; omega
  · rw [Nat.shiftRight_eq_div_pow, show (15 : Nat) = 2 ^ 4 - 1 from rfl, Nat.and_two_pow_sub_one_eq_mod]; simp only; omega
  · rw [Nat.testBit_eq_decide_div_mod_eq]; simp only
    cases i <;> simp only [Bool.toNat_false, Bool.toNat_true, decide_eq_false_iff_not, decide_eq_true_eq] at * <;> omega
  · rw [Nat.testBit_eq_decide_div_mod_eq]; simp only
    cases b <;> simp only [Bool.toNat_false, Bool.toNat_true, decide_eq_false_iff_not, decide_eq_true_eq] at * <;> omega

end Verif.QR
