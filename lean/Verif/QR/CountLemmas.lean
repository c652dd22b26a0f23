import Verif.QR.VPlanLemmas
import Mathlib.Data.List.Perm.Basic
import Mathlib.Data.List.Count
import Mathlib.Data.List.Range
import Mathlib.Tactic.Ring
/-
Visiting order and number of the data modules.
-/
namespace Verif.QR
open Iso

/-! ### Function modules as a bit set -/

/-- A rectangle of `h` rows and `w` columns as a bit set; cell (y, x) is bit `y * siz + x`. -/
def rectBits (siz x : Nat) : Nat → Nat → Nat → Nat
  | _, 0, _ => 0
  | y, h + 1, w => ((2 ^ w - 1) <<< (y * siz + x)) ||| rectBits siz x (y + 1) h w

theorem row_bit {siz y0 x0 w y x : Nat} (hx : x < siz) (hw : x0 + w ≤ siz) :
    ((2 ^ w - 1) <<< (y0 * siz + x0)).testBit (y * siz + x) = (decide (y = y0) && decide (x0 ≤ x) && decide (x < x0 + w)) := by
  rw [Nat.testBit_shiftLeft, Nat.testBit_two_pow_sub_one, Bool.eq_iff_iff]
  simp only [Bool.and_eq_true, decide_eq_true_eq]
  rcases Nat.lt_trichotomy y y0 with h | h | h
  · have : (y + 1) * siz ≤ y0 * siz := Nat.mul_le_mul_right _ h
    rw [Nat.add_mul, Nat.one_mul] at this
    constructor
    · intro h'; omega
    · intro h'; omega
  · subst h
    constructor
    · intro h'; refine ⟨⟨rfl, ?_⟩, ?_⟩ <;> omega
    · intro h'; omega
  · have : (y0 + 1) * siz ≤ y * siz := Nat.mul_le_mul_right _ h
    rw [Nat.add_mul, Nat.one_mul] at this
    constructor
    · intro h'; omega
    · intro h'; omega

theorem rectBits_testBit {siz x0 w : Nat} (hw : x0 + w ≤ siz) {y x : Nat} (hx : x < siz) : ∀ (h y0 : Nat),
    (rectBits siz x0 y0 h w).testBit (y * siz + x) = (decide (y0 ≤ y) && decide (y < y0 + h) && decide (x0 ≤ x) && decide (x < x0 + w))
  | 0, y0 => by
    simp only [rectBits, Nat.zero_testBit]
    symm
    rw [Bool.eq_false_iff]
    simp only [ne_eq, Bool.and_eq_true, decide_eq_true_eq]
    omega
  | h + 1, y0 => by
    rw [rectBits, Nat.testBit_or, row_bit hx hw, rectBits_testBit hw hx h (y0 + 1), Bool.eq_iff_iff]
    simp only [Bool.or_eq_true, Bool.and_eq_true, decide_eq_true_eq]
    omega

/-- The rectangles (row, column, height, width) making up the function modules. -/
def rects (v : Nat) : List (Nat × Nat × Nat × Nat) :=
  let s := size v
  [(0, 0, 8, 8), (0, s - 8, 8, 8), (s - 8, 0, 8, 8), (8, 0, 1, 9), (8, s - 8, 1, 8), (0, 8, 9, 1), (s - 8, 8, 8, 1), (6, 0, 1, s), (0, 6, s, 1)] ++
  (if 7 ≤ v then [(0, s - 11, 6, 3), (s - 11, 0, 3, 6)] else []) ++ (alignCentres v).map fun c => (c.1 - 2, c.2 - 2, 5, 5)

/-- All function modules as a bit set. -/
def specBits (v : Nat) : Nat := (rects v).foldr (fun r a => rectBits (size v) r.2.1 r.1 r.2.2.1 r.2.2.2 ||| a) 0

theorem foldr_or_testBit {α} (f : α → Nat) (i : Nat) : ∀ l : List α, (l.foldr (fun r a => f r ||| a) 0).testBit i = l.any fun r => (f r).testBit i
  | [] => by simp
  | r :: l => by simp [Nat.testBit_or, foldr_or_testBit f i l]

theorem rects_bound {v : Nat} (h1 : 1 ≤ v) (h2 : v ≤ 40) : ∀ r ∈ rects v, r.2.1 + r.2.2.2 ≤ size v := by
  have hs : 21 ≤ size v := by unfold size; omega
  intro r hr
  unfold rects at hr
  simp only [List.mem_append] at hr
  rcases hr with (hr | hr) | hr
  · simp only [List.mem_cons, List.not_mem_nil, or_false] at hr
    rcases hr with rfl | rfl | rfl | rfl | rfl | rfl | rfl | rfl | rfl <;> simp only <;> omega
  · split at hr
    · simp only [List.mem_cons, List.not_mem_nil, or_false] at hr
      rcases hr with rfl | rfl <;> simp only <;> omega
    · cases hr
  · rw [List.mem_map] at hr
    obtain ⟨c, hc, rfl⟩ := hr
    have := (align_facts v (mem_versions h1 h2)).2.2.1 c hc
    simp only; omega

theorem specBits_testBit {v y x : Nat} (h1 : 1 ≤ v) (h2 : v ≤ 40) (hy : y < size v) (hx : x < size v) :
    (specBits v).testBit (y * size v + x) = isFunction v y x := by
  have hs : 21 ≤ size v := by unfold size; omega
  unfold specBits
  rw [foldr_or_testBit (fun r : Nat × Nat × Nat × Nat => rectBits (size v) r.2.1 r.1 r.2.2.1 r.2.2.2)]
  have e : (rects v).any (fun r => (rectBits (size v) r.2.1 r.1 r.2.2.1 r.2.2.2).testBit (y * size v + x)) =
      (rects v).any (fun r => decide (r.1 ≤ y) && decide (y < r.1 + r.2.2.1) && decide (r.2.1 ≤ x) && decide (x < r.2.1 + r.2.2.2)) := by
    rw [Bool.eq_iff_iff, List.any_eq_true, List.any_eq_true]
    constructor
    · rintro ⟨r, hr, h⟩
      rw [rectBits_testBit (rects_bound h1 h2 r hr) hx] at h
      exact ⟨r, hr, h⟩
    · rintro ⟨r, hr, h⟩
      refine ⟨r, hr, ?_⟩
      rw [rectBits_testBit (rects_bound h1 h2 r hr) hx]
      exact h
  rw [e]
  have ea : ((alignCentres v).map fun c => ((c.1 - 2, c.2 - 2, 5, 5) : Nat × Nat × Nat × Nat)).any
      (fun r => decide (r.1 ≤ y) && decide (y < r.1 + r.2.2.1) && decide (r.2.1 ≤ x) && decide (x < r.2.1 + r.2.2.2)) = inAlign v y x := by
    unfold inAlign
    rw [List.any_map, Bool.eq_iff_iff, List.any_eq_true, List.any_eq_true]
    constructor
    · rintro ⟨c, hc, h⟩
      have := (align_facts v (mem_versions h1 h2)).2.2.1 c hc
      simp only [Function.comp, Bool.and_eq_true, decide_eq_true_eq] at h
      refine ⟨c, hc, decide_eq_true ?_⟩
      unfold cheb; omega
    · rintro ⟨c, hc, h⟩
      have := (align_facts v (mem_versions h1 h2)).2.2.1 c hc
      have := of_decide_eq_true h
      unfold cheb at this
      refine ⟨c, hc, ?_⟩
      simp only [Function.comp, Bool.and_eq_true, decide_eq_true_eq]
      omega
  unfold rects
  simp only [List.any_append]
  rw [ea]
  unfold isFunction
  generalize inAlign v y x = al
  have ev : (if 7 ≤ v then [((0, size v - 11, 6, 3) : Nat × Nat × Nat × Nat), (size v - 11, 0, 3, 6)] else []).any
      (fun r => decide (r.1 ≤ y) && decide (y < r.1 + r.2.2.1) && decide (r.2.1 ≤ x) && decide (x < r.2.1 + r.2.2.2)) = inVersion v y x := by
    unfold inVersion
    split
    · rename_i h7
      rw [Bool.eq_iff_iff]
      simp only [List.any_cons, List.any_nil, Bool.or_eq_true, Bool.and_eq_true, decide_eq_true_eq, Bool.false_eq_true, or_false]
      omega
    · rename_i h7
      simp [h7]
  rw [ev]
  generalize inVersion v y x = ve
  rw [Bool.eq_iff_iff]
  simp only [List.any_cons, List.any_nil, Bool.or_eq_true, Bool.and_eq_true, decide_eq_true_eq, inFinder, inFormat]
  cases al <;> cases ve <;> simp only [Bool.false_eq_true, or_true, true_or, or_false]
  omega

/-! ### Population count -/

/-- Number of one bits among the `2^k` low bits. -/
def popDC : Nat → Nat → Nat
  | 0, F => F % 2
  | k + 1, F => if F = 0 then 0 else popDC k (F % 2 ^ (2 ^ k)) + popDC k (F / 2 ^ (2 ^ k))

theorem popDC_eq : ∀ (k F : Nat), popDC k F = (List.range (2 ^ k)).countP (fun i => F.testBit i)
  | 0, F => by
    have : List.range (2 ^ 0) = [0] := rfl
    rw [this, List.countP_singleton, popDC, Nat.testBit_zero]
    have := Nat.mod_two_eq_zero_or_one F
    rcases this with h | h <;> rw [h] <;> rfl
  | k + 1, F => by
    rw [popDC]
    split
    · rename_i h
      subst h
      simp
    · rw [popDC_eq k, popDC_eq k, show 2 ^ (k + 1) = 2 ^ k + 2 ^ k by ring, List.range_add, List.countP_append, List.countP_map]
      congr 1
      · apply List.countP_congr
        intro i hi
        rw [List.mem_range] at hi
        rw [Nat.testBit_mod_two_pow]
        simp [hi]
      · apply List.countP_congr
        intro i hi
        rw [Nat.testBit_div_two_pow]
        simp [Function.comp, Nat.add_comm]

set_option maxRecDepth 100000 in
theorem pop_facts : ∀ v ∈ List.range' 1 40, specBits v < 2 ^ (size v * size v) ∧ size v * size v ≤ 2 ^ 15 ∧
    (size v * size v - popDC 15 (specBits v)) / 8 = (vinfo v).bytes ∧ (∀ l ∈ levels, eccPerBlock v l = (linfo v l).check ∧ numBlocks v l = (linfo v l).nblock) := by
  decide +kernel

theorem pop_specBits {v : Nat} (h1 : 1 ≤ v) (h2 : v ≤ 40) :
    popDC 15 (specBits v) = (List.range (size v * size v)).countP fun i => isFunction v (i / size v) (i % size v) := by
  obtain ⟨h3, h4, -⟩ := pop_facts v (mem_versions h1 h2)
  have hs : 0 < size v := by unfold size; omega
  rw [popDC_eq, show 2 ^ 15 = size v * size v + (2 ^ 15 - size v * size v) by omega, List.range_add, List.countP_append, List.countP_map]
  have hz : (List.range (2 ^ 15 - size v * size v)).countP ((fun i => (specBits v).testBit i) ∘ fun x => size v * size v + x) = 0 := by
    rw [List.countP_eq_zero]
    intro i _
    simp only [Function.comp]
    rw [Nat.testBit_lt_two_pow]
    · simp
    · exact Nat.lt_of_lt_of_le h3 (Nat.pow_le_pow_right (by omega) (by omega))
  rw [hz, Nat.add_zero]
  apply List.countP_congr
  intro i hi
  rw [List.mem_range] at hi
  have hy : i / size v < size v := Nat.div_lt_of_lt_mul hi
  have hx : i % size v < size v := Nat.mod_lt _ hs
  rw [← specBits_testBit h1 h2 hy hx, Nat.mul_comm, Nat.div_add_mod]

/-! ### Visiting order -/

theorem mem_columnPairs {v : Nat} {c : Nat × Bool} (h : c ∈ columnPairs v) : 1 ≤ c.1 ∧ c.1 < size v ∧ c.1 ≠ 6 ∧ c.1 ≠ 7 := by
  unfold columnPairs at h
  rw [List.mem_map] at h
  obtain ⟨k, hk, rfl⟩ := h
  rw [List.mem_range] at hk
  unfold size at *
  simp only
  split <;> omega

theorem columnPairs_cover {v x : Nat} (hx : x < size v) (h6 : x ≠ 6) : ∃ c ∈ columnPairs v, x = c.1 ∨ x = c.1 - 1 := by
  unfold columnPairs
  simp only [List.mem_map, List.mem_range]
  by_cases h : 6 < x
  · refine ⟨_, ⟨(size v - 1 - x) / 2, ?_, rfl⟩, ?_⟩
    · unfold size at *; omega
    · unfold size at *; simp only; rw [if_pos (by omega)]; omega
  · refine ⟨_, ⟨(size v - 2 - x) / 2, ?_, rfl⟩, ?_⟩
    · unfold size at *; omega
    · unfold size at *; simp only; rw [if_neg (by omega)]; omega

theorem columnPairs_pairwise (v : Nat) : (columnPairs v).Pairwise fun a b => b.1 + 1 < a.1 := by
  unfold columnPairs
  rw [List.pairwise_map]
  apply List.Pairwise.imp_of_mem _ List.pairwise_lt_range
  intro a b ha hb hab
  rw [List.mem_range] at ha hb
  unfold size at *
  simp only
  split <;> split <;> omega

theorem mem_zigzag {v y x : Nat} : (y, x) ∈ zigzag v ↔ y < size v ∧ x < size v ∧ x ≠ 6 := by
  unfold zigzag
  simp only [List.mem_flatMap, List.mem_range]
  constructor
  · rintro ⟨c, hc, k, hk, hm⟩
    obtain ⟨h1, h2, h3, h4⟩ := mem_columnPairs hc
    simp only [List.mem_cons, Prod.mk.injEq, List.not_mem_nil, or_false] at hm
    have hy : y < size v := by
      rcases hm with hm | hm
      all_goals
        rw [hm.1]
        split
        · exact Nat.lt_of_le_of_lt (Nat.sub_le _ _) (by omega)
        · exact hk
    refine ⟨hy, ?_, ?_⟩
    · rcases hm with hm | hm <;> rw [hm.2]
      · exact h2
      · omega
    · rcases hm with hm | hm <;> rw [hm.2]
      · exact h3
      · omega
  · rintro ⟨hy, hx, h6⟩
    obtain ⟨c, hc, h⟩ := columnPairs_cover hx h6
    refine ⟨c, hc, if c.2 then size v - 1 - y else y, by split <;> omega, ?_⟩
    have : (if c.2 = true then size v - 1 - (if c.2 = true then size v - 1 - y else y) else (if c.2 = true then size v - 1 - y else y)) = y := by
      split <;> omega
    simp only [this, List.mem_cons, Prod.mk.injEq, List.not_mem_nil, or_false, true_and]
    exact h

theorem zigzag_nodup (v : Nat) : (zigzag v).Nodup := by
  unfold zigzag
  rw [List.nodup_flatMap]
  constructor
  · intro c hc
    obtain ⟨h1, h2, h3, h4⟩ := mem_columnPairs hc
    rw [List.nodup_flatMap]
    constructor
    · intro k hk
      simp only [List.nodup_cons, List.mem_singleton, Prod.mk.injEq, List.not_mem_nil, not_false_eq_true, List.nodup_nil, and_true, true_and]
      omega
    · apply List.Pairwise.imp_of_mem _ List.pairwise_lt_range
      intro a b ha hb hab
      rw [List.mem_range] at ha hb
      rintro ⟨p, q⟩ hp hq
      simp only [List.mem_cons, Prod.mk.injEq, List.not_mem_nil, or_false] at hp hq
      have e1 : p = if c.2 then size v - 1 - a else a := by rcases hp with hp | hp <;> exact hp.1
      have e2 : p = if c.2 then size v - 1 - b else b := by rcases hq with hp | hp <;> exact hp.1
      split at e1 <;> rename_i hcc
      · rw [if_pos hcc] at e2; omega
      · rw [if_neg hcc] at e2; omega
  · apply List.Pairwise.imp_of_mem _ (columnPairs_pairwise v)
    intro a b ha hb hab
    have h1 := (mem_columnPairs ha).1
    have h2 := (mem_columnPairs hb).1
    rintro ⟨p, q⟩ hp hq
    simp only [List.mem_flatMap, List.mem_cons, Prod.mk.injEq, List.not_mem_nil, or_false] at hp hq
    obtain ⟨k, -, hp⟩ := hp
    obtain ⟨j, -, hq⟩ := hq
    omega

theorem dataCells_nodup (v : Nat) : (dataCells v).Nodup := (zigzag_nodup v).filter _

theorem mem_dataCells {v y x : Nat} : (y, x) ∈ dataCells v ↔ y < size v ∧ x < size v ∧ isFunction v y x = false := by
  unfold dataCells
  rw [List.mem_filter, mem_zigzag]
  simp only [Bool.not_eq_eq_eq_not, Bool.not_true]
  constructor
  · rintro ⟨⟨h1, h2, -⟩, h3⟩; exact ⟨h1, h2, h3⟩
  · rintro ⟨h1, h2, h3⟩
    refine ⟨⟨h1, h2, ?_⟩, h3⟩
    rintro rfl
    simp [isFunction] at h3

theorem dataCells_length {v : Nat} (h1 : 1 ≤ v) (h2 : v ≤ 40) : (dataCells v).length = size v * size v - popDC 15 (specBits v) := by
  have hs : 0 < size v := by unfold size; omega
  have hp : (dataCells v).Perm (((List.range (size v * size v)).map fun i => (i / size v, i % size v)).filter fun c => !isFunction v c.1 c.2) := by
    rw [List.perm_ext_iff_of_nodup (dataCells_nodup v)]
    · rintro ⟨y, x⟩
      rw [mem_dataCells, List.mem_filter, List.mem_map]
      simp only [Bool.not_eq_eq_eq_not, Bool.not_true, List.mem_range]
      constructor
      · rintro ⟨hy, hx, hf⟩
        refine ⟨⟨y * size v + x, ?_, ?_⟩, hf⟩
        · have : (y + 1) * size v ≤ size v * size v := Nat.mul_le_mul_right _ hy
          rw [Nat.add_mul, Nat.one_mul] at this
          omega
        · rw [Nat.mul_comm, Nat.mul_add_div hs, Nat.mul_add_mod, Nat.div_eq_of_lt hx, Nat.mod_eq_of_lt hx]; rfl
      · rintro ⟨⟨i, hi, e⟩, hf⟩
        rw [Prod.mk.injEq] at e
        exact ⟨by rw [← e.1]; exact Nat.div_lt_of_lt_mul hi, by rw [← e.2]; exact Nat.mod_lt _ hs, hf⟩
    · apply List.Nodup.filter
      apply List.Nodup.map_on _ List.nodup_range
      intro a _ b _ e
      rw [Prod.mk.injEq] at e
      rw [← Nat.div_add_mod a (size v), ← Nat.div_add_mod b (size v), e.1, e.2]
  rw [hp.length_eq, ← List.countP_eq_length_filter, List.countP_map, pop_specBits h1 h2]
  have := List.length_eq_countP_add_countP (fun i => isFunction v (i / size v) (i % size v)) (l := List.range (size v * size v))
  rw [List.length_range] at this
  have e : List.countP ((fun c : Nat × Nat => !isFunction v c.1 c.2) ∘ fun i => (i / size v, i % size v)) (List.range (size v * size v)) =
      List.countP (fun a => decide ¬isFunction v (a / size v) (a % size v) = true) (List.range (size v * size v)) := by
    apply List.countP_congr
    intro i _
    simp
  rw [e]
  omega

theorem totalCodewords_eq {v : Nat} (h1 : 1 ≤ v) (h2 : v ≤ 40) : totalCodewords v = (vinfo v).bytes := by
  unfold totalCodewords
  rw [dataCells_length h1 h2]
  exact (pop_facts v (mem_versions h1 h2)).2.2.1

theorem tables_eq {v : Nat} (h1 : 1 ≤ v) (h2 : v ≤ 40) (l : Level) : eccPerBlock v l = (linfo v l).check ∧ numBlocks v l = (linfo v l).nblock :=
  (pop_facts v (mem_versions h1 h2)).2.2.2 l (mem_levels l)

theorem dataCodewords_eq {v : Nat} (h1 : 1 ≤ v) (h2 : v ≤ 40) (l : Level) : dataCodewords v l = dataBytes v l := by
  unfold dataCodewords dataBytes
  rw [totalCodewords_eq h1 h2, (tables_eq h1 h2 l).1, (tables_eq h1 h2 l).2]

/-! ### The code's visiting order -/

theorem sweepCols_facts : ∀ v ∈ List.range' 1 40, (sweepCols (size v) (size v)).map (fun c => (c.1 - 1, c.2)) = columnPairs v := by
  decide +kernel

theorem reverse_range (n : Nat) : (List.range n).reverse = (List.range n).map fun k => n - 1 - k := by
  apply List.ext_getElem
  · simp
  · intro i h1 h2
    simp

theorem sweepCells_eq {v : Nat} (h1 : 1 ≤ v) (h2 : v ≤ 40) : sweepCells (size v) = zigzag v := by
  unfold sweepCells zigzag
  rw [← sweepCols_facts v (mem_versions h1 h2), List.flatMap_map]
  congr 1
  funext c
  simp only
  cases c.2
  · simp only [Bool.false_eq_true, if_false]
    congr 1
  · simp only [if_true]
    rw [reverse_range, List.flatMap_map]
    congr 1

end Verif.QR
