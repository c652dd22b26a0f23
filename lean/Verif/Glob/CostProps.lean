import Verif.Glob.Cost
import Mathlib.Tactic.Ring
import Mathlib.Tactic.Linarith
import Mathlib.Algebra.Order.Ring.Nat
/-
An upper bound for the number of calls in a match.
-/
namespace Verif.Glob

mutual
/-- The number of matchers a matcher consists of. -/
def Matcher.parts : Matcher → Nat
  | .anyOf ms => 1 + partsList ms
  | .everyOf ms => 1 + partsList ms
  | .row _ ms => 1 + partsList ms
  | .btree v l r _ _ _ => 1 + (v.parts + (partsOpt l + partsOpt r))
  | _ => 1
/-- The number of matchers of a side of a BTree. -/
def partsOpt : Option Matcher → Nat
  | none => 0
  | some m => m.parts
/-- The number of matchers in a list. -/
def partsList : List Matcher → Nat
  | [] => 0
  | m :: ms => m.parts + partsList ms
end

theorem Matcher.parts_pos (m : Matcher) : 1 ≤ m.parts := by
  cases m <;> simp only [Matcher.parts] <;> omega

/-! ### Numbers -/

theorem pow_add_le {N a b : Nat} (hN : 2 ≤ N) (ha : 1 ≤ a) (hb : 1 ≤ b) : N ^ a + N ^ b ≤ N ^ (a + b) := by
  have h1 : 2 ≤ N ^ a := le_trans hN (Nat.le_self_pow (by omega) N)
  have h2 : 2 ≤ N ^ b := le_trans hN (Nat.le_self_pow (by omega) N)
  rw [pow_add]
  nlinarith

/-- The sum of powers for a list. -/
def sumPow (N k : Nat) : List Matcher → Nat
  | [] => 0
  | m :: ms => N ^ (k * m.parts) + sumPow N k ms

theorem sumPow_le {N k : Nat} (hN : 2 ≤ N) (hk : 1 ≤ k) : ∀ ms : List Matcher, sumPow N k ms ≤ N ^ (k * partsList ms)
  | [] => Nat.zero_le _
  | [m] => by simp [sumPow, partsList]
  | m :: m' :: ms => by
    have ih := sumPow_le hN hk (m' :: ms)
    have h1 := m.parts_pos
    have h2 := m'.parts_pos
    have h3 : 1 ≤ partsList (m' :: ms) := by rw [partsList]; omega
    rw [sumPow, partsList, Nat.mul_add]
    refine le_trans (Nat.add_le_add_left ih _) (pow_add_le hN ?_ ?_)
    · exact Nat.mul_pos hk h1
    · exact Nat.mul_pos hk h3

/-! ### Lengths -/

theorem runesAux_length : ∀ (n : Nat) (s : Str), (runesAux n s).length ≤ n
  | 0, _ => by simp [runesAux]
  | n + 1, [] => by simp [runesAux]
  | n + 1, b :: s => by
    rw [runesAux, List.length_cons]
    exact Nat.succ_le_succ (runesAux_length n _)

theorem positions_length : ∀ (i : Nat) (rs : List (Nat × Nat)), (positions i rs).length = rs.length
  | _, [] => rfl
  | i, (r, w) :: rs => by rw [positions, List.length_cons, positions_length, List.length_cons]

theorem rangeStr_length (s : Str) : (rangeStr s).length ≤ s.length := by
  unfold rangeStr
  rw [positions_length]
  exact runesAux_length _ _

theorem suffixEnds_length (q : Str) : ∀ (n : Nat) (s : Str), (suffixEnds q n s).length ≤ n
  | 0, _ => by simp [suffixEnds]
  | n + 1, s => by
    rw [suffixEnds]
    split
    · simp
    · rw [List.length_cons]
      exact Nat.succ_le_succ (suffixEnds_length q n _)

theorem appendMerge_length : ∀ (a b : List Nat), (appendMerge a b).length ≤ a.length + b.length
  | [], b => by simp [appendMerge]
  | x :: a, [] => by simp [appendMerge]
  | x :: a, y :: b => by
    rw [appendMerge]
    split
    · have := appendMerge_length a b
      simp only [List.length_cons]; omega
    · split
      · have := appendMerge_length a (y :: b)
        simp only [List.length_cons] at *; omega
      · have := appendMerge_length (x :: a) b
        simp only [List.length_cons] at *; omega
termination_by a b => a.length + b.length

/-- The bounds for a matcher on the strings of length up to `n`. -/
structure Bounded (n : Nat) (m : Matcher) : Prop where
  calls : ∀ s : Str, s.length ≤ n → m.calls s ≤ (n + 2) ^ (2 * m.parts)
  index : ∀ s : Str, s.length ≤ n → m.indexCalls s ≤ (n + 2) ^ (2 * m.parts)
  segs : ∀ s : Str, s.length ≤ n → ∀ i seg, m.index s = some (some (i, seg)) → seg.length ≤ (n + 2) ^ m.parts

theorem bounded_leaf {n : Nat} {m : Matcher} (hp : m.parts = 1) (h1 : ∀ s, m.calls s = 1) (h2 : ∀ s, m.indexCalls s = 1)
    (h3 : ∀ s : Str, ∀ i seg, m.index s = some (some (i, seg)) → seg.length ≤ s.length + 1) : Bounded n m := by
  refine ⟨fun s _ => ?_, fun s _ => ?_, fun s hs i seg h => ?_⟩
  · rw [h1]; exact Nat.one_le_pow _ _ (by omega)
  · rw [h2]; exact Nat.one_le_pow _ _ (by omega)
  · rw [hp, pow_one]
    have := h3 s i seg h
    omega

theorem firstRune_segs {p : Nat → Bool} {s : Str} {i : Nat} {seg : List Nat} (h : firstRune p s = some (some (i, seg))) : seg.length ≤ s.length + 1 := by
  unfold firstRune at h
  split at h
  · cases h; simp
  · cases h

theorem anyIndex_segs {seps : List Nat} {s : Str} {i : Nat} {seg : List Nat} (h : anyIndex seps s = some (some (i, seg))) : seg.length ≤ s.length + 1 := by
  unfold anyIndex at h
  split at h
  · cases h; simp
  · rename_i found _ _
    cases h
    have := rangeStr_length (s.take found)
    rw [List.length_take] at this
    simp only [List.length_append, List.length_map, List.length_cons, List.length_nil]
    omega
  · cases h
    have := rangeStr_length s
    simp only [List.length_append, List.length_map, List.length_cons, List.length_nil]
    omega

theorem containsIndex_segs {needle : Str} {not : Bool} {s : Str} {i : Nat} {seg : List Nat} (h : containsIndex needle not s = some (some (i, seg))) : seg.length ≤ s.length + 1 := by
  unfold containsIndex at h
  split at h
  · cases h
  · rename_i idx _
    simp only at h
    split at h
    · cases h; simp
    · cases h
      have := rangeStr_length (s.drop (idx + needle.length))
      rw [List.length_drop] at this
      simp only [List.length_append, List.length_map, List.length_cons, List.length_nil]
      omega
  · rename_i idx _
    cases h
    have := rangeStr_length (s.take idx)
    rw [List.length_take] at this
    simp only [List.length_append, List.length_map, List.length_cons, List.length_nil]
    omega
  · cases h
    have := rangeStr_length s
    simp only [List.length_append, List.length_map, List.length_cons, List.length_nil]
    omega

theorem minIndex_segs {l : Nat} {s : Str} {i : Nat} {seg : List Nat} (h : minIndex l s = some (some (i, seg))) : seg.length ≤ s.length + 1 := by
  unfold minIndex at h
  split at h
  · cases h
  · simp only at h
    split at h
    · cases h
    · cases h
      rw [List.length_map]
      refine le_trans (List.length_filter_le _ _) ?_
      rw [List.length_zipIdx]
      have := rangeStr_length s
      omega

theorem maxIndex_segs {l : Nat} {s : Str} {i : Nat} {seg : List Nat} (h : maxIndex l s = some (some (i, seg))) : seg.length ≤ s.length + 1 := by
  unfold maxIndex at h
  cases h
  have := rangeStr_length s
  simp only [List.length_cons, List.length_map, List.length_take]
  omega

theorem prefixIndex_segs {p : Str} {s : Str} {i : Nat} {seg : List Nat} (h : prefixIndex p s = some (some (i, seg))) : seg.length ≤ s.length + 1 := by
  unfold prefixIndex at h
  split at h
  · cases h
  · rename_i idx _
    simp only [Option.some.injEq, Prod.mk.injEq] at h
    obtain ⟨-, rfl⟩ := h
    have := rangeStr_length (s.drop (idx + p.length))
    rw [List.length_drop] at this
    simp only [List.length_cons, List.length_map]
    omega

theorem suffixIndex_segs {p : Str} {s : Str} {i : Nat} {seg : List Nat} (h : suffixIndex p s = some (some (i, seg))) : seg.length ≤ s.length + 1 := by
  unfold suffixIndex at h
  split at h
  · cases h
  · cases h; simp

theorem prefixSuffixIndex_segs {p q : Str} {s : Str} {i : Nat} {seg : List Nat} (h : prefixSuffixIndex p q s = some (some (i, seg))) : seg.length ≤ s.length + 1 := by
  unfold prefixSuffixIndex at h
  split at h
  · cases h
  · split at h
    · cases h; simp
    · split at h
      · cases h
      · simp only at h
        split at h
        · cases h
        · cases h
          rw [List.length_reverse]
          exact suffixEnds_length _ _ _

theorem prefixAnyIndex_segs {p : Str} {seps : List Nat} {s : Str} {i : Nat} {seg : List Nat} (h : prefixAnyIndex p seps s = some (some (i, seg))) : seg.length ≤ s.length + 1 := by
  unfold prefixAnyIndex at h
  split at h
  · cases h
  · rename_i idx _
    simp only [Option.some.injEq, Prod.mk.injEq] at h
    obtain ⟨-, rfl⟩ := h
    rw [List.length_cons, List.length_map]
    refine Nat.succ_le_succ (le_trans (rangeStr_length _) ?_)
    split
    · rw [List.length_take, List.length_drop]; omega
    · rw [List.length_drop]; omega

theorem suffixAnyIndex_segs {p : Str} {seps : List Nat} {s : Str} {i : Nat} {seg : List Nat} (h : suffixAnyIndex p seps s = some (some (i, seg))) : seg.length ≤ s.length + 1 := by
  unfold suffixAnyIndex at h
  split at h
  · cases h
  · split at h
    · cases h
    · simp only [Option.some.injEq, Prod.mk.injEq] at h
      obtain ⟨-, rfl⟩ := h
      simp

/-! ### Loops -/

theorem anyOfCalls_le {n : Nat} {s : Str} (hs : s.length ≤ n) : ∀ {ms : List Matcher}, (∀ m ∈ ms, Bounded n m) → anyOfCalls s (callFns ms) ≤ sumPow (n + 2) 2 ms
  | [], _ => Nat.le_refl _
  | m :: ms, h => by
    rw [callFns, anyOfCalls, sumPow]
    have h1 := (h m List.mem_cons_self).calls s hs
    have h2 := anyOfCalls_le hs fun m' hm => h m' (List.mem_cons_of_mem _ hm)
    split <;> omega

theorem everyOfCalls_le {n : Nat} {s : Str} (hs : s.length ≤ n) : ∀ {ms : List Matcher}, (∀ m ∈ ms, Bounded n m) → everyOfCalls s (callFns ms) ≤ sumPow (n + 2) 2 ms
  | [], _ => Nat.le_refl _
  | m :: ms, h => by
    rw [callFns, everyOfCalls, sumPow]
    have h1 := (h m List.mem_cons_self).calls s hs
    have h2 := everyOfCalls_le hs fun m' hm => h m' (List.mem_cons_of_mem _ hm)
    split <;> omega

theorem anyOfIndexCalls_le {n : Nat} {s : Str} (hs : s.length ≤ n) : ∀ {ms : List Matcher}, (∀ m ∈ ms, Bounded n m) → anyOfIndexCalls s (indexCallFns ms) ≤ sumPow (n + 2) 2 ms
  | [], _ => Nat.le_refl _
  | m :: ms, h => by
    rw [indexCallFns, anyOfIndexCalls, sumPow]
    have h1 := (h m List.mem_cons_self).index s hs
    have h2 := anyOfIndexCalls_le hs fun m' hm => h m' (List.mem_cons_of_mem _ hm)
    split <;> omega

theorem everyOfIndexCalls_le {n : Nat} {s : Str} (hs : s.length ≤ n) : ∀ {ms : List Matcher}, (∀ m ∈ ms, Bounded n m) →
    ∀ first index offset current sub, sub.length ≤ n → everyOfIndexCalls s first index offset current sub (indexCallFns ms) ≤ sumPow (n + 2) 2 ms
  | [], _ => fun _ _ _ _ _ _ => Nat.le_refl _
  | m :: ms, h => by
    intro first index offset current sub hsub
    rw [indexCallFns, everyOfIndexCalls, sumPow]
    have h1 := (h m List.mem_cons_self).index sub hsub
    split
    · omega
    · omega
    · simp only
      split
      · omega
      · split
        · omega
        · have h2 := everyOfIndexCalls_le hs (fun m' hm => h m' (List.mem_cons_of_mem _ hm))
          refine Nat.add_le_add h1 (h2 _ _ _ _ _ ?_)
          rw [List.length_drop]; omega

theorem rowMatchAllCalls_le {n : Nat} {s : Str} (hs : s.length ≤ n) : ∀ {ms : List Matcher}, (∀ m ∈ ms, Bounded n m) →
    ∀ idx, rowMatchAllCalls s idx ((lens ms).zip (callFns ms)) ≤ sumPow (n + 2) 2 ms
  | [], _ => fun _ => Nat.le_refl _
  | m :: ms, h => by
    intro idx
    rw [lens, callFns, List.zip_cons_cons, rowMatchAllCalls, sumPow]
    simp only
    split
    · omega
    · split
      · omega
      · have h1 := (h m List.mem_cons_self).calls (((s.drop idx).take ((rowStep (m.len.getD 0) (s.drop idx)).1 + 1)))
          (by rw [List.length_take, List.length_drop]; omega)
        have h2 := rowMatchAllCalls_le hs (fun m' hm => h m' (List.mem_cons_of_mem _ hm)) (idx + (rowStep (m.len.getD 0) (s.drop idx)).1 + 1)
        split <;> omega

theorem rowIndexCalls_le {n l : Nat} {s : Str} (hs : s.length ≤ n) {ms : List Matcher} (h : ∀ m ∈ ms, Bounded n m) :
    ∀ is : List Nat, rowIndexCalls l ((lens ms).zip (callFns ms)) s is ≤ is.length * sumPow (n + 2) 2 ms
  | [] => Nat.zero_le _
  | i :: is => by
    rw [rowIndexCalls, List.length_cons, Nat.add_mul, Nat.one_mul]
    split
    · exact Nat.zero_le _
    · have h1 := rowMatchAllCalls_le (s := s.drop i) (by rw [List.length_drop]; omega) h 0
      have h2 := rowIndexCalls_le (l := l) hs h is
      split <;> omega

theorem btreeSegmentsCalls_le {n R : Nat} {s : Str} (hs : s.length ≤ n) {right : Str → Option Bool} {rc : Str → Nat} (h : ∀ s : Str, s.length ≤ n → rc s ≤ R) (pos : Nat) :
    ∀ ls : List Nat, btreeSegmentsCalls right rc s pos ls ≤ ls.length * R
  | [] => Nat.zero_le _
  | l :: ls => by
    rw [btreeSegmentsCalls, List.length_cons, Nat.add_mul, Nat.one_mul]
    have h1 := h (if s.length ≤ pos + l then [] else s.drop (pos + l)) (by
      split
      · simp
      · rw [List.length_drop]; omega)
    have h2 := btreeSegmentsCalls_le hs h pos ls (right := right)
    generalize (if s.length ≤ pos + l then [] else s.drop (pos + l)) = r at *
    split <;> omega

theorem btreeLoopCalls_le {n V L R S : Nat} {s : Str} (hs : s.length ≤ n) {value : Str → Idx} {vc : Str → Nat} {left right : Str → Option Bool} {lc rc : Str → Nat}
    (hv : ∀ s : Str, s.length ≤ n → vc s ≤ V) (hl : ∀ s : Str, s.length ≤ n → lc s ≤ L) (hr : ∀ s : Str, s.length ≤ n → rc s ≤ R)
    (hseg : ∀ s : Str, s.length ≤ n → ∀ i seg, value s = some (some (i, seg)) → seg.length ≤ S) (limit : Nat) :
    ∀ k offset, btreeLoopCalls value vc left right lc rc s limit k offset ≤ k * (V + L + S * R)
  | 0, _ => Nat.zero_le _
  | k + 1, offset => by
    rw [btreeLoopCalls, Nat.add_mul, Nat.one_mul]
    have hsub : ((s.take limit).drop offset).length ≤ n := by rw [List.length_drop, List.length_take]; omega
    split
    · have h1 := hv _ hsub
      split
      · omega
      · omega
      · rename_i index segments hidx
        simp only
        have h2 := hl (s.take (offset + index)) (by rw [List.length_take]; omega)
        have h3 := btreeSegmentsCalls_le hs hr (offset + index) segments.reverse (right := right)
        have h4 := hseg _ hsub _ _ hidx
        rw [List.length_reverse] at h3
        have h5 : segments.length * R ≤ S * R := Nat.mul_le_mul_right _ h4
        have ih := btreeLoopCalls_le hs hv hl hr hseg limit k (offset + (index + (decodeRune (s.drop (offset + index))).2)) (left := left) (right := right)
        have h6 : segments.length * R ≤ S * R := h5
        generalize k * (V + L + S * R) = K at *
        generalize S * R = T at *
        generalize segments.length * R = T' at *
        refine le_trans (Nat.add_le_add h1 (Nat.add_le_add h2 (?_ : _ ≤ T + K))) (by omega)
        split
        · omega
        · refine Nat.add_le_add (le_trans h3 h5) ?_
          split <;> omega
        · omega
    · exact Nat.zero_le _

/-! ### Segments -/

theorem anyOfIndex_segs {n : Nat} {s : Str} (hs : s.length ≤ n) : ∀ {ms : List Matcher}, (∀ m ∈ ms, Bounded n m) →
    ∀ (acc : Option (Nat × List Nat)) (A : Nat), (∀ i seg, acc = some (i, seg) → seg.length ≤ A) → ∀ i seg, anyOfIndex s acc (indexFns ms) = some (some (i, seg)) →
    seg.length ≤ A + sumPow (n + 2) 1 ms
  | [], _ => by
    intro acc A hA i seg h
    rw [indexFns, anyOfIndex, Option.some.injEq] at h
    exact Nat.le_add_right_of_le (hA i seg h)
  | m :: ms, h => by
    intro acc A hA i seg hi
    have hm := (h m List.mem_cons_self).segs s hs
    have ih := anyOfIndex_segs hs fun m' hm => h m' (List.mem_cons_of_mem _ hm)
    rw [indexFns, anyOfIndex] at hi
    rw [sumPow, Nat.one_mul]
    split at hi
    · cases hi
    · have := ih acc A hA i seg hi; omega
    · rename_i idx sg hidx
      have hsg := hm idx sg hidx
      have hb : ∀ (acc' : Option (Nat × List Nat)), (∀ i seg, acc' = some (i, seg) → seg.length ≤ A + (n + 2) ^ m.parts) →
          anyOfIndex s acc' (indexFns ms) = some (some (i, seg)) → seg.length ≤ A + ((n + 2) ^ m.parts + sumPow (n + 2) 1 ms) := by
        intro acc' h1 h2
        have := ih acc' _ h1 i seg h2
        omega
      split at hi
      · exact hb _ (fun j t e => by simp only [Option.some.injEq, Prod.mk.injEq] at e; obtain ⟨-, rfl⟩ := e; omega) hi
      · rename_i index segments
        have hs' := hA index segments rfl
        split at hi
        · exact hb _ (fun j t e => by simp only [Option.some.injEq, Prod.mk.injEq] at e; obtain ⟨-, rfl⟩ := e; omega) hi
        · split at hi
          · exact hb _ (fun j t e => by simp only [Option.some.injEq, Prod.mk.injEq] at e; obtain ⟨-, rfl⟩ := e; omega) hi
          · refine hb _ (fun j t e => ?_) hi
            simp only [Option.some.injEq, Prod.mk.injEq] at e
            obtain ⟨-, rfl⟩ := e
            have := appendMerge_length segments sg
            omega

theorem flatMap_filter_length (p : Nat → Nat → Bool) (seg : List Nat) : ∀ cur : List Nat, (cur.flatMap fun ex => seg.filter (p ex)).length ≤ cur.length * seg.length
  | [] => by simp
  | x :: cur => by
    rw [List.flatMap_cons, List.length_append, List.length_cons, Nat.add_mul, Nat.one_mul]
    have := flatMap_filter_length p seg cur
    have h2 := List.length_filter_le (p x) seg
    omega

theorem everyOfIndex_segs {n : Nat} {s : Str} (hs : s.length ≤ n) : ∀ {ms : List Matcher}, (∀ m ∈ ms, Bounded n m) →
    ∀ first index offset current sub, sub.length ≤ n → ∀ i seg, everyOfIndex s first index offset current sub (indexFns ms) = some (some (i, seg)) →
    seg.length ≤ max 1 current.length * (n + 2) ^ partsList ms
  | [], _ => by
    intro first index offset current sub _ i seg h
    rw [indexFns, everyOfIndex] at h
    cases h
    rw [partsList, pow_zero]
    omega
  | m :: ms, h => by
    intro first index offset current sub hsub i seg hi
    have ih := everyOfIndex_segs hs fun m' hm => h m' (List.mem_cons_of_mem _ hm)
    rw [indexFns, everyOfIndex] at hi
    split at hi
    · cases hi
    · cases hi
    · rename_i idx sg hidx
      have hsg := (h m List.mem_cons_self).segs sub hsub idx sg hidx
      simp only at hi
      split at hi
      · cases hi
      · split at hi
        · cases hi
        · have := ih _ _ _ _ _ (by rw [List.length_drop]; omega) i seg hi
          refine le_trans this ?_
          rw [partsList, pow_add, ← Nat.mul_assoc]
          refine Nat.mul_le_mul_right _ ?_
          have hpos : 1 ≤ (n + 2) ^ m.parts := Nat.one_le_pow _ _ (by omega)
          have hone : 1 ≤ max 1 current.length := by omega
          refine max_le (Nat.mul_pos hone hpos) ?_
          split
          · calc sg.length ≤ 1 * (n + 2) ^ m.parts := by omega
              _ ≤ _ := Nat.mul_le_mul_right _ hone
          · refine le_trans (flatMap_filter_length (fun ex k => decide ((ex : Int) + ((index : Int) - ((idx : Int) + offset)) = (k : Int))) sg current) ?_
            exact Nat.mul_le_mul (by omega) hsg

theorem row_segs {l : Nat} {fs : List (Option Nat × (Str → Option Bool))} {s : Str} : ∀ {is : List Nat} {i : Nat} {seg : List Nat},
    rowIndex l fs s is = some (some (i, seg)) → seg.length ≤ 1
  | [], _, _, h => by rw [rowIndex] at h; cases h
  | j :: is, i, seg, h => by
    rw [rowIndex] at h
    split at h
    · cases h
    · split at h
      · cases h
      · cases h; simp
      · exact row_segs h

/-! ### All matchers -/

theorem one_add_le {N k x : Nat} (hN : 2 ≤ N) (h : x ≤ N ^ (2 * k)) : 1 + x ≤ N ^ (2 * (1 + k)) := by
  have hp : 1 ≤ N ^ (2 * k) := Nat.one_le_pow _ _ (by omega)
  rw [show 2 * (1 + k) = 2 + 2 * k by ring, pow_add]
  nlinarith [Nat.mul_le_mul hN hN]

theorem bounded_anyOf {n : Nat} {ms : List Matcher} (h : ∀ m ∈ ms, Bounded n m) : Bounded n (.anyOf ms) := by
  have hN : 2 ≤ n + 2 := by omega
  refine ⟨fun s hs => ?_, fun s hs => ?_, fun s hs i seg hi => ?_⟩
  · exact one_add_le hN (le_trans (anyOfCalls_le hs h) (sumPow_le hN (by omega) ms))
  · exact one_add_le hN (le_trans (anyOfIndexCalls_le hs h) (sumPow_le hN (by omega) ms))
  · have h1 := anyOfIndex_segs hs h none 0 (fun _ _ e => by cases e) i seg hi
    have h2 := sumPow_le hN (Nat.le_refl 1) ms
    rw [Nat.one_mul] at h2
    rw [Matcher.parts, pow_add, pow_one]
    have hp : 1 ≤ (n + 2) ^ partsList ms := Nat.one_le_pow _ _ (by omega)
    nlinarith

theorem bounded_everyOf {n : Nat} {ms : List Matcher} (h : ∀ m ∈ ms, Bounded n m) : Bounded n (.everyOf ms) := by
  have hN : 2 ≤ n + 2 := by omega
  refine ⟨fun s hs => ?_, fun s hs => ?_, fun s hs i seg hi => ?_⟩
  · exact one_add_le hN (le_trans (everyOfCalls_le hs h) (sumPow_le hN (by omega) ms))
  · exact one_add_le hN (le_trans (everyOfIndexCalls_le hs h _ _ _ _ _ hs) (sumPow_le hN (by omega) ms))
  · have h1 := everyOfIndex_segs hs h _ _ _ _ _ hs i seg hi
    rw [List.length_nil, show max 1 0 = 1 from rfl, Nat.one_mul] at h1
    exact le_trans h1 (Nat.pow_le_pow_right (by omega) (by rw [Matcher.parts]; omega))

theorem bounded_row {n l : Nat} {ms : List Matcher} (h : ∀ m ∈ ms, Bounded n m) : Bounded n (.row l ms) := by
  have hN : 2 ≤ n + 2 := by omega
  have hsum := sumPow_le hN (k := 2) (by omega) ms
  refine ⟨fun s hs => ?_, fun s hs => ?_, fun s hs i seg hi => ?_⟩
  · refine one_add_le hN ?_
    unfold rowMatchCalls
    split
    · exact le_trans (rowMatchAllCalls_le hs h 0) hsum
    · exact Nat.zero_le _
  · have h1 := rowIndexCalls_le (l := l) hs h ((rangeStr s).map Prod.fst)
    have h2 := rangeStr_length s
    rw [List.length_map] at h1
    have h3 : (rangeStr s).length * sumPow (n + 2) 2 ms ≤ n * (n + 2) ^ (2 * partsList ms) := Nat.mul_le_mul (by omega) hsum
    have hp : 1 ≤ (n + 2) ^ (2 * partsList ms) := Nat.one_le_pow _ _ (by omega)
    change 1 + rowIndexCalls l ((lens ms).zip (callFns ms)) s ((rangeStr s).map Prod.fst) ≤ (n + 2) ^ (2 * (1 + partsList ms))
    rw [show 2 * (1 + partsList ms) = 2 + 2 * partsList ms by ring, pow_add]
    generalize (n + 2) ^ (2 * partsList ms) = P at *
    calc 1 + rowIndexCalls l ((lens ms).zip (callFns ms)) s ((rangeStr s).map Prod.fst) ≤ P + n * P := by omega
      _ = (n + 1) * P := by ring
      _ ≤ (n + 2) ^ 2 * P := Nat.mul_le_mul_right _ (by nlinarith)
  · exact le_trans (row_segs hi) (Nat.one_le_pow _ _ (by omega))

theorem bounded_btree {n : Nat} {v : Matcher} {l r : Option Matcher} {ll rl len : Option Nat} (hv : Bounded n v) (hl : ∀ m ∈ l, Bounded n m) (hr : ∀ m ∈ r, Bounded n m) :
    Bounded n (.btree v l r ll rl len) := by
  have hN : 2 ≤ n + 2 := by omega
  have hopt : ∀ o : Option Matcher, (∀ m ∈ o, Bounded n m) → ∀ s : Str, s.length ≤ n → callsOpt o s ≤ (n + 2) ^ (2 * partsOpt o) := by
    intro o ho s hs
    cases o with
    | none => simp [callsOpt]
    | some m => exact (ho m rfl).calls s hs
  refine ⟨fun s hs => ?_, fun s hs => ?_, fun s hs i seg hi => ?_⟩
  · have h1 := fun limit k offset => btreeLoopCalls_le hs hv.index (hopt l hl) (hopt r hr) hv.segs limit k offset (left := matchOpt l) (right := matchOpt r)
    have h2 : btreeMatchCalls v.index v.indexCalls (matchOpt l) (matchOpt r) (callsOpt l) (callsOpt r) ll rl len s ≤
        (s.length + 1) * ((n + 2) ^ (2 * v.parts) + (n + 2) ^ (2 * partsOpt l) + (n + 2) ^ v.parts * (n + 2) ^ (2 * partsOpt r)) := by
      unfold btreeMatchCalls
      cases len with
      | none => exact h1 _ _ _
      | some k =>
        simp only
        split
        · exact Nat.zero_le _
        · exact h1 _ _ _
    have hb : ∀ e, e ≤ 2 * (v.parts + (partsOpt l + partsOpt r)) → (n + 2) ^ e ≤ (n + 2) ^ (2 * (v.parts + (partsOpt l + partsOpt r))) :=
      fun e he => Nat.pow_le_pow_right (by omega) he
    have b1 := hb (2 * v.parts) (by omega)
    have b2 := hb (2 * partsOpt l) (by omega)
    have b3 := hb (v.parts + 2 * partsOpt r) (by omega)
    rw [pow_add] at b3
    change 1 + btreeMatchCalls v.index v.indexCalls (matchOpt l) (matchOpt r) (callsOpt l) (callsOpt r) ll rl len s ≤
      (n + 2) ^ (2 * (1 + (v.parts + (partsOpt l + partsOpt r))))
    rw [show 2 * (1 + (v.parts + (partsOpt l + partsOpt r))) = 2 + 2 * (v.parts + (partsOpt l + partsOpt r)) by ring, pow_add]
    have hp : 1 ≤ (n + 2) ^ (2 * (v.parts + (partsOpt l + partsOpt r))) := Nat.one_le_pow _ _ (by omega)
    generalize (n + 2) ^ (2 * (v.parts + (partsOpt l + partsOpt r))) = P at *
    have h4 : (s.length + 1) * ((n + 2) ^ (2 * v.parts) + (n + 2) ^ (2 * partsOpt l) + (n + 2) ^ v.parts * (n + 2) ^ (2 * partsOpt r)) ≤ (n + 1) * (3 * P) :=
      Nat.mul_le_mul (by omega) (by omega)
    calc _ ≤ P + (n + 1) * (3 * P) := by omega
      _ = (3 * n + 4) * P := by ring
      _ ≤ (n + 2) ^ 2 * P := Nat.mul_le_mul_right _ (by nlinarith)
  · change 1 ≤ _
    exact Nat.one_le_pow _ _ (by omega)
  · change some none = some (some (i, seg)) at hi
    cases hi

mutual
theorem bounded (n : Nat) : ∀ m : Matcher, Bounded n m
  | .nothing => bounded_leaf rfl (fun _ => rfl) (fun _ => rfl) fun s i seg h => by cases h; simp
  | .text t => bounded_leaf rfl (fun _ => rfl) (fun _ => rfl) fun s i seg h => by
      change some ((strIndex t s).map fun i => (i, [t.length])) = _ at h
      cases e : strIndex t s with
      | none => rw [e] at h; cases h
      | some k => rw [e] at h; cases h; simp
  | .any seps => bounded_leaf rfl (fun _ => rfl) (fun _ => rfl) fun s i seg h => anyIndex_segs h
  | .super => bounded_leaf rfl (fun _ => rfl) (fun _ => rfl) fun s i seg h => by
      change some (some (0, (rangeStr s).map Prod.fst ++ [s.length])) = _ at h
      cases h
      have := rangeStr_length s
      simp only [List.length_append, List.length_map, List.length_cons, List.length_nil]
      omega
  | .single seps => bounded_leaf rfl (fun _ => rfl) (fun _ => rfl) fun s i seg h => firstRune_segs (p := fun r => !seps.contains r) h
  | .list rs not => bounded_leaf rfl (fun _ => rfl) (fun _ => rfl) fun s i seg h => firstRune_segs (p := inList rs not) h
  | .range lo hi not => bounded_leaf rfl (fun _ => rfl) (fun _ => rfl) fun s i seg h => firstRune_segs (p := inRange lo hi not) h
  | .min l => bounded_leaf rfl (fun _ => rfl) (fun _ => rfl) fun s i seg h => minIndex_segs h
  | .max l => bounded_leaf rfl (fun _ => rfl) (fun _ => rfl) fun s i seg h => maxIndex_segs h
  | .contains needle not => bounded_leaf rfl (fun _ => rfl) (fun _ => rfl) fun s i seg h => containsIndex_segs h
  | .prefix p => bounded_leaf rfl (fun _ => rfl) (fun _ => rfl) fun s i seg h => prefixIndex_segs h
  | .suffix q => bounded_leaf rfl (fun _ => rfl) (fun _ => rfl) fun s i seg h => suffixIndex_segs h
  | .prefixSuffix p q => bounded_leaf rfl (fun _ => rfl) (fun _ => rfl) fun s i seg h => prefixSuffixIndex_segs h
  | .prefixAny p seps => bounded_leaf rfl (fun _ => rfl) (fun _ => rfl) fun s i seg h => prefixAnyIndex_segs h
  | .suffixAny q seps => bounded_leaf rfl (fun _ => rfl) (fun _ => rfl) fun s i seg h => suffixAnyIndex_segs h
  | .anyOf ms => bounded_anyOf (bounded_list n ms)
  | .everyOf ms => bounded_everyOf (bounded_list n ms)
  | .row _ ms => bounded_row (bounded_list n ms)
  | .btree v l r _ _ _ => bounded_btree (bounded n v) (bounded_opt n l) (bounded_opt n r)
theorem bounded_list (n : Nat) : ∀ ms : List Matcher, ∀ m ∈ ms, Bounded n m
  | [] => fun _ h => by cases h
  | m :: ms => fun m' h => by
    rcases List.mem_cons.1 h with h | h
    · exact h ▸ bounded n m
    · exact bounded_list n ms m' h
theorem bounded_opt (n : Nat) : ∀ o : Option Matcher, ∀ m ∈ o, Bounded n m
  | none => fun _ h => by cases h
  | some m => fun m' h => by
    have e : m = m' := Option.some.inj h
    exact e ▸ bounded n m
end

/-- A matcher of `k` parts makes at most `(n + 2) ^ (2 k)` calls for a string of `n` bytes. -/
theorem calls_le (m : Matcher) (s : Str) : m.calls s ≤ (s.length + 2) ^ (2 * m.parts) := (bounded s.length m).calls s (Nat.le_refl _)

end Verif.Glob
