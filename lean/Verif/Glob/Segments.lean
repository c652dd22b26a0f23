import Verif.Glob.Match
import Mathlib.Data.Nat.Bits
/-
glob/match/segments.go and glob/match/match.go `appendMerge`: the buffers of `Index`.
-/
namespace Verif.Glob.Segments

/-- segments.go:14-24 `toPowerOfTwo` for 1 ≤ v < 2^63 (no value is negative before the last `v++`, which may overflow). -/
def toPowerOfTwo (v : Nat) : Int :=
  let v := v - 1
  let v := v ||| (v >>> 1)
  let v := v ||| (v >>> 2)
  let v := v ||| (v >>> 4)
  let v := v ||| (v >>> 8)
  let v := v ||| (v >>> 16)
  if v + 1 = 2 ^ 63 then -(2 ^ 63) else (v + 1 : Nat)

/-- segments.go:59-69 `getTableIndex`. -/
def getTableIndex (c : Nat) : Int :=
  let p := toPowerOfTwo c
  if p ≥ 1024 then 1023 else if p ≤ 16 then 15 else p - 1

/-- segments.go:49-57 `init`: the capacity of the slices the pool at an index makes; `none` for a pool that is not initialised. The loop visits
i = 1024, 512, ..., 16. -/
def initPools : Nat → Nat → (Int → Option Nat) → (Int → Option Nat)
  | 0, _, pools => pools
  | n + 1, i, pools => if i ≥ 16 then initPools n (i >>> 1) (fun k => if k = (i : Int) - 1 then some i else pools k) else pools

/-- The pools after `init`. -/
def pools : Int → Option Nat := initPools 1025 1024 fun _ => none

/-- segments.go:71-79 `acquireSegments` when nothing was released before (a pool calls its `New`): the capacity of the slice, whose length is 0. The
result `none` is a panic: the index is outside the array of 1024 pools, or `Get` of a pool without `New` returns nil and the type assertion fails. -/
def acquireSegments (c : Nat) : Option Nat :=
  if c < 16 then some c
  else if getTableIndex c < 0 ∨ 1024 ≤ getTableIndex c then none
  else pools (getTableIndex c)

/-- segments.go:81-91 `releaseSegments` of a slice with a capacity: the pool it is put into. The outer `none` is a panic. -/
def releaseSegments (c : Nat) : Option (Option Int) :=
  if c < 16 then some none
  else if getTableIndex c < 0 ∨ 1024 ≤ getTableIndex c then none
  else some (some (getTableIndex c))

end Verif.Glob.Segments

namespace Verif.Glob
open Segments

theorem toPowerOfTwo_large (c : Nat) (h : 1024 < c) (_hc : c < 2 ^ 63) : toPowerOfTwo c ≥ 1024 ∨ toPowerOfTwo c ≤ 0 := by
  unfold toPowerOfTwo
  simp only
  split
  · right; decide
  · left
    have h1 : c - 1 ≤ (c - 1) ||| ((c - 1) >>> 1) := Nat.left_le_or
    generalize (c - 1) ||| ((c - 1) >>> 1) = a at *
    have h2 : a ≤ a ||| (a >>> 2) := Nat.left_le_or
    generalize a ||| (a >>> 2) = b at *
    have h3 : b ≤ b ||| (b >>> 4) := Nat.left_le_or
    generalize b ||| (b >>> 4) = d at *
    have h4 : d ≤ d ||| (d >>> 8) := Nat.left_le_or
    generalize d ||| (d >>> 8) = e at *
    have h5 : e ≤ e ||| (e >>> 16) := Nat.left_le_or
    generalize e ||| (e >>> 16) = f at *
    exact Int.ofNat_le.2 (show 1024 ≤ f + 1 by
      refine Nat.le_trans ?_ (Nat.succ_le_succ (h1.trans (h2.trans (h3.trans (h4.trans h5)))))
      exact Nat.le_trans (Nat.le_of_lt h) (Nat.le_succ_of_pred_le (Nat.le_refl _)))

theorem table_small : ∀ c : Fin 1025, 16 ≤ c.val →
    0 ≤ getTableIndex c ∧ getTableIndex c < 1024 ∧ (pools (getTableIndex c)).any (fun k => decide (c.val ≤ k)) = true := by
  decide +kernel

theorem table_large (c : Nat) (h : 1024 < c) (hc : c < 2 ^ 63) : getTableIndex c = 1023 ∨ getTableIndex c = 15 := by
  unfold getTableIndex
  simp only
  rcases toPowerOfTwo_large c h hc with h1 | h1
  · left; rw [if_pos h1]
  · right; rw [if_neg (by omega), if_pos (by omega)]

/-- C60, first half: acquiring and releasing a buffer of any size a Go slice can have never crashes. For sizes up to 1024 the buffer has at least
the capacity asked for. -/
theorem C60_buffers_total (c : Nat) (hc : c < 2 ^ 63) :
    (∃ k, acquireSegments c = some k ∧ (c ≤ 1024 → c ≤ k)) ∧ (∃ r, releaseSegments c = some r ∧ ∀ i, r = some i → (pools i).isSome) := by
  unfold acquireSegments releaseSegments
  by_cases h : c < 16
  · simp [h]
  simp only [h, if_false]
  by_cases h' : 1024 < c
  · have h15 : pools 15 = some 16 := by decide +kernel
    have h1023 : pools 1023 = some 1024 := by decide +kernel
    rcases table_large c h' hc with e | e <;> simp only [e]
    · exact ⟨⟨1024, by simp [h1023], by omega⟩, ⟨some 1023, by simp, by intro i hi; cases hi; simp [h1023]⟩⟩
    · exact ⟨⟨16, by simp [h15], by omega⟩, ⟨some 15, by simp, by intro i hi; cases hi; simp [h15]⟩⟩
  · obtain ⟨h1, h2, h3⟩ := table_small ⟨c, by omega⟩ (by simpa using (by omega : 16 ≤ c))
    simp only at h1 h2 h3
    have hn : ¬ (getTableIndex c < 0 ∨ 1024 ≤ getTableIndex c) := by omega
    simp only [hn, if_false]
    cases hp : pools (getTableIndex c) with
    | none => rw [hp] at h3; simp at h3
    | some k =>
      rw [hp] at h3
      simp only [Option.any_some, decide_eq_true_eq] at h3
      exact ⟨⟨k, rfl, fun _ => h3⟩, ⟨_, rfl, by intro i hi; cases hi; simp [hp]⟩⟩

theorem mem_appendMerge (t s : List Nat) (x : Nat) : x ∈ appendMerge t s ↔ x ∈ t ∨ x ∈ s := by
  fun_induction appendMerge t s with
  | case1 => simp
  | case2 => simp
  | case3 a t s ih => simp [ih]; grind
  | case4 a t b s h1 h2 ih => simp [ih]; grind
  | case5 a t b s h1 h2 ih => simp [ih]; grind

/-- C60, second half: the merge of two sorted lists without duplicates is their sorted union without duplicates. -/
theorem C60_merge (t s : List Nat) (ht : t.Pairwise (· < ·)) (hs : s.Pairwise (· < ·)) :
    (appendMerge t s).Pairwise (· < ·) ∧ ∀ x, x ∈ appendMerge t s ↔ x ∈ t ∨ x ∈ s := by
  refine ⟨?_, mem_appendMerge t s⟩
  fun_induction appendMerge t s with
  | case1 => exact hs
  | case2 => exact ht
  | case3 a t s ih =>
    rw [List.pairwise_cons] at *
    refine ⟨?_, ih ht.2 hs.2⟩
    intro y hy
    rcases (mem_appendMerge _ _ _).1 hy with h | h
    · exact ht.1 y h
    · exact hs.1 y h
  | case4 a t b s h1 h2 ih =>
    rw [List.pairwise_cons] at ht
    rw [List.pairwise_cons]
    refine ⟨?_, ih ht.2 hs⟩
    intro y hy
    rcases (mem_appendMerge _ _ _).1 hy with h | h
    · exact ht.1 y h
    · rw [List.pairwise_cons] at hs
      rcases List.mem_cons.1 h with rfl | h
      · exact h2
      · exact Nat.lt_trans h2 (hs.1 y h)
  | case5 a t b s h1 h2 ih =>
    rw [List.pairwise_cons] at hs
    rw [List.pairwise_cons]
    refine ⟨?_, ih ht hs.2⟩
    intro y hy
    rcases (mem_appendMerge _ _ _).1 hy with h | h
    · rw [List.pairwise_cons] at ht
      rcases List.mem_cons.1 h with rfl | h
      · omega
      · exact Nat.lt_trans (by omega) (ht.1 y h)
    · exact hs.1 y h

/-- An instance: the hypotheses hold and both halves say something. -/
example : acquireSegments 100 = some 128 ∧ acquireSegments 5000 = some 1024 ∧ appendMerge [0, 2, 5] [1, 2, 7] = [0, 1, 2, 5, 7] := by
  refine ⟨by decide +kernel, by decide +kernel, by simp [appendMerge]⟩

end Verif.Glob
