import Mathlib.Data.List.Basic
/-
glob/util/runes/runes.go. A rune is an element of any type with decidable equality; only `Max` and `Min` use that it is a number. Lengths and
indexes are exact (a slice is shorter than 2^63).
-/
namespace Verif.Glob.Runes
set_option linter.unusedSectionVars false
variable {α : Type} [DecidableEq α]

/-- runes.go:113-120 `IndexRune`: the loop, `i` is the index. -/
def indexRuneFrom (r : α) : Nat → List α → Int
  | _, [] => -1
  | i, c :: s => if c = r then i else indexRuneFrom r (i + 1) s

/-- runes.go:113-120 `IndexRune`. -/
def indexRune (s : List α) (r : α) : Int := indexRuneFrom r 0 s

/-- runes.go:122-130 `IndexLastRune`: the loop; the argument is `i + 1`. -/
def indexLastRuneFrom (s : List α) (r : α) : Nat → Int
  | 0 => -1
  | i + 1 => if s[i]? = some r then i else indexLastRuneFrom s r i

/-- runes.go:122-130 `IndexLastRune`. -/
def indexLastRune (s : List α) (r : α) : Int := indexLastRuneFrom s r s.length

/-- runes.go:132-144 `Equal`: the loop over the indexes. -/
def equal (a b : List α) : Bool := if a.length = b.length then (List.range a.length).all fun i => a[i]? == b[i]? else false

/-- runes.go:22-26 the inner loop of `Index`. -/
def matchAt (s needle : List α) (i : Nat) : Bool := (List.range needle.length).all fun y => s[i + y]? == needle[y]?

/-- runes.go:20-29 the outer loop of `Index`; the last argument is the number of steps left. -/
def indexFrom (s needle : List α) : Nat → Nat → Int
  | _, 0 => -1
  | i, k + 1 =>
    if i < s.length ∧ s.length - i ≥ needle.length then
      if matchAt s needle i then i else indexFrom s needle (i + 1) k
    else -1

/-- runes.go:3-32 `Index`. -/
def index (s needle : List α) : Int :=
  match needle with
  | [] => 0
  | [r] => indexRune s r
  | _ =>
    if needle.length = s.length then (if equal s needle then 0 else -1)
    else if needle.length > s.length then -1
    else indexFrom s needle 0 (s.length + 1)

/-- runes.go:56-60 the inner loop of `LastIndex`: `y` from `ln-1` down to 0, comparing `s[i-(ln-y-1)]` with `needle[y]`. -/
def matchEnd (s needle : List α) (i : Nat) : Bool := (List.range needle.length).all fun y => s[i - (needle.length - y - 1)]? == needle[y]?

/-- runes.go:54-63 the outer loop of `LastIndex`; the argument is `i + 1`. -/
def lastIndexFrom (s needle : List α) : Nat → Int
  | 0 => -1
  | i + 1 => if i ≥ needle.length then (if matchEnd s needle i then (i : Int) - needle.length + 1 else lastIndexFrom s needle i) else -1

/-- runes.go:34-66 `LastIndex`. -/
def lastIndex (s needle : List α) : Int :=
  match needle with
  | [] => s.length
  | [r] => indexLastRune s r
  | _ =>
    if needle.length = s.length then (if equal s needle then 0 else -1)
    else if needle.length > s.length then -1
    else lastIndexFrom s needle s.length

/-- runes.go:72-78 `IndexAny`: the loops. -/
def indexAnyFrom (chars : List α) : Nat → List α → Int
  | _, [] => -1
  | i, c :: s => if chars.any (fun m => c = m) then i else indexAnyFrom chars (i + 1) s

/-- runes.go:70-81 `IndexAny`. -/
def indexAny (s chars : List α) : Int := if chars.length > 0 then indexAnyFrom chars 0 s else -1

/-- runes.go:83-85 `Contains`. -/
def contains (s needle : List α) : Bool := index s needle ≥ 0

/-- runes.go:147-149 `HasPrefix`. -/
def hasPrefix (s p : List α) : Bool := s.length ≥ p.length && equal (s.take p.length) p

/-- runes.go:152-154 `HasSuffix`. -/
def hasSuffix (s p : List α) : Bool := s.length ≥ p.length && equal (s.drop (s.length - p.length)) p

/-- runes.go:87-95 `Max`. -/
def max (s : List Int) : Int := s.foldl (fun m r => if r > m then r else m) 0

/-- runes.go:97-111 `Min`. -/
def min (s : List Int) : Int := s.foldl (fun m r => if m = -1 then r else if r < m then r else m) (-1)

/-! ## Specification -/

/-- `n` occurs in `s` at position `i`. -/
def OccursAt (s n : List α) (i : Nat) : Prop := ∃ a b, s = a ++ n ++ b ∧ a.length = i

/-- `k` is the least position with the property, or -1 if there is none. -/
def IsFirst (p : Nat → Prop) (k : Int) : Prop := (k = -1 ∧ ∀ i, ¬ p i) ∨ ∃ i : Nat, k = i ∧ p i ∧ ∀ j < i, ¬ p j

/-- `k` is the greatest position with the property, or -1 if there is none. -/
def IsLast (p : Nat → Prop) (k : Int) : Prop := (k = -1 ∧ ∀ i, ¬ p i) ∨ ∃ i : Nat, k = i ∧ p i ∧ ∀ j, i < j → ¬ p j

/-! ## Proofs -/

theorem occursAt_iff {s n : List α} {i : Nat} : OccursAt s n i ↔ i + n.length ≤ s.length ∧ ∀ y < n.length, s[i + y]? = n[y]? := by
  constructor
  · rintro ⟨a, b, rfl, rfl⟩
    refine ⟨by simp, ?_⟩
    intro y hy
    rw [List.append_assoc, List.getElem?_append_right (by omega), Nat.add_sub_cancel_left, List.getElem?_append_left hy]
  · rintro ⟨h1, h2⟩
    refine ⟨s.take i, s.drop (i + n.length), ?_, by simp; omega⟩
    have : n = (s.drop i).take n.length := by
      apply List.ext_getElem?
      intro y
      rw [List.getElem?_take]
      split
      · rename_i hy
        rw [List.getElem?_drop, h2 y hy]
      · rename_i hy
        rw [List.getElem?_eq_none (by omega)]
    have h3 : s.drop (i + n.length) = (s.drop i).drop n.length := by rw [List.drop_drop]
    rw [h3]
    conv_lhs => rw [← List.take_append_drop i s]
    rw [List.append_assoc]
    congr 1
    conv_lhs => rw [← List.take_append_drop n.length (s.drop i)]
    rw [← this]

theorem matchAt_iff {s n : List α} {i : Nat} : matchAt s n i = true ↔ ∀ y < n.length, s[i + y]? = n[y]? := by
  unfold matchAt
  simp

theorem occursAt_matchAt {s n : List α} {i : Nat} (h : i + n.length ≤ s.length) : OccursAt s n i ↔ matchAt s n i = true := by
  rw [occursAt_iff, matchAt_iff]
  exact ⟨fun h => h.2, fun h' => ⟨h, h'⟩⟩

theorem equal_iff {a b : List α} : equal a b = true ↔ a = b := by
  unfold equal
  constructor
  · intro h
    split at h
    · rename_i hl
      simp only [List.all_eq_true, List.mem_range, beq_iff_eq] at h
      apply List.ext_getElem?
      intro i
      by_cases hi : i < a.length
      · exact h i hi
      · rw [List.getElem?_eq_none (by omega), List.getElem?_eq_none (by omega)]
    · cases h
  · rintro rfl
    simp

theorem indexRuneFrom_spec (r : α) : ∀ (s : List α) (k : Nat) , (indexRuneFrom r k s = -1 ∧ r ∉ s) ∨ ∃ i : Nat, indexRuneFrom r k s = k + i ∧ s[i]? = some r ∧ ∀ j < i, s[j]? ≠ some r
  | [], k => Or.inl ⟨rfl, by simp⟩
  | c :: s, k => by
    rw [indexRuneFrom]
    by_cases h : c = r
    · rw [if_pos h]
      exact Or.inr ⟨0, by simp, by simp [h], by simp⟩
    · rw [if_neg h]
      rcases indexRuneFrom_spec r s (k + 1) with ⟨h1, h2⟩ | ⟨i, h1, h2, h3⟩
      · exact Or.inl ⟨h1, by simp only [List.mem_cons, not_or]; exact ⟨fun e => h e.symm, h2⟩⟩
      · refine Or.inr ⟨i + 1, by rw [h1]; push_cast; omega, by simpa using h2, ?_⟩
        intro j hj
        cases j with
        | zero => simpa using h
        | succ j => simpa using h3 j (by omega)

/-- **C53** `IndexRune` finds the first position of the rune. -/
theorem C53_index_rune (s : List α) (r : α) : IsFirst (fun i => s[i]? = some r) (indexRune s r) := by
  rcases indexRuneFrom_spec r s 0 with ⟨h1, h2⟩ | ⟨i, h1, h2, h3⟩
  · exact Or.inl ⟨h1, fun i hi => h2 (List.mem_of_getElem? hi)⟩
  · exact Or.inr ⟨i, by unfold indexRune; rw [h1]; simp, h2, h3⟩

theorem occursAt_single {s : List α} {r : α} {i : Nat} : OccursAt s [r] i ↔ s[i]? = some r := by
  rw [occursAt_iff]
  simp only [List.length_singleton]
  constructor
  · rintro ⟨-, h⟩
    simpa using h 0 (by omega)
  · intro h
    have hi : i < s.length := by
      by_contra hc
      rw [List.getElem?_eq_none (by omega)] at h; cases h
    refine ⟨by omega, ?_⟩
    intro y hy
    have : y = 0 := by omega
    subst this
    simpa using h

theorem indexFrom_spec {s n : List α} (hn : n ≠ []) : ∀ (k i : Nat), s.length + 1 ≤ i + k → (∀ j < i, ¬ OccursAt s n j) → IsFirst (OccursAt s n) (indexFrom s n i k)
  | 0, i, hk, hi => by
    left
    refine ⟨rfl, ?_⟩
    intro j hj
    have := (occursAt_iff.1 hj).1
    exact hi j (by omega) hj
  | k + 1, i, hk, hi => by
    rw [indexFrom]
    split
    · rename_i hc
      split
      · rename_i hm
        exact Or.inr ⟨i, rfl, (occursAt_matchAt (by omega)).2 hm, hi⟩
      · rename_i hm
        apply indexFrom_spec hn k (i + 1) (by omega)
        intro j hj hoc
        by_cases hji : j = i
        · subst hji
          exact hm ((occursAt_matchAt (by omega)).1 hoc)
        · exact hi j (by omega) hoc
    · rename_i hc
      left
      refine ⟨rfl, ?_⟩
      intro j hj
      have h1 := (occursAt_iff.1 hj).1
      have := List.length_pos_iff.2 hn
      by_cases hji : j < i
      · exact hi j hji hj
      · apply hc; omega

theorem occursAt_same {s n : List α} (h : n.length = s.length) {i : Nat} : OccursAt s n i ↔ i = 0 ∧ s = n := by
  constructor
  · rintro ⟨a, b, e, rfl⟩
    have := congrArg List.length e
    simp only [List.length_append] at this
    have ha : a = [] := List.length_eq_zero_iff.1 (by omega)
    have hb : b = [] := List.length_eq_zero_iff.1 (by omega)
    subst ha; subst hb
    simpa using e
  · rintro ⟨rfl, rfl⟩
    exact ⟨[], [], by simp, rfl⟩

/-- **C53** `Index` finds the first occurrence. -/
theorem C53_index (s n : List α) : IsFirst (OccursAt s n) (index s n) := by
  unfold index
  match n with
  | [] => exact Or.inr ⟨0, rfl, ⟨[], s, rfl, rfl⟩, by simp⟩
  | [r] =>
    simp only
    have : OccursAt s [r] = fun i => s[i]? = some r := by funext i; exact propext occursAt_single
    rw [this]
    exact C53_index_rune s r
  | a :: b :: n =>
    simp only
    by_cases h1 : (a :: b :: n).length = s.length
    · rw [if_pos h1]
      by_cases h2 : s = a :: b :: n
      · rw [if_pos (equal_iff.2 h2)]
        exact Or.inr ⟨0, rfl, (occursAt_same h1).2 ⟨rfl, h2⟩, by simp⟩
      · rw [if_neg (fun h => h2 (equal_iff.1 h))]
        exact Or.inl ⟨rfl, fun i hi => h2 ((occursAt_same h1).1 hi).2⟩
    · rw [if_neg h1]
      split
      · rename_i h2
        refine Or.inl ⟨rfl, fun i hi => ?_⟩
        have := (occursAt_iff.1 hi).1
        omega
      · exact indexFrom_spec (by simp) _ 0 (by omega) (by simp)

example : index [1, 2, 1, 2, 3] [1, 2, 3] = 2 := by decide
example : index [1, 2, 1, 2] [2, 2] = -1 := by decide

/-- **C53** `Contains` tests for an occurrence. -/
theorem C53_contains (s n : List α) : contains s n = true ↔ n <:+: s := by
  unfold contains
  rw [decide_eq_true_eq]
  rcases C53_index s n with ⟨h1, h2⟩ | ⟨i, h1, ⟨a, b, h2, h3⟩, -⟩
  · rw [h1]
    simp only [ge_iff_le, Int.reduceNeg, Int.reduceLE, false_iff]
    rintro ⟨a, b, h⟩
    exact h2 a.length ⟨a, b, h.symm, rfl⟩
  · rw [h1]
    constructor
    · exact fun _ => ⟨a, b, h2.symm⟩
    · intro; omega

theorem indexAnyFrom_spec (chars : List α) : ∀ (s : List α) (k : Nat), (indexAnyFrom chars k s = -1 ∧ ∀ c ∈ s, c ∉ chars) ∨
    ∃ i : Nat, indexAnyFrom chars k s = k + i ∧ (∃ c ∈ chars, s[i]? = some c) ∧ ∀ j < i, ∀ c ∈ chars, s[j]? ≠ some c
  | [], k => Or.inl ⟨rfl, by simp⟩
  | c :: s, k => by
    rw [indexAnyFrom]
    by_cases h : chars.any (fun m => c = m) = true
    · rw [if_pos h]
      simp only [List.any_eq_true, decide_eq_true_eq, exists_eq_right'] at h
      exact Or.inr ⟨0, by simp, ⟨c, h, rfl⟩, by simp⟩
    · rw [if_neg h]
      simp only [List.any_eq_true, decide_eq_true_eq, exists_eq_right'] at h
      rcases indexAnyFrom_spec chars s (k + 1) with ⟨h1, h2⟩ | ⟨i, h1, h2, h3⟩
      · exact Or.inl ⟨h1, by simp only [List.mem_cons, forall_eq_or_imp]; exact ⟨h, h2⟩⟩
      · refine Or.inr ⟨i + 1, by rw [h1]; push_cast; omega, by simpa using h2, ?_⟩
        intro j hj d hd
        cases j with
        | zero => simp only [List.getElem?_cons_zero, ne_eq, Option.some.injEq]; rintro rfl; exact h hd
        | succ j => simpa using h3 j (by omega) d hd

/-- **C53** `IndexAny` finds the first position of one of the runes. -/
theorem C53_index_any (s chars : List α) : IsFirst (fun i => ∃ c ∈ chars, s[i]? = some c) (indexAny s chars) := by
  unfold indexAny
  split
  · rcases indexAnyFrom_spec chars s 0 with ⟨h1, h2⟩ | ⟨i, h1, h2, h3⟩
    · refine Or.inl ⟨h1, ?_⟩
      rintro i ⟨c, hc, hi⟩
      exact h2 c (List.mem_of_getElem? hi) hc
    · refine Or.inr ⟨i, by rw [h1]; simp, h2, ?_⟩
      rintro j hj ⟨c, hc, hcj⟩
      exact h3 j hj c hc hcj
  · rename_i h
    have : chars = [] := List.length_eq_zero_iff.1 (by omega)
    subst this
    exact Or.inl ⟨rfl, by simp⟩

/-- **C53** `Equal` is equality. -/
theorem C53_equal (a b : List α) : equal a b = true ↔ a = b := equal_iff

/-- **C53** `HasPrefix`. -/
theorem C53_has_prefix (s p : List α) : hasPrefix s p = true ↔ p <+: s := by
  unfold hasPrefix
  rw [Bool.and_eq_true, decide_eq_true_eq, equal_iff]
  constructor
  · rintro ⟨-, h⟩
    exact List.prefix_iff_eq_take.2 h.symm
  · intro h
    exact ⟨h.length_le, (List.prefix_iff_eq_take.1 h).symm⟩

/-- **C53** `HasSuffix`. -/
theorem C53_has_suffix (s p : List α) : hasSuffix s p = true ↔ p <:+ s := by
  unfold hasSuffix
  rw [Bool.and_eq_true, decide_eq_true_eq, equal_iff]
  constructor
  · rintro ⟨-, h⟩
    exact List.suffix_iff_eq_drop.2 h.symm
  · intro h
    exact ⟨h.length_le, (List.suffix_iff_eq_drop.1 h).symm⟩

theorem max_from (s : List Int) : ∀ m : Int, m ≤ s.foldl (fun m r => if r > m then r else m) m ∧ (∀ r ∈ s, r ≤ s.foldl (fun m r => if r > m then r else m) m) ∧
    (s.foldl (fun m r => if r > m then r else m) m = m ∨ s.foldl (fun m r => if r > m then r else m) m ∈ s) := by
  induction s with
  | nil => intro m; simp
  | cons a s ih =>
    intro m
    rw [List.foldl_cons]
    obtain ⟨h1, h2, h3⟩ := ih (if a > m then a else m)
    have h4 : a ≤ (if a > m then a else m) ∧ m ≤ (if a > m then a else m) := by split <;> omega
    refine ⟨by omega, ?_, ?_⟩
    · intro r hr
      rcases List.mem_cons.1 hr with rfl | hr
      · omega
      · exact h2 r hr
    · rcases h3 with h3 | h3
      · rw [h3]
        split
        · right; exact List.mem_cons_self ..
        · left; rfl
      · right; exact List.mem_cons_of_mem _ h3

/-- **C53** `Max` is the greatest of the runes (which are not negative), or 0. -/
theorem C53_max (s : List Int) (h : ∀ r ∈ s, 0 ≤ r) : (s = [] ∧ max s = 0) ∨ (max s ∈ s ∧ ∀ r ∈ s, r ≤ max s) := by
  unfold max
  obtain ⟨h1, h2, h3⟩ := max_from s 0
  cases s with
  | nil => exact Or.inl ⟨rfl, rfl⟩
  | cons a s =>
    right
    refine ⟨?_, h2⟩
    rcases h3 with h3 | h3
    · have ha := h2 a (List.mem_cons_self ..)
      have := h a (List.mem_cons_self ..)
      rw [h3] at ha ⊢
      rw [show (0 : Int) = a by omega]
      exact List.mem_cons_self ..
    · exact h3

theorem min_from (s : List Int) (h : ∀ r ∈ s, 0 ≤ r) : ∀ m : Int, 0 ≤ m → s.foldl (fun m r => if m = -1 then r else if r < m then r else m) m ≤ m ∧
    (∀ r ∈ s, s.foldl (fun m r => if m = -1 then r else if r < m then r else m) m ≤ r) ∧
    (s.foldl (fun m r => if m = -1 then r else if r < m then r else m) m = m ∨ s.foldl (fun m r => if m = -1 then r else if r < m then r else m) m ∈ s) := by
  induction s with
  | nil => intro m; simp
  | cons a s ih =>
    intro m hm
    rw [List.foldl_cons]
    have ha := h a (List.mem_cons_self ..)
    rw [if_neg (by omega)]
    obtain ⟨h1, h2, h3⟩ := ih (fun r hr => h r (List.mem_cons_of_mem _ hr)) (if a < m then a else m) (by split <;> omega)
    have h4 : (if a < m then a else m) ≤ a ∧ (if a < m then a else m) ≤ m := by split <;> omega
    refine ⟨by omega, ?_, ?_⟩
    · intro r hr
      rcases List.mem_cons.1 hr with rfl | hr
      · omega
      · exact h2 r hr
    · rcases h3 with h3 | h3
      · rw [h3]
        split
        · right; exact List.mem_cons_self ..
        · left; rfl
      · right; exact List.mem_cons_of_mem _ h3

/-- **C53** `Min` is the least of the runes (which are not negative), or -1. -/
theorem C53_min (s : List Int) (h : ∀ r ∈ s, 0 ≤ r) : (s = [] ∧ min s = -1) ∨ (min s ∈ s ∧ ∀ r ∈ s, min s ≤ r) := by
  unfold min
  cases s with
  | nil => exact Or.inl ⟨rfl, rfl⟩
  | cons a s =>
    right
    rw [List.foldl_cons, if_pos rfl]
    obtain ⟨h1, h2, h3⟩ := min_from s (fun r hr => h r (List.mem_cons_of_mem _ hr)) a (h a (List.mem_cons_self ..))
    refine ⟨?_, ?_⟩
    · rcases h3 with h3 | h3
      · rw [h3]; exact List.mem_cons_self ..
      · exact List.mem_cons_of_mem _ h3
    · intro r hr
      rcases List.mem_cons.1 hr with rfl | hr
      · exact h1
      · exact h2 r hr

example : max [3, 7, 2] = 7 ∧ min [3, 7, 2] = 2 := by decide

/-! ## C54: LastIndex -/

theorem indexLastRuneFrom_spec (s : List α) (r : α) : ∀ k, (indexLastRuneFrom s r k = -1 ∧ ∀ i < k, s[i]? ≠ some r) ∨
    ∃ i < k, indexLastRuneFrom s r k = (i : Nat) ∧ s[i]? = some r ∧ ∀ j < k, i < j → s[j]? ≠ some r
  | 0 => Or.inl ⟨rfl, by simp⟩
  | k + 1 => by
    rw [indexLastRuneFrom]
    by_cases h : s[k]? = some r
    · rw [if_pos h]
      exact Or.inr ⟨k, by omega, rfl, h, fun j h1 h2 => by omega⟩
    · rw [if_neg h]
      rcases indexLastRuneFrom_spec s r k with ⟨h1, h2⟩ | ⟨i, h0, h1, h2, h3⟩
      · refine Or.inl ⟨h1, fun i hi => ?_⟩
        by_cases e : i = k
        · rw [e]; exact h
        · exact h2 i (by omega)
      · refine Or.inr ⟨i, by omega, h1, h2, fun j hj hij => ?_⟩
        by_cases e : j = k
        · rw [e]; exact h
        · exact h3 j (by omega) hij

/-- `IndexLastRune` finds the last position of the rune. -/
theorem C54_index_last_rune (s : List α) (r : α) : IsLast (fun i => s[i]? = some r) (indexLastRune s r) := by
  unfold indexLastRune
  rcases indexLastRuneFrom_spec s r s.length with ⟨h1, h2⟩ | ⟨i, h0, h1, h2, h3⟩
  · refine Or.inl ⟨h1, fun i hi => ?_⟩
    by_cases e : i < s.length
    · exact h2 i e hi
    · dsimp only at hi; rw [List.getElem?_eq_none (by omega)] at hi; cases hi
  · refine Or.inr ⟨i, h1, h2, fun j hj hi => ?_⟩
    by_cases e : j < s.length
    · exact h3 j e hj hi
    · dsimp only at hi; rw [List.getElem?_eq_none (by omega)] at hi; cases hi

theorem occursAt_matchEnd {s n : List α} {i : Nat} (hn : n ≠ []) (h1 : n.length ≤ i + 1) (h2 : i < s.length) : OccursAt s n (i + 1 - n.length) ↔ matchEnd s n i = true := by
  have hpos := List.length_pos_iff.2 hn
  rw [occursAt_iff]
  unfold matchEnd
  simp only [List.all_eq_true, List.mem_range, beq_iff_eq]
  have key : ∀ y < n.length, i - (n.length - y - 1) = i + 1 - n.length + y := by intro y hy; omega
  constructor
  · rintro ⟨-, h⟩ y hy
    rw [key y hy]; exact h y hy
  · intro h
    refine ⟨by omega, ?_⟩
    intro y hy
    rw [← key y hy]; exact h y hy

theorem lastIndexFrom_spec {s n : List α} (hn : n ≠ []) : ∀ k, k ≤ s.length → (∀ j, k ≤ j + n.length - 1 → 0 < j → ¬ OccursAt s n j) →
    IsLast (fun j => 0 < j ∧ OccursAt s n j) (lastIndexFrom s n k)
  | 0, _, h => by
    refine Or.inl ⟨rfl, ?_⟩
    rintro j ⟨h1, h2⟩
    exact h j (by omega) h1 h2
  | k + 1, hk, h => by
    rw [lastIndexFrom]
    have hpos := List.length_pos_iff.2 hn
    split
    · rename_i hge
      split
      · rename_i hm
        refine Or.inr ⟨k + 1 - n.length, by omega, ⟨by omega, (occursAt_matchEnd hn (by omega) (by omega)).2 hm⟩, ?_⟩
        rintro j hj ⟨h1, h2⟩
        exact h j (by omega) h1 h2
      · rename_i hm
        apply lastIndexFrom_spec hn k (by omega)
        intro j hj h0 hoc
        by_cases e : k + 1 ≤ j + n.length - 1
        · exact h j e h0 hoc
        · have : j = k + 1 - n.length := by omega
          rw [this] at hoc
          exact hm ((occursAt_matchEnd hn (by omega) (by omega)).1 hoc)
    · rename_i hlt
      refine Or.inl ⟨rfl, ?_⟩
      rintro j ⟨h1, h2⟩
      exact h j (by omega) h1 h2

/-- **C54** (as far as it holds) `LastIndex` finds the last occurrence, except that it overlooks position 0 if the text looked for has at least
two runes and is shorter than the slice. -/
theorem C54_last_index_partial (s n : List α) : IsLast (fun j => OccursAt s n j ∧ (2 ≤ n.length → n.length < s.length → 0 < j)) (lastIndex s n) := by
  unfold lastIndex
  match n with
  | [] =>
    refine Or.inr ⟨s.length, rfl, ⟨⟨s, [], by simp, rfl⟩, by simp⟩, ?_⟩
    rintro j hj ⟨h, -⟩
    have := (occursAt_iff.1 h).1
    simp at this; omega
  | [r] =>
    simp only
    have : (fun j => OccursAt s [r] j ∧ (2 ≤ [r].length → [r].length < s.length → 0 < j)) = fun i => s[i]? = some r := by
      funext i; rw [propext occursAt_single]; simp
    rw [this]
    exact C54_index_last_rune s r
  | a :: b :: n =>
    simp only
    by_cases h1 : (a :: b :: n).length = s.length
    · rw [if_pos h1]
      by_cases h2 : s = a :: b :: n
      · rw [if_pos (equal_iff.2 h2)]
        refine Or.inr ⟨0, rfl, ⟨(occursAt_same h1).2 ⟨rfl, h2⟩, by omega⟩, ?_⟩
        rintro j hj ⟨h, -⟩
        have := ((occursAt_same h1).1 h).1
        omega
      · rw [if_neg (fun h => h2 (equal_iff.1 h))]
        exact Or.inl ⟨rfl, fun i hi => h2 ((occursAt_same h1).1 hi.1).2⟩
    · rw [if_neg h1]
      split
      · rename_i h2
        refine Or.inl ⟨rfl, fun i hi => ?_⟩
        have := (occursAt_iff.1 hi.1).1
        omega
      · rename_i h2
        have := lastIndexFrom_spec (s := s) (n := a :: b :: n) (by simp) s.length (Nat.le_refl _) (by
          intro j hj h0 hoc
          have := (occursAt_iff.1 hoc).1
          omega)
        have e : (fun j => OccursAt s (a :: b :: n) j ∧ (2 ≤ (a :: b :: n).length → (a :: b :: n).length < s.length → 0 < j)) =
            fun j => 0 < j ∧ OccursAt s (a :: b :: n) j := by
          funext j
          apply propext
          constructor
          · rintro ⟨h3, h4⟩
            exact ⟨h4 (by simp) (by omega), h3⟩
          · rintro ⟨h3, h4⟩
            exact ⟨h4, fun _ _ => h3⟩
        rw [e]; exact this

example : lastIndex [1, 2, 1, 2, 3] [1, 2] = 2 := by decide

/-- **C114** What `LastIndex` returns, for all slices: -1 or the last position; for a text of two or more runes looked for in a longer slice, the last position other
than 0, and -1 if there is no other. -/
theorem C114_last_index (s n : List α) :
    (n.length < 2 ∨ s.length ≤ n.length → IsLast (OccursAt s n) (lastIndex s n)) ∧
    (2 ≤ n.length → n.length < s.length → IsLast (fun j => OccursAt s n j ∧ 0 < j) (lastIndex s n)) := by
  have h := C54_last_index_partial s n
  constructor
  · intro h1
    have e : (fun j => OccursAt s n j ∧ (2 ≤ n.length → n.length < s.length → 0 < j)) = OccursAt s n := by
      funext j
      exact propext ⟨fun h => h.1, fun h => ⟨h, fun a b => by omega⟩⟩
    rw [e] at h; exact h
  · intro h1 h2
    have e : (fun j => OccursAt s n j ∧ (2 ≤ n.length → n.length < s.length → 0 < j)) = fun j => OccursAt s n j ∧ 0 < j := by
      funext j
      exact propext ⟨fun h => ⟨h.1, h.2 h1 h2⟩, fun h => ⟨h.1, fun _ _ => h.2⟩⟩
    rw [e] at h; exact h

/-- Both cases occur. -/
example : lastIndex [1, 2, 1, 2] [1, 2] = 2 ∧ lastIndex [1, 2, 5] [1, 2] = -1 ∧ lastIndex [1, 2] [1, 2] = 0 ∧ lastIndex [1, 2, 5] [1] = 0 := by decide

/-- **C54** is false: an occurrence at the beginning of a longer slice is not found. -/
theorem C54_false : OccursAt [1, 2, 3] [1, 2] 0 ∧ lastIndex [1, 2, 3] [1, 2] = -1 := ⟨⟨[], [3], rfl, rfl⟩, by decide⟩

end Verif.Glob.Runes
