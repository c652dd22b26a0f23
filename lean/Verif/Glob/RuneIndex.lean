import Verif.Glob.RuneAny
import Verif.Glob.Total
import Mathlib.Data.Nat.Find
/-
C146: what `IndexAnyRunes` and `LastIndexAnyRunes` of glob/util/strings find.
-/
namespace Verif.Glob

/-! ## Specification -/

/-- Rune `r` is at byte position `i` of `s`: the loop `for i, r := range s` visits it. -/
def RuneAt (s : Str) (i r : Nat) : Prop := (i, r) ∈ rangeStr s

/-- `i` is the first position of rune `r` in `s`. -/
def FirstAt (s : Str) (r i : Nat) : Prop := RuneAt s i r ∧ ∀ j < i, ¬ RuneAt s j r

/-- `i` is the last position of rune `r` in `s`. -/
def LastAt (s : Str) (r i : Nat) : Prop := RuneAt s i r ∧ ∀ j, i < j → ¬ RuneAt s j r

/-- `r` is the first rune of the list `rs` that occurs anywhere in `s`. -/
def FirstListed (s : Str) (rs : List Nat) (r : Nat) : Prop :=
  ∃ a b, rs = a ++ r :: b ∧ (∀ x ∈ a, ∀ i, ¬ RuneAt s i x) ∧ ∃ i, RuneAt s i r

/-! ## Proofs -/

theorem runeAt_valid {s : Str} {i r : Nat} (h : RuneAt s i r) : validRune r = true := by
  have h2 := (mem_rangeStr_any _ s (Nat.le_refl _) _ h).2
  simp only at h2
  rw [← h2]; exact decodeRune_validRune _

theorem runeAt_iff_drop {s : Str} {i r : Nat} (hv : validRune r = true) (hr : r ≠ runeError) : RuneAt s i r ↔ ∃ c, s.drop i = encodeRune r ++ c := by
  constructor
  · intro h
    obtain ⟨-, h2⟩ := mem_rangeStr_any _ s (Nat.le_refl _) _ h
    simp only at h2
    obtain ⟨h3, -⟩ := decodeRune_local (s := s.drop i) (r := r) (w := (decodeRune (s.drop i)).2) (by rw [← h2]) hr
    exact ⟨(s.drop i).drop (decodeRune (s.drop i)).2, by rw [h3, List.take_append_drop]⟩
  · rintro ⟨c, h⟩
    have hne := encode_ne_nil r
    obtain ⟨b, t, hb⟩ := List.exists_cons_of_ne_nil hne
    have h1 : s[i]? = some b := by
      have := congrArg (·[0]?) h
      rw [hb] at this
      simpa using this
    have h2 := start_mem _ s (Nat.le_refl _) i b h1 (encodeRune_head hv b (by rw [hb]; rfl))
    rw [h, decode_valid hv] at h2
    exact h2

theorem strIndex_iff {sub s : Str} {i : Nat} (hs : sub ≠ []) : strIndex sub s = some i ↔ (∃ c, s.drop i = sub ++ c) ∧ ∀ j < i, ¬ ∃ c, s.drop j = sub ++ c := by
  have key : ∀ {i}, strIndex sub s = some i → (∃ c, s.drop i = sub ++ c) ∧ ∀ j < i, ¬ ∃ c, s.drop j = sub ++ c := by
    intro i h
    obtain ⟨⟨c, h1⟩, h2, h3⟩ := strIndex_some h
    refine ⟨⟨c, ?_⟩, ?_⟩
    · have := congrArg (List.drop i) h1
      rw [this, List.append_assoc, List.drop_append_of_le_length (by simp; omega)]
      rw [List.drop_of_length_le (by rw [List.length_take]; exact Nat.min_le_left _ _), List.nil_append]
    · rintro j hj ⟨d, hd⟩
      have := h3 (s.take j) d (by rw [List.append_assoc, ← hd, List.take_append_drop])
      rw [List.length_take] at this
      omega
  refine ⟨key, ?_⟩
  rintro ⟨⟨c, h1⟩, h2⟩
  have hne : strIndex sub s ≠ none := fun h => strIndex_none h (s.take i) c (by rw [List.append_assoc, ← h1, List.take_append_drop])
  obtain ⟨k, hk⟩ := Option.ne_none_iff_exists'.1 hne
  obtain ⟨h3, h4⟩ := key hk
  rcases Nat.lt_trichotomy i k with h | h | h
  · exact absurd ⟨c, h1⟩ (h4 i h)
  · rw [h]; exact hk
  · exact absurd h3 (h2 k h)

theorem find_sorted {p : Nat × Nat → Bool} : ∀ {l : List (Nat × Nat)}, l.Pairwise (fun a b => a.1 < b.1) → ∀ {x}, l.find? p = some x →
    x ∈ l ∧ p x = true ∧ ∀ y ∈ l, y.1 < x.1 → p y = false
  | [], _, x, h => by simp at h
  | a :: l, hs, x, h => by
    rw [List.pairwise_cons] at hs
    rw [List.find?_cons] at h
    split at h
    · rename_i hp
      cases h
      refine ⟨by simp, hp, ?_⟩
      intro y hy hlt
      rcases List.mem_cons.1 hy with rfl | hy
      · omega
      · have := hs.1 y hy; omega
    · rename_i hp
      obtain ⟨h1, h2, h3⟩ := find_sorted hs.2 h
      refine ⟨List.mem_cons_of_mem _ h1, h2, ?_⟩
      intro y hy hlt
      rcases List.mem_cons.1 hy with rfl | hy
      · simpa using hp
      · exact h3 y hy hlt

theorem firstAt_unique {s : Str} {r i j : Nat} (h1 : FirstAt s r i) (h2 : FirstAt s r j) : i = j := by
  rcases Nat.lt_trichotomy i j with h | h | h
  · exact absurd h1.1 (h2.2 i h)
  · exact h
  · exact absurd h2.1 (h1.2 j h)

theorem lastAt_unique {s : Str} {r i j : Nat} (h1 : LastAt s r i) (h2 : LastAt s r j) : i = j := by
  rcases Nat.lt_trichotomy i j with h | h | h
  · exact absurd h2.1 (h1.2 j h)
  · exact h
  · exact absurd h1.1 (h2.2 i h)

theorem firstAt_exists {s : Str} {r i : Nat} (h : RuneAt s i r) : ∃ j, FirstAt s r j := by
  classical
  exact ⟨Nat.find ⟨i, h⟩, Nat.find_spec (⟨i, h⟩ : ∃ i, RuneAt s i r), fun j hj => Nat.find_min (⟨i, h⟩ : ∃ i, RuneAt s i r) hj⟩

theorem runeAt_runesIn {s : Str} {r : Nat} : r ∈ runesIn s ↔ ∃ i, RuneAt s i r := by
  rw [runesIn, ← positions_snd 0, List.mem_map]
  constructor
  · rintro ⟨⟨i, x⟩, h, rfl⟩; exact ⟨i, h⟩
  · rintro ⟨i, h⟩; exact ⟨_, h, rfl⟩

theorem indexRune_none_at {s : Str} {r : Nat} : indexRune s r = none ↔ ∀ i, ¬ RuneAt s i r := by
  rw [indexRune_none_iff, runeAt_runesIn, not_exists]

theorem indexRune_first {s : Str} {r i : Nat} (h : indexRune s r = some i) : FirstAt s r i := by
  have valid : validRune r = true → r ≠ runeError → strIndex (encodeRune r) s = some i → FirstAt s r i := by
    intro hv hr h
    obtain ⟨h1, h2⟩ := (strIndex_iff (encode_ne_nil r)).1 h
    exact ⟨(runeAt_iff_drop hv hr).2 h1, fun j hj hc => h2 j hj ((runeAt_iff_drop hv hr).1 hc)⟩
  unfold indexRune at h
  split at h
  · rename_i hr
    refine valid (by simp [validRune]; omega) (by unfold runeError; omega) ?_
    rw [encodeRune, if_pos hr]; exact h
  · split at h
    · rename_i hr; subst hr
      rw [Option.map_eq_some_iff] at h
      obtain ⟨⟨k, x⟩, h1, rfl⟩ := h
      obtain ⟨h2, h3, h4⟩ := find_sorted (rangeStr_sorted _ s (Nat.le_refl _)) h1
      simp at h3
      subst h3
      refine ⟨h2, fun j hj hc => ?_⟩
      have := h4 _ hc hj
      simp at this
    · split at h
      · cases h
      · rename_i h1 h2; exact valid (by simpa using h2) h1 h

theorem indexRune_iff {s : Str} {r i : Nat} : indexRune s r = some i ↔ FirstAt s r i := by
  refine ⟨indexRune_first, fun h => ?_⟩
  cases e : indexRune s r with
  | none => exact absurd h.1 (indexRune_none_at.1 e i)
  | some k => rw [firstAt_unique h (indexRune_first e)]

theorem firstListed_cons_some {s : Str} {r : Nat} {rs : List Nat} {i : Nat} (h : RuneAt s i r) {x : Nat} : FirstListed s (r :: rs) x ↔ x = r := by
  constructor
  · rintro ⟨a, b, h1, h2, -⟩
    cases a with
    | nil => injection h1 with h1 _; exact h1.symm
    | cons y a =>
      injection h1 with h1 _
      subst h1
      exact absurd h (h2 r (by simp) i)
  · rintro rfl; exact ⟨[], rs, rfl, by simp, i, h⟩

theorem firstListed_cons_none {s : Str} {r : Nat} {rs : List Nat} (h : ∀ i, ¬ RuneAt s i r) {x : Nat} : FirstListed s (r :: rs) x ↔ FirstListed s rs x := by
  constructor
  · rintro ⟨a, b, h1, h2, i, h3⟩
    cases a with
    | nil => injection h1 with h1 _; subst h1; exact absurd h3 (h i)
    | cons y a =>
      injection h1 with h1 h4
      exact ⟨a, b, h4, fun x hx => h2 x (List.mem_cons_of_mem _ hx), i, h3⟩
  · rintro ⟨a, b, rfl, h2, h3⟩
    refine ⟨r :: a, b, rfl, ?_, h3⟩
    intro x hx
    rcases List.mem_cons.1 hx with rfl | hx
    · exact h
    · exact h2 x hx

/-- C146: `IndexAnyRunes` returns -1 exactly if no rune of the string is in the list. -/
theorem C146_first_none (s : Str) (rs : List Nat) : indexAnyRunes s rs = none ↔ ∀ i, ∀ r ∈ rs, ¬ RuneAt s i r := by
  rw [← Option.isNone_iff_eq_none, indexAnyRunes_isNone]
  constructor
  · intro h i r hr hc; exact h r (runeAt_runesIn.2 ⟨i, hc⟩) hr
  · intro h r hr hm
    obtain ⟨i, hi⟩ := runeAt_runesIn.1 hr
    exact h i r hm hi

/-- C146: otherwise it returns the first position of the first rune of the list that occurs at all. -/
theorem C146_first (s : Str) (rs : List Nat) (i : Nat) : indexAnyRunes s rs = some i ↔ ∃ r, FirstListed s rs r ∧ FirstAt s r i := by
  induction rs with
  | nil =>
    simp only [indexAnyRunes, reduceCtorEq, false_iff, not_exists, not_and]
    rintro r ⟨a, b, h, -⟩
    simp at h
  | cons r rs ih =>
    rw [indexAnyRunes]
    cases e : indexRune s r with
    | none =>
      simp only
      rw [ih]
      simp only [firstListed_cons_none (indexRune_none_at.1 e)]
    | some k =>
      have hk := indexRune_first e
      simp only [firstListed_cons_some hk.1, exists_eq_left, Option.some.injEq]
      exact ⟨fun h => h ▸ hk, fun h => firstAt_unique hk h⟩

/-- C146, what holds of the claim that `IndexAnyRunes` finds the first rune of the string that is in the list: it does if the list has one
rune (or the same rune several times). -/
theorem C146_first_partial (s : Str) (rs : List Nat) (h1 : ∀ x ∈ rs, ∀ y ∈ rs, x = y) (i : Nat) :
    indexAnyRunes s rs = some i ↔ (∃ r ∈ rs, RuneAt s i r) ∧ ∀ j < i, ∀ r ∈ rs, ¬ RuneAt s j r := by
  rw [C146_first]
  constructor
  · rintro ⟨r, ⟨a, b, rfl, -, -⟩, h2, h3⟩
    refine ⟨⟨r, by simp, h2⟩, ?_⟩
    intro j hj x hx hc
    rw [h1 x hx r (by simp)] at hc
    exact h3 j hj hc
  · rintro ⟨⟨r, hr, h2⟩, h3⟩
    refine ⟨r, ?_, h2, fun j hj => h3 j hj r hr⟩
    cases rs with
    | nil => simp at hr
    | cons x rs =>
      have := h1 x (by simp) r hr
      subst this
      exact ⟨[], rs, rfl, by simp, i, h2⟩

/-- C146 is false of lists of several runes: in `"b.a"` the first of the separators 'a' and 'b' is at 0, but 2 is returned. -/
theorem C146_first_false : ¬ ∀ (s : Str) (rs : List Nat) (i : Nat), indexAnyRunes s rs = some i → ∀ j < i, ∀ r ∈ rs, ¬ RuneAt s j r := by
  intro h
  exact h (lit "b.a") [97, 98] 2 (by decide) 0 (by decide) 98 (by decide) (by unfold RuneAt; decide)

/-! ### LastIndexAnyRunes -/

theorem strLastIndex_iff {b : UInt8} : ∀ {s : Str} {i : Nat}, strLastIndex [b] s = some i ↔ s[i]? = some b ∧ ∀ j, i < j → s[j]? ≠ some b
  | [], i => by simp [strLastIndex]
  | c :: s, i => by
    rw [strLastIndex]
    cases e : strLastIndex [b] s with
    | some k =>
      have hk := (strLastIndex_iff (s := s)).1 e
      simp only [Option.some.injEq]
      constructor
      · rintro rfl
        refine ⟨by simpa using hk.1, ?_⟩
        intro j hj
        obtain ⟨j, rfl⟩ : ∃ j', j = j' + 1 := ⟨j - 1, by omega⟩
        simpa using hk.2 j (by omega)
      · rintro ⟨h1, h2⟩
        have hle : k + 1 ≤ i := by
          by_contra hc
          exact h2 (k + 1) (by omega) (by simpa using hk.1)
        obtain ⟨j, rfl⟩ : ∃ j', i = j' + 1 := ⟨i - 1, by omega⟩
        by_contra hne
        exact hk.2 j (by omega) (by simpa using h1)
    | none =>
      have hn : ∀ j : Nat, s[j]? ≠ some b := by
        intro j hj
        have hl : ∃ j : Nat, s[j]? = some b ∧ ∀ k : Nat, j < k → s[k]? ≠ some b := by
          by_contra hc
          push Not at hc
          have : ∀ n : Nat, ∃ j : Nat, n ≤ j ∧ s[j]? = some b := by
            intro n
            induction n with
            | zero => exact ⟨j, Nat.zero_le _, hj⟩
            | succ n ih =>
              obtain ⟨j, h1, h2⟩ := ih
              obtain ⟨k, h3, h4⟩ := hc j h2
              exact ⟨k, by omega, h4⟩
          obtain ⟨k, h1, h2⟩ := this s.length
          rw [List.getElem?_eq_none h1] at h2
          cases h2
        obtain ⟨k, hk⟩ := hl
        rw [(strLastIndex_iff (s := s)).2 hk] at e
        cases e
      by_cases hc : b = c
      · subst hc
        simp only [List.isPrefixOf, beq_self_eq_true, Bool.and_self, if_true, Option.some.injEq]
        constructor
        · rintro rfl
          refine ⟨rfl, ?_⟩
          intro j hj
          obtain ⟨j, rfl⟩ : ∃ j', j = j' + 1 := ⟨j - 1, by omega⟩
          simpa using hn j
        · rintro ⟨h1, -⟩
          cases i with
          | zero => rfl
          | succ i => exact absurd (by simpa using h1) (hn i)
      · have : [b].isPrefixOf (c :: s) = false := by simp [List.isPrefixOf, hc]
        simp only [this, Bool.false_eq_true, if_false, reduceCtorEq, false_iff, not_and]
        intro h1
        cases i with
        | zero => simp at h1; exact absurd h1.symm hc
        | succ i => exact absurd (by simpa using h1) (hn i)

theorem runeAt_ascii {s : Str} {i r : Nat} (hr : r < 0x80) : RuneAt s i r ↔ s[i]? = some (UInt8.ofNat r) := by
  rw [runeAt_iff_drop (by simp [validRune]; omega) (by unfold runeError; omega), encodeRune, if_pos hr]
  constructor
  · rintro ⟨c, h⟩
    have := congrArg (·[0]?) h
    simpa using this
  · intro h
    have hl : i < s.length := by
      by_contra hc
      rw [List.getElem?_eq_none (by omega)] at h
      cases h
    rw [List.getElem?_eq_getElem hl, Option.some.injEq] at h
    exact ⟨s.drop (i + 1), by rw [List.drop_eq_getElem_cons hl, h]; rfl⟩

theorem lastByte_iff {s : Str} {r i : Nat} (hr : r < 0x80) : strLastIndex [UInt8.ofNat r] s = some i ↔ LastAt s r i := by
  rw [strLastIndex_iff, LastAt, runeAt_ascii hr]
  simp only [runeAt_ascii hr, ne_eq]

theorem lastAt_exists {s : Str} {r i : Nat} (h : RuneAt s i r) : ∃ j, LastAt s r j := by
  by_contra hc
  push Not at hc
  have : ∀ n, ∃ j, n ≤ j ∧ RuneAt s j r := by
    intro n
    induction n with
    | zero => exact ⟨i, Nat.zero_le _, h⟩
    | succ n ih =>
      obtain ⟨j, h1, h2⟩ := ih
      by_contra h3
      push Not at h3
      exact hc j ⟨h2, fun k hk => h3 k (by omega)⟩
  obtain ⟨k, h1, h2⟩ := this s.length
  have := (mem_rangeStr_any _ s (Nat.le_refl _) _ h2).1
  simp only at this
  omega

theorem lastIndexLoop_none {s : Str} {r : Nat} (h : indexRune s r = none) (n : Nat) (sub : Str) : lastIndexLoop s r n sub none = some none := by
  cases n with
  | zero => rfl
  | succ n => rw [lastIndexLoop, h]; simp

/-- The loop takes away the bytes up to the first position as often as it can. -/
theorem lastIndexLoop_some {s : Str} {r j : Nat} (h : indexRune s r = some j) : ∀ (n : Nat) (sub : Str) (i : Option Nat), sub.length ≤ n → (sub ≠ [] ∨ i = some j) →
    lastIndexLoop s r n sub i = if (j + 1) ∣ sub.length then some (some j) else none
  | 0, sub, i, hn, hi => by
    have : sub = [] := List.length_eq_zero_iff.1 (by omega)
    subst this
    rcases hi with hi | hi
    · exact absurd rfl hi
    · subst hi; simp [lastIndexLoop]
  | n + 1, sub, i, hn, hi => by
    rw [lastIndexLoop, h]
    simp only
    by_cases hs : sub.length > 0
    · rw [if_pos hs]
      by_cases hl : sub.length < j + 1
      · rw [if_pos hl, if_neg]
        intro hd
        have := Nat.le_of_dvd hs hd
        omega
      · rw [if_neg hl, lastIndexLoop_some h n _ _ (by rw [List.length_drop]; omega) (Or.inr rfl), List.length_drop]
        have : (j + 1) ∣ sub.length - (j + 1) ↔ (j + 1) ∣ sub.length := by
          rw [Nat.dvd_sub_iff_left (by omega) (Nat.dvd_refl _)]
        simp only [this]
    · have : sub = [] := List.length_eq_zero_iff.1 (by omega)
      subst this
      rcases hi with hi | hi
      · exact absurd rfl hi
      · subst hi; simp

theorem runeAt_ne {s : Str} {i r : Nat} (h : RuneAt s i r) : s ≠ [] := by
  rintro rfl
  have := (mem_rangeStr_any _ [] (Nat.le_refl _) _ h).1
  simp at this

/-- C146: `LastIndexAnyRunes` returns -1 exactly if no rune of the string is in the list. -/
theorem C146_last_none (s : Str) (rs : List Nat) : lastIndexAnyRunes s rs = some none ↔ ∀ i, ∀ r ∈ rs, ¬ RuneAt s i r := by
  induction rs with
  | nil => simp [lastIndexAnyRunes]
  | cons r rs ih =>
    rw [lastIndexAnyRunes]
    by_cases hex : ∃ i, RuneAt s i r
    · obtain ⟨i, hi⟩ := hex
      have hR : ¬ ∀ i, ∀ x ∈ r :: rs, ¬ RuneAt s i x := fun h => h i r (by simp) hi
      simp only [hR, iff_false]
      by_cases hr : r < 0x80
      · obtain ⟨j, hj⟩ := lastAt_exists hi
        rw [if_pos hr, (lastByte_iff hr).2 hj]
        simp
      · obtain ⟨j, hj⟩ := firstAt_exists hi
        rw [if_neg hr, lastIndexLoop_some (indexRune_iff.2 hj) _ _ _ (Nat.le_refl _) (Or.inl (runeAt_ne hi))]
        split <;> simp_all
    · have hn : ∀ i, ¬ RuneAt s i r := not_exists.1 hex
      have e : (if r < 0x80 then some (strLastIndex [UInt8.ofNat r] s) else lastIndexLoop s r s.length s none) = some none := by
        split
        · rename_i hr
          rw [Option.some.injEq, Option.eq_none_iff_forall_ne_some]
          intro j hj
          exact hn j ((lastByte_iff hr).1 hj).1
        · exact lastIndexLoop_none (indexRune_none_at.2 hn) _ _
      rw [e]
      simp only
      rw [ih]
      constructor
      · intro h i x hx
        rcases List.mem_cons.1 hx with rfl | hx
        · exact hn i
        · exact h i x hx
      · intro h i x hx; exact h i x (List.mem_cons_of_mem _ hx)

theorem lastIndexAny_listed {s : Str} {r : Nat} : ∀ {rs : List Nat}, FirstListed s rs r →
    lastIndexAnyRunes s rs = (if r < 0x80 then some (strLastIndex [UInt8.ofNat r] s) else lastIndexLoop s r s.length s none)
  | [], h => by obtain ⟨a, b, h, -⟩ := h; simp at h
  | x :: rs, h => by
    by_cases hex : ∃ i, RuneAt s i x
    · obtain ⟨i, hi⟩ := hex
      obtain rfl := (firstListed_cons_some hi).1 h
      rw [lastIndexAnyRunes]
      by_cases hr : r < 0x80
      · obtain ⟨j, hj⟩ := lastAt_exists hi
        rw [if_pos hr, (lastByte_iff hr).2 hj]
      · obtain ⟨j, hj⟩ := firstAt_exists hi
        rw [if_neg hr, lastIndexLoop_some (indexRune_iff.2 hj) _ _ _ (Nat.le_refl _) (Or.inl (runeAt_ne hi))]
        by_cases hd : (j + 1) ∣ s.length
        · rw [if_pos hd]
        · rw [if_neg hd]
    · have hn : ∀ i, ¬ RuneAt s i x := not_exists.1 hex
      have h1 := (C146_last_none s [x]).2 (by intro i y hy; rw [List.mem_singleton.1 hy]; exact hn i)
      rw [lastIndexAnyRunes] at h1 ⊢
      have e : (if x < 0x80 then some (strLastIndex [UInt8.ofNat x] s) else lastIndexLoop s x s.length s none) = some none := by
        revert h1
        cases (if x < 0x80 then some (strLastIndex [UInt8.ofNat x] s) else lastIndexLoop s x s.length s none) with
        | none => simp
        | some v => cases v <;> simp
      rw [e]
      exact lastIndexAny_listed ((firstListed_cons_none hn).1 h)

/-- C146: if the first rune of the list that occurs is ASCII, its last position is returned. -/
theorem C146_last_ascii (s : Str) (rs : List Nat) (r : Nat) (h : FirstListed s rs r) (hr : r < 0x80) (i : Nat) :
    lastIndexAnyRunes s rs = some (some i) ↔ LastAt s r i := by
  rw [lastIndexAny_listed h, if_pos hr, Option.some.injEq, lastByte_iff hr]

/-- C146: if it is not, with its *first* position `j`, that position is returned if `j + 1` divides the length of the string, and otherwise the
call panics. -/
theorem C146_last_other (s : Str) (rs : List Nat) (r : Nat) (h : FirstListed s rs r) (hr : 0x80 ≤ r) (j : Nat) (hj : FirstAt s r j) :
    lastIndexAnyRunes s rs = if (j + 1) ∣ s.length then some (some j) else none := by
  rw [lastIndexAny_listed h, if_neg (by omega), lastIndexLoop_some (indexRune_iff.2 hj) _ _ _ (Nat.le_refl _) (Or.inl (runeAt_ne hj.1))]

/-- C146: `LastIndexAnyRunes` panics exactly on these calls. -/
theorem C146_last_panics (s : Str) (rs : List Nat) :
    lastIndexAnyRunes s rs = none ↔ ∃ r j, FirstListed s rs r ∧ 0x80 ≤ r ∧ FirstAt s r j ∧ ¬ (j + 1) ∣ s.length := by
  constructor
  · intro h
    have hex : ∃ r, FirstListed s rs r := by
      by_contra hc
      have : indexAnyRunes s rs = none := by
        rw [Option.eq_none_iff_forall_ne_some]
        intro i hi
        obtain ⟨r, hr, -⟩ := (C146_first s rs i).1 hi
        exact hc ⟨r, hr⟩
      rw [C146_first_none, ← C146_last_none] at this
      rw [this] at h; cases h
    obtain ⟨r, hr⟩ := hex
    have ⟨a, b, _, _, i, hi⟩ := hr
    obtain ⟨j, hj⟩ := firstAt_exists hi
    by_cases h8 : r < 0x80
    · obtain ⟨k, hk⟩ := lastAt_exists hi
      rw [(C146_last_ascii s rs r hr h8 k).2 hk] at h
      cases h
    · refine ⟨r, j, hr, by omega, hj, ?_⟩
      intro hd
      rw [C146_last_other s rs r hr (by omega) j hj, if_pos hd] at h
      cases h
  · rintro ⟨r, j, h1, h2, h3, h4⟩
    rw [C146_last_other s rs r h1 h2 j h3, if_neg h4]

/-- C146, what holds of the claim that `LastIndexAnyRunes` finds the last rune of the string that is in the list: it does if the list has one
rune (or the same rune several times), and that rune is ASCII. -/
theorem C146_last_partial (s : Str) (rs : List Nat) (h1 : ∀ x ∈ rs, ∀ y ∈ rs, x = y) (h2 : ∀ x ∈ rs, x < 0x80) (i : Nat) :
    lastIndexAnyRunes s rs = some (some i) ↔ (∃ r ∈ rs, RuneAt s i r) ∧ ∀ j, i < j → ∀ r ∈ rs, ¬ RuneAt s j r := by
  have hfl : ∀ r ∈ rs, ∀ i, RuneAt s i r → FirstListed s rs r := by
    intro r hr i hi
    cases rs with
    | nil => simp at hr
    | cons x rs =>
      have := h1 x (by simp) r hr
      subst this
      exact ⟨[], rs, rfl, by simp, i, hi⟩
  constructor
  · intro h
    have hex : ∃ i, ∃ r ∈ rs, RuneAt s i r := by
      by_contra hc
      push Not at hc
      rw [(C146_last_none s rs).2 hc] at h
      cases h
    obtain ⟨k, r, hr, hk⟩ := hex
    have := (C146_last_ascii s rs r (hfl r hr k hk) (h2 r hr) i).1 h
    refine ⟨⟨r, hr, this.1⟩, ?_⟩
    intro j hj x hx hc
    rw [h1 x hx r hr] at hc
    exact this.2 j hj hc
  · rintro ⟨⟨r, hr, h3⟩, h4⟩
    exact (C146_last_ascii s rs r (hfl r hr i h3) (h2 r hr) i).2 ⟨h3, fun j hj => h4 j hj r hr⟩

/-- C146 is false: with the separator 'é' (two bytes) in `"aéaé"` the first position is returned although there is a later one, and in
`"aaé"` no position is returned at all: the call panics. -/
theorem C146_last_false : (¬ ∀ (s : Str) (r i : Nat), lastIndexAnyRunes s [r] = some (some i) → ∀ j, i < j → ¬ RuneAt s j r) ∧
    ¬ ∀ (s : Str) (r : Nat), lastIndexAnyRunes s [r] ≠ none := by
  refine ⟨fun h => ?_, fun h => ?_⟩
  · exact h [97, 0xC3, 0xA9, 97, 0xC3, 0xA9] 0xE9 1 (by decide) 4 (by decide) (by unfold RuneAt; decide)
  · exact h [97, 97, 0xC3, 0xA9] 0xE9 (by decide)

/-- The hypotheses of C146_last_ascii and C146_last_other are met: 'é' in `"aaé"` with the list `x`, `é`, `a`, and 'a' in `"aba"`. -/
example : FirstListed [97, 97, 0xC3, 0xA9] [120, 0xE9, 97] 0xE9 ∧ FirstAt [97, 97, 0xC3, 0xA9] 0xE9 2 ∧ FirstListed (lit "aba") [120, 97] 97 ∧ LastAt (lit "aba") 97 2 := by
  have e1 : rangeStr [97, 97, 0xC3, 0xA9] = [(0, 97), (1, 97), (2, 0xE9)] := by decide
  have e2 : rangeStr (lit "aba") = [(0, 97), (1, 98), (2, 97)] := by decide
  refine ⟨⟨[120], [97], rfl, ?_, 2, ?_⟩, ⟨?_, ?_⟩, ⟨[120], [], rfl, ?_, 0, ?_⟩, ?_, ?_⟩ <;> simp only [RuneAt, e1, e2] <;> simp
  all_goals omega

end Verif.Glob
