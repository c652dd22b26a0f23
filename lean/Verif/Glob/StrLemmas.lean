import Verif.Glob.Match
/-
Facts about the functions of `Verif.Glob.GoStrings`, mostly on ASCII strings.
-/
namespace Verif.Glob

theorem ascii_append {a b : Str} : Ascii (a ++ b) ↔ Ascii a ∧ Ascii b := by
  simp only [Ascii, List.mem_append]
  exact ⟨fun h => ⟨fun x hx => h x (Or.inl hx), fun x hx => h x (Or.inr hx)⟩, fun h x hx => hx.elim (h.1 x) (h.2 x)⟩

theorem ascii_take {s : Str} (h : Ascii s) (n : Nat) : Ascii (s.take n) := fun b hb => h b (List.mem_of_mem_take hb)
theorem ascii_drop {s : Str} (h : Ascii s) (n : Nat) : Ascii (s.drop n) := fun b hb => h b (List.mem_of_mem_drop hb)

theorem decodeRune_ascii {b : UInt8} {s : Str} (hb : b < 0x80) : decodeRune (b :: s) = (b.toNat, 1) := by
  simp only [decodeRune, if_pos hb]

/-! ### strings.Index -/

theorem strIndex_some {sub : Str} : ∀ {s : Str} {i : Nat}, strIndex sub s = some i →
    (∃ c, s = s.take i ++ sub ++ c) ∧ i ≤ s.length ∧ ∀ a c, s = a ++ sub ++ c → i ≤ a.length
  | [], i, h => by
    simp only [strIndex] at h
    split at h
    · rename_i he
      cases h
      rw [List.isEmpty_iff] at he; subst he
      exact ⟨⟨[], rfl⟩, Nat.le_refl _, fun _ _ _ => Nat.zero_le _⟩
    · cases h
  | b :: s, i, h => by
    rw [strIndex] at h
    split at h
    · rename_i he
      cases h
      obtain ⟨c, hc⟩ := List.isPrefixOf_iff_prefix.1 he
      exact ⟨⟨c, by simp [hc]⟩, Nat.zero_le _, fun _ _ _ => Nat.zero_le _⟩
    · rename_i he
      rw [Option.map_eq_some_iff] at h
      obtain ⟨j, hj, rfl⟩ := h
      obtain ⟨⟨c, h1⟩, h2, h3⟩ := strIndex_some hj
      refine ⟨⟨c, ?_⟩, by simpa using h2, ?_⟩
      · simp only [List.take_succ_cons, List.cons_append]
        rw [← h1]
      · intro a c' h4
        cases a with
        | nil => exact absurd (List.isPrefixOf_iff_prefix.2 ⟨c', h4.symm⟩) (by simpa using he)
        | cons x a =>
          injection h4 with _ h5
          simpa using h3 a c' h5

theorem strIndex_none {sub : Str} : ∀ {s : Str}, strIndex sub s = none → ∀ a c, s ≠ a ++ sub ++ c
  | [], h, a, c => by
    simp only [strIndex] at h
    split at h
    · cases h
    · rename_i he
      intro h'
      have := congrArg List.length h'
      simp only [List.length_nil, List.length_append] at this
      exact he (by rw [List.isEmpty_iff, ← List.length_eq_zero_iff]; omega)
  | b :: s, h, a, c => by
    rw [strIndex] at h
    split at h
    · cases h
    · rename_i he
      rw [Option.map_eq_none_iff] at h
      intro h'
      cases a with
      | nil => exact absurd (List.isPrefixOf_iff_prefix.2 ⟨c, h'.symm⟩) (by simpa using he)
      | cons x a =>
        injection h' with _ h5
        exact strIndex_none h a c h5

theorem strIndex_ne_none {sub : Str} {a c : Str} : strIndex sub (a ++ sub ++ c) ≠ none := fun h => strIndex_none h a c rfl

theorem strIndex_singleton (b : UInt8) (s : Str) : strIndex [b] s = s.findIdx? (· = b) := by
  induction s with
  | nil => rfl
  | cons c s ih =>
    rw [strIndex, List.findIdx?_cons, ih]
    by_cases h : c = b
    · subst h; simp [List.isPrefixOf]
    · simp [List.isPrefixOf, h, Ne.symm h]

theorem encodeRune_not_ascii {r : Nat} (h : 0x80 ≤ r) : ¬ Ascii (encodeRune r) := by
  intro ha
  unfold encodeRune at ha
  split at ha
  · omega
  split at ha
  · rename_i h1 h2
    have := ha (UInt8.ofNat (0xC0 + r / 64)) (by simp)
    rw [UInt8.lt_iff_toNat_lt] at this
    simp at this
    omega
  split at ha
  · have := ha 0xEF (by simp)
    exact absurd this (by decide)
  split at ha
  · have := ha (UInt8.ofNat (0xE0 + r / 4096)) (by simp)
    rw [UInt8.lt_iff_toNat_lt] at this
    simp at this
    omega
  · rename_i h1 h2 h3 h4
    have := ha (UInt8.ofNat (0xF0 + r / 262144)) (by simp)
    rw [UInt8.lt_iff_toNat_lt] at this
    simp at this
    simp at h3
    omega

theorem strIndex_not_ascii {sub s : Str} (hs : Ascii s) (h : ¬ Ascii sub) : strIndex sub s = none := by
  cases hi : strIndex sub s with
  | none => rfl
  | some i =>
    obtain ⟨⟨c, h1⟩, _⟩ := strIndex_some hi
    rw [h1, ascii_append, ascii_append] at hs
    exact absurd hs.1.2 h

/-! ### range over a string -/

theorem positions_ascii (s : Str) (i : Nat) : positions i (s.map fun b => (b.toNat, 1)) = (s.zipIdx i).map fun x => (x.2, x.1.toNat) := by
  induction s generalizing i with
  | nil => rfl
  | cons b s ih => simp [positions, List.zipIdx_cons, ih]

theorem rangeStr_ascii {s : Str} (h : Ascii s) : rangeStr s = s.zipIdx.map fun x => (x.2, x.1.toNat) := by
  unfold rangeStr; rw [runesOf_ascii h, positions_ascii]

theorem rangeStr_fst {s : Str} (h : Ascii s) : (rangeStr s).map Prod.fst = List.range s.length := by
  rw [rangeStr_ascii h, List.map_map, List.range_eq_range', ← List.zipIdx_map_snd 0 s]
  rfl

theorem runes_length {s : Str} (h : Ascii s) : (runesOf s).length = s.length := by rw [runesOf_ascii h]; simp

theorem runeLen_ascii {b : UInt8} (h : b < 0x80) : runeLen b.toNat = 1 := by
  unfold runeLen
  rw [UInt8.lt_iff_toNat_lt] at h
  rw [if_pos (by simpa using h)]

theorem mem_rangeStr {s : Str} (h : Ascii s) {x : Nat × Nat} : x ∈ rangeStr s ↔ ∃ b, s[x.1]? = some b ∧ x.2 = b.toNat := by
  rw [rangeStr_ascii h, List.mem_map]
  constructor
  · rintro ⟨⟨b, i⟩, h1, rfl⟩
    exact ⟨b, List.mem_zipIdx_iff_getElem?.1 h1, rfl⟩
  · rintro ⟨b, h1, h2⟩
    exact ⟨(b, x.1), List.mem_zipIdx_iff_getElem?.2 h1, by rw [← h2]⟩

theorem toNat_lt_of_ascii {b : UInt8} (h : b < 0x80) : b.toNat < 128 := by
  rw [UInt8.lt_iff_toNat_lt] at h; simpa using h

/-! ### separators -/

theorem indexRune_ascii {s : Str} (h : Ascii s) (r : Nat) : indexRune s r = s.findIdx? (·.toNat = r) := by
  have hnone : 0x80 ≤ r → s.findIdx? (·.toNat = r) = none := by
    intro hr
    rw [List.findIdx?_eq_none_iff]
    intro b hb
    have := toNat_lt_of_ascii (h b hb)
    simp; omega
  unfold indexRune
  split
  · rename_i hr
    rw [strIndex_singleton]
    congr 1
    funext b
    rw [decide_eq_decide]
    constructor
    · rintro rfl; simp; omega
    · rintro rfl; simp
  rename_i hr
  rw [hnone (by omega)]
  split
  · rename_i he
    rw [Option.map_eq_none_iff, List.find?_eq_none]
    intro x hx
    obtain ⟨b, h1, h2⟩ := (mem_rangeStr h).1 hx
    have hb := toNat_lt_of_ascii (h b (List.mem_of_getElem? h1))
    rw [h2]
    simp [runeError]; omega
  split
  · rfl
  · exact strIndex_not_ascii h (encodeRune_not_ascii (by omega))

theorem indexRune_none {s : Str} (h : Ascii s) (r : Nat) : indexRune s r = none ↔ ∀ b ∈ s, b.toNat ≠ r := by
  rw [indexRune_ascii h, List.findIdx?_eq_none_iff]; simp

theorem indexAnyRunes_none {s : Str} (h : Ascii s) (seps : List Nat) : indexAnyRunes s seps = none ↔ ∀ b ∈ s, b.toNat ∉ seps := by
  induction seps with
  | nil => simp [indexAnyRunes]
  | cons r rs ih =>
    rw [indexAnyRunes]
    cases hr : indexRune s r with
    | some i =>
      simp only [reduceCtorEq, false_iff]
      intro hall
      have hn : indexRune s r = none := (indexRune_none h r).2 fun b hb e => hall b hb (e ▸ List.mem_cons_self)
      rw [hr] at hn
      cases hn
    | none =>
      rw [ih]
      have := (indexRune_none h r).1 hr
      constructor
      · intro h1 b hb hm
        rcases List.mem_cons.1 hm with e | e
        · exact this b hb e
        · exact h1 b hb e
      · intro h1 b hb hm; exact h1 b hb (List.mem_cons_of_mem _ hm)

/-- With at most one separator `IndexAnyRunes` finds the first one. -/
theorem indexAnyRunes_some {s : Str} (h : Ascii s) {seps : List Nat} (hs : seps.length ≤ 1) {i : Nat} (hi : indexAnyRunes s seps = some i) :
    i < s.length ∧ ∀ k ≤ s.length, (∀ b ∈ s.take k, b.toNat ∉ seps) ↔ k ≤ i := by
  cases seps with
  | nil => simp [indexAnyRunes] at hi
  | cons r rs =>
    have : rs = [] := by cases rs with
      | nil => rfl
      | cons _ _ => simp at hs
    subst this
    have hi : indexRune s r = some i := by
      rw [indexAnyRunes] at hi
      cases hr : indexRune s r with
      | none => rw [hr] at hi; simp [indexAnyRunes] at hi
      | some j => rw [hr] at hi; exact hi
    rw [indexRune_ascii h, List.findIdx?_eq_some_iff_getElem] at hi
    obtain ⟨h1, h2, h3⟩ := hi
    simp only [decide_eq_true_eq, List.mem_singleton] at *
    refine ⟨h1, fun k hk => ⟨fun hall => ?_, fun hki b hb => ?_⟩⟩
    · by_contra hc
      refine hall s[i] ?_ h2
      rw [List.mem_take_iff_getElem]
      exact ⟨i, by omega, rfl⟩
    · rw [List.mem_take_iff_getElem] at hb
      obtain ⟨j, hj, rfl⟩ := hb
      exact h3 j (by omega)

end Verif.Glob
