import Verif.Glob.LenProps
/-
What `Index` of the simple matchers finds, and the loops of Row and AnyOf.
-/
namespace Verif.Glob

/-- `Index` finds the first occurrence of a string of the language, with its length. -/
def IdxFirst (ix : Str → Idx) (L : Str → Prop) : Prop := ∀ s, Ascii s →
  (ix s = some none ∧ ∀ a b c, s = a ++ b ++ c → ¬ L b) ∨
  ∃ i k, ix s = some (some (i, [k])) ∧ 1 ≤ k ∧ i + k ≤ s.length ∧ L ((s.drop i).take k) ∧ ∀ a b c, s = a ++ b ++ c → L b → i ≤ a.length

/-- `Index` finds the lengths of all strings of the language at the start of a string that is not empty. -/
def IdxStart (ix : Str → Idx) (L : Str → Prop) : Prop := ∀ s, Ascii s → s ≠ [] →
  (ix s = some none ∧ ∀ b c, s = b ++ c → ¬ L b) ∨
  ∃ i segs, ix s = some (some (i, segs)) ∧ i < s.length ∧ (0 < i → ∀ b c, s = b ++ c → ¬ L b) ∧ (i = 0 → ∀ k, k ∈ segs ↔ k ≤ s.length ∧ L (s.take k))

theorem take_of_append {s b c : Str} (h : s = b ++ c) : s.take b.length = b := by rw [h]; simp

theorem prefix_iff_take {s : Str} {L : Str → Prop} : (∃ b c, s = b ++ c ∧ L b) ↔ ∃ k ≤ s.length, L (s.take k) := by
  constructor
  · rintro ⟨b, c, rfl, h⟩; exact ⟨b.length, by simp, by simpa using h⟩
  · rintro ⟨k, _, h⟩; exact ⟨s.take k, s.drop k, by simp, h⟩

/-- The first occurrence, if it is at the start, is the only match there. -/
theorem IdxFirst.start {ix : Str → Idx} {L : Str → Prop} (h : IdxFirst ix L) (hl : ∀ a b, Ascii a → Ascii b → L a → L b → a.length = b.length) : IdxStart ix L := by
  intro s ha hne
  rcases h s ha with ⟨h1, h2⟩ | ⟨i, k, h1, h2, h3, h4, h5⟩
  · left; exact ⟨h1, fun b c e => h2 [] b c (by simpa using e)⟩
  · right
    refine ⟨i, [k], h1, by omega, fun hi b c e hb => ?_, fun hi k' => ?_⟩
    · have := h5 [] b c (by simpa using e) hb
      simp at this; omega
    · subst hi
      simp only [List.mem_singleton, List.drop_zero] at *
      constructor
      · rintro rfl; exact ⟨by omega, h4⟩
      · rintro ⟨h6, h7⟩
        have := hl _ _ (ascii_take ha k) (ascii_take ha k') h4 h7
        simp only [List.length_take] at this
        omega

/-! ### Text and one rune -/

theorem text_first {t : Str} (ht : t ≠ []) : IdxFirst (Matcher.text t).index (MLang (.text t)) := by
  intro s ha
  have e : (Matcher.text t).index s = some ((strIndex t s).map fun i => (i, [t.length])) := rfl
  rw [e]
  cases hi : strIndex t s with
  | none =>
    left
    refine ⟨rfl, fun a b c h hb => ?_⟩
    rw [MLang] at hb; subst hb
    exact strIndex_none hi a c h
  | some i =>
    right
    obtain ⟨⟨c, h1⟩, h2, h3⟩ := strIndex_some hi
    have hlen := congrArg List.length h1
    simp only [List.length_append, List.length_take] at hlen
    refine ⟨i, t.length, rfl, List.length_pos_iff.2 ht, by omega, ?_, ?_⟩
    · rw [MLang]
      conv_lhs => rw [h1]
      rw [List.append_assoc, List.drop_left' (by simp; omega), List.take_left' rfl]
    · intro a b c h hb
      rw [MLang] at hb; subst hb
      exact h3 a c h

theorem text_start (t : Str) : IdxStart (Matcher.text t).index (MLang (.text t)) := by
  by_cases ht : t = []
  · subst ht
    intro s ha hne
    right
    refine ⟨0, [0], ?_, List.length_pos_iff.2 hne, fun h => absurd h (by omega), fun _ k => ?_⟩
    · show some ((strIndex [] s).map fun i => (i, [0])) = _
      cases s with
      | nil => rfl
      | cons b s => rw [strIndex]; simp
    · simp only [List.mem_singleton, MLang, List.take_eq_nil_iff, hne, or_false]
      exact ⟨fun h => by subst h; simp, fun h => h.2⟩
  · exact (text_first ht).start fun a b _ _ h1 h2 => by rw [MLang] at h1 h2; rw [h1, h2]

theorem find_first {s : Str} (ha : Ascii s) (p : Nat → Bool) :
    ((rangeStr s).find? fun x => p x.2) = (s.findIdx? fun b => p b.toNat).bind fun i => s[i]?.map fun b => (i, b.toNat) := by
  rw [rangeStr_ascii ha]
  have key : ∀ (t : Str) (n : Nat), ((t.zipIdx n).map fun x => (x.2, x.1.toNat)).find? (fun x => p x.2) =
      (t.findIdx? fun b => p b.toNat).bind fun i => t[i]?.map fun b => (n + i, b.toNat) := by
    intro t
    induction t with
    | nil => intro n; rfl
    | cons b t ih =>
      intro n
      rw [List.zipIdx_cons, List.map_cons, List.find?_cons, List.findIdx?_cons]
      by_cases hb : p b.toNat = true
      · simp [hb]
      · simp only [Bool.not_eq_true] at hb
        simp only [hb, ih (n + 1)]
        cases t.findIdx? fun b => p b.toNat with
        | none => rfl
        | some i =>
          simp [show n + 1 + i = n + (i + 1) by omega]
  have := key s 0
  simpa using this

theorem oneRune_first (p : Nat → Bool) : IdxFirst (firstRune p) fun s => ∃ b, s = [b] ∧ p b.toNat = true := by
  intro s ha
  unfold firstRune
  rw [find_first ha]
  cases hi : s.findIdx? fun b => p b.toNat with
  | none =>
    left
    refine ⟨rfl, ?_⟩
    rintro a b c rfl ⟨x, rfl, hx⟩
    rw [List.findIdx?_eq_none_iff] at hi
    have := hi x (by simp)
    rw [hx] at this; cases this
  | some i =>
    right
    rw [List.findIdx?_eq_some_iff_getElem] at hi
    obtain ⟨h1, h2, h3⟩ := hi
    refine ⟨i, 1, ?_, Nat.le_refl _, by omega, ⟨s[i], ?_, h2⟩, ?_⟩
    · simp only [Option.bind_some, List.getElem?_eq_getElem h1, Option.map_some]
      rw [runeLen_ascii (ha _ (List.getElem_mem h1))]
    · rw [List.drop_eq_getElem_cons h1]; rfl
    · rintro a b c rfl ⟨x, rfl, hx⟩
      by_contra hc
      have := h3 a.length (by omega)
      apply this
      simp [hx]

theorem oneRune_len {p : Nat → Bool} : ∀ a b : Str, Ascii a → Ascii b → (∃ c, a = [c] ∧ p c.toNat = true) → (∃ c, b = [c] ∧ p c.toNat = true) → a.length = b.length := by
  rintro a b _ _ ⟨c, rfl, _⟩ ⟨d, rfl, _⟩; rfl

theorem single_first (seps : List Nat) : IdxFirst (Matcher.single seps).index (MLang (.single seps)) := by
  have h := oneRune_first fun r => !seps.contains r
  have e : (MLang (.single seps)) = fun s => ∃ b : UInt8, s = [b] ∧ (!seps.contains b.toNat) = true := by
    funext s; simp [MLang]
  rw [e]; exact h

theorem list_first (rs : List Nat) (n : Bool) : IdxFirst (Matcher.list rs n).index (MLang (.list rs n)) := by
  have h := oneRune_first (inList rs n)
  have e : (MLang (.list rs n)) = fun s => ∃ b : UInt8, s = [b] ∧ inList rs n b.toNat = true := by funext s; simp [MLang]
  rw [e]; exact h

theorem range_first (lo hi : Nat) (n : Bool) : IdxFirst (Matcher.range lo hi n).index (MLang (.range lo hi n)) := by
  have h := oneRune_first (inRange lo hi n)
  have e : (MLang (.range lo hi n)) = fun s => ∃ b : UInt8, s = [b] ∧ inRange lo hi n b.toNat = true := by funext s; simp [MLang]
  rw [e]; exact h

/-! ### Matchers that start at 0 -/

theorem mem_positions {s : Str} (ha : Ascii s) (k : Nat) : k ∈ (rangeStr s).map Prod.fst ++ [s.length] ↔ k ≤ s.length := by
  rw [rangeStr_fst ha]; simp; omega

theorem mem_ends {s : Str} (ha : Ascii s) (n k : Nat) :
    k ∈ (rangeStr s).map (fun x => n + x.1 + runeLen x.2) ↔ n + 1 ≤ k ∧ k ≤ n + s.length := by
  rw [List.mem_map]
  constructor
  · rintro ⟨x, hx, rfl⟩
    obtain ⟨b, h1, h2⟩ := (mem_rangeStr ha).1 hx
    obtain ⟨h3, h4⟩ := List.getElem?_eq_some_iff.1 h1
    rw [h2, runeLen_ascii (ha b (List.mem_of_getElem? h1))]
    omega
  · rintro ⟨h1, h2⟩
    have hk : k - n - 1 < s.length := by omega
    refine ⟨(k - n - 1, s[k - n - 1].toNat), (mem_rangeStr ha).2 ⟨_, List.getElem?_eq_getElem hk, rfl⟩, ?_⟩
    rw [runeLen_ascii (ha _ (List.getElem_mem hk))]
    simp only; omega

theorem super_start : IdxStart Matcher.super.index (MLang .super) := by
  intro s ha hne
  right
  refine ⟨0, _, rfl, List.length_pos_iff.2 hne, fun h => absurd h (by omega), fun _ k => ?_⟩
  rw [mem_positions ha]; simp [MLang]

theorem nothing_start : IdxStart Matcher.nothing.index (MLang .nothing) := by
  intro s ha hne
  right
  refine ⟨0, _, rfl, List.length_pos_iff.2 hne, fun h => absurd h (by omega), fun _ k => ?_⟩
  simp only [List.mem_singleton, MLang, List.take_eq_nil_iff, hne, or_false]
  exact ⟨fun h => by subst h; simp, fun h => h.2⟩

theorem any_start {seps : List Nat} (hs : seps.length ≤ 1) : IdxStart (Matcher.any seps).index (MLang (.any seps)) := by
  intro s ha hne
  right
  have hpos := List.length_pos_iff.2 hne
  show ∃ i segs, anyIndex seps s = _ ∧ _
  unfold anyIndex
  split
  · rename_i hi
    obtain ⟨h1, h2⟩ := indexAnyRunes_some ha hs hi
    refine ⟨0, [0], rfl, hpos, fun h => absurd h (by omega), fun _ k => ?_⟩
    simp only [List.mem_singleton, MLang]
    constructor
    · rintro rfl; simp
    · rintro ⟨h3, h4⟩; have := (h2 k h3).1 h4; omega
  · rename_i found _ hi
    obtain ⟨h1, h2⟩ := indexAnyRunes_some ha hs hi
    refine ⟨0, _, rfl, hpos, fun h => absurd h (by omega), fun _ k => ?_⟩
    rw [mem_positions (ascii_take ha found), List.length_take, MLang]
    constructor
    · intro h; exact ⟨by omega, (h2 k (by omega)).2 (by omega)⟩
    · rintro ⟨h3, h4⟩; have := (h2 k h3).1 h4; omega
  · rename_i hi
    refine ⟨0, _, rfl, hpos, fun h => absurd h (by omega), fun _ k => ?_⟩
    rw [mem_positions ha, MLang]
    rw [indexAnyRunes_none ha] at hi
    exact ⟨fun h => ⟨h, fun b hb => hi b (List.mem_of_mem_take hb)⟩, fun h => h.1⟩

theorem max_segs {s : Str} (ha : Ascii s) (n k : Nat) :
    k ∈ 0 :: ((rangeStr s).take n).map (fun x => x.1 + runeLen x.2) ↔ k ≤ s.length ∧ k ≤ n := by
  have e : ((rangeStr s).take n) = rangeStr (s.take n) := by
    rw [rangeStr_ascii ha, rangeStr_ascii (ascii_take ha n), ← List.map_take]
    congr 1
    apply List.ext_getElem?
    intro i
    rw [List.getElem?_take, List.getElem?_zipIdx, List.getElem?_zipIdx, List.getElem?_take]
    split <;> rfl
  have := mem_ends (ascii_take ha n) 0 k
  simp only [Nat.zero_add] at this
  rw [e, List.mem_cons, this, List.length_take]
  omega

theorem max_start (n : Nat) : IdxStart (Matcher.max n).index (MLang (.max n)) := by
  intro s ha hne
  right
  refine ⟨0, _, rfl, List.length_pos_iff.2 hne, fun h => absurd h (by omega), fun _ k => ?_⟩
  rw [max_segs ha, MLang, List.length_take]
  omega

theorem min_segs {s : Str} (ha : Ascii s) (n k : Nat) (hn : 1 ≤ n) :
    k ∈ (((rangeStr s).zipIdx 1).filter fun x => x.2 ≥ n).map (fun x => x.1.1 + runeLen x.1.2) ↔ n ≤ k ∧ k ≤ s.length := by
  simp only [List.mem_map, List.mem_filter, decide_eq_true_eq]
  have hz : ∀ x : (Nat × Nat) × Nat, x ∈ (rangeStr s).zipIdx 1 ↔ 1 ≤ x.2 ∧ ∃ b, s[x.2 - 1]? = some b ∧ x.1 = (x.2 - 1, b.toNat) := by
    intro x
    rw [List.mem_zipIdx_iff_le_and_getElem?_sub]
    apply and_congr_right
    intro hx
    rw [rangeStr_ascii ha, List.getElem?_map, List.getElem?_zipIdx]
    cases s[x.2 - 1]? with
    | none => simp
    | some b => simp [eq_comm]
  constructor
  · rintro ⟨x, ⟨h1, h2⟩, rfl⟩
    obtain ⟨h3, b, h4, h5⟩ := (hz x).1 h1
    obtain ⟨h6, h7⟩ := List.getElem?_eq_some_iff.1 h4
    rw [h5, runeLen_ascii (ha b (List.mem_of_getElem? h4))]
    simp only; omega
  · rintro ⟨h1, h2⟩
    have hk : k - 1 < s.length := by omega
    refine ⟨((k - 1, s[k - 1].toNat), k), ⟨(hz _).2 ⟨by simp only; omega, s[k - 1], by simp [List.getElem?_eq_getElem hk], rfl⟩, by simpa using h1⟩, ?_⟩
    rw [runeLen_ascii (ha _ (List.getElem_mem hk))]
    simp only; omega

theorem min_start {n : Nat} (hn : 1 ≤ n) : IdxStart (Matcher.min n).index (MLang (.min n)) := by
  intro s ha hne
  show (minIndex n s = _ ∧ _) ∨ ∃ i segs, minIndex n s = _ ∧ _
  unfold minIndex
  split
  · rename_i h
    left
    refine ⟨rfl, ?_⟩
    rintro b c rfl hb
    rw [MLang] at hb
    simp only [List.length_append] at h
    omega
  · simp only
    split
    · rename_i h1 h2
      left
      refine ⟨rfl, ?_⟩
      rintro b c rfl hb
      rw [MLang] at hb
      rw [List.isEmpty_iff] at h2
      have := (min_segs ha n b.length hn).2 ⟨hb, by simp⟩
      rw [h2] at this
      cases this
    · right
      refine ⟨0, _, rfl, List.length_pos_iff.2 hne, fun h => absurd h (by omega), fun _ k => ?_⟩
      rw [min_segs ha n k hn, MLang, List.length_take]
      omega

/-- A needle occurs in the first `k` bytes iff its first occurrence ends there. -/
theorem occurs_take {needle s : Str} {i k : Nat} (hi : strIndex needle s = some i) (hk : k ≤ s.length) :
    (∃ a c, s.take k = a ++ needle ++ c) ↔ i + needle.length ≤ k := by
  obtain ⟨⟨c, h1⟩, h2, h3⟩ := strIndex_some hi
  constructor
  · rintro ⟨a, c', h⟩
    have hl := congrArg List.length h
    simp only [List.length_take, List.length_append] at hl
    have := h3 a (c' ++ s.drop k) (by rw [← List.append_assoc, ← h, List.take_append_drop])
    omega
  · intro h
    refine ⟨s.take i, c.take (k - (i + needle.length)), ?_⟩
    conv_lhs => rw [h1]
    rw [List.take_append]
    have : (s.take i ++ needle).length = i + needle.length := by simp; omega
    rw [this, List.take_of_length_le (by omega)]

theorem contains_start {needle : Str} {n : Bool} (hn : (!n || needleGood needle) = true) :
    IdxStart (Matcher.contains needle n).index (MLang (.contains needle n)) := by
  intro s ha hne
  have hpos := List.length_pos_iff.2 hne
  show (containsIndex needle n s = _ ∧ _) ∨ ∃ i segs, containsIndex needle n s = _ ∧ _
  unfold containsIndex
  cases hi : strIndex needle s with
  | none =>
    have hno := strIndex_none hi
    have hno' : ∀ k a c, s.take k ≠ a ++ needle ++ c := by
      intro k a c h
      exact hno a (c ++ s.drop k) (by rw [← List.append_assoc, ← h, List.take_append_drop])
    cases n with
    | false =>
      left
      refine ⟨rfl, ?_⟩
      intro b c hs hb
      rw [contains_lang rfl (by rw [hs, ascii_append] at ha; exact ha.1)] at hb
      obtain ⟨x, y, hxy⟩ := hb.2 rfl
      exact hno' b.length x y (by rw [take_of_append hs, hxy])
    | true =>
      right
      refine ⟨0, _, rfl, hpos, fun h => absurd h (by omega), fun _ k => ?_⟩
      rw [mem_positions ha, contains_lang hn (ascii_take ha k)]
      constructor
      · intro h; refine ⟨h, ?_⟩
        simp only [Bool.true_eq_false, iff_false]
        rintro ⟨a, c, h'⟩; exact hno' k a c h'
      · exact fun h => h.1
  | some i =>
    obtain ⟨⟨c0, h1⟩, h2, h3⟩ := strIndex_some hi
    have hlen := congrArg List.length h1
    simp only [List.length_append, List.length_take] at hlen
    cases n with
    | false =>
      right
      simp only
      have key : ∀ k, (i + needle.length ≤ k ∧ k ≤ s.length) ↔ k ≤ s.length ∧ MLang (.contains needle false) (s.take k) := by
        intro k
        rw [contains_lang rfl (ascii_take ha k)]
        simp only [iff_true]
        constructor
        · rintro ⟨h4, h5⟩; exact ⟨h5, (occurs_take hi h5).2 h4⟩
        · rintro ⟨h4, h5⟩; exact ⟨(occurs_take hi h4).1 h5, h4⟩
      split
      · refine ⟨0, _, rfl, hpos, fun h => absurd h (by omega), fun _ k => ?_⟩
        rw [← key, List.mem_singleton]; omega
      · refine ⟨0, _, rfl, hpos, fun h => absurd h (by omega), fun _ k => ?_⟩
        rw [← key]
        have hd := ascii_drop ha (i + needle.length)
        rw [List.mem_append, List.mem_singleton, List.mem_map]
        have hm : (∃ x ∈ rangeStr (s.drop (i + needle.length)), i + needle.length + x.1 = k) ↔ i + needle.length ≤ k ∧ k < s.length := by
          have := rangeStr_fst hd
          constructor
          · rintro ⟨x, hx, rfl⟩
            have hx' : x.1 ∈ (rangeStr (s.drop (i + needle.length))).map Prod.fst := List.mem_map_of_mem hx
            rw [this, List.mem_range, List.length_drop] at hx'
            omega
          · rintro ⟨h4, h5⟩
            have hx' : k - (i + needle.length) ∈ (rangeStr (s.drop (i + needle.length))).map Prod.fst := by
              rw [this, List.mem_range, List.length_drop]; omega
            obtain ⟨x, hx, hx2⟩ := List.mem_map.1 hx'
            exact ⟨x, hx, by rw [hx2]; omega⟩
        rw [hm, List.length_drop]
        omega
    | true =>
      right
      simp only [Bool.not_true, Bool.false_or] at hn
      have hone : needle.length = 1 := by
        rcases needleGood_spec hn ha with h | h
        · exact h
        · exact absurd h1 (h _ _)
      refine ⟨0, _, rfl, hpos, fun h => absurd h (by omega), fun _ k => ?_⟩
      rw [mem_positions (ascii_take ha i), List.length_take, contains_lang (by simpa using hn) (ascii_take ha k)]
      simp only [Bool.true_eq_false, iff_false]
      constructor
      · intro h; refine ⟨by omega, ?_⟩
        intro h'
        have := (occurs_take hi (by omega)).1 h'
        omega
      · rintro ⟨h4, h5⟩
        have := mt (occurs_take hi h4).2 h5
        omega

theorem take_prefix {s p : Str} {k : Nat} : (∃ c, s.take k = p ++ c) ↔ (∃ c, s = p ++ c) ∧ (p.length ≤ k) := by
  constructor
  · rintro ⟨c, h⟩
    have hl := congrArg List.length h
    simp only [List.length_take, List.length_append] at hl
    refine ⟨⟨c ++ s.drop k, ?_⟩, by omega⟩
    rw [← List.append_assoc, ← h, List.take_append_drop]
  · rintro ⟨⟨c, rfl⟩, h⟩
    refine ⟨c.take (k - p.length), ?_⟩
    rw [List.take_append, List.take_of_length_le h]

theorem strIndex_zero {p s : Str} (h : strIndex p s = some 0) : ∃ c, s = p ++ c := by
  obtain ⟨⟨c, h1⟩, _⟩ := strIndex_some h
  exact ⟨c, by simpa using h1⟩

theorem strIndex_pos {p s : Str} {i : Nat} (h : strIndex p s = some i) (hi : 0 < i) : ¬ ∃ c, s = p ++ c := by
  rintro ⟨c, hc⟩
  have := (strIndex_some h).2.2 [] c (by simpa using hc)
  simp at this; omega

theorem strIndex_lt {p s : Str} {i : Nat} (h : strIndex p s = some i) (hs : s ≠ []) : i < s.length := by
  obtain ⟨⟨c, h1⟩, h2, h3⟩ := strIndex_some h
  by_cases hp : p = []
  · subst hp
    have := h3 [] s (by simp)
    have := List.length_pos_iff.2 hs
    simp at *; omega
  · have hlen := congrArg List.length h1
    have := List.length_pos_iff.2 hp
    simp only [List.length_append, List.length_take] at hlen
    omega

theorem prefix_start (p : Str) : IdxStart (Matcher.prefix p).index (MLang (.prefix p)) := by
  intro s ha hne
  show (prefixIndex p s = _ ∧ _) ∨ ∃ i segs, prefixIndex p s = _ ∧ _
  unfold prefixIndex
  cases hi : strIndex p s with
  | none =>
    left
    refine ⟨rfl, ?_⟩
    intro b c h hb
    rw [MLang] at hb
    obtain ⟨c', rfl⟩ := hb
    exact strIndex_none hi [] (c' ++ c) (by simpa using h)
  | some i =>
    right
    refine ⟨i, _, rfl, strIndex_lt hi hne, ?_, ?_⟩
    · intro hpos b c h hb
      rw [MLang] at hb
      obtain ⟨c', rfl⟩ := hb
      exact strIndex_pos hi hpos ⟨c' ++ c, by simpa using h⟩
    · rintro rfl k
      rw [List.mem_cons, mem_ends (ascii_drop ha _), MLang, take_prefix, List.length_drop]
      obtain ⟨c, hc⟩ := strIndex_zero hi
      have := congrArg List.length hc
      simp only [List.length_append] at this
      constructor
      · intro h; exact ⟨by omega, ⟨c, hc⟩, by omega⟩
      · rintro ⟨h4, _, h5⟩; omega

theorem prefixAny_start {p : Str} {seps : List Nat} (hs : seps.length ≤ 1) : IdxStart (Matcher.prefixAny p seps).index (MLang (.prefixAny p seps)) := by
  intro s ha hne
  show (prefixAnyIndex p seps s = _ ∧ _) ∨ ∃ i segs, prefixAnyIndex p seps s = _ ∧ _
  unfold prefixAnyIndex
  cases hi : strIndex p s with
  | none =>
    left
    refine ⟨rfl, ?_⟩
    intro b c h hb
    rw [MLang] at hb
    obtain ⟨c', rfl, _⟩ := hb
    exact strIndex_none hi [] (c' ++ c) (by simpa using h)
  | some i =>
    right
    refine ⟨i, _, rfl, strIndex_lt hi hne, ?_, ?_⟩
    · intro hpos b c h hb
      rw [MLang] at hb
      obtain ⟨c', rfl, _⟩ := hb
      exact strIndex_pos hi hpos ⟨c' ++ c, by simpa using h⟩
    · rintro rfl k
      obtain ⟨c, rfl⟩ := strIndex_zero hi
      rw [ascii_append] at ha
      simp only [Nat.zero_add, List.drop_left, List.mem_cons]
      have hm : MLang (.prefixAny p seps) ((p ++ c).take k) ↔ p.length ≤ k ∧ ∀ b ∈ c.take (k - p.length), b.toNat ∉ seps := by
        rw [MLang]
        constructor
        · rintro ⟨c', h1, h2⟩
          have hl := congrArg List.length h1
          simp only [List.length_take, List.length_append] at hl
          have hk : p.length ≤ k := by omega
          rw [List.take_append, List.take_of_length_le hk] at h1
          rw [List.append_cancel_left h1]
          exact ⟨hk, h2⟩
        · rintro ⟨h1, h2⟩
          exact ⟨_, by rw [List.take_append, List.take_of_length_le h1], h2⟩
      rw [hm]
      cases hj : indexAnyRunes c seps with
      | none =>
        simp only
        rw [mem_ends ha.2, List.length_append]
        rw [indexAnyRunes_none ha.2] at hj
        constructor
        · intro h; exact ⟨by omega, by omega, fun b hb => hj b (List.mem_of_mem_take hb)⟩
        · rintro ⟨h4, h5, _⟩; omega
      | some j =>
        simp only
        obtain ⟨h1, h2⟩ := indexAnyRunes_some ha.2 hs hj
        rw [mem_ends (ascii_take ha.2 j), List.length_append, List.length_take]
        constructor
        · intro h; exact ⟨by omega, by omega, (h2 _ (by omega)).2 (by omega)⟩
        · rintro ⟨h4, h5, h6⟩
          have := (h2 _ (by omega)).1 h6
          omega

end Verif.Glob
