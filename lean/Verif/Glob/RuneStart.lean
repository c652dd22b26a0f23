import Verif.Glob.RuneIdx
/-
`Index` of the matchers whose index is a start of the string, on valid strings.
-/
namespace Verif.Glob

/-- The first occurrence of a valid text in a valid string. -/
theorem strIndex_enc {w : List Nat} (hw : Scalars w) {t : Str} (ht : validText t = true) :
    (strIndex t (enc w) = none ∧ ∀ a c, w ≠ a ++ runesIn t ++ c) ∨
    ∃ a c, w = a ++ runesIn t ++ c ∧ strIndex t (enc w) = some (enc a).length ∧ ∀ a' c', w = a' ++ runesIn t ++ c' → a.length ≤ a'.length := by
  have hte := validText_eq ht
  have occ : ∀ a c, w = a ++ runesIn t ++ c → enc w = enc a ++ t ++ enc c := by
    rintro a c rfl
    rw [enc_append, enc_append, ← hte]
  cases hi : strIndex t (enc w) with
  | none => exact Or.inl ⟨rfl, fun a c e => strIndex_none hi _ _ (occ a c e)⟩
  | some i =>
    right
    obtain ⟨⟨c, h1⟩, h2, h3⟩ := strIndex_some hi
    by_cases hn : t = []
    · subst hn
      have := h3 [] (enc w) (by simp)
      simp only [List.length_nil, Nat.le_zero_eq] at this
      subst this
      exact ⟨[], w, by simp [runesIn, runesOf, runesAux], rfl, by simp⟩
    · have hne : runesIn t ≠ [] := by rw [Ne, runesIn_eq_nil]; exact hn
      have h1' : enc w = (enc w).take i ++ enc (runesIn t) ++ c := by rw [← hte]; exact h1
      obtain ⟨a, d, e, h4, rfl⟩ := enc_occurs hw (runesIn_scalars t) hne h1'
      have hil : i = (enc a).length := by rw [← h4, List.length_take_of_le h2]
      refine ⟨a, d, e, by rw [hil], fun a' c' e' => ?_⟩
      have := h3 _ _ (occ a' c' e')
      rw [hil] at this
      exact (enc_le (w := w) (b := runesIn t ++ d) (d := runesIn t ++ c') (by rw [e, List.append_assoc]) (by rw [e', List.append_assoc])).1 this

theorem validText_one {r : Nat} (h : validRune r = true) : validText (encodeRune r) = true ∧ runesIn (encodeRune r) = [r] := by
  have hs : Scalars [r] := by intro x hx; simp at hx; subst hx; exact h
  have := runesIn_enc hs
  rw [enc_singleton] at this
  exact ⟨by rw [validText, this, enc_singleton, beq_iff_eq], this⟩

/-- The first occurrence of a rune. -/
theorem indexRune_enc {w : List Nat} (hw : Scalars w) {r : Nat} (hv : validRune r = true) :
    (indexRune (enc w) r = none ∧ r ∉ w) ∨ ∃ a c, w = a ++ r :: c ∧ r ∉ a ∧ indexRune (enc w) r = some (enc a).length := by
  have text : (strIndex (encodeRune r) (enc w) = none ∧ r ∉ w) ∨ ∃ a c, w = a ++ r :: c ∧ r ∉ a ∧ strIndex (encodeRune r) (enc w) = some (enc a).length := by
    obtain ⟨h1, h2⟩ := validText_one hv
    rcases strIndex_enc hw h1 with ⟨h3, h4⟩ | ⟨a, c, h3, h4, h5⟩
    · left
      refine ⟨h3, fun hm => ?_⟩
      obtain ⟨u, v, e⟩ := List.append_of_mem hm
      exact h4 u v (by rw [h2, e]; simp)
    · right
      rw [h2] at h3 h5
      refine ⟨a, c, by rw [h3]; simp, fun hm => ?_, h4⟩
      obtain ⟨u, v, e⟩ := List.append_of_mem hm
      have := h5 u (v ++ [r] ++ c) (by rw [h3, e]; simp)
      rw [e] at this
      simp at this
      omega
  unfold indexRune
  split
  · rename_i h
    rw [encodeRune, if_pos h] at text
    exact text
  · split
    · rename_i h
      rw [rangeStr_enc hw]
      clear text
      have key : ∀ (w : List Nat) (i : Nat), (((spots i w).find? fun p => p.2 == runeError).map Prod.fst = none ∧ r ∉ w) ∨
          ∃ a c, w = a ++ r :: c ∧ r ∉ a ∧ ((spots i w).find? fun p => p.2 == runeError).map Prod.fst = some (i + (enc a).length) := by
        intro w
        induction w with
        | nil => intro i; left; simp [spots]
        | cons x w ih =>
          intro i
          rw [spots, List.find?_cons]
          by_cases hx : x = r
          · right
            exact ⟨[], w, by rw [hx]; rfl, by simp, by simp [hx, h, enc_nil]⟩
          · have hb : (x == runeError) = false := by rw [← h]; simpa using hx
            simp only [hb]
            rcases ih (i + (encodeRune x).length) with ⟨h1, h2⟩ | ⟨a, c, h1, h2, h3⟩
            · left; exact ⟨h1, by simp [h2, Ne.symm hx]⟩
            · right; refine ⟨x :: a, c, by rw [h1]; rfl, by simp [h2, Ne.symm hx], ?_⟩
              rw [h3, enc_cons, List.length_append]
              congr 1; omega
      have := key w 0
      simpa only [Nat.zero_add] using this
    · rw [if_neg (by simp [hv])]
      exact text

theorem indexAny_enc {w : List Nat} (hw : Scalars w) {seps : List Nat} (hs : Scalars seps) (h1 : seps.length ≤ 1) :
    (indexAnyRunes (enc w) seps = none ∧ ∀ r ∈ w, r ∉ seps) ∨
    ∃ a r c, w = a ++ r :: c ∧ r ∈ seps ∧ (∀ x ∈ a, x ∉ seps) ∧ indexAnyRunes (enc w) seps = some (enc a).length := by
  rcases seps with _ | ⟨r, _ | ⟨r', seps⟩⟩
  · left; simp [indexAnyRunes]
  · simp only [indexAnyRunes]
    rcases indexRune_enc hw (hs r (by simp)) with ⟨h2, h3⟩ | ⟨a, c, h2, h3, h4⟩
    · left; rw [h2]; refine ⟨rfl, ?_⟩
      intro x hx hm
      simp at hm; subst hm; exact h3 hx
    · right; rw [h4]; refine ⟨a, r, c, h2, by simp, ?_, rfl⟩
      intro x hx hm
      simp at hm; subst hm; exact h3 hx
  · simp at h1

/-- The starts of a string that avoid some runes, if one of them follows `a`. -/
theorem prefix_avoid {w a c S : List Nat} {r : Nat} (e : w = a ++ r :: c) (hr : r ∈ S) (ha : ∀ x ∈ a, x ∉ S) {k : Nat} :
    (∃ b d, w = b ++ d ∧ (∀ x ∈ b, x ∉ S) ∧ k = (enc b).length) ↔ ∃ b d, a = b ++ d ∧ k = (enc b).length := by
  constructor
  · rintro ⟨b, d, h1, h2, h3⟩
    refine ⟨b, a.drop b.length, ?_, h3⟩
    have hl : b.length ≤ a.length := by
      by_contra hc
      have hx : b[a.length]? = some r := by
        have g1 : w[a.length]? = some r := by rw [e]; simp
        rw [h1, List.getElem?_append_left (by omega)] at g1
        exact g1
      exact h2 r (List.mem_of_getElem? hx) hr
    have : b = a.take b.length := by
      have := congrArg (List.take b.length) (h1.symm.trans e)
      rw [List.take_left, List.take_append_of_le_length hl] at this
      exact this
    conv_lhs => rw [← List.take_append_drop b.length a, ← this]
  · rintro ⟨b, d, rfl, h⟩
    exact ⟨b, d ++ r :: c, by rw [e, List.append_assoc], fun x hx => ha x (by simp [hx]), h⟩

/-- A result with index 0. -/
theorem startZero {ix : Str → Idx} {L : List Nat → Prop} {w : List Nat} {segs : List Nat} (hne : w ≠ []) (h : ix (enc w) = some (some (0, segs)))
    (h' : ∀ k, k ∈ segs ↔ ∃ b c, w = b ++ c ∧ L b ∧ k = (enc b).length) : StartAt ix L w :=
  ⟨_, h, ⟨[], w, rfl, hne, rfl⟩, fun h => absurd h (by omega), fun _ => h'⟩

theorem nothing_startAt {w : List Nat} (hne : w ≠ []) : StartAt Matcher.nothing.index (RLang .nothing) w := by
  refine startZero hne rfl fun k => ?_
  simp only [List.mem_singleton, RLang]
  constructor
  · rintro rfl; exact ⟨[], w, rfl, rfl, rfl⟩
  · rintro ⟨_, c, _, rfl, h⟩; exact h

theorem text_nil_startAt {w : List Nat} (hne : w ≠ []) : StartAt (Matcher.text []).index (RLang (.text [])) w := by
  have h0 : strIndex [] (enc w) = some 0 := by
    cases enc w with
    | nil => rfl
    | cons b s => rw [strIndex]; simp
  refine startZero (segs := [0]) hne ?_ fun k => ?_
  · show some ((strIndex [] (enc w)).map fun i => (i, [0])) = _
    rw [h0]; rfl
  · simp only [List.mem_singleton, RLang]
    constructor
    · rintro rfl; exact ⟨[], w, rfl, rfl, rfl⟩
    · rintro ⟨_, c, _, rfl, h⟩; exact h

theorem super_startAt {w : List Nat} (hw : Scalars w) (hne : w ≠ []) : StartAt Matcher.super.index (RLang .super) w := by
  refine startZero hne rfl fun k => ?_
  rw [mem_bounds hw]
  simp [RLang]

theorem any_startAt {w : List Nat} (hw : Scalars w) (hne : w ≠ []) {seps : List Nat} (hs : Scalars seps) (h1 : seps.length ≤ 1) :
    StartAt (Matcher.any seps).index (RLang (.any seps)) w := by
  have e : (Matcher.any seps).index = anyIndex seps := rfl
  rw [e]
  rcases indexAny_enc hw hs h1 with ⟨h2, h3⟩ | ⟨a, r, c, h2, h3, h4, h5⟩
  · refine startZero (segs := (rangeStr (enc w)).map Prod.fst ++ [(enc w).length]) hne ?_ fun k => ?_
    · simp only [anyIndex, h2]
    · rw [mem_bounds hw]
      simp only [RLang, norm_eq hs]
      constructor
      · rintro ⟨b, c, rfl, h⟩; exact ⟨b, c, rfl, fun r hr => h3 r (by simp [hr]), h⟩
      · rintro ⟨b, c, rfl, _, h⟩; exact ⟨b, c, rfl, h⟩
  · have ha : Scalars a := by rw [h2, scalars_append] at hw; exact hw.1
    refine startZero (segs := (rangeStr (enc a)).map Prod.fst ++ [(enc a).length]) hne ?_ fun k => ?_
    · have ht : (enc w).take (enc a).length = enc a := by rw [h2, enc_append, List.take_left]
      unfold anyIndex
      rw [h5]
      cases hl : (enc a).length with
      | zero =>
        have : a = [] := enc_eq_nil.1 (List.length_eq_zero_iff.1 hl)
        subst this
        rfl
      | succ n =>
        rw [hl] at ht
        simp only [ht, hl]
    · rw [mem_bounds ha]
      simp only [RLang, norm_eq hs]
      exact (prefix_avoid h2 h3 h4).symm

theorem max_startAt {w : List Nat} (hw : Scalars w) (hne : w ≠ []) (n : Nat) : StartAt (Matcher.max n).index (RLang (.max n)) w := by
  have e : (Matcher.max n).index = maxIndex n := rfl
  rw [e]
  refine startZero hne rfl fun k => ?_
  have ht : Scalars (w.take n) := fun r hr => hw r (List.mem_of_mem_take hr)
  have h := mem_runeEnds ht 0 k
  rw [rangeStr_enc ht, ← spots_take, ← rangeStr_enc hw] at h
  simp only [Nat.zero_add] at h
  rw [List.mem_cons, h]
  simp only [RLang]
  constructor
  · rintro (rfl | ⟨b, c, h1, h2, h3⟩)
    · exact ⟨[], w, rfl, by simp, rfl⟩
    · refine ⟨b, c ++ w.drop n, by rw [← List.append_assoc, ← h1, List.take_append_drop], ?_, h3⟩
      have := congrArg List.length h1
      simp only [List.length_take, List.length_append] at this
      omega
  · rintro ⟨b, c, h1, h2, h3⟩
    by_cases hb : b = []
    · left; rw [h3, hb]; rfl
    · right
      refine ⟨b, c.take (n - b.length), ?_, hb, h3⟩
      rw [h1, List.take_append, List.take_of_length_le h2]

theorem min_startAt {w : List Nat} (hw : Scalars w) (hne : w ≠ []) {n : Nat} (hn : 1 ≤ n) : StartAt (Matcher.min n).index (RLang (.min n)) w := by
  have e : (Matcher.min n).index = minIndex n := rfl
  rw [e]
  have hsegs : ∀ k, k ∈ (((rangeStr (enc w)).zipIdx 1).filter fun x => x.2 ≥ n).map (fun x => x.1.1 + runeLen x.1.2) ↔
      ∃ b c, w = b ++ c ∧ RLang (.min n) b ∧ k = (enc b).length := by
    intro k
    rw [rangeStr_enc hw]
    simp only [List.mem_map, List.mem_filter, decide_eq_true_eq, RLang]
    constructor
    · rintro ⟨⟨⟨p, r⟩, j⟩, ⟨h1, h2⟩, rfl⟩
      rw [List.mem_zipIdx_iff_le_and_getElem?_sub] at h1
      obtain ⟨h3, h4⟩ := h1
      simp only at h2 h3 h4 ⊢
      rw [spots_getElem, Option.map_eq_some_iff] at h4
      obtain ⟨r', h5, h6⟩ := h4
      rw [Prod.mk.injEq] at h6
      obtain ⟨h6, rfl⟩ := h6
      have hlt := (List.getElem?_eq_some_iff.1 h5).1
      have ht : w.take j = w.take (j - 1) ++ [r'] := by
        conv_lhs => rw [show j = j - 1 + 1 by omega]
        rw [List.take_add_one, h5]; rfl
      refine ⟨w.take j, w.drop j, by simp, by rw [List.length_take]; omega, ?_⟩
      rw [ht, enc_append, enc_singleton, List.length_append, ← h6, runeLen_valid (hw _ (List.mem_of_getElem? h5))]
      omega
    · rintro ⟨b, c, h1, h2, h3⟩
      have hb : b ≠ [] := by rintro rfl; simp at h2; omega
      obtain ⟨b', r, rfl⟩ := List.eq_nil_or_concat b |>.resolve_left hb
      rw [List.concat_eq_append] at *
      have hr : w[b'.length]? = some r := by rw [h1]; simp
      have ht : w.take b'.length = b' := by rw [h1]; simp
      refine ⟨(((enc b').length, r), b'.length + 1), ⟨?_, by simpa using h2⟩, ?_⟩
      · rw [List.mem_zipIdx_iff_le_and_getElem?_sub]
        refine ⟨by simp, ?_⟩
        simp only [Nat.add_sub_cancel]
        rw [spots_getElem, hr, ht]
        simp
      · rw [h3, enc_append, enc_singleton, List.length_append, runeLen_valid (hw _ (List.mem_of_getElem? hr))]
  unfold StartAt minIndex
  have hle : w.length ≤ (enc w).length := enc_length_le w
  split
  · rename_i h
    refine ⟨none, rfl, ?_⟩
    rintro b c rfl hb
    rw [RLang] at hb
    simp only [List.length_append] at hle
    omega
  · simp only
    split
    · rename_i h1 h2
      refine ⟨none, rfl, ?_⟩
      intro b c h hb
      rw [List.isEmpty_iff] at h2
      have := (hsegs (enc b).length).2 ⟨b, c, h, hb, rfl⟩
      rw [h2] at this
      cases this
    · exact ⟨_, rfl, ⟨[], w, rfl, hne, rfl⟩, fun h => absurd h (by omega), fun _ => hsegs⟩

/-- Two starts of a string. -/
theorem prefix_prefix {w a b c d : List Nat} (h1 : w = a ++ b) (h2 : w = c ++ d) (hl : a.length ≤ c.length) : ∃ e, c = a ++ e ∧ b = e ++ d := by
  rw [h1] at h2
  rcases List.append_eq_append_iff.1 h2 with ⟨e, h3, h4⟩ | ⟨e, h3, h4⟩
  · exact ⟨e, h3, h4⟩
  · have := congrArg List.length h3
    rw [List.length_append] at this
    have he : e = [] := List.length_eq_zero_iff.1 (by omega)
    subst he
    exact ⟨[], by simpa using h3.symm, by simpa using h4.symm⟩

theorem contains_startAt {w : List Nat} (hw : Scalars w) (hne : w ≠ []) {needle : Str} {n : Bool} (hn : needleW needle n = true) :
    StartAt (Matcher.contains needle n).index (RLang (.contains needle n)) w := by
  have e : (Matcher.contains needle n).index = containsIndex needle n := rfl
  rw [e]
  rw [needleW, Bool.and_eq_true, Bool.or_eq_true, Bool.not_eq_true', beq_iff_eq] at hn
  obtain ⟨hv, hone⟩ := hn
  have hte := validText_eq hv
  rcases strIndex_enc hw hv with ⟨h1, h2⟩ | ⟨a, c, h1, h2, h3⟩
  · cases n with
    | false =>
      refine ⟨none, by simp only [containsIndex, h1], ?_⟩
      rintro b d rfl hb
      rw [RLang] at hb
      simp only [Bool.false_eq_true, if_false] at hb
      obtain ⟨x, y, rfl⟩ := hb
      exact h2 x (y ++ d) (by simp)
    | true =>
      refine startZero (segs := (rangeStr (enc w)).map Prod.fst ++ [(enc w).length]) hne (by simp only [containsIndex, h1]) fun k => ?_
      rw [mem_bounds hw]
      simp only [RLang, if_true]
      have hno : ∀ r ∈ w, r ∉ runesIn needle := by
        intro r hr hm
        obtain ⟨x, hx⟩ := List.length_eq_one_iff.1 (hone.resolve_left (by simp))
        rw [hx] at h2 hm
        simp at hm; subst hm
        obtain ⟨u, v, e⟩ := List.append_of_mem hr
        exact h2 u v (by rw [e]; simp)
      constructor
      · rintro ⟨b, d, rfl, h⟩; exact ⟨b, d, rfl, fun r hr => hno r (by simp [hr]), h⟩
      · rintro ⟨b, d, rfl, _, h⟩; exact ⟨b, d, rfl, h⟩
  · have hsc := hw
    rw [h1, scalars_append, scalars_append] at hsc
    cases n with
    | false =>
      have hoff : (enc a).length + needle.length = (enc (a ++ runesIn needle)).length := by
        rw [enc_append, List.length_append, ← hte]
      have hdrop : (enc w).drop ((enc a).length + needle.length) = enc c := by
        rw [hoff, h1, enc_append (a ++ runesIn needle), List.drop_left]
      have hlen : (enc w).length = (enc a).length + needle.length + (enc c).length := by
        rw [hoff, h1, enc_append (a ++ runesIn needle), List.length_append]
      have key : ∀ k, (∃ b d, c = b ++ d ∧ k = (enc a).length + needle.length + (enc b).length) ↔
          ∃ b d, w = b ++ d ∧ RLang (.contains needle false) b ∧ k = (enc b).length := by
        intro k
        simp only [RLang, Bool.false_eq_true, if_false]
        constructor
        · rintro ⟨b, d, rfl, h⟩
          exact ⟨a ++ runesIn needle ++ b, d, by rw [h1]; simp only [List.append_assoc], ⟨a, b, rfl⟩,
            by rw [h, hoff, enc_append _ b, List.length_append]⟩
        · rintro ⟨_, d, h4, ⟨x, y, rfl⟩, h5⟩
          have hx := h3 x (y ++ d) (by rw [h4, List.append_assoc])
          obtain ⟨f, h6, h7⟩ := prefix_prefix h1 h4 (by simp only [List.length_append]; omega)
          exact ⟨f, d, h7, by rw [h5, h6, enc_append _ f, List.length_append, hoff]⟩
      refine startZero (segs := (rangeStr (enc c)).map (fun x => (enc a).length + needle.length + x.1) ++ [(enc a).length + needle.length + (enc c).length]) hne ?_ fun k => ?_
      · simp only [containsIndex, h2]
        split
        · rename_i h
          have : c = [] := enc_eq_nil.1 (List.length_eq_zero_iff.1 (by omega))
          subst this
          rfl
        · rw [hdrop]
      · rw [← key]
        have hm := mem_bounds hsc.2
        have e2 : (rangeStr (enc c)).map (fun x => (enc a).length + needle.length + x.1) ++ [(enc a).length + needle.length + (enc c).length] =
            ((rangeStr (enc c)).map Prod.fst ++ [(enc c).length]).map fun i => (enc a).length + needle.length + i := by simp
        rw [e2, List.mem_map]
        constructor
        · rintro ⟨i, hi, rfl⟩
          obtain ⟨b, d, h4, h5⟩ := (hm i).1 hi
          exact ⟨b, d, h4, by rw [h5]⟩
        · rintro ⟨b, d, h4, h5⟩
          exact ⟨_, (hm _).2 ⟨b, d, h4, rfl⟩, h5.symm⟩
    | true =>
      have ht : (enc w).take (enc a).length = enc a := by rw [h1, List.append_assoc, enc_append, List.take_left]
      refine startZero (segs := (rangeStr (enc a)).map Prod.fst ++ [(enc a).length]) hne ?_ fun k => ?_
      · simp only [containsIndex, h2, ht]
      · rw [mem_bounds hsc.1.1]
        simp only [RLang, if_true]
        obtain ⟨x, hx⟩ := List.length_eq_one_iff.1 (hone.resolve_left (by simp))
        rw [hx] at h1 h3 ⊢
        refine (prefix_avoid (c := c) (r := x) (by rw [h1]; simp) (by simp) fun y hy hm => ?_).symm
        simp at hm; subst hm
        obtain ⟨u, v, e⟩ := List.append_of_mem hy
        have := h3 u (v ++ [y] ++ c) (by rw [h1, e]; simp)
        rw [e] at this
        simp at this
        omega

theorem prefixAny_startAt' {w : List Nat} (hw : Scalars w) (hne : w ≠ []) {p : Str} (hv : validText p = true) {ix : Str → Idx} {S : List Nat}
    (hnone : strIndex p (enc w) = none → ix (enc w) = some none)
    (hsome : ∀ i, strIndex p (enc w) = some i → ∃ segs, ix (enc w) = some (some (i, segs)) ∧
      (i = 0 → ∀ c, w = runesIn p ++ c → ∀ k, k ∈ segs ↔ ∃ b d, c = b ++ d ∧ (∀ x ∈ b, x ∉ S) ∧ k = p.length + (enc b).length)) :
    StartAt ix (fun b => ∃ c, b = runesIn p ++ c ∧ ∀ r ∈ c, r ∉ S) w := by
  have hte := validText_eq hv
  rcases strIndex_enc hw hv with ⟨h1, h2⟩ | ⟨a, c, h1, h2, h3⟩
  · refine ⟨none, hnone h1, ?_⟩
    rintro b d rfl ⟨x, rfl, _⟩
    exact h2 [] (x ++ d) (by simp)
  · obtain ⟨segs, h4, h5⟩ := hsome _ h2
    refine ⟨_, h4, ⟨a, runesIn p ++ c, by rw [h1, List.append_assoc], ?_, rfl⟩, ?_, ?_⟩
    · intro h0
      rw [List.append_eq_nil_iff] at h0
      obtain ⟨g1, g2⟩ := h0
      have := h3 [] w (by rw [g1]; rfl)
      have ha : a = [] := List.length_eq_zero_iff.1 (by simpa using this)
      rw [ha, g1, g2] at h1
      exact hne h1
    · rintro hpos b d e ⟨x, hx, _⟩
      have := h3 [] (x ++ d) (by rw [e, hx]; simp)
      have ha : a = [] := List.length_eq_zero_iff.1 (by simpa using this)
      rw [ha] at hpos
      simp [enc_nil] at hpos
    · intro h0 k
      have ha : a = [] := enc_eq_nil.1 (List.length_eq_zero_iff.1 h0)
      subst ha
      rw [List.nil_append] at h1
      rw [h5 h0 c h1]
      have hp : p.length = (enc (runesIn p)).length := by rw [← hte]
      constructor
      · rintro ⟨b, d, rfl, g1, g2⟩
        exact ⟨runesIn p ++ b, d, by rw [h1, List.append_assoc], ⟨b, rfl, g1⟩, by rw [g2, enc_append, List.length_append, hp]⟩
      · rintro ⟨_, d, g1, ⟨b, rfl, g2⟩, g3⟩
        rw [h1, List.append_assoc] at g1
        exact ⟨b, d, List.append_cancel_left g1, g2, by rw [g3, enc_append, List.length_append, hp]⟩

/-- The ends of the runes of a start of the string. -/
theorem mem_ends_or {w : List Nat} (h : Scalars w) (n k : Nat) :
    k ∈ n :: (rangeStr (enc w)).map (fun x => n + x.1 + runeLen x.2) ↔ ∃ b c, w = b ++ c ∧ k = n + (enc b).length := by
  rw [List.mem_cons, mem_runeEnds h]
  constructor
  · rintro (rfl | ⟨b, c, h1, _, h3⟩)
    · exact ⟨[], w, rfl, rfl⟩
    · exact ⟨b, c, h1, h3⟩
  · rintro ⟨b, c, h1, h3⟩
    by_cases hb : b = []
    · left; rw [h3, hb]; rfl
    · exact Or.inr ⟨b, c, h1, hb, h3⟩

theorem prefix_startAt {w : List Nat} (hw : Scalars w) (hne : w ≠ []) {p : Str} (hv : validText p = true) : StartAt (Matcher.prefix p).index (RLang (.prefix p)) w := by
  have hte := validText_eq hv
  have e : RLang (.prefix p) = fun b => ∃ c, b = runesIn p ++ c ∧ ∀ r ∈ c, r ∉ ([] : List Nat) := by funext b; simp [RLang]
  have ei : (Matcher.prefix p).index = prefixIndex p := rfl
  rw [e, ei]
  refine prefixAny_startAt' hw hne hv (fun h => by simp only [prefixIndex, h]) fun i h => ⟨_, by simp only [prefixIndex, h]; rfl, ?_⟩
  rintro rfl c rfl k
  rw [scalars_append] at hw
  have hd : (enc (runesIn p ++ c)).drop (0 + p.length) = enc c := by rw [enc_append, ← hte, Nat.zero_add, List.drop_left]
  rw [hd, mem_ends_or hw.2]
  simp

theorem prefixAny_startAt {w : List Nat} (hw : Scalars w) (hne : w ≠ []) {p : Str} (hv : validText p = true) {seps : List Nat} (hs : Scalars seps) (h1 : seps.length ≤ 1) :
    StartAt (Matcher.prefixAny p seps).index (RLang (.prefixAny p seps)) w := by
  have hte := validText_eq hv
  have e : RLang (.prefixAny p seps) = fun b => ∃ c, b = runesIn p ++ c ∧ ∀ r ∈ c, r ∉ seps := by funext b; rw [RLang, norm_eq hs]
  have ei : (Matcher.prefixAny p seps).index = prefixAnyIndex p seps := rfl
  rw [e, ei]
  refine prefixAny_startAt' hw hne hv (fun h => by simp only [prefixAnyIndex, h]) fun i h => ⟨_, by simp only [prefixAnyIndex, h]; rfl, ?_⟩
  rintro rfl c rfl k
  rw [scalars_append] at hw
  have hd : (enc (runesIn p ++ c)).drop (0 + p.length) = enc c := by rw [enc_append, ← hte, Nat.zero_add, List.drop_left]
  rw [hd]
  rcases indexAny_enc hw.2 hs h1 with ⟨h2, h3⟩ | ⟨a, r, d, h2, h3, h4, h5⟩
  · simp only [h2]
    rw [mem_ends_or hw.2]
    constructor
    · rintro ⟨b, d, rfl, hk⟩; exact ⟨b, d, rfl, fun r hr => h3 r (by simp [hr]), hk⟩
    · rintro ⟨b, d, rfl, _, h⟩; exact ⟨b, d, rfl, h⟩
  · simp only [h5]
    have ha : Scalars a := by have := hw.2; rw [h2, scalars_append] at this; exact this.1
    have ht : (enc c).take (enc a).length = enc a := by rw [h2, enc_append, List.take_left]
    rw [ht, mem_ends_or ha]
    constructor
    · rintro ⟨b, x, g1, g2⟩
      obtain ⟨b', d', q1, q2, q3⟩ := (prefix_avoid h2 h3 h4 (k := (enc b).length)).2 ⟨b, x, g1, rfl⟩
      exact ⟨b', d', q1, q2, by rw [g2, q3]⟩
    · rintro ⟨b, x, g1, g2, g3⟩
      obtain ⟨b', d', q1, q2⟩ := (prefix_avoid h2 h3 h4 (k := (enc b).length)).1 ⟨b, x, g1, g2, rfl⟩
      exact ⟨b', d', q1, by rw [g3, q2]⟩

/-! ### EveryOf -/

/-- The index is 0 (or -1). -/
def ZeroAt (ix : Str → Idx) (L : List Nat → Prop) (w : List Nat) : Prop :=
  (ix (enc w) = some none ∧ ∀ b c, w = b ++ c → ¬ L b) ∨
  ∃ segs, ix (enc w) = some (some (0, segs)) ∧ ∀ k, k ∈ segs ↔ ∃ b c, w = b ++ c ∧ L b ∧ k = (enc b).length

theorem zeroAt_ok {m : Matcher} (h : idxZero m = true) {w : List Nat} (hw : Scalars w) (hne : w ≠ []) : ZeroAt m.index (RLang m) w := by
  have key : StartAt m.index (RLang m) w → (∀ s i segs, m.index s = some (some (i, segs)) → i = 0) → ZeroAt m.index (RLang m) w := by
    rintro ⟨o, h1, h2⟩ h3
    rcases o with _ | ⟨i, segs⟩
    · exact Or.inl ⟨h1, h2⟩
    · have := h3 _ i segs h1
      subst this
      exact Or.inr ⟨segs, h1, h2.2.2 rfl⟩
  cases m <;> simp only [idxZero, Bool.false_eq_true] at h
  case min n =>
    refine key (min_startAt hw hne (by simpa using h)) ?_
    intro s i segs hs
    change minIndex n s = _ at hs
    unfold minIndex at hs
    simp only at hs
    split at hs
    · cases hs
    · split at hs
      · cases hs
      · simp only [Option.some.injEq, Prod.mk.injEq] at hs; exact hs.1.symm
  case max n =>
    refine key (max_startAt hw hne n) ?_
    intro s i segs hs
    change maxIndex n s = _ at hs
    unfold maxIndex at hs
    simp only [Option.some.injEq, Prod.mk.injEq] at hs
    exact hs.1.symm
  case contains needle n =>
    refine key (contains_startAt hw hne h) ?_
    intro s i segs hs
    change containsIndex needle n s = _ at hs
    unfold containsIndex at hs
    cases hi : strIndex needle s <;> cases n <;> simp only [hi] at hs
    · cases hs
    · simp only [Option.some.injEq, Prod.mk.injEq] at hs; exact hs.1.symm
    · split at hs <;> simp only [Option.some.injEq, Prod.mk.injEq] at hs <;> exact hs.1.symm
    · simp only [Option.some.injEq, Prod.mk.injEq] at hs; exact hs.1.symm

theorem everyOf_loopW {w : List Nat} (hw : Scalars w) : ∀ (ms : List Matcher), (∀ m ∈ ms, ZeroAt m.index (RLang m) w) →
    ∀ (first : Bool) (current : List Nat) (A : List Nat → Prop), (first = true → ∀ b, A b) → (first = true → ms ≠ []) →
    (first = false → ∀ k, k ∈ current ↔ ∃ b c, w = b ++ c ∧ A b ∧ k = (enc b).length) →
    ZeroAt (fun s => everyOfIndex s first 0 0 current s (indexFns ms)) (fun b => A b ∧ RAll ms b) w
  | [], _, first, current, A, h1, h2, h3 => by
    right
    cases first with
    | true => exact absurd rfl (h2 rfl)
    | false => exact ⟨current, rfl, fun k => by rw [h3 rfl k]; simp [RAll]⟩
  | m :: ms, h, first, current, A, h1, h2, h3 => by
    have ih := everyOf_loopW hw ms (fun m hm => h m (List.mem_cons_of_mem _ hm)) false
    unfold ZeroAt
    simp only [indexFns, everyOfIndex]
    rcases h m List.mem_cons_self with ⟨e1, e2⟩ | ⟨segs, e1, e2⟩
    · rw [e1]
      left
      exact ⟨rfl, fun b c e hb => by rw [RAll] at hb; exact e2 b c e hb.2.1⟩
    · rw [e1]
      simp only [Nat.add_zero, Nat.not_lt_zero, List.drop_zero, if_false]
      have hN : ∀ k, (k ∈ current.flatMap fun (ex : Nat) => segs.filter fun (n : Nat) => decide ((ex : Int) + (((0 : Nat) : Int) - (((0 : Nat) : Int) + ((0 : Nat) : Int))) = (n : Int))) ↔
          k ∈ current ∧ k ∈ segs := by
        intro k
        simp only [List.mem_flatMap, List.mem_filter, decide_eq_true_eq]
        constructor
        · rintro ⟨ex, h4, h5, h6⟩
          have : ex = k := by omega
          subst this; exact ⟨h4, h5⟩
        · rintro ⟨h4, h5⟩; exact ⟨k, h4, h5, by omega⟩
      generalize hnx : (current.flatMap fun (ex : Nat) => segs.filter fun (n : Nat) => decide ((ex : Int) + (((0 : Nat) : Int) - (((0 : Nat) : Int) + ((0 : Nat) : Int))) = (n : Int))) = nx at hN
      have hassoc : ∀ b, (A b ∧ RAll (m :: ms) b) ↔ ((A b ∧ RLang m b) ∧ RAll ms b) := by
        intro b; rw [RAll, and_assoc]
      simp only [hassoc]
      cases first with
      | true =>
        simp only [Bool.not_true, Bool.false_and, Bool.false_eq_true, if_false, if_true]
        refine ih segs (fun b => A b ∧ RLang m b) (by simp) (by simp) (fun _ k => ?_)
        rw [e2]
        simp [h1 rfl]
      | false =>
        have hk : ∀ k, k ∈ nx ↔ ∃ b c, w = b ++ c ∧ (A b ∧ RLang m b) ∧ k = (enc b).length := by
          intro k
          rw [hN, h3 rfl, e2]
          constructor
          · rintro ⟨⟨b, c, g1, g2, g3⟩, ⟨b', c', g4, g5, g6⟩⟩
            obtain ⟨rfl, rfl⟩ := enc_same (a := b) (b := c) (c := b') (d := c') (by rw [← g1]; exact hw) (by rw [← g1, ← g4]) (by rw [← g3, ← g6])
            exact ⟨b, c, g1, ⟨g2, g5⟩, g3⟩
          · rintro ⟨b, c, g1, ⟨g2, g5⟩, g3⟩
            exact ⟨⟨b, c, g1, g2, g3⟩, ⟨b, c, g1, g5, g3⟩⟩
        simp only [Bool.not_false, Bool.true_and, Bool.false_eq_true, if_false]
        split
        · rename_i he
          left
          refine ⟨rfl, ?_⟩
          rintro b c e ⟨hb, _⟩
          rw [List.isEmpty_iff] at he
          have := (hk (enc b).length).2 ⟨b, c, e, hb, rfl⟩
          rw [he] at this; cases this
        · exact ih nx (fun b => A b ∧ RLang m b) (by simp) (by simp) (fun _ => hk)

theorem everyOf_startAt {ms : List Matcher} (h : ∀ m ∈ ms, idxZero m = true) (hm : ms ≠ []) {w : List Nat} (hw : Scalars w) (hne : w ≠ []) :
    StartAt (Matcher.everyOf ms).index (RLang (.everyOf ms)) w := by
  have e : (Matcher.everyOf ms).index = fun s => everyOfIndex s true 0 0 [] s (indexFns ms) := rfl
  have el : RLang (.everyOf ms) = fun b => True ∧ RAll ms b := by funext b; simp [RLang]
  rw [e, el]
  rcases everyOf_loopW hw ms (fun m hm => zeroAt_ok (h m hm) hw hne) true [] (fun _ => True) (by simp) (fun _ => hm) (by simp) with ⟨h3, h4⟩ | ⟨segs, h3, h4⟩
  · exact ⟨none, h3, h4⟩
  · exact startZero hne h3 h4

/-! ### The checks -/

theorem idxAny_ne {m : Matcher} : idxFirst m = true → ∀ b, RLang m b → b ≠ [] := by
  induction m using Matcher.ind with
  | h m ih =>
  intro hm b hb
  cases m <;> simp only [idxFirst, Bool.false_eq_true] at hm
  case text t =>
    rw [RLang] at hb
    simp at hm
    rw [hb, Ne, runesIn_eq_nil]; exact hm.2
  case single seps => rw [RLang] at hb; obtain ⟨r, rfl, _⟩ := hb; simp
  case list rs n => rw [RLang] at hb; obtain ⟨r, rfl, _⟩ := hb; simp
  case range lo hi n => rw [RLang] at hb; obtain ⟨r, rfl, _⟩ := hb; simp
  case anyOf ms =>
    rw [RLang, rSome_iff] at hb
    obtain ⟨m, h1, h2⟩ := hb
    exact ih m h1 (idxFirsts_iff.1 hm m h1) b h2
  case row l ms =>
    obtain ⟨_, h2, h3, h4, _⟩ := row_conds hm
    obtain ⟨u, h5, rfl, h6⟩ := (ascii_rlang _ hm b).1 hb
    rw [MLang] at h6
    have := langSeq_len ms l h4 h3 u h5 h6
    intro h0
    rw [List.map_eq_nil_iff] at h0
    subst h0
    simp at this; omega

theorem idxAny_first {m : Matcher} : idxAny m = true → idxFirst m = true := by
  induction m using Matcher.ind with
  | h m ih =>
  intro hm
  cases m <;> simp only [idxAny, Bool.false_eq_true] at hm <;> simp only [idxFirst]
  case text t => exact hm
  case list rs n => simp at hm; exact hm.1
  case row l ms => exact hm
  case anyOf ms => rw [idxFirsts_iff]; exact fun m h => ih m h (idxAnys_iff.1 hm m h)

theorem idxAny_ok (m : Matcher) : idxAny m = true → ∀ x, IdxAt m.index (RLang m) x := by
  induction m using Matcher.ind with
  | h m ih =>
  intro hm x
  cases m <;> simp only [idxAny, Bool.false_eq_true] at hm
  case text t => simp at hm; exact text_at hm.1 hm.2 x
  case list rs n =>
    simp at hm
    exact (firstRune_any hm.2 x).congr fun b _ => list_lang (scalars_iff.1 hm.1) n b
  case range lo hi n =>
    simp at hm
    exact (firstRune_any hm x).congr fun b _ => range_lang lo hi n b
  case anyOf ms => exact anyOf_at fun m h => ih m h (idxAnys_iff.1 hm m h) x
  case row l ms => exact row_at hm x

theorem idxFirst_ok (m : Matcher) : idxFirst m = true → ∀ w, Scalars w → IdxAt m.index (RLang m) (enc w) := by
  induction m using Matcher.ind with
  | h m ih =>
  intro hm w hw
  cases m <;> simp only [idxFirst, Bool.false_eq_true] at hm
  case text t => simp at hm; exact text_at hm.1 hm.2 _
  case single seps => exact (firstRune_valid _ hw).congr fun b _ => single_lang (scalars_iff.1 hm) b
  case list rs n => exact (firstRune_valid _ hw).congr fun b _ => list_lang (scalars_iff.1 hm) n b
  case range lo hi n => exact (firstRune_valid _ hw).congr fun b _ => range_lang lo hi n b
  case anyOf ms => exact anyOf_at fun m h => ih m h (idxFirsts_iff.1 hm m h) w hw
  case row l ms => exact row_at hm _

theorem idxStart_ok (m : Matcher) : idxStart m = true → ∀ w, Scalars w → w ≠ [] → StartAt m.index (RLang m) w := by
  induction m using Matcher.ind with
  | h m ih =>
  intro hm w hw hne
  have first : ∀ {m : Matcher}, idxFirst m = true → StartAt m.index (RLang m) w := fun h => (idxFirst_ok _ h w hw).start hw (idxAny_ne h)
  cases m <;> simp only [idxStart, Bool.false_eq_true] at hm
  case nothing => exact nothing_startAt hne
  case text t =>
    by_cases ht : t = []
    · subst ht; exact text_nil_startAt hne
    · exact first (by simp [idxFirst, hm, ht])
  case any seps =>
    simp at hm
    exact any_startAt hw hne (scalars_iff.1 hm.1) hm.2
  case super => exact super_startAt hw hne
  case single seps => exact first (by simpa [idxFirst] using hm)
  case list rs n => exact first (by simpa [idxFirst] using hm)
  case range lo hi n => exact first rfl
  case min n => exact min_startAt hw hne (by simpa using hm)
  case max n => exact max_startAt hw hne n
  case contains needle n => exact contains_startAt hw hne hm
  case «prefix» p => exact prefix_startAt hw hne hm
  case prefixAny p seps =>
    simp at hm
    exact prefixAny_startAt hw hne hm.1.1 (scalars_iff.1 hm.1.2) hm.2
  case anyOf ms => exact anyOf_startAt fun m h => ih m h (idxStarts_iff.1 hm m h) w hw hne
  case everyOf ms =>
    rw [Bool.and_eq_true, List.all_eq_true] at hm
    refine everyOf_startAt hm.1 ?_ hw hne
    rintro rfl
    simp at hm
  case row l ms => exact first (by simpa [idxFirst] using hm)

end Verif.Glob
