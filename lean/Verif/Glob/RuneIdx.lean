import Verif.Glob.RuneAny
/-
What `Index` finds in a string of any bytes, and in a valid string.
-/
namespace Verif.Glob

/-- The string begins with the encoding of a word of the language, of the given length. -/
def At (L : List Nat → Prop) (x : Str) (k : Nat) : Prop := ∃ b c, x = enc b ++ c ∧ Scalars b ∧ L b ∧ k = (enc b).length

/-- The result of `Index`: the first position of a word of the language, and the lengths of all words there. -/
def IdxRes (L : List Nat → Prop) (x : Str) : Option (Nat × List Nat) → Prop
  | none => ∀ j k, ¬ At L (x.drop j) k
  | some (i, segs) => segs ≠ [] ∧ (∀ k, k ∈ segs ↔ At L (x.drop i) k) ∧ ∀ j < i, ∀ k, ¬ At L (x.drop j) k

/-- `Index` is right on a string. -/
def IdxAt (ix : Str → Idx) (L : List Nat → Prop) (x : Str) : Prop := ∃ o, ix x = some o ∧ IdxRes L x o

/-- The result of `Index` for the words at the start of a valid string. -/
def StartRes (L : List Nat → Prop) (w : List Nat) : Option (Nat × List Nat) → Prop
  | none => ∀ b c, w = b ++ c → ¬ L b
  | some (i, segs) => (∃ a c, w = a ++ c ∧ c ≠ [] ∧ i = (enc a).length) ∧ (0 < i → ∀ b c, w = b ++ c → ¬ L b) ∧
      (i = 0 → ∀ k, k ∈ segs ↔ ∃ b c, w = b ++ c ∧ L b ∧ k = (enc b).length)

/-- `Index` finds the words at the start of a valid string. -/
def StartAt (ix : Str → Idx) (L : List Nat → Prop) (w : List Nat) : Prop := ∃ o, ix (enc w) = some o ∧ StartRes L w o

theorem IdxAt.congr {ix : Str → Idx} {L L' : List Nat → Prop} {x : Str} (h : IdxAt ix L x) (e : ∀ b, Scalars b → (L b ↔ L' b)) : IdxAt ix L' x := by
  have ea : ∀ x k, At L x k ↔ At L' x k := by
    intro x k
    constructor
    · rintro ⟨b, c, h1, h2, h3, h4⟩; exact ⟨b, c, h1, h2, (e b h2).1 h3, h4⟩
    · rintro ⟨b, c, h1, h2, h3, h4⟩; exact ⟨b, c, h1, h2, (e b h2).2 h3, h4⟩
  obtain ⟨o, h1, h2⟩ := h
  refine ⟨o, h1, ?_⟩
  rcases o with _ | ⟨i, segs⟩
  · simpa only [IdxRes, ea] using h2
  · simpa only [IdxRes, ea] using h2

theorem at_enc {L : List Nat → Prop} {w : List Nat} (hw : Scalars w) {k : Nat} : At L (enc w) k ↔ ∃ b c, w = b ++ c ∧ L b ∧ k = (enc b).length := by
  constructor
  · rintro ⟨b, c, h1, h2, h3, h4⟩
    obtain ⟨d, rfl, rfl⟩ := enc_prefix hw h2 h1
    exact ⟨b, d, rfl, h3, h4⟩
  · rintro ⟨b, c, rfl, h3, h4⟩
    rw [scalars_append] at hw
    exact ⟨b, enc c, enc_append b c, hw.1, h3, h4⟩

/-- A position at which a word of the language is found in a valid string is the start of a rune. -/
theorem at_split {L : List Nat → Prop} (hne : ∀ b, L b → b ≠ []) {w : List Nat} (hw : Scalars w) {j k : Nat} (h : At L ((enc w).drop j) k) :
    ∃ a b c, w = a ++ b ++ c ∧ j = (enc a).length ∧ L b ∧ k = (enc b).length := by
  obtain ⟨b, c, h1, h2, h3, h4⟩ := h
  have hj : j ≤ (enc w).length := by
    by_contra hc
    rw [List.drop_eq_nil_of_le (by omega), eq_comm, List.append_eq_nil_iff, enc_eq_nil] at h1
    exact hne b h3 h1.1
  have e : enc w = (enc w).take j ++ enc b ++ c := by rw [List.append_assoc, ← h1, List.take_append_drop]
  obtain ⟨a, d, rfl, h5, rfl⟩ := enc_occurs hw h2 (hne b h3) e
  refine ⟨a, b, d, rfl, ?_, h3, h4⟩
  rw [← h5, List.length_take_of_le hj]

theorem IdxAt.start {ix : Str → Idx} {L : List Nat → Prop} {w : List Nat} (hw : Scalars w) (hne : ∀ b, L b → b ≠ []) (h : IdxAt ix L (enc w)) : StartAt ix L w := by
  obtain ⟨o, h1, h2⟩ := h
  refine ⟨o, h1, ?_⟩
  rcases o with _ | ⟨i, segs⟩
  · intro b c e hb
    exact h2 0 _ (by rw [List.drop_zero]; exact (at_enc hw).2 ⟨b, c, e, hb, rfl⟩)
  · obtain ⟨h3, h4, h5⟩ := h2
    obtain ⟨k, hk⟩ := List.exists_mem_of_ne_nil segs h3
    obtain ⟨a, b, c, e1, e2, e3, e4⟩ := at_split hne hw ((h4 k).1 hk)
    refine ⟨⟨a, b ++ c, by rw [e1, List.append_assoc], by simp [hne b e3], e2⟩, ?_, ?_⟩
    · intro hi b c e hb
      exact h5 0 hi _ (by rw [List.drop_zero]; exact (at_enc hw).2 ⟨b, c, e, hb, rfl⟩)
    · rintro rfl k
      rw [h4, List.drop_zero, at_enc hw]

/-! ### Texts and single runes -/

theorem text_at {t : Str} (hv : validText t = true) (ht : t ≠ []) (x : Str) : IdxAt (Matcher.text t).index (RLang (.text t)) x := by
  have e : (Matcher.text t).index x = some ((strIndex t x).map fun i => (i, [t.length])) := rfl
  have hat : ∀ j k, At (RLang (.text t)) (x.drop j) k ↔ (∃ c, x.drop j = t ++ c) ∧ k = t.length := by
    intro j k
    have hte := validText_eq hv
    constructor
    · rintro ⟨b, c, h1, h2, h3, h4⟩
      rw [RLang] at h3
      subst h3
      rw [← hte] at h1 h4
      exact ⟨⟨c, h1⟩, h4⟩
    · rintro ⟨⟨c, h1⟩, h2⟩
      exact ⟨runesIn t, c, by rw [← hte]; exact h1, runesIn_scalars t, by rw [RLang], by rw [← hte]; exact h2⟩
  refine ⟨_, e, ?_⟩
  cases hi : strIndex t x with
  | none =>
    intro j k h
    rw [hat] at h
    obtain ⟨⟨c, h1⟩, h2⟩ := h
    exact strIndex_none hi (x.take j) c (by rw [List.append_assoc, ← h1, List.take_append_drop])
  | some i =>
    obtain ⟨⟨c, h1⟩, h2, h3⟩ := strIndex_some hi
    have hd : x.drop i = t ++ c := by
      conv_lhs => rw [h1]
      rw [List.append_assoc, List.drop_left' (List.length_take_of_le h2)]
    refine ⟨by simp, fun k => ?_, fun j hj k h => ?_⟩
    · rw [hat, List.mem_singleton]
      exact ⟨fun h => ⟨⟨c, hd⟩, h⟩, fun h => h.2⟩
    · rw [hat] at h
      obtain ⟨⟨c, h4⟩, h5⟩ := h
      have := h3 (x.take j) c (by rw [List.append_assoc, ← h4, List.take_append_drop])
      rw [List.length_take_of_le (by omega)] at this
      omega

theorem firstRune_at {p : Nat → Bool} {x : Str} (h : ∀ y ∈ rangeStr x, p y.2 = true → ∃ c, x.drop y.1 = encodeRune y.2 ++ c) :
    IdxAt (firstRune p) (fun b => ∃ r, b = [r] ∧ p r = true) x := by
  have mem : ∀ j k, At (fun b => ∃ r, b = [r] ∧ p r = true) (x.drop j) k → ∃ r, (j, r) ∈ rangeStr x ∧ p r = true ∧ k = (encodeRune r).length := by
    rintro j k ⟨b, c, h1, h2, ⟨r, rfl, h3⟩, h4⟩
    have hv := h2 r (by simp)
    rw [enc_singleton] at h1 h4
    refine ⟨r, ?_, h3, h4⟩
    have hhd : ∃ b0, (encodeRune r).head? = some b0 := by
      cases he : encodeRune r with
      | nil => exact absurd he (encode_ne_nil r)
      | cons b0 t => exact ⟨b0, rfl⟩
    obtain ⟨b0, hb0⟩ := hhd
    have hx : x[j]? = some b0 := by
      have := congrArg List.head? h1
      rw [List.head?_drop, List.head?_append, hb0] at this
      simpa using this
    have := start_mem _ x (Nat.le_refl _) j b0 hx (encodeRune_head hv b0 hb0)
    rw [h1, decode_valid hv] at this
    exact this
  unfold IdxAt firstRune
  cases hf : (rangeStr x).find? fun y => p y.2 with
  | none =>
    refine ⟨none, rfl, fun j k hat => ?_⟩
    obtain ⟨r, h1, h2, _⟩ := mem j k hat
    rw [List.find?_eq_none] at hf
    exact hf (j, r) h1 h2
  | some y =>
    have hs := rangeStr_sorted _ x (Nat.le_refl _)
    obtain ⟨hp, as, bs, e, hno⟩ := List.find?_eq_some_iff_append.1 hf
    have hym : y ∈ rangeStr x := by rw [e]; simp
    obtain ⟨c, hc⟩ := h y hym hp
    have hv : validRune y.2 = true := by
      rw [← (mem_rangeStr_any _ x (Nat.le_refl _) y hym).2]; exact decodeRune_validRune _
    rw [e, List.pairwise_append, List.pairwise_cons] at hs
    refine ⟨_, rfl, by simp, fun k => ?_, fun j hj k hat => ?_⟩
    · rw [List.mem_singleton, runeLen_valid hv]
      constructor
      · rintro rfl
        exact ⟨[y.2], c, by rw [enc_singleton]; exact hc, by intro r hr; simp at hr; subst hr; exact hv, ⟨y.2, rfl, hp⟩, by rw [enc_singleton]⟩
      · intro hat
        obtain ⟨r, h1, h2, h3⟩ := mem _ k hat
        have hr : r = y.2 := by
          have g1 := (mem_rangeStr_any _ x (Nat.le_refl _) _ h1).2
          have g2 := (mem_rangeStr_any _ x (Nat.le_refl _) _ hym).2
          simp only at g1 g2
          rw [← g1, ← g2]
        rw [h3, hr]
    · obtain ⟨r, h1, h2, h3⟩ := mem j k hat
      rw [e, List.mem_append, List.mem_cons] at h1
      rcases h1 with h1 | h1 | h1
      · have := hno (j, r) h1
        simp only [h2, Bool.not_true] at this
        cases this
      · subst h1; simp at hj
      · have := hs.2.1.1 (j, r) h1
        simp only at this; omega

theorem firstRune_any {p : Nat → Bool} (hp : p runeError = false) (x : Str) : IdxAt (firstRune p) (fun b => ∃ r, b = [r] ∧ p r = true) x := by
  refine firstRune_at fun y hy hpy => ?_
  obtain ⟨h1, h2⟩ := mem_rangeStr_any _ x (Nat.le_refl _) y hy
  have hne : y.2 ≠ runeError := by rintro e; rw [e, hp] at hpy; cases hpy
  obtain ⟨h3, -⟩ := decodeRune_local (s := x.drop y.1) (r := y.2) (w := (decodeRune (x.drop y.1)).2) (by rw [← h2]) hne
  exact ⟨_, by rw [h3, List.take_append_drop]⟩

theorem firstRune_valid (p : Nat → Bool) {w : List Nat} (hw : Scalars w) : IdxAt (firstRune p) (fun b => ∃ r, b = [r] ∧ p r = true) (enc w) := by
  refine firstRune_at fun y hy _ => ?_
  rw [rangeStr_enc hw, mem_spots] at hy
  obtain ⟨a, c, rfl, h⟩ := hy
  rw [Nat.zero_add] at h
  exact ⟨enc c, by rw [h, enc_append, List.drop_left, enc_cons]⟩

theorem single_lang {seps : List Nat} (h : Scalars seps) (b : List Nat) : (∃ r, b = [r] ∧ (!seps.contains r) = true) ↔ RLang (.single seps) b := by
  rw [RLang, norm_eq h]; simp

theorem list_lang {rs : List Nat} (h : Scalars rs) (n : Bool) (b : List Nat) : (∃ r, b = [r] ∧ inList rs n r = true) ↔ RLang (.list rs n) b := by
  rw [RLang, norm_eq h]

theorem range_lang (lo hi : Nat) (n : Bool) (b : List Nat) : (∃ r, b = [r] ∧ inRange lo hi n r = true) ↔ RLang (.range lo hi n) b := by rw [RLang]

/-! ### Row -/

theorem at_ascii {m : Matcher} (hm : asciiM m = true) (x : Str) (k : Nat) : At (RLang m) x k ↔ ∃ u c, x = u ++ c ∧ Ascii u ∧ MLang m u ∧ k = u.length := by
  constructor
  · rintro ⟨b, c, h1, h2, h3, h4⟩
    obtain ⟨u, h5, rfl, h6⟩ := (ascii_rlang m hm b).1 h3
    rw [ascii_map h5] at h1 h4
    exact ⟨u, c, h1, h5, h6, h4⟩
  · rintro ⟨u, c, h1, h2, h3, h4⟩
    exact ⟨u.map UInt8.toNat, c, by rw [ascii_map h2]; exact h1, ascii_scalars h2, (ascii_rlang m hm _).2 ⟨u, h2, rfl, h3⟩, by rw [ascii_map h2]; exact h4⟩

theorem rowIndex_any {l : Nat} {ms : List Matcher} (hm : asciiM (.row l ms) = true) (x : Str) : ∀ ps : List Nat, ps.Pairwise (· < ·) → (∀ i ∈ ps, i < x.length) →
    (∀ j k, At (RLang (.row l ms)) (x.drop j) k → (∃ i ∈ ps, i ≤ j) → j ∈ ps) →
    (rowIndex l ((lens ms).zip (matchFns ms)) x ps = some none ∧ ∀ j ∈ ps, ∀ k, ¬ At (RLang (.row l ms)) (x.drop j) k) ∨
    ∃ i ∈ ps, rowIndex l ((lens ms).zip (matchFns ms)) x ps = some (some (i, [l])) ∧ (∃ k, At (RLang (.row l ms)) (x.drop i) k) ∧
      ∀ j ∈ ps, j < i → ∀ k, ¬ At (RLang (.row l ms)) (x.drop j) k
  | [], _, _, _ => Or.inl ⟨rfl, by simp⟩
  | i :: ps, hs, hlt, hin => by
    obtain ⟨h1, h2, h3, h4, h5⟩ := row_conds hm
    rw [List.pairwise_cons] at hs
    have hlen : ∀ u, Ascii u → MLang (.row l ms) u → u.length = l := by
      intro u hu h
      rw [MLang] at h
      exact langSeq_len ms l h4 h3 u hu h
    rw [rowIndex]
    split
    · rename_i hsh
      left
      refine ⟨rfl, fun j hj k hat => ?_⟩
      rw [at_ascii hm] at hat
      obtain ⟨u, c, e1, e2, e3, _⟩ := hat
      have := hlen u e2 e3
      have hl := congrArg List.length e1
      simp only [List.length_drop, List.length_append] at hl hsh
      have hij : i ≤ j := by
        rcases List.mem_cons.1 hj with rfl | hj
        · exact Nat.le_refl _
        · exact Nat.le_of_lt (hs.1 j hj)
      omega
    · obtain ⟨b, e1, e2⟩ := rowMatchAll_any ms h5 h3 (fun m hm => ascii_match m (h1 m hm)) (x.drop i) 0 (by omega)
      rw [e1]
      rw [List.drop_zero] at e2
      have hat : (∃ k, At (RLang (.row l ms)) (x.drop i) k) ↔ ∃ a c, x.drop i = a ++ c ∧ Ascii a ∧ LangSeq ms a := by
        simp only [at_ascii hm, MLang]
        constructor
        · rintro ⟨k, u, c, g1, g2, g3, _⟩; exact ⟨u, c, g1, g2, g3⟩
        · rintro ⟨u, c, g1, g2, g3⟩; exact ⟨_, u, c, g1, g2, g3, rfl⟩
      cases b with
      | true =>
        right
        refine ⟨i, by simp, rfl, hat.2 (e2.1 rfl), fun j hj hji => ?_⟩
        rcases List.mem_cons.1 hj with rfl | hj
        · omega
        · have := hs.1 j hj; omega
      | false =>
        simp only
        have hno : ∀ k, ¬ At (RLang (.row l ms)) (x.drop i) k := by
          intro k hk
          have := e2.2 (hat.1 ⟨k, hk⟩)
          cases this
        have hin' : ∀ j k, At (RLang (.row l ms)) (x.drop j) k → (∃ i ∈ ps, i ≤ j) → j ∈ ps := by
          rintro j k hk ⟨i', hi', hle⟩
          rcases List.mem_cons.1 (hin j k hk ⟨i', by simp [hi'], hle⟩) with rfl | h
          · exact absurd hk (hno k)
          · exact h
        rcases rowIndex_any hm x ps hs.2 (fun i hi => hlt i (by simp [hi])) hin' with ⟨g1, g2⟩ | ⟨i', g0, g1, g2, g3⟩
        · left
          refine ⟨g1, fun j hj => ?_⟩
          rcases List.mem_cons.1 hj with rfl | hj
          · exact hno
          · exact g2 j hj
        · right
          refine ⟨i', by simp [g0], g1, g2, fun j hj hji => ?_⟩
          rcases List.mem_cons.1 hj with rfl | hj
          · exact hno
          · exact g3 j hj hji

theorem row_at {l : Nat} {ms : List Matcher} (hm : asciiM (.row l ms) = true) (x : Str) : IdxAt (Matcher.row l ms).index (RLang (.row l ms)) x := by
  obtain ⟨h1, h2, h3, h4, h5⟩ := row_conds hm
  have hlen : ∀ u, Ascii u → MLang (.row l ms) u → u.length = l := by
    intro u hu h
    rw [MLang] at h
    exact langSeq_len ms l h4 h3 u hu h
  have hmem : ∀ j k, At (RLang (.row l ms)) (x.drop j) k → j ∈ (rangeStr x).map Prod.fst := by
    intro j k hat
    rw [at_ascii hm] at hat
    obtain ⟨u, c, e1, e2, e3, _⟩ := hat
    have := hlen u e2 e3
    cases u with
    | nil => simp at this; omega
    | cons b u =>
      have hx : x[j]? = some b := by
        have := congrArg List.head? e1
        rw [List.head?_drop] at this
        simpa using this
      have := start_mem _ x (Nat.le_refl _) j b hx (ascii_start (e2 b (by simp)))
      exact List.mem_map_of_mem (f := Prod.fst) this
  have hsort : ((rangeStr x).map Prod.fst).Pairwise (· < ·) := by
    rw [List.pairwise_map]; exact rangeStr_sorted _ x (Nat.le_refl _)
  have e : (Matcher.row l ms).index x = rowIndex l ((lens ms).zip (matchFns ms)) x ((rangeStr x).map Prod.fst) := rfl
  unfold IdxAt
  rw [e]
  rcases rowIndex_any hm x _ hsort (fun i hi => by
      obtain ⟨y, hy, rfl⟩ := List.mem_map.1 hi
      exact (mem_rangeStr_any _ x (Nat.le_refl _) y hy).1) (fun j k h _ => hmem j k h) with ⟨g1, g2⟩ | ⟨i, g0, g1, g2, g3⟩
  · exact ⟨none, g1, fun j k h => g2 j (hmem j k h) k h⟩
  · refine ⟨_, g1, by simp, fun k => ?_, fun j hj k h => g3 j (hmem j k h) hj k h⟩
    rw [List.mem_singleton]
    obtain ⟨k', hk'⟩ := g2
    have hk := hk'
    rw [at_ascii hm] at hk'
    obtain ⟨u, c, e1, e2, e3, e4⟩ := hk'
    constructor
    · rintro rfl
      rw [e4, hlen u e2 e3] at hk
      exact hk
    · intro h
      rw [at_ascii hm] at h
      obtain ⟨u, c, e1, e2, e3, e4⟩ := h
      rw [e4, hlen u e2 e3]

/-! ### AnyOf -/

/-- any_of.go:38-52: one step of the loop, for a result that is not -1. -/
def mergeIdx : Option (Nat × List Nat) → Option (Nat × List Nat) → Option (Nat × List Nat)
  | acc, none => acc
  | none, some x => some x
  | some (index, segments), some (idx, seg) =>
    if idx < index then some (idx, seg) else if idx > index then some (index, segments) else some (index, appendMerge segments seg)

theorem anyOfIndex_cons {x : Str} {acc o : Option (Nat × List Nat)} {f : Str → Idx} {fs : List (Str → Idx)} (h : f x = some o) :
    anyOfIndex x acc (f :: fs) = anyOfIndex x (mergeIdx acc o) fs := by
  rw [anyOfIndex, h]
  rcases o with _ | ⟨i, seg⟩
  · rcases acc with _ | ⟨j, s⟩ <;> rfl
  · rcases acc with _ | ⟨j, s⟩
    · rfl
    · simp only [mergeIdx]
      split
      · rfl
      split
      · rfl
      · rfl

theorem at_or {A B : List Nat → Prop} {x : Str} {k : Nat} : At (fun b => A b ∨ B b) x k ↔ At A x k ∨ At B x k := by
  constructor
  · rintro ⟨b, c, h1, h2, h3 | h3, h4⟩
    · exact Or.inl ⟨b, c, h1, h2, h3, h4⟩
    · exact Or.inr ⟨b, c, h1, h2, h3, h4⟩
  · rintro (⟨b, c, h1, h2, h3, h4⟩ | ⟨b, c, h1, h2, h3, h4⟩)
    · exact ⟨b, c, h1, h2, Or.inl h3, h4⟩
    · exact ⟨b, c, h1, h2, Or.inr h3, h4⟩

theorem idxRes_merge {A B : List Nat → Prop} {x : Str} {o o' : Option (Nat × List Nat)} (h : IdxRes A x o) (h' : IdxRes B x o') :
    IdxRes (fun b => A b ∨ B b) x (mergeIdx o o') := by
  rcases o with _ | ⟨i, s⟩ <;> rcases o' with _ | ⟨j, t⟩
  · intro k l hat
    rcases at_or.1 hat with g | g
    · exact h _ _ g
    · exact h' _ _ g
  · refine ⟨h'.1, fun k => ?_, fun k hk l hat => ?_⟩
    · rw [h'.2.1, at_or]; simp [h j k]
    · rcases at_or.1 hat with g | g
      · exact h _ _ g
      · exact h'.2.2 k hk l g
  · refine ⟨h.1, fun k => ?_, fun k hk l hat => ?_⟩
    · rw [h.2.1, at_or]; simp [h' i k]
    · rcases at_or.1 hat with g | g
      · exact h.2.2 k hk l g
      · exact h' _ _ g
  · simp only [mergeIdx]
    split
    · rename_i hlt
      refine ⟨h'.1, fun k => ?_, fun k hk l hat => ?_⟩
      · rw [h'.2.1, at_or]; simp [h.2.2 j hlt k]
      · rcases at_or.1 hat with g | g
        · exact h.2.2 k (by omega) l g
        · exact h'.2.2 k hk l g
    split
    · rename_i hlt
      refine ⟨h.1, fun k => ?_, fun k hk l hat => ?_⟩
      · rw [h.2.1, at_or]; simp [h'.2.2 i hlt k]
      · rcases at_or.1 hat with g | g
        · exact h.2.2 k hk l g
        · exact h'.2.2 k (by omega) l g
    · obtain rfl : i = j := by omega
      refine ⟨?_, fun k => ?_, fun k hk l hat => ?_⟩
      · obtain ⟨k, hk⟩ := List.exists_mem_of_ne_nil s h.1
        exact List.ne_nil_of_mem ((mem_appendMerge s t k).2 (Or.inl hk))
      · rw [mem_appendMerge, h.2.1, h'.2.1, at_or]
      · rcases at_or.1 hat with g | g
        · exact h.2.2 k hk l g
        · exact h'.2.2 k hk l g

theorem startRes_merge {A B : List Nat → Prop} {w : List Nat} {o o' : Option (Nat × List Nat)} (h : StartRes A w o) (h' : StartRes B w o') :
    StartRes (fun b => A b ∨ B b) w (mergeIdx o o') := by
  have hor : ∀ {k}, (∃ b c, w = b ++ c ∧ (A b ∨ B b) ∧ k = (enc b).length) ↔ (∃ b c, w = b ++ c ∧ A b ∧ k = (enc b).length) ∨ (∃ b c, w = b ++ c ∧ B b ∧ k = (enc b).length) := by
    intro k
    constructor
    · rintro ⟨b, c, h1, h2 | h2, h3⟩
      · exact Or.inl ⟨b, c, h1, h2, h3⟩
      · exact Or.inr ⟨b, c, h1, h2, h3⟩
    · rintro (⟨b, c, h1, h2, h3⟩ | ⟨b, c, h1, h2, h3⟩)
      · exact ⟨b, c, h1, Or.inl h2, h3⟩
      · exact ⟨b, c, h1, Or.inr h2, h3⟩
  have no : ∀ {L : List Nat → Prop}, (∀ b c, w = b ++ c → ¬ L b) → ∀ k, ¬ ∃ b c, w = b ++ c ∧ L b ∧ k = (enc b).length := by
    rintro L hL k ⟨b, c, h1, h2, _⟩; exact hL b c h1 h2
  rcases o with _ | ⟨i, s⟩ <;> rcases o' with _ | ⟨j, t⟩
  · intro b c e hb
    exact hb.elim (h b c e) (h' b c e)
  · refine ⟨h'.1, fun hj b c e hb => hb.elim (h b c e) (h'.2.1 hj b c e), fun hj k => ?_⟩
    rw [h'.2.2 hj, hor]
    have := no h k
    exact ⟨Or.inr, fun x => x.resolve_left this⟩
  · refine ⟨h.1, fun hj b c e hb => hb.elim (h.2.1 hj b c e) (h' b c e), fun hj k => ?_⟩
    rw [h.2.2 hj, hor]
    have := no h' k
    exact ⟨Or.inl, fun x => x.resolve_right this⟩
  · simp only [mergeIdx]
    split
    · rename_i hlt
      have hA := h.2.1 (by omega)
      refine ⟨h'.1, fun hj b c e hb => hb.elim (hA b c e) (h'.2.1 hj b c e), fun hj k => ?_⟩
      rw [h'.2.2 hj, hor]
      have := no hA k
      exact ⟨Or.inr, fun x => x.resolve_left this⟩
    split
    · rename_i hlt
      have hB := h'.2.1 (by omega)
      refine ⟨h.1, fun hj b c e hb => hb.elim (h.2.1 hj b c e) (hB b c e), fun hj k => ?_⟩
      rw [h.2.2 hj, hor]
      have := no hB k
      exact ⟨Or.inl, fun x => x.resolve_right this⟩
    · obtain rfl : i = j := by omega
      refine ⟨h.1, fun hj b c e hb => hb.elim (h.2.1 hj b c e) (h'.2.1 hj b c e), fun hj k => ?_⟩
      rw [mem_appendMerge, h.2.2 hj, h'.2.2 hj, hor]

theorem anyOf_at {ms : List Matcher} {x : Str} (h : ∀ m ∈ ms, IdxAt m.index (RLang m) x) : IdxAt (Matcher.anyOf ms).index (RLang (.anyOf ms)) x := by
  have key : ∀ (ms : List Matcher), (∀ m ∈ ms, IdxAt m.index (RLang m) x) → ∀ (acc : Option (Nat × List Nat)) (A : List Nat → Prop), IdxRes A x acc →
      ∃ o, anyOfIndex x acc (indexFns ms) = some o ∧ IdxRes (fun b => A b ∨ RSome ms b) x o := by
    intro ms
    induction ms with
    | nil => intro _ acc A hA; exact ⟨acc, rfl, by simpa [RSome] using hA⟩
    | cons m ms ih =>
      intro h acc A hA
      obtain ⟨o, h1, h2⟩ := h m (by simp)
      rw [indexFns, anyOfIndex_cons h1]
      obtain ⟨o', h3, h4⟩ := ih (fun m hm => h m (by simp [hm])) _ _ (idxRes_merge hA h2)
      refine ⟨o', h3, ?_⟩
      simpa only [RSome, or_assoc] using h4
  obtain ⟨o, h1, h2⟩ := key ms h none (fun _ => False) (by rintro j k ⟨_, _, _, _, h, _⟩; exact h)
  refine ⟨o, h1, ?_⟩
  have e : RLang (.anyOf ms) = fun b => False ∨ RSome ms b := by funext b; simp [RLang]
  rw [e]; exact h2

theorem anyOf_startAt {ms : List Matcher} {w : List Nat} (h : ∀ m ∈ ms, StartAt m.index (RLang m) w) : StartAt (Matcher.anyOf ms).index (RLang (.anyOf ms)) w := by
  have key : ∀ (ms : List Matcher), (∀ m ∈ ms, StartAt m.index (RLang m) w) → ∀ (acc : Option (Nat × List Nat)) (A : List Nat → Prop), StartRes A w acc →
      ∃ o, anyOfIndex (enc w) acc (indexFns ms) = some o ∧ StartRes (fun b => A b ∨ RSome ms b) w o := by
    intro ms
    induction ms with
    | nil => intro _ acc A hA; exact ⟨acc, rfl, by simpa [RSome] using hA⟩
    | cons m ms ih =>
      intro h acc A hA
      obtain ⟨o, h1, h2⟩ := h m (by simp)
      rw [indexFns, anyOfIndex_cons h1]
      obtain ⟨o', h3, h4⟩ := ih (fun m hm => h m (by simp [hm])) _ _ (startRes_merge hA h2)
      refine ⟨o', h3, ?_⟩
      simpa only [RSome, or_assoc] using h4
  obtain ⟨o, h1, h2⟩ := key ms h none (fun _ => False) (fun _ _ _ h => h)
  refine ⟨o, h1, ?_⟩
  have e : RLang (.anyOf ms) = fun b => False ∨ RSome ms b := by funext b; simp [RLang]
  rw [e]; exact h2

end Verif.Glob
