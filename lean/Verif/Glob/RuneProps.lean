import Verif.Glob.RuneStart
/-
The check of `Verif.Glob.RuneGood` is right: a matcher that passes it decides its language on valid UTF-8 strings.
-/
namespace Verif.Glob

/-- `Match` decides the language on a valid string. -/
def DecW (f : Str → Option Bool) (L : List Nat → Prop) (w : List Nat) : Prop := ∃ b, f (enc w) = some b ∧ (b = true ↔ L w)

/-! ### Simple matchers -/

theorem runesIn_ne_nil_of {t : Str} (h : validText t = true) (w : List Nat) (hw : Scalars w) : enc w = t ↔ w = runesIn t := by
  have := validText_eq h
  constructor
  · rintro rfl; exact (runesIn_enc hw).symm
  · rintro rfl; exact this.symm

theorem enc_hasPrefix {p : Str} (h : validText p = true) {w : List Nat} (hw : Scalars w) : hasPrefix (enc w) p = true ↔ ∃ c, w = runesIn p ++ c := by
  have hp := validText_eq h
  rw [hasPrefix_iff]
  constructor
  · rintro ⟨c, e⟩
    rw [hp] at e
    obtain ⟨d, e1, e2⟩ := enc_prefix hw (runesIn_scalars p) e
    exact ⟨d, e1⟩
  · rintro ⟨c, rfl⟩
    exact ⟨enc c, by rw [enc_append, ← hp]⟩

theorem enc_hasSuffix {q : Str} (h : validText q = true) {w : List Nat} (hw : Scalars w) : hasSuffix (enc w) q = true ↔ ∃ a, w = a ++ runesIn q := by
  have hq := validText_eq h
  rw [hasSuffix_iff]
  constructor
  · rintro ⟨c, e⟩
    rw [hq] at e
    obtain ⟨d, e1, e2⟩ := enc_suffix hw (runesIn_scalars q) e
    exact ⟨d, e1⟩
  · rintro ⟨c, rfl⟩
    exact ⟨enc c, by rw [enc_append, ← hq]⟩

theorem oneRune_enc (p : Nat → Bool) {w : List Nat} (hw : Scalars w) (hne : w ≠ []) : oneRune p (enc w) = true ↔ ∃ r, w = [r] ∧ p r = true := by
  cases w with
  | nil => exact absurd rfl hne
  | cons r w =>
    rw [scalars_cons] at hw
    have hd := decode_enc (w := w) hw.1 []
    rw [List.append_nil] at hd
    unfold oneRune
    rw [hd, enc_cons, List.length_append]
    cases w with
    | nil => simp [enc_nil]
    | cons r' w =>
      have := enc_length_pos (w := r' :: w) (by simp)
      rw [if_pos (by simp only; omega)]
      simp

theorem runes_count {w : List Nat} (hw : Scalars w) : (runesOf (enc w)).length = w.length := by rw [runesOf_enc hw, List.length_map]

theorem contains_decW {needle : Str} {n : Bool} (hn : needleW needle n = true) {w : List Nat} (hw : Scalars w) :
    DecW (Matcher.contains needle n).match (RLang (.contains needle n)) w := by
  refine ⟨_, rfl, ?_⟩
  rw [needleW, Bool.and_eq_true, Bool.or_eq_true, Bool.not_eq_true', beq_iff_eq] at hn
  obtain ⟨hv, hone⟩ := hn
  have hte := validText_eq hv
  have hc : containsStr needle (enc w) = true ↔ ∃ a c, w = a ++ runesIn needle ++ c := by
    rw [containsStr_iff]
    constructor
    · rintro ⟨a, c, e⟩
      rcases strIndex_enc hw hv with ⟨h1, _⟩ | ⟨a, c, h1, _⟩
      · exact absurd e (strIndex_none h1 a c)
      · exact ⟨a, c, h1⟩
    · rintro ⟨a, c, rfl⟩
      exact ⟨enc a, enc c, by rw [enc_append, enc_append, ← hte]⟩
  rw [RLang]
  cases n with
  | false => simpa using hc
  | true =>
    simp only [if_true, bne_iff_ne, ne_eq, Bool.not_eq_true]
    obtain ⟨x, hx⟩ := List.length_eq_one_iff.1 (hone.resolve_left (by simp))
    rw [hx] at hc ⊢
    rw [← Bool.not_eq_true, hc]
    constructor
    · intro h r hr hm
      simp at hm; subst hm
      obtain ⟨u, v, e⟩ := List.append_of_mem hr
      exact h ⟨u, v, by rw [e]; simp⟩
    · rintro h ⟨a, c, rfl⟩
      exact h x (by simp) (by simp)

theorem anyOf_decW {ms : List Matcher} {w : List Nat} (h : ∀ m ∈ ms, DecW m.match (RLang m) w) : DecW (Matcher.anyOf ms).match (RLang (.anyOf ms)) w := by
  show ∃ b, anyOfMatch (enc w) (matchFns ms) = some b ∧ _
  rw [RLang]
  induction ms with
  | nil => exact ⟨false, rfl, by simp [RSome]⟩
  | cons m ms ih =>
    obtain ⟨b, e1, e2⟩ := h m (by simp)
    obtain ⟨b', e3, e4⟩ := ih fun m hm => h m (by simp [hm])
    rw [matchFns, anyOfMatch, e1, RSome]
    cases b with
    | true => exact ⟨true, rfl, by simp [e2.1 rfl]⟩
    | false =>
      refine ⟨b', e3, ?_⟩
      rw [e4]
      simp only [Bool.false_eq_true, false_iff] at e2
      simp [e2]

theorem everyOf_decW {ms : List Matcher} {w : List Nat} (h : ∀ m ∈ ms, DecW m.match (RLang m) w) : DecW (Matcher.everyOf ms).match (RLang (.everyOf ms)) w := by
  show ∃ b, everyOfMatch (enc w) (matchFns ms) = some b ∧ _
  rw [RLang]
  induction ms with
  | nil => exact ⟨true, rfl, by simp [RAll]⟩
  | cons m ms ih =>
    obtain ⟨b, e1, e2⟩ := h m (by simp)
    obtain ⟨b', e3, e4⟩ := ih fun m hm => h m (by simp [hm])
    rw [matchFns, everyOfMatch, e1, RAll]
    cases b with
    | false =>
      simp only [Bool.false_eq_true, false_iff] at e2
      exact ⟨false, rfl, by simp [e2]⟩
    | true =>
      refine ⟨b', e3, ?_⟩
      rw [e4]
      simp [e2.1 rfl]

/-! ### BTree -/

theorem btreeSegments_decW {right : Str → Option Bool} {R : List Nat → Prop} {s : Str} (hr : ∀ w, Scalars w → DecW right R w) (pos : Nat) :
    ∀ segs : List Nat, (∀ k ∈ segs, ∃ c, Scalars c ∧ s.drop (pos + k) = enc c) →
      ∃ b, btreeSegments right s pos segs = some b ∧ (b = true ↔ ∃ k ∈ segs, ∃ c, s.drop (pos + k) = enc c ∧ Scalars c ∧ R c)
  | [], _ => ⟨false, rfl, by simp⟩
  | k :: segs, h => by
    obtain ⟨b, h1, h2⟩ := btreeSegments_decW hr pos segs fun k hk => h k (by simp [hk])
    have e : (if s.length ≤ pos + k then [] else s.drop (pos + k)) = s.drop (pos + k) := by
      split
      · rename_i h; exact (List.drop_eq_nil_iff.2 h).symm
      · rfl
    obtain ⟨c, hc, hd⟩ := h k (by simp)
    obtain ⟨b', h3, h4⟩ := hr c hc
    have hR : (∃ c, s.drop (pos + k) = enc c ∧ Scalars c ∧ R c) ↔ R c := by
      constructor
      · rintro ⟨c', g1, g2, g3⟩
        rw [hd] at g1
        rw [enc_inj hc g2 g1]; exact g3
      · intro h; exact ⟨c, hd, hc, h⟩
    simp only [btreeSegments]; rw [e, hd, h3]
    cases b' with
    | true => exact ⟨true, rfl, by simp only [true_iff]; exact ⟨k, List.mem_cons_self, hR.2 (h4.1 rfl)⟩⟩
    | false =>
      refine ⟨b, h1, h2.trans ?_⟩
      simp only [Bool.false_eq_true, false_iff] at h4
      rw [List.exists_mem_cons_iff, hR]
      simp [h4]

/-- Occurrences in a part of a valid string. -/
theorem at_window {V : List Nat → Prop} (hne : ∀ b, V b → b ≠ []) {w : List Nat} (hw : Scalars w) {limit o k : Nat} :
    At V (((enc w).take limit).drop o) k ↔ ∃ a v c, w = a ++ v ++ c ∧ (enc a).length = o ∧ V v ∧ k = (enc v).length ∧ o + k ≤ limit := by
  constructor
  · rintro ⟨v, y, h1, h2, h3, h4⟩
    have hvp := enc_length_pos (hne v h3)
    have hlen := congrArg List.length h1
    simp only [List.length_drop, List.length_take, List.length_append] at hlen
    have hd : (enc w).drop o = enc v ++ (y ++ (enc w).drop limit) := by
      rw [← List.append_assoc, ← h1]
      have hsplit : (enc w) = (enc w).take limit ++ (enc w).drop limit := (List.take_append_drop _ _).symm
      conv_lhs => rw [hsplit]
      rw [List.drop_append_of_le_length (by rw [List.length_take]; omega)]
    obtain ⟨a, v', c, g1, g2, g3, g4⟩ := at_split (L := fun b => V b ∧ b = v) (fun b hb => hne b hb.1) hw (j := o) (k := k) ⟨v, _, hd, h2, ⟨h3, rfl⟩, h4⟩
    obtain ⟨g3, rfl⟩ := g3
    exact ⟨a, v', c, g1, g2.symm, g3, g4, by omega⟩
  · rintro ⟨a, v, c, rfl, rfl, h3, rfl, h5⟩
    rw [scalars_append, scalars_append] at hw
    refine ⟨v, (enc c).take (limit - ((enc a).length + (enc v).length)), ?_, hw.1.2, h3, rfl⟩
    rw [enc_append, enc_append, List.take_append, List.take_of_length_le (by rw [List.length_append]; omega), List.append_assoc, List.drop_left, List.length_append]

theorem btreeLoop_words {ix : Str → Idx} {left right : Str → Option Bool} {V L R : List Nat → Prop} (hne : ∀ b, V b → b ≠ [])
    (hl : ∀ w, Scalars w → DecW left L w) (hr : ∀ w, Scalars w → DecW right R w) {w : List Nat} (hw : Scalars w) {limit : Nat} (hlim : limit ≤ (enc w).length)
    {P : Nat → Prop} (hP : ∀ a c, w = a ++ c → P (enc a).length) (hix : ∀ o, P o → o < limit → IdxAt ix V (((enc w).take limit).drop o)) :
    ∀ (n offset : Nat), (enc w).length + 1 ≤ offset + n → 1 ≤ n → P offset →
    ∃ b, btreeLoop ix left right (enc w) limit n offset = some b ∧
      (b = true ↔ ∃ a v c, w = a ++ v ++ c ∧ L a ∧ V v ∧ R c ∧ offset ≤ (enc a).length ∧ (enc a).length + (enc v).length ≤ limit)
  | 0, _, _, h, _ => absurd h (by omega)
  | n + 1, offset, hn, _, hp => by
    rw [btreeLoop]
    split
    · rename_i hlt
      obtain ⟨o, e1, e2⟩ := hix offset hp hlt
      rw [e1]
      have hat : ∀ j k, At V ((((enc w).take limit).drop offset).drop j) k ↔
          ∃ a v c, w = a ++ v ++ c ∧ (enc a).length = offset + j ∧ V v ∧ k = (enc v).length ∧ offset + j + k ≤ limit := by
        intro j k
        rw [List.drop_drop, at_window hne hw]
      rcases o with _ | ⟨i, segs⟩
      · refine ⟨false, rfl, ?_⟩
        simp only [Bool.false_eq_true, false_iff]
        rintro ⟨a, v, c, h1, _, h3, _, h5, h6⟩
        exact e2 ((enc a).length - offset) (enc v).length ((hat _ _).2 ⟨a, v, c, h1, by omega, h3, rfl, by omega⟩)
      · obtain ⟨e3, e4, e5⟩ := e2
        simp only
        obtain ⟨k0, hk0⟩ := List.exists_mem_of_ne_nil segs e3
        obtain ⟨a0, v0, c0, f1, f2, f3, f4, f5⟩ := (hat _ _).1 ((e4 k0).1 hk0)
        obtain ⟨r, v1, rfl⟩ : ∃ r v1, v0 = r :: v1 := by
          cases v0 with
          | nil => exact absurd rfl (hne _ f3)
          | cons r v1 => exact ⟨r, v1, rfl⟩
        have hsc := hw
        rw [f1, scalars_append, scalars_append, scalars_cons] at hsc
        have hdrop : (enc w).drop (offset + i) = enc (r :: v1) ++ enc c0 := by
          rw [← f2, f1, List.append_assoc, enc_append, List.drop_left, enc_append]
        have htake : (enc w).take (offset + i) = enc a0 := by
          rw [← f2, f1, List.append_assoc, enc_append, List.take_left]
        have hstep : (decodeRune ((enc w).drop (offset + i))).2 = (encodeRune r).length := by rw [hdrop, decode_enc hsc.1.2.1]
        rw [hstep, htake]
        -- the parts at this position
        have here : ∀ a v c, w = a ++ v ++ c → (enc a).length = offset + i → a = a0 ∧ v ++ c = r :: v1 ++ c0 := by
          intro a v c g1 g2
          have g3 : a ++ (v ++ c) = a0 ++ (r :: v1 ++ c0) := by rw [← List.append_assoc, ← g1, f1, List.append_assoc]
          refine enc_same (by rw [← List.append_assoc, ← g1]; exact hw) g3 (by rw [g2, f2])
        have hsegs : ∀ k ∈ segs.reverse, ∃ c, Scalars c ∧ (enc w).drop (offset + i + k) = enc c := by
          intro k hk
          rw [List.mem_reverse, e4, hat] at hk
          obtain ⟨a, v, c, g1, g2, g3, g4, _⟩ := hk
          refine ⟨c, by rw [g1, scalars_append] at hw; exact hw.2, ?_⟩
          rw [g1, enc_append, List.drop_left' (by rw [enc_append, List.length_append, g2, g4])]
        obtain ⟨bl, h3, h4⟩ := hl a0 hsc.1.1
        obtain ⟨br, h5, h6⟩ := btreeSegments_decW hr (offset + i) segs.reverse hsegs
        have hpos := encodeRune_pos r
        obtain ⟨b', h1, h2⟩ := btreeLoop_words hne hl hr hw hlim hP hix n (offset + (i + (encodeRune r).length)) (by omega) (by
            have := congrArg List.length hdrop
            rw [List.length_drop, enc_cons, List.length_append, List.length_append] at this
            omega)
          (by
            have := hP (a0 ++ [r]) (v1 ++ c0) (by rw [f1]; simp)
            rw [enc_append, enc_singleton, List.length_append, f2] at this
            rw [← Nat.add_assoc]; exact this)
        have found : (L a0 ∧ ∃ k ∈ segs.reverse, ∃ c, (enc w).drop (offset + i + k) = enc c ∧ Scalars c ∧ R c) ↔
            ∃ a v c, w = a ++ v ++ c ∧ L a ∧ V v ∧ R c ∧ (enc a).length = offset + i ∧ (enc a).length + (enc v).length ≤ limit := by
          constructor
          · rintro ⟨g0, k, hk, c, g1, g2, g3⟩
            rw [List.mem_reverse, e4, hat] at hk
            obtain ⟨a, v, c', q1, q2, q3, q4, q5⟩ := hk
            have hc' : enc c' = enc c := by
              rw [← g1, q1, enc_append, List.drop_left' (by rw [enc_append, List.length_append, q2, q4])]
            have hcs : Scalars c' := by rw [q1, scalars_append] at hw; exact hw.2
            have := enc_inj hcs g2 hc'
            subst this
            exact ⟨a, v, c', q1, (here a v c' q1 q2).1 ▸ g0, q3, g3, q2, by omega⟩
          · rintro ⟨a, v, c, q1, q2, q3, q4, q5, q6⟩
            refine ⟨(here a v c q1 q5).1 ▸ q2, (enc v).length, ?_, c, ?_, ?_, q4⟩
            · rw [List.mem_reverse, e4, hat]
              exact ⟨a, v, c, q1, q5, q3, rfl, by omega⟩
            · rw [q1, enc_append, List.drop_left' (by rw [enc_append, List.length_append, q5])]
            · rw [q1, scalars_append] at hw; exact hw.2
        have rest : ¬ (L a0 ∧ ∃ k ∈ segs.reverse, ∃ c, (enc w).drop (offset + i + k) = enc c ∧ Scalars c ∧ R c) →
            ((∃ a v c, w = a ++ v ++ c ∧ L a ∧ V v ∧ R c ∧ offset ≤ (enc a).length ∧ (enc a).length + (enc v).length ≤ limit) ↔
            ∃ a v c, w = a ++ v ++ c ∧ L a ∧ V v ∧ R c ∧ offset + (i + (encodeRune r).length) ≤ (enc a).length ∧ (enc a).length + (enc v).length ≤ limit) := by
          intro hno
          constructor
          · rintro ⟨a, v, c, g1, g2, g3, g4, g5, g6⟩
            refine ⟨a, v, c, g1, g2, g3, g4, ?_, g6⟩
            have hge : offset + i ≤ (enc a).length := by
              by_contra hc
              exact e5 ((enc a).length - offset) (by omega) (enc v).length ((hat _ _).2 ⟨a, v, c, g1, by omega, g3, rfl, by omega⟩)
            have hneq : (enc a).length ≠ offset + i := fun hc => hno (found.2 ⟨a, v, c, g1, g2, g3, g4, hc, g6⟩)
            have hal : a0.length ≤ a.length :=
              (enc_le (w := w) (b := r :: v1 ++ c0) (d := v ++ c) (by rw [f1, List.append_assoc]) (by rw [g1, List.append_assoc])).1 (by omega)
            obtain ⟨e, g7, g8⟩ := prefix_prefix (w := w) (a := a0) (b := r :: v1 ++ c0) (c := a) (d := v ++ c) (by rw [f1, List.append_assoc]) (by rw [g1, List.append_assoc]) hal
            cases e with
            | nil => rw [List.append_nil] at g7; subst g7; exact absurd f2 hneq
            | cons r' e =>
              rw [List.cons_append, List.cons_append, List.cons.injEq] at g8
              rw [g7, ← g8.1, enc_append, enc_cons, List.length_append, List.length_append]
              omega
          · rintro ⟨a, v, c, g1, g2, g3, g4, g5, g6⟩
            exact ⟨a, v, c, g1, g2, g3, g4, by omega, g6⟩
        rw [h3]
        cases bl with
        | true =>
          simp only
          rw [h5]
          cases br with
          | true =>
            refine ⟨true, rfl, ?_⟩
            simp only [true_iff]
            obtain ⟨a, v, c, g1, g2, g3, g4, g5, g6⟩ := found.1 ⟨h4.1 rfl, h6.1 rfl⟩
            exact ⟨a, v, c, g1, g2, g3, g4, by omega, g6⟩
          | false =>
            refine ⟨b', h1, h2.trans (rest ?_).symm⟩
            simp only [Bool.false_eq_true, false_iff] at h6
            exact fun h => h6 h.2
        | false =>
          refine ⟨b', h1, h2.trans (rest ?_).symm⟩
          simp only [Bool.false_eq_true, false_iff] at h4
          exact fun h => h4 h.1
    · rename_i hge
      refine ⟨false, rfl, ?_⟩
      simp only [Bool.false_eq_true, false_iff]
      rintro ⟨a, v, c, h, _, hvv, _, h5, h6⟩
      have := enc_length_pos (hne v hvv)
      omega

theorem btreeLoop_deadW {ix : Str → Idx} {right : Str → Option Bool} {V : List Nat → Prop} {w : List Nat} (hw : Scalars w)
    (hv : ∀ u, Scalars u → u ≠ [] → StartAt ix V u) : ∀ (n : Nat) (a c : List Nat), w = a ++ c → a ≠ [] → (enc w).length + 1 ≤ (enc a).length + n → 1 ≤ n →
    btreeLoop ix (fun s => some s.isEmpty) right (enc w) (enc w).length n (enc a).length = some false
  | 0, _, _, _, _, _, h => absurd h (by omega)
  | n + 1, a, c, e, ha, hn, _ => by
    rw [btreeLoop]
    split
    · rename_i hlt
      have hsub : ((enc w).take (enc w).length).drop (enc a).length = enc c := by rw [List.take_length, e, enc_append, List.drop_left]
      have hsc := hw
      rw [e, scalars_append] at hsc
      have hc : c ≠ [] := by rintro rfl; rw [List.append_nil] at e; subst e; omega
      rw [hsub]
      obtain ⟨o, e1, e2⟩ := hv c hsc.2 hc
      rw [e1]
      rcases o with _ | ⟨i, segs⟩
      · rfl
      · obtain ⟨⟨x, y, g1, g2, rfl⟩, _⟩ := e2
        obtain ⟨r, y', rfl⟩ := List.exists_cons_of_ne_nil g2
        have hsy := hsc.2
        rw [g1, scalars_append, scalars_cons] at hsy
        have hdrop : (enc w).drop ((enc a).length + (enc x).length) = enc (r :: y') ++ [] := by
          rw [List.append_nil, e, g1, ← List.append_assoc, enc_append (a ++ x), List.drop_left' (by rw [enc_append, List.length_append])]
        have hstep : (decodeRune ((enc w).drop ((enc a).length + (enc x).length))).2 = (encodeRune r).length := by rw [hdrop, decode_enc hsy.2.1]
        have he : ((enc w).take ((enc a).length + (enc x).length)).isEmpty = false := by
          rw [← Bool.not_eq_true, List.isEmpty_iff]
          intro h
          have := congrArg List.length h
          have hp := enc_length_pos ha
          rw [List.length_take, List.length_nil] at this
          omega
        simp only [he, hstep]
        have hp := encodeRune_pos r
        have hlen : (enc (a ++ x ++ [r])).length = (enc a).length + ((enc x).length + (encodeRune r).length) := by
          rw [enc_append, enc_append, enc_singleton, List.length_append, List.length_append]; omega
        rw [← hlen]
        exact btreeLoop_deadW hw hv n (a ++ x ++ [r]) y' (by rw [e, g1]; simp) (by simp) (by omega) (by omega)
    · rfl

theorem btreeLoop_startW {ix : Str → Idx} {right : Str → Option Bool} {V R : List Nat → Prop} (hv : ∀ u, Scalars u → u ≠ [] → StartAt ix V u)
    (hr : ∀ w, Scalars w → DecW right R w) {w : List Nat} (hw : Scalars w) (hne : w ≠ []) :
    ∃ b, btreeLoop ix (fun s => some s.isEmpty) right (enc w) (enc w).length ((enc w).length + 1) 0 = some b ∧ (b = true ↔ ∃ v c, w = v ++ c ∧ V v ∧ R c) := by
  have hpos := enc_length_pos hne
  rw [btreeLoop, if_pos (by omega)]
  simp only [List.take_length, List.drop_zero, Nat.zero_add]
  obtain ⟨o, e1, e2⟩ := hv w hw hne
  rw [e1]
  rcases o with _ | ⟨i, segs⟩
  · refine ⟨false, rfl, ?_⟩
    simp only [Bool.false_eq_true, false_iff]
    rintro ⟨v, c, h, h1, _⟩
    exact e2 v c h h1
  · obtain ⟨⟨x, y, g1, g2, rfl⟩, e3, e4⟩ := e2
    obtain ⟨r, y', rfl⟩ := List.exists_cons_of_ne_nil g2
    have hsy := hw
    rw [g1, scalars_append, scalars_cons] at hsy
    have hdrop : (enc w).drop (enc x).length = enc (r :: y') ++ [] := by rw [List.append_nil, g1, enc_append, List.drop_left]
    have hstep : (decodeRune ((enc w).drop (enc x).length)).2 = (encodeRune r).length := by rw [hdrop, decode_enc hsy.2.1]
    have hlen : (enc (x ++ [r])).length = (enc x).length + (encodeRune r).length := by rw [enc_append, enc_singleton, List.length_append]
    have hp := encodeRune_pos r
    have hdead := btreeLoop_deadW (right := right) hw hv (enc w).length (x ++ [r]) y' (by rw [g1]; simp) (by simp) (by omega) hpos
    rw [hlen] at hdead
    simp only [hstep]
    by_cases hi : (enc x).length = 0
    · have hx : x = [] := enc_eq_nil.1 (List.length_eq_zero_iff.1 hi)
      subst hx
      simp only [enc_nil, List.length_nil, List.take_zero, List.isEmpty_nil] at hdead ⊢
      have hk := e4 rfl
      obtain ⟨b, h1, h2⟩ := btreeSegments_decW (s := enc w) hr 0 segs.reverse (by
        intro k h
        rw [List.mem_reverse, hk] at h
        obtain ⟨b, c, q1, q2, q3⟩ := h
        refine ⟨c, by rw [q1, scalars_append] at hw; exact hw.2, ?_⟩
        rw [Nat.zero_add, q3, q1, enc_append, List.drop_left])
      rw [h1]
      have hiff : (∃ k ∈ segs.reverse, ∃ c, (enc w).drop (0 + k) = enc c ∧ Scalars c ∧ R c) ↔ ∃ v c, w = v ++ c ∧ V v ∧ R c := by
        constructor
        · rintro ⟨k, h, c, q1, q2, q3⟩
          rw [List.mem_reverse, hk] at h
          obtain ⟨b, c', q4, q5, q6⟩ := h
          have hc' : enc c' = enc c := by rw [← q1, Nat.zero_add, q6, q4, enc_append, List.drop_left]
          have := enc_inj (by rw [q4, scalars_append] at hw; exact hw.2) q2 hc'
          subst this
          exact ⟨b, c', q4, q5, q3⟩
        · rintro ⟨v, c, q1, q2, q3⟩
          refine ⟨(enc v).length, ?_, c, ?_, ?_, q3⟩
          · rw [List.mem_reverse, hk]; exact ⟨v, c, q1, q2, rfl⟩
          · rw [Nat.zero_add, q1, enc_append, List.drop_left]
          · rw [q1, scalars_append] at hw; exact hw.2
      cases b with
      | true => exact ⟨true, rfl, by simp only [true_iff]; exact hiff.1 (h2.1 rfl)⟩
      | false =>
        simp only
        refine ⟨false, hdead, ?_⟩
        rw [← hiff]
        exact h2
    · have he : ((enc w).take (enc x).length).isEmpty = false := by
        rw [← Bool.not_eq_true, List.isEmpty_iff]
        intro h
        have := congrArg List.length h
        rw [List.length_take, List.length_nil] at this
        omega
      simp only [he]
      refine ⟨false, hdead, ?_⟩
      simp only [Bool.false_eq_true, false_iff]
      rintro ⟨v, c, h, hV, _⟩
      exact e3 (by omega) v c h hV

/-! ### The check -/

theorem goodE_word {m : Matcher} (h : goodE m = true) : DecW m.match (RLang m) [] := by
  obtain ⟨b, h1, h2⟩ := goodE_ok m h
  exact ⟨b, h1, by rw [h2, rlang_nil]⟩

theorem goodW_ok (m : Matcher) : goodW m = true → ∀ w, Scalars w → w ≠ [] → DecW m.match (RLang m) w := by
  induction m using Matcher.ind with
  | h m ih =>
  intro hm w hw hne
  cases m with
  | nothing => exact ⟨_, rfl, by rw [List.isEmpty_iff, RLang, enc_eq_nil]⟩
  | text t =>
    refine ⟨_, rfl, ?_⟩
    rw [decide_eq_true_eq, RLang, ← runesIn_ne_nil_of (by simpa [goodW] using hm) w hw, eq_comm]
  | any seps =>
    refine ⟨_, rfl, ?_⟩
    rw [indexAnyRunes_isNone, runesIn_enc hw, RLang, norm_eq (scalars_iff.1 (by simpa [goodW] using hm))]
  | super => exact ⟨true, rfl, by simp [RLang]⟩
  | single seps => exact ⟨_, rfl, by rw [oneRune_enc _ hw hne, single_lang (scalars_iff.1 (by simpa [goodW] using hm))]⟩
  | list rs n => exact ⟨_, rfl, by rw [oneRune_enc _ hw hne, list_lang (scalars_iff.1 (by simpa [goodW] using hm))]⟩
  | range lo hi n => exact ⟨_, rfl, by rw [oneRune_enc _ hw hne, range_lang]⟩
  | min n =>
    refine ⟨_, rfl, ?_⟩
    simp only [goodW, decide_eq_true_eq] at hm
    rw [minMatch, runes_count hw, RLang]
    simp; omega
  | max n =>
    refine ⟨_, rfl, ?_⟩
    rw [maxMatch, runes_count hw, RLang]
    simp
  | contains needle n => exact contains_decW (by simpa [goodW] using hm) hw
  | «prefix» p => exact ⟨_, rfl, by rw [enc_hasPrefix (by simpa [goodW] using hm) hw, RLang]⟩
  | suffix q => exact ⟨_, rfl, by rw [enc_hasSuffix (by simpa [goodW] using hm) hw, RLang]⟩
  | prefixSuffix p q =>
    simp only [goodW, Bool.and_eq_true] at hm
    refine ⟨_, rfl, ?_⟩
    rw [Bool.and_eq_true, hasPrefix_iff, hasSuffix_iff, RLang]
    have hp := validText_eq hm.1.1
    have hq := validText_eq hm.1.2
    constructor
    · rintro ⟨⟨c, h1⟩, ⟨a, h2⟩⟩
      obtain ⟨b, hb⟩ := noOverlap_spec hm.2 h1 h2
      have hb' : enc w = p ++ b ++ enc (runesIn q) := by rw [← hq]; exact hb
      obtain ⟨x, h3, h4⟩ := enc_suffix hw (runesIn_scalars q) hb'
      rw [hp] at h4
      have hx : Scalars x := by rw [h3, scalars_append] at hw; exact hw.1
      obtain ⟨d, h5, _⟩ := enc_prefix hx (runesIn_scalars p) h4.symm
      exact ⟨d, by rw [h3, h5]⟩
    · rintro ⟨b, rfl⟩
      refine ⟨⟨enc b ++ q, ?_⟩, ⟨p ++ enc b, ?_⟩⟩
      · rw [enc_append, enc_append, ← hp, ← hq, List.append_assoc]
      · rw [enc_append, enc_append, ← hp, ← hq]
  | prefixAny p seps =>
    simp only [goodW, Bool.and_eq_true] at hm
    have hp := validText_eq hm.1
    refine ⟨_, rfl, ?_⟩
    rw [RLang, norm_eq (scalars_iff.1 hm.2), prefixAnyMatch]
    by_cases h : hasPrefix (enc w) p = true
    · obtain ⟨c, rfl⟩ := (enc_hasPrefix hm.1 hw).1 h
      have hc : Scalars c := (scalars_append.1 hw).2
      have hd : (enc (runesIn p ++ c)).drop p.length = enc c := by rw [enc_append, ← hp, List.drop_left]
      simp only [h, Bool.not_true, Bool.false_eq_true, if_false]
      rw [hd, indexAnyRunes_isNone, runesIn_enc hc]
      constructor
      · intro g; exact ⟨c, rfl, g⟩
      · rintro ⟨c', g1, g2⟩
        rw [List.append_cancel_left g1]; exact g2
    · simp only [h, Bool.not_false, if_true]
      simp only [Bool.false_eq_true, false_iff]
      rintro ⟨c, g1, _⟩
      exact h ((enc_hasPrefix hm.1 hw).2 ⟨c, g1⟩)
  | suffixAny q seps =>
    simp only [goodW, Bool.and_eq_true] at hm
    have hq := validText_eq hm.1
    refine ⟨_, rfl, ?_⟩
    rw [RLang, norm_eq (scalars_iff.1 hm.2), suffixAnyMatch]
    by_cases h : hasSuffix (enc w) q = true
    · obtain ⟨c, rfl⟩ := (enc_hasSuffix hm.1 hw).1 h
      have hc : Scalars c := (scalars_append.1 hw).1
      have hd : (enc (c ++ runesIn q)).take ((enc (c ++ runesIn q)).length - q.length) = enc c := by
        rw [enc_append, ← hq, List.length_append, Nat.add_sub_cancel, List.take_left]
      simp only [h, Bool.not_true, Bool.false_eq_true, if_false]
      rw [hd, indexAnyRunes_isNone, runesIn_enc hc]
      constructor
      · intro g; exact ⟨c, rfl, g⟩
      · rintro ⟨c', g1, g2⟩
        rw [List.append_cancel_right g1]; exact g2
    · simp only [h, Bool.not_false, if_true]
      simp only [Bool.false_eq_true, false_iff]
      rintro ⟨c, g1, _⟩
      exact h ((enc_hasSuffix hm.1 hw).2 ⟨c, g1⟩)
  | anyOf ms => exact anyOf_decW fun m h => ih m h (goodWs_iff.1 (by simpa [goodW] using hm) m h) w hw hne
  | everyOf ms => exact everyOf_decW fun m h => ih m h (goodWs_iff.1 (by simpa [goodW] using hm) m h) w hw hne
  | row l ms =>
    rw [goodW, Bool.or_eq_true] at hm
    rcases hm with hm | hm
    case inr => exact rowLast_dec hm hw
    obtain ⟨b, h1, h2⟩ := ascii_match _ hm (enc w)
    refine ⟨b, h1, h2.trans ?_⟩
    rw [ascii_rlang _ hm]
    constructor
    · rintro ⟨g1, g2⟩
      exact ⟨enc w, g1, by rw [← ascii_runesIn g1, runesIn_enc hw], g2⟩
    · rintro ⟨u, g1, rfl, g2⟩
      rw [ascii_map g1]; exact ⟨g1, g2⟩
  | btree v l r ll rl len =>
    simp only [goodW, Bool.and_eq_true] at hm
    obtain ⟨⟨⟨⟨⟨⟨⟨h1, h2⟩, h3⟩, h4⟩, h5⟩, h6⟩, h7⟩, h8⟩ := hm
    have hsub : ∀ (o : Option Matcher), (∀ c ∈ o, c ∈ (Matcher.btree v l r ll rl len).children) → goodWOpt o = true → goodEOpt o = true →
        ∀ w, Scalars w → DecW (matchOpt o) (ROpt o) w := by
      intro o hc ho he w hw
      cases o with
      | none => exact ⟨(enc w).isEmpty, rfl, by rw [ROpt, List.isEmpty_iff, enc_eq_nil]⟩
      | some c =>
        have key : DecW c.match (RLang c) w := by
          by_cases h0 : w = []
          · subst h0; exact goodE_word he
          · exact ih c (hc c rfl) ho w hw h0
        obtain ⟨b, e1, e2⟩ := key
        exact ⟨b, e1, by rw [ROpt]; exact e2⟩
    have hL := hsub l (fun c hc => by simp only [Option.mem_def] at hc; simp [Matcher.children, hc]) h4 h5
    have hR := hsub r (fun c hc => by simp only [Option.mem_def] at hc; simp [Matcher.children, hc]) h6 h7
    have hlen' := lenGood_rok _ h1
    have lenside : ∀ (o : Option Matcher) (k : Option Nat), (k.isNone || (k == lenOpt o && lenGoodOpt o)) = true → LenW k (ROpt o) := by
      intro o k hk
      cases k with
      | none => intro k h; cases h
      | some k =>
        simp only [Option.isNone_some, Bool.false_or, Bool.and_eq_true, beq_iff_eq] at hk
        rw [hk.1]
        exact lenGoodOpt_rok hk.2
    have hll := lenside l ll h2
    have hrl := lenside r rl h3
    have hlang : ∀ w, RLang (.btree v l r ll rl len) w ↔ ∃ a b c, w = a ++ b ++ c ∧ ROpt l a ∧ RLang v b ∧ ROpt r c := by intro w; rw [RLang]
    show ∃ b, btreeMatch v.index (matchOpt l) (matchOpt r) ll rl len (enc w) = some b ∧ _
    rcases btreeMatch_cases v.index (matchOpt l) (matchOpt r) ll rl len (enc w) with ⟨k, g1, g2, g3⟩ | e
    · refine ⟨false, g3, ?_⟩
      simp only [Bool.false_eq_true, false_iff]
      intro h
      have := hlen' k g1 w h
      have := enc_length_le w
      omega
    · rw [e, hlang]
      have hoff : ∀ a, ROpt l a → ll.getD 0 ≤ (enc a).length := by
        intro a ha
        have := enc_length_le a
        cases ll with
        | none => simp
        | some k => have := hll k rfl a ha; simp only [Option.getD_some]; omega
      have hlimit : ∀ a b c, w = a ++ b ++ c → ROpt r c → (enc a).length + (enc b).length ≤ (enc w).length - rl.getD 0 := by
        intro a b c e hc
        have h0 := congrArg (fun x => (enc x).length) e
        simp only [enc_append, List.length_append] at h0
        have := enc_length_le c
        cases rl with
        | none => simp only [Option.getD_none]; omega
        | some k => have := hrl k rfl c hc; simp only [Option.getD_some]; omega
      have finish : ∀ {P : Nat → Prop}, (∀ b, RLang v b → b ≠ []) → (∀ a c, w = a ++ c → P (enc a).length) → P (ll.getD 0) →
          (∀ o, P o → o < (enc w).length - rl.getD 0 → IdxAt v.index (RLang v) (((enc w).take ((enc w).length - rl.getD 0)).drop o)) →
          ∃ b, btreeLoop v.index (matchOpt l) (matchOpt r) (enc w) ((enc w).length - rl.getD 0) ((enc w).length + 1) (ll.getD 0) = some b ∧
            (b = true ↔ ∃ a b c, w = a ++ b ++ c ∧ ROpt l a ∧ RLang v b ∧ ROpt r c) := by
        intro P q1 q2 q3 q4
        obtain ⟨b, r1, r2⟩ := btreeLoop_words q1 hL hR hw (Nat.sub_le _ _) q2 q4 ((enc w).length + 1) (ll.getD 0) (by omega) (by omega) q3
        refine ⟨b, r1, r2.trans ?_⟩
        constructor
        · rintro ⟨a, v, c, g1, g2, g3, g4, _⟩; exact ⟨a, v, c, g1, g2, g3, g4⟩
        · rintro ⟨a, v, c, g1, g2, g3, g4⟩; exact ⟨a, v, c, g1, g2, g3, g4, hoff a g2, hlimit a v c g1 g4⟩
      simp only [Bool.or_eq_true, Bool.and_eq_true, beq_iff_eq] at h8
      rcases h8 with (g | ⟨⟨g1, g2⟩, g3⟩) | ⟨⟨g1, g2⟩, g3⟩
      · exact finish (P := fun _ => True) (idxAny_ne (idxAny_first g)) (fun _ _ _ => trivial) trivial fun o _ _ => idxAny_ok v g _
      · refine finish (P := fun o => ∃ a c, w = a ++ c ∧ o = (enc a).length) (idxAny_ne g1) (fun a c e => ⟨a, c, e, rfl⟩) ⟨[], w, rfl, by rw [g2]; rfl⟩ ?_
        rintro o ⟨a, c, e, rfl⟩ _
        rw [g3, Nat.sub_zero, List.take_length, e, enc_append, List.drop_left]
        exact idxFirst_ok v g1 c (by rw [e, scalars_append] at hw; exact hw.2)
      · rw [Option.isNone_iff_eq_none] at g2 g3
        subst g2 g3
        have hll0 : ll.getD 0 = 0 := by
          cases ll with
          | none => rfl
          | some k => simp [lenOpt] at h2; simp [h2]
        obtain ⟨b, q1, q2⟩ := btreeLoop_startW (V := RLang v) (R := ROpt r) (right := matchOpt r) (idxStart_ok v g1) hR hw hne
        refine ⟨b, ?_, q2.trans ?_⟩
        · rw [hll0, Option.getD_none, Nat.sub_zero]
          exact q1
        · simp only [ROpt]
          constructor
          · rintro ⟨x, c, h1, h2, h3⟩; exact ⟨[], x, c, by simpa using h1, rfl, h2, h3⟩
          · rintro ⟨_, x, c, h1, rfl, h2, h3⟩; exact ⟨x, c, by simpa using h1, h2, h3⟩

/-- A matcher that passes the check decides its language on valid strings. -/
theorem wellBehavedU_ok {m : Matcher} (h : wellBehavedU m = true) {w : List Nat} (hw : Scalars w) : DecW m.match (RLang m) w := by
  rw [wellBehavedU, Bool.and_eq_true] at h
  by_cases h0 : w = []
  · subst h0; exact goodE_word h.2
  · exact goodW_ok m h.1 w hw h0

end Verif.Glob
