import Verif.Glob.IndexSound
import Verif.Glob.RuneProps
/-
C151 for valid UTF-8: what `Index` of a matcher returns, in terms of its `Match`.
-/
namespace Verif.Glob

/-! ## Specification -/

/-- What `Index` of the string of the characters `w` should return: not a panic; -1 only if `Match` is false of every part of `w` that is not empty; otherwise a position and lengths (in bytes), of which
there is at least one, in ascending order without repetition, each of which is that of a part of `w` at the position of which `Match` is true,
and no part that is not empty and starts before the position matches. -/
def FindsFirstU (m : Matcher) (w : List Nat) : Prop :=
  match m.index (enc w) with
  | none => False
  | some none => ∀ a b c, w = a ++ b ++ c → b ≠ [] → m.match (enc b) = some false
  | some (some (i, ns)) => ns ≠ [] ∧ ns.Pairwise (· < ·) ∧ (∀ n ∈ ns, ∃ a b c, w = a ++ b ++ c ∧ i = (enc a).length ∧ n = (enc b).length ∧ m.match (enc b) = some true) ∧
      ∀ a b c, w = a ++ b ++ c → b ≠ [] → (enc a).length < i → m.match (enc b) = some false

mutual
/-- The matchers of which it is claimed: texts and separators are valid UTF-8. -/
def plainU : Matcher → Bool
  | .nothing => true
  | .text t => validText t
  | .any seps => scalars seps && decide (seps.length ≤ 1)
  | .super => true
  | .single seps => scalars seps
  | .list rs _ => scalars rs
  | .range _ _ _ => true
  | .min n => decide (1 ≤ n)
  | .max _ => true
  -- a negated one stands for one character
  | .contains needle not => validText needle && (!not || (runesIn needle).length == 1)
  | .prefix p => validText p
  | .suffix q => validText q
  -- the suffix does not occur in the prefix, but perhaps at its end
  | .prefixSuffix p q => validText p && validText q && (q.isEmpty || (strIndex q p.dropLast).isNone)
  | .prefixAny p seps => validText p && scalars seps && decide (seps.length ≤ 1)
  -- an ASCII separator
  | .suffixAny q seps => validText q && decide (seps.length ≤ 1) && seps.all fun r => decide (r < 0x80)
  | .anyOf ms => plainUs ms
  -- rows of ASCII texts and characters
  | .row l ms => asciiM (.row l ms)
  | _ => false
/-- All of them. -/
def plainUs : List Matcher → Bool
  | [] => true
  | m :: ms => plainU m && plainUs ms
end

/-! ## Proofs -/

theorem DecW.true_iff {f : Str → Option Bool} {L : List Nat → Prop} {w : List Nat} (h : DecW f L w) : f (enc w) = some true ↔ L w := by
  obtain ⟨b, h1, h2⟩ := h
  rw [h1, ← h2]; simp

theorem DecW.false_iff {f : Str → Option Bool} {L : List Nat → Prop} {w : List Nat} (h : DecW f L w) : f (enc w) = some false ↔ ¬ L w := by
  obtain ⟨b, h1, h2⟩ := h
  rw [h1, ← h2]; simp

theorem part_scalars {w a b c : List Nat} (hw : Scalars w) (h : w = a ++ b ++ c) : Scalars b := by
  rw [h, scalars_append, scalars_append] at hw; exact hw.1.2

theorem findsU_none {m : Matcher} {w : List Nat} (h : m.index (enc w) = some none) (h2 : ∀ a b c, w = a ++ b ++ c → b ≠ [] → m.match (enc b) = some false) : FindsFirstU m w := by
  unfold FindsFirstU; rw [h]; exact h2

theorem findsU_some {m : Matcher} {w : List Nat} {i : Nat} {ns : List Nat} (h : m.index (enc w) = some (some (i, ns))) (h1 : ns ≠ []) (h2 : ns.Pairwise (· < ·))
    (h3 : ∀ n ∈ ns, ∃ a b c, w = a ++ b ++ c ∧ i = (enc a).length ∧ n = (enc b).length ∧ m.match (enc b) = some true)
    (h4 : ∀ a b c, w = a ++ b ++ c → b ≠ [] → (enc a).length < i → m.match (enc b) = some false) : FindsFirstU m w := by
  unfold FindsFirstU; rw [h]; exact ⟨h1, h2, h3, h4⟩

/-- From the statement about bytes, if what is found are parts. -/
theorem findsU_of {m : Matcher} {w : List Nat} (h : FindsFirst m (enc w))
    (hp : ∀ i ns, m.index (enc w) = some (some (i, ns)) → ∀ n ∈ ns, ∃ a b c, w = a ++ b ++ c ∧ i = (enc a).length ∧ n = (enc b).length) : FindsFirstU m w := by
  unfold FindsFirst at h
  have key : ∀ a b c, w = a ++ b ++ c → b ≠ [] → enc w = enc a ++ enc b ++ enc c ∧ enc b ≠ [] := by
    rintro a b c rfl hb
    exact ⟨by rw [enc_append, enc_append], fun e => hb (enc_eq_nil.1 e)⟩
  rcases hx : m.index (enc w) with _ | _ | ⟨i, ns⟩
  · rw [hx] at h; exact h.elim
  · rw [hx] at h
    exact findsU_none hx fun a b c e hb => h _ _ _ (key a b c e hb).1 (key a b c e hb).2
  · rw [hx] at h
    obtain ⟨h1, h2, h3, h4⟩ := h
    refine findsU_some hx h1 h2 (fun n hn => ?_) fun a b c e hb hlt => h4 _ _ _ (key a b c e hb).1 (key a b c e hb).2 hlt
    obtain ⟨a, b, c, e, rfl, rfl⟩ := hp i ns hx n hn
    refine ⟨a, b, c, e, rfl, rfl, ?_⟩
    have := (h3 _ hn).2
    rwa [e, enc_append, enc_append, List.append_assoc, List.drop_left, List.take_left] at this

theorem findsU_nil {m : Matcher} (h : FindsFirst m []) : FindsFirstU m [] := by
  refine findsU_of h fun i ns hx n hn => ?_
  unfold FindsFirst at h
  rw [enc_nil] at hx
  rw [hx] at h
  have := (h.2.2.1 n hn).1
  simp only [List.length_nil] at this
  exact ⟨[], [], [], rfl, by rw [enc_nil]; simp; omega, by rw [enc_nil]; simp; omega⟩

theorem starts_sortedU (x : Str) : ((rangeStr x).map Prod.fst ++ [x.length]).Pairwise (· < ·) := by
  rw [List.pairwise_append, List.pairwise_map]
  refine ⟨rangeStr_sorted _ x (Nat.le_refl _), by simp, ?_⟩
  intro a ha b hb
  simp only [List.mem_singleton, List.mem_map] at ha hb
  obtain ⟨y, hy, rfl⟩ := ha
  rw [hb]
  exact (mem_rangeStr_any _ x (Nat.le_refl _) y hy).1

theorem spots_sorted : ∀ {w : List Nat}, Scalars w → ∀ i n : Nat, ((n + i) :: (spots i w).map (fun x : Nat × Nat => n + x.1 + runeLen x.2)).Pairwise (· < ·)
  | [], _, i, n => by simp [spots]
  | r :: w, hw, i, n => by
    rw [scalars_cons] at hw
    have ih := spots_sorted hw.2 (i + (encodeRune r).length) n
    have hpos : 0 < (encodeRune r).length := List.length_pos_iff.2 (encode_ne_nil r)
    rw [spots, List.map_cons, runeLen_valid hw.1, List.pairwise_cons]
    simp only
    rw [Nat.add_assoc n i]
    refine ⟨fun k hk => ?_, ih⟩
    rw [List.mem_cons] at hk
    rcases hk with rfl | hk
    · omega
    · have := (List.pairwise_cons.1 ih).1 k hk
      omega

theorem ends_sortedU {w : List Nat} (hw : Scalars w) (n : Nat) : (n :: (rangeStr (enc w)).map (fun x => n + x.1 + runeLen x.2)).Pairwise (· < ·) := by
  rw [rangeStr_enc hw]
  exact spots_sorted hw 0 n

/-- A matcher that looks at the start only. -/
theorem findsU_start {m : Matcher} {w : List Nat} (hw : Scalars w) (hd : ∀ b, Scalars b → DecW m.match (RLang m) b) (hs : StartAt m.index (RLang m) w)
    (hz : ∀ i ns, m.index (enc w) = some (some (i, ns)) → i = 0 ∧ ns ≠ [] ∧ ns.Pairwise (· < ·))
    (hup : ∀ a b, RLang m b → RLang m (a ++ b)) : FindsFirstU m w := by
  obtain ⟨o, h1, h2⟩ := hs
  rcases o with _ | ⟨i, ns⟩
  · refine findsU_none h1 fun a b c e hb => (hd b (part_scalars hw e)).false_iff.2 fun hL => ?_
    exact h2 (a ++ b) c e (hup a b hL)
  · obtain ⟨rfl, h3, h4⟩ := hz i ns h1
    refine findsU_some h1 h3 h4 (fun n hn => ?_) fun _ _ _ _ _ h => absurd h (by omega)
    obtain ⟨b, c, e, h5, h6⟩ := (h2.2.2 rfl n).1 hn
    exact ⟨[], b, c, by simpa using e, rfl, h6, (hd b (part_scalars (a := []) hw (by simpa using e))).true_iff.2 h5⟩

/-- The same if it is never -1. -/
theorem findsU_zero {m : Matcher} {w : List Nat} (hw : Scalars w) (hd : ∀ b, Scalars b → DecW m.match (RLang m) b) (hs : StartAt m.index (RLang m) w)
    (hz : ∃ ns, m.index (enc w) = some (some (0, ns)) ∧ ns ≠ [] ∧ ns.Pairwise (· < ·)) : FindsFirstU m w := by
  obtain ⟨o, h1, h2⟩ := hs
  obtain ⟨ns, h0, h3, h4⟩ := hz
  rw [h1] at h0
  simp only [Option.some.injEq] at h0
  subst h0
  refine findsU_some h1 h3 h4 (fun n hn => ?_) fun _ _ _ _ _ h => absurd h (by omega)
  obtain ⟨b, c, e, h5, h6⟩ := (h2.2.2 rfl n).1 hn
  exact ⟨[], b, c, by simpa using e, rfl, h6, (hd b (part_scalars (a := []) hw (by simpa using e))).true_iff.2 h5⟩

/-- A matcher of words that are not empty. -/
theorem findsU_first {m : Matcher} (h : idxFirst m = true) (hg : goodW m = true) {w : List Nat} (hw : Scalars w)
    (hone : ∀ i ns, m.index (enc w) = some (some (i, ns)) → ns.Pairwise (· < ·)) : FindsFirstU m w := by
  obtain ⟨o, h1, h2⟩ := idxFirst_ok m h w hw
  have hat : ∀ a b c, w = a ++ b ++ c → RLang m b → At (RLang m) ((enc w).drop (enc a).length) (enc b).length := by
    rintro a b c rfl hL
    refine ⟨b, enc c, ?_, part_scalars hw rfl, hL, rfl⟩
    rw [enc_append, enc_append, List.append_assoc, List.drop_left]
  rcases o with _ | ⟨i, ns⟩
  · exact findsU_none h1 fun a b c e hb => (goodW_ok m hg b (part_scalars hw e) hb).false_iff.2 fun hL => h2 _ _ (hat a b c e hL)
  · obtain ⟨h3, h4, h5⟩ := h2
    refine findsU_some h1 h3 (hone i ns h1) (fun n hn => ?_) fun a b c e hb hlt => (goodW_ok m hg b (part_scalars hw e) hb).false_iff.2 fun hL => h5 _ hlt _ (hat a b c e hL)
    obtain ⟨a, b, c, e, h6, h7, h8⟩ := at_split (idxAny_ne h) hw ((h4 n).1 hn)
    exact ⟨a, b, c, e, h6, h8, (goodW_ok m hg b (part_scalars hw e) (idxAny_ne h b h7)).true_iff.2 h7⟩

theorem firstRune_one {p : Nat → Bool} {s : Str} {i : Nat} {ns : List Nat} (h : firstRune p s = some (some (i, ns))) : ns.Pairwise (· < ·) := by
  unfold firstRune at h
  split at h
  · simp only [Option.some.injEq, Prod.mk.injEq] at h; rw [← h.2]; simp
  · cases h

theorem rowIndex_one {l : Nat} {fs : List (Option Nat × (Str → Option Bool))} {s : Str} {i : Nat} {ns : List Nat} : ∀ {is : List Nat}, rowIndex l fs s is = some (some (i, ns)) → ns.Pairwise (· < ·)
  | [], h => by cases h
  | j :: is, h => by
    rw [rowIndex] at h
    split at h
    · cases h
    · split at h
      · cases h
      · simp only [Option.some.injEq, Prod.mk.injEq] at h; rw [← h.2]; simp
      · exact rowIndex_one h

theorem nothing_decW (w : List Nat) : DecW Matcher.nothing.match (RLang .nothing) w := by
  refine ⟨_, rfl, ?_⟩
  rw [RLang]
  simp [List.isEmpty_iff, enc_eq_nil]

theorem contains_findsU {needle : Str} {n : Bool} (h : needleW needle n = true) {w : List Nat} (hw : Scalars w) (hne : w ≠ []) : FindsFirstU (.contains needle n) w := by
  have e : ∀ s, (Matcher.contains needle n).index s = containsIndex needle n s := fun _ => rfl
  have hd : ∀ b, Scalars b → DecW (Matcher.contains needle n).match (RLang (.contains needle n)) b := fun b hb => contains_decW h hb
  cases n with
  | false =>
    refine findsU_start hw hd (contains_startAt hw hne h) (fun i ns hx => ?_) fun a b hL => ?_
    · rw [e, containsIndex.eq_def] at hx
      cases hi : strIndex needle (enc w) with
      | none => rw [hi] at hx; cases hx
      | some idx =>
        rw [hi] at hx
        dsimp only at hx
        split at hx
        · simp only [Option.some.injEq, Prod.mk.injEq] at hx; rw [← hx.1, ← hx.2]; simp
        · simp only [Option.some.injEq, Prod.mk.injEq] at hx
          obtain ⟨rfl, rfl⟩ := hx
          refine ⟨rfl, by simp, ?_⟩
          have h2 := (starts_sortedU ((enc w).drop (idx + needle.length))).map (fun k => idx + needle.length + k) (S := (· < ·)) (fun a b h => by simpa using h)
          rw [List.map_append, List.map_map] at h2
          exact h2
    · rw [RLang] at hL ⊢
      simp only [Bool.false_eq_true, if_false] at hL ⊢
      obtain ⟨x, y, rfl⟩ := hL
      exact ⟨a ++ x, y, by simp⟩
  | true =>
    refine findsU_zero hw hd (contains_startAt hw hne h) ?_
    rw [e, containsIndex.eq_def]
    cases strIndex needle (enc w) with
    | none => exact ⟨_, rfl, by simp, starts_sortedU _⟩
    | some idx => exact ⟨_, rfl, by simp, starts_sortedU _⟩

theorem min_findsU {n : Nat} (hn : 1 ≤ n) {w : List Nat} (hw : Scalars w) (hne : w ≠ []) : FindsFirstU (.min n) w := by
  refine findsU_start hw (fun b hb => ?_) (min_startAt hw hne hn) (fun i ns hx => ?_) fun a b hL => ?_
  · have : wellBehavedU (.min n) = true := by simp [wellBehavedU, goodW, goodE, hn]
    exact wellBehavedU_ok this hb
  · change minIndex n (enc w) = _ at hx
    unfold minIndex at hx
    simp only at hx
    split at hx
    · cases hx
    · split at hx
      · cases hx
      · rename_i hz
        simp only [Option.some.injEq, Prod.mk.injEq] at hx
        obtain ⟨rfl, rfl⟩ := hx
        refine ⟨rfl, by simpa using hz, ?_⟩
        have h1 := (List.pairwise_cons.1 (ends_sortedU hw 0)).2
        simp only [Nat.zero_add] at h1
        have h2 : (((rangeStr (enc w)).zipIdx 1).map fun x => x.1.1 + runeLen x.1.2) = (rangeStr (enc w)).map fun x => x.1 + runeLen x.2 := by
          rw [← List.zipIdx_map_fst 1 (rangeStr (enc w)), List.map_map]
          simp [Function.comp_def]
        rw [← h2] at h1
        exact List.Pairwise.sublist (List.filter_sublist.map _) h1
  · rw [RLang] at hL ⊢
    rw [List.length_append]; omega

theorem prefix_parts {p : Str} (hv : validText p = true) {w : List Nat} (hw : Scalars w) :
    (strIndex p (enc w) = none ∧ ∀ a b c, w = a ++ b ++ c → ¬ ∃ d, b = runesIn p ++ d) ∨
    ∃ a c, w = a ++ runesIn p ++ c ∧ strIndex p (enc w) = some (enc a).length ∧ (enc w).drop ((enc a).length + p.length) = enc c ∧
      ∀ a' b' c', w = a' ++ b' ++ c' → (∃ d, b' = runesIn p ++ d) → ¬ (enc a').length < (enc a).length := by
  rcases strIndex_enc hw hv with ⟨h1, h2⟩ | ⟨a, c, h1, h2, h3⟩
  · refine Or.inl ⟨h1, ?_⟩
    rintro a b c e ⟨d, rfl⟩
    exact h2 a (d ++ c) (by rw [e]; simp)
  · refine Or.inr ⟨a, c, h1, h2, ?_, ?_⟩
    · have : (enc a).length + p.length = (enc (a ++ runesIn p)).length := by rw [enc_append, List.length_append, ← validText_eq hv]
      rw [this, h1, enc_append _ c, List.drop_left]
    · rintro a' b' c' e ⟨d, rfl⟩ hlt
      have h4 := h3 a' (d ++ c') (by rw [e]; simp)
      have := (enc_le (w := w) (a := a) (b := runesIn p ++ c) (c := a') (d := runesIn p ++ d ++ c') (by rw [h1]; simp) (by rw [e]; simp)).2 h4
      omega

theorem prefix_findsU {p : Str} (hv : validText p = true) {w : List Nat} (hw : Scalars w) : FindsFirstU (.prefix p) w := by
  have e : (Matcher.prefix p).index (enc w) = prefixIndex p (enc w) := rfl
  have hd : ∀ b, Scalars b → DecW (Matcher.prefix p).match (RLang (.prefix p)) b := fun b hb => wellBehavedU_ok (by simp [wellBehavedU, goodW, goodE, hv]) hb
  have hte := validText_eq hv
  unfold prefixIndex at e
  rcases prefix_parts hv hw with ⟨h1, h2⟩ | ⟨a, c, h1, h2, h3, h4⟩
  · simp only [h1] at e
    exact findsU_none e fun a b c he hb => (hd b (part_scalars hw he)).false_iff.2 fun hL => h2 a b c he (by rwa [RLang] at hL)
  · simp only [h2, h3] at e
    have hc : Scalars c := by rw [h1, scalars_append] at hw; exact hw.2
    refine findsU_some e (by simp) (ends_sortedU hc _) (fun n hn => ?_) fun a' b' c' he hb hlt => (hd b' (part_scalars hw he)).false_iff.2 fun hL => h4 a' b' c' he (by rwa [RLang] at hL) hlt
    rw [mem_ends_or hc] at hn
    obtain ⟨x, y, rfl, rfl⟩ := hn
    have h5 : w = a ++ (runesIn p ++ x) ++ y := by rw [h1]; simp
    refine ⟨a, runesIn p ++ x, y, h5, rfl, by rw [enc_append, List.length_append, ← hte], ?_⟩
    rw [(hd _ (part_scalars hw h5)).true_iff, RLang]
    exact ⟨x, rfl⟩

theorem prefixAny_findsU {p : Str} (hv : validText p = true) {seps : List Nat} (hs : Scalars seps) (hl : seps.length ≤ 1) {w : List Nat} (hw : Scalars w) : FindsFirstU (.prefixAny p seps) w := by
  have e : (Matcher.prefixAny p seps).index (enc w) = prefixAnyIndex p seps (enc w) := rfl
  have hd : ∀ b, Scalars b → DecW (Matcher.prefixAny p seps).match (RLang (.prefixAny p seps)) b :=
    fun b hb => wellBehavedU_ok (by simp [wellBehavedU, goodW, goodE, hv, scalars_iff.2 hs]) hb
  have hte := validText_eq hv
  unfold prefixAnyIndex at e
  rcases prefix_parts hv hw with ⟨h1, h2⟩ | ⟨a, c, h1, h2, h3, h4⟩
  · simp only [h1] at e
    refine findsU_none e fun a b c he hb => (hd b (part_scalars hw he)).false_iff.2 fun hL => h2 a b c he ?_
    rw [RLang] at hL
    obtain ⟨d, hb, _⟩ := hL
    exact ⟨d, hb⟩
  · simp only [h2, h3] at e
    have hc : Scalars c := by rw [h1, scalars_append] at hw; exact hw.2
    have key : ∀ t u, c = t ++ u → (∀ r ∈ t, r ∉ seps) → (Matcher.prefixAny p seps).index (enc w) = some (some ((enc a).length, p.length :: (rangeStr (enc t)).map fun x => p.length + x.1 + runeLen x.2)) →
        FindsFirstU (.prefixAny p seps) w := by
      rintro t u rfl ht e
      have hts : Scalars t := (scalars_append.1 hc).1
      refine findsU_some e (by simp) (ends_sortedU hts _) (fun n hn => ?_) fun a' b' c' he hb hlt => (hd b' (part_scalars hw he)).false_iff.2 fun hL => ?_
      · rw [mem_ends_or hts] at hn
        obtain ⟨x, y, rfl, rfl⟩ := hn
        have h5 : w = a ++ (runesIn p ++ x) ++ (y ++ u) := by rw [h1]; simp
        refine ⟨a, runesIn p ++ x, y ++ u, h5, rfl, by rw [enc_append, List.length_append, ← hte], ?_⟩
        rw [(hd _ (part_scalars hw h5)).true_iff, RLang, norm_eq hs]
        exact ⟨x, rfl, fun r hr => ht r (by simp [hr])⟩
      · rw [RLang] at hL
        obtain ⟨d, hb', _⟩ := hL
        exact h4 a' b' c' he ⟨d, hb'⟩ hlt
    rcases indexAny_enc hc hs hl with ⟨g1, g2⟩ | ⟨t, r, u, g1, g2, g3, g4⟩
    · rw [g1] at e
      exact key c [] (by simp) g2 e
    · rw [g4] at e
      have ht : (enc c).take (enc t).length = enc t := by rw [g1, enc_append, List.take_left]
      simp only [ht] at e
      exact key t (r :: u) g1 g3 e

theorem suffix_findsU {q : Str} (hv : validText q = true) {w : List Nat} (hw : Scalars w) : FindsFirstU (.suffix q) w := by
  refine findsU_of (suffix_finds q) fun i ns hx n hn => ?_
  change suffixIndex q (enc w) = _ at hx
  unfold suffixIndex at hx
  rcases strIndex_enc hw hv with ⟨h1, h2⟩ | ⟨a, c, h1, h2, h3⟩
  · rw [h1] at hx; cases hx
  · rw [h2] at hx
    simp only [Option.some.injEq, Prod.mk.injEq] at hx
    obtain ⟨rfl, rfl⟩ := hx
    rw [List.mem_singleton] at hn
    refine ⟨[], a ++ runesIn q, c, by simpa using h1, rfl, ?_⟩
    rw [hn, enc_append, List.length_append, ← validText_eq hv]

theorem prefixSuffix_findsU {p q : Str} (hp : validText p = true) (hq : validText q = true) (h : q = [] ∨ ∀ a c, p.dropLast ≠ a ++ q ++ c) {w : List Nat} (hw : Scalars w) :
    FindsFirstU (.prefixSuffix p q) w := by
  have hf : FindsFirst (.prefixSuffix p q) (enc w) := prefixSuffix_finds h
  refine findsU_of hf fun i ns hx n hn => ?_
  unfold FindsFirst at hf
  rw [hx] at hf
  obtain ⟨h3, h4⟩ := hf.2.2.1 n hn
  change prefixSuffixIndex p q (enc w) = _ at hx
  unfold prefixSuffixIndex at hx
  rcases strIndex_enc hw hp with ⟨h1, h2⟩ | ⟨a, c, h1, h2, _⟩
  · rw [h1] at hx; cases hx
  · have hi : i = (enc a).length := by
      rw [h2] at hx
      dsimp only at hx
      split at hx
      · simp only [Option.some.injEq, Prod.mk.injEq] at hx; exact hx.1.symm
      · split at hx
        · cases hx
        · split at hx
          · cases hx
          · simp only [Option.some.injEq, Prod.mk.injEq] at hx; exact hx.1.symm
    subst hi
    have hdrop : (enc w).drop (enc a).length = enc (runesIn p ++ c) := by rw [h1, List.append_assoc, enc_append, List.drop_left]
    rw [hdrop] at h4
    have hsc : Scalars (runesIn p ++ c) := by rw [h1, List.append_assoc, scalars_append] at hw; exact hw.2
    change some (hasPrefix _ p && hasSuffix _ q) = some true at h4
    rw [Option.some.injEq, Bool.and_eq_true, hasPrefix_iff, hasSuffix_iff] at h4
    obtain ⟨_, x, h5⟩ := h4
    have h6 : enc (runesIn p ++ c) = x ++ q ++ (enc (runesIn p ++ c)).drop n := by rw [← h5, List.take_append_drop]
    have hn' : n = x.length + q.length := by
      have := congrArg List.length h5
      rw [List.length_take, List.length_append, ← hdrop, List.length_drop] at this
      omega
    by_cases hqe : q = []
    · subst hqe
      have hlen : n = (enc w).length - (enc a).length := by
        rw [h2] at hx
        simp only [List.length_nil, Nat.le_refl, if_true, Option.some.injEq, Prod.mk.injEq] at hx
        rw [← hx.2, List.mem_singleton] at hn
        exact hn
      refine ⟨a, runesIn p ++ c, [], by rw [h1]; simp, rfl, ?_⟩
      rw [hlen, ← hdrop, List.length_drop]
    · have hr : runesIn q ≠ [] := fun e => hqe (runesIn_eq_nil.1 e)
      rw [validText_eq hq] at h6
      obtain ⟨y, z, h7, h8, h9⟩ := enc_occurs hsc (runesIn_scalars q) hr h6
      refine ⟨a, y ++ runesIn q, z, by rw [h1, List.append_assoc, h7]; simp, rfl, ?_⟩
      rw [hn', h8, enc_append, List.length_append, ← validText_eq hq]

theorem suffixAny_findsU {q : Str} (hv : validText q = true) {seps : List Nat} (hl : seps.length ≤ 1) (hsa : ∀ r ∈ seps, r < 0x80) {w : List Nat} (hw : Scalars w) :
    FindsFirstU (.suffixAny q seps) w := by
  have hs : Scalars seps := fun r hr => by have := hsa r hr; rw [valid_iff]; omega
  have e : (Matcher.suffixAny q seps).index (enc w) = suffixAnyIndex q seps (enc w) := rfl
  have hd : ∀ b, Scalars b → DecW (Matcher.suffixAny q seps).match (RLang (.suffixAny q seps)) b :=
    fun b hb => wellBehavedU_ok (by simp [wellBehavedU, goodW, goodE, hv, scalars_iff.2 hs]) hb
  have hte := validText_eq hv
  unfold suffixAnyIndex at e
  rcases strIndex_enc hw hv with ⟨h1, h2⟩ | ⟨a, c, h1, h2, h3⟩
  · simp only [h1] at e
    refine findsU_none e fun a b c he hb => (hd b (part_scalars hw he)).false_iff.2 fun hL => ?_
    rw [RLang] at hL
    obtain ⟨d, rfl, _⟩ := hL
    exact h2 (a ++ d) c (by rw [he]; simp)
  · have ht : (enc w).take (enc a).length = enc a := by rw [h1, List.append_assoc, enc_append, List.take_left]
    have has : Scalars a := by rw [h1, List.append_assoc, scalars_append] at hw; exact hw.1
    simp only [h2, ht] at e
    have hat : ∀ j r, RuneAt (enc a) j r ↔ ∃ x y, a = x ++ r :: y ∧ j = (enc x).length := by
      intro j r
      unfold RuneAt
      rw [rangeStr_enc has, mem_spots]
      simp
    -- the part behind the last separator before the suffix
    have key : ∀ x y, a = x ++ y → (∀ r ∈ y, r ∉ seps) → (x ≠ [] → ∃ x' r, x = x' ++ [r] ∧ r ∈ seps) →
        (Matcher.suffixAny q seps).index (enc w) = some (some ((enc x).length, [(enc a).length + q.length - (enc x).length])) → FindsFirstU (.suffixAny q seps) w := by
      rintro x y rfl hno hsep e
      have h5 : w = x ++ (y ++ runesIn q) ++ c := by rw [h1]; simp
      refine findsU_some e (by simp) (by simp) (fun n hn => ?_) fun a' b' c' he hb hlt => (hd b' (part_scalars hw he)).false_iff.2 fun hL => ?_
      · rw [List.mem_singleton] at hn
        refine ⟨x, y ++ runesIn q, c, h5, rfl, ?_, ?_⟩
        · rw [hn, enc_append x y, enc_append y, List.length_append, List.length_append, ← hte]; omega
        · rw [(hd _ (part_scalars hw h5)).true_iff, RLang, norm_eq hs]
          exact ⟨y, rfl, hno⟩
      · rw [RLang, norm_eq hs] at hL
        obtain ⟨d, rfl, hdn⟩ := hL
        have hx : x ≠ [] := by rintro rfl; simp [enc_nil] at hlt
        obtain ⟨x', r, rfl, hr⟩ := hsep hx
        have h6 := h3 (a' ++ d) c' (by rw [he]; simp)
        have h7 : a'.length ≤ x'.length := by
          by_contra hc
          have h8 := (enc_le (w := w) (a := x' ++ [r]) (b := y ++ runesIn q ++ c) (c := a') (d := d ++ runesIn q ++ c') (by rw [h5]; simp) (by rw [he]; simp)).2 (by simp; omega)
          omega
        refine hdn r ?_ hr
        have h8 : w[x'.length]? = some r := by rw [h5]; simp
        have h9 : w = a' ++ (d ++ (runesIn q ++ c')) := by rw [he]; simp
        simp only [List.length_append, List.length_cons, List.length_nil] at h6
        rw [h9, List.getElem?_append_right h7, List.getElem?_append_left (by omega)] at h8
        exact List.mem_of_getElem? h8
    by_cases hr : ∀ r ∈ a, r ∉ seps
    · have hn : lastIndexAnyRunes (enc a) seps = some none := by
        rw [C146_last_none]
        intro i r hr1 hat1
        obtain ⟨x, y, rfl, _⟩ := (hat i r).1 hat1
        exact hr r (by simp) hr1
      rw [hn] at e
      exact key [] a rfl hr (fun h => absurd rfl h) (by simpa [enc_nil] using e)
    · push Not at hr
      obtain ⟨r, hra, hrs⟩ := hr
      have hone : ∀ x ∈ seps, x = r := by
        match seps, hl, hrs with
        | [y], _, hbs => intro x hx; simp only [List.mem_singleton] at hx hbs; rw [hx, hbs]
      have hlt := hsa r hrs
      obtain ⟨x0, y0, h0⟩ := List.append_of_mem hra
      obtain ⟨j, hj1, hj2⟩ := lastAt_exists ((hat _ r).2 ⟨x0, y0, h0, rfl⟩)
      have hlast : lastIndexAnyRunes (enc a) seps = some (some j) := by
        rw [C146_last_partial _ _ (fun x hx y hy => by rw [hone x hx, hone y hy]) (fun x hx => by rw [hone x hx]; exact hlt)]
        exact ⟨⟨_, hrs, hj1⟩, fun i hi r' hr' => by rw [hone r' hr']; exact hj2 i hi⟩
      rw [hlast] at e
      obtain ⟨x, y, h4, h5⟩ := (hat j r).1 hj1
      have h1r : encodeRune r = [UInt8.ofNat r] := by unfold encodeRune; rw [if_pos hlt]
      have hlen : (enc (x ++ [r])).length = j + 1 := by rw [enc_append, enc_singleton, h1r, List.length_append, h5]; rfl
      refine key (x ++ [r]) y (by rw [h4]; simp) ?_ (fun _ => ⟨x, r, rfl, hrs⟩) (by rw [hlen]; exact e)
      intro r' hr' hs'
      rw [hone r' hs'] at hr'
      obtain ⟨u, v, rfl⟩ := List.append_of_mem hr'
      refine hj2 (enc (x ++ [r] ++ u)).length ?_ ((hat _ r).2 ⟨x ++ [r] ++ u, v, by rw [h4]; simp, rfl⟩)
      rw [enc_append (x ++ [r]), List.length_append, hlen]; omega

/-! ### AnyOf -/

/-- What is known after some of the matchers. -/
def AccOkU (w : List Nat) (ms : List Matcher) : Option (Nat × List Nat) → Prop
  | none => ∀ m ∈ ms, ∀ a b c, w = a ++ b ++ c → b ≠ [] → m.match (enc b) = some false
  | some (i, ns) => ns ≠ [] ∧ ns.Pairwise (· < ·) ∧ (∀ n ∈ ns, ∃ a b c, w = a ++ b ++ c ∧ i = (enc a).length ∧ n = (enc b).length ∧ ∃ m ∈ ms, m.match (enc b) = some true) ∧
      ∀ m ∈ ms, ∀ a b c, w = a ++ b ++ c → b ≠ [] → (enc a).length < i → m.match (enc b) = some false

theorem anyOf_loopU {w : List Nat} : ∀ (ms done : List Matcher) (acc : Option (Nat × List Nat)), (∀ m ∈ ms, FindsFirstU m w) → AccOkU w done acc →
    ∃ r, anyOfIndex (enc w) acc (indexFns ms) = some r ∧ AccOkU w (done ++ ms) r
  | [], done, acc, _, h => ⟨acc, rfl, by simpa using h⟩
  | m :: ms, done, acc, hf, h => by
    have hm := hf m (by simp)
    have ih := fun acc' h' => anyOf_loopU ms (done ++ [m]) acc' (fun m' hm' => hf m' (by simp [hm'])) h'
    simp only [List.append_assoc, List.singleton_append] at ih
    unfold FindsFirstU at hm
    have more : ∀ {P : Matcher → Prop}, (∀ m' ∈ done, P m') → P m → ∀ m' ∈ done ++ [m], P m' := by
      intro P h1 h2 m' hm'
      simp only [List.mem_append, List.mem_singleton] at hm'
      rcases hm' with hm' | rfl
      · exact h1 m' hm'
      · exact h2
    have old : ∀ {n i : Nat}, (∃ a b c, w = a ++ b ++ c ∧ i = (enc a).length ∧ n = (enc b).length ∧ ∃ m ∈ done, m.match (enc b) = some true) →
        ∃ a b c, w = a ++ b ++ c ∧ i = (enc a).length ∧ n = (enc b).length ∧ ∃ m' ∈ done ++ [m], m'.match (enc b) = some true := by
      rintro n i ⟨a, b, c, h1, h2, h3, m', h4, h5⟩
      exact ⟨a, b, c, h1, h2, h3, m', by simp [h4], h5⟩
    have new : ∀ {n i : Nat}, (∃ a b c, w = a ++ b ++ c ∧ i = (enc a).length ∧ n = (enc b).length ∧ m.match (enc b) = some true) →
        ∃ a b c, w = a ++ b ++ c ∧ i = (enc a).length ∧ n = (enc b).length ∧ ∃ m' ∈ done ++ [m], m'.match (enc b) = some true := by
      rintro n i ⟨a, b, c, h1, h2, h3, h5⟩
      exact ⟨a, b, c, h1, h2, h3, m, by simp, h5⟩
    rw [indexFns, anyOfIndex]
    rcases hx : m.index (enc w) with _ | _ | ⟨idx, seg⟩
    · rw [hx] at hm; exact hm.elim
    · rw [hx] at hm
      simp only at hm ⊢
      apply ih
      cases acc with
      | none => exact more h hm
      | some x =>
        obtain ⟨i, ns⟩ := x
        obtain ⟨h1, h2, h3, h4⟩ := h
        exact ⟨h1, h2, fun n hn => old (h3 n hn), more h4 fun a b c e hb _ => hm a b c e hb⟩
    · rw [hx] at hm
      obtain ⟨g1, g2, g3, g4⟩ := hm
      cases acc with
      | none =>
        simp only
        apply ih
        exact ⟨g1, g2, fun n hn => new (g3 n hn), more (fun m' hm' a b c e hb _ => h m' hm' a b c e hb) g4⟩
      | some x =>
        obtain ⟨i, ns⟩ := x
        obtain ⟨h1, h2, h3, h4⟩ := h
        simp only
        split
        · apply ih
          exact ⟨g1, g2, fun n hn => new (g3 n hn), more (fun m' hm' a b c e hb hlt => h4 m' hm' a b c e hb (by omega)) g4⟩
        · split
          · apply ih
            exact ⟨h1, h2, fun n hn => old (h3 n hn), more h4 fun a b c e hb hlt => g4 a b c e hb (by omega)⟩
          · have hii : idx = i := by omega
            subst hii
            apply ih
            obtain ⟨hs, hmem⟩ := C60_merge ns seg h2 g2
            refine ⟨?_, hs, fun n hn => ?_, more h4 g4⟩
            · obtain ⟨n, hn⟩ := List.exists_mem_of_ne_nil ns h1
              exact List.ne_nil_of_mem ((hmem n).2 (Or.inl hn))
            · rcases (hmem n).1 hn with hn | hn
              · exact old (h3 n hn)
              · exact new (g3 n hn)

theorem plainUs_iff {ms : List Matcher} : plainUs ms = true ↔ ∀ m ∈ ms, plainU m = true := by
  induction ms with
  | nil => simp [plainUs]
  | cons m ms ih => simp [plainUs, ih]

/-- `Match` of these matchers does not panic. -/
theorem plainU_total (m : Matcher) : plainU m = true → ∀ s, ∃ b, m.match s = some b := by
  induction m using Matcher.ind with
  | h m ih =>
  intro h s
  cases m <;> first | exact ⟨_, rfl⟩ | skip
  case anyOf ms =>
    rw [plainU, plainUs_iff] at h
    have ht : ∀ m ∈ ms, ∃ b, m.match s = some b := fun m hm => ih m hm (h m hm) s
    obtain ⟨h1, h2⟩ := anyOf_true ht
    by_cases hx : ∃ m ∈ ms, m.match s = some true
    · exact ⟨true, h1.2 hx⟩
    · refine ⟨false, h2.2 fun m hm => ?_⟩
      obtain ⟨b, hb⟩ := ht m hm
      cases b
      · exact hb
      · exact absurd ⟨m, hm, hb⟩ hx
  case row l ms =>
    rw [plainU] at h
    obtain ⟨b, hb, _⟩ := ascii_match _ h s
    exact ⟨b, hb⟩
  case everyOf => simp [plainU] at h
  case btree => simp [plainU] at h

/-- **C151** `Index` of a matcher of a string in UTF-8 finds what `Match` accepts. -/
theorem C151_utf8_partial (m : Matcher) : plainU m = true → ∀ w, Scalars w → FindsFirstU m w := by
  induction m using Matcher.ind with
  | h m ih =>
  intro h w hw
  have hnil : plainIdx m = true → FindsFirstU m [] := fun hp => findsU_nil (C151_index_partial m hp [] (by unfold Ascii; simp))
  cases m with
  | nothing =>
    by_cases hne : w = []
    · subst hne; exact hnil rfl
    · exact findsU_zero hw (fun b _ => nothing_decW b) (nothing_startAt hne) ⟨[0], rfl, by simp, by simp⟩
  | text t =>
    by_cases ht : t = []
    · subst ht
      by_cases hne : w = []
      · subst hne; exact hnil rfl
      · refine findsU_zero hw (fun b hb => wellBehavedU_ok (by decide) hb) (text_nil_startAt hne) ⟨[0], ?_, by simp, by simp⟩
        have e : strIndex [] (enc w) = some 0 := by cases enc w <;> simp [strIndex]
        show some ((strIndex [] (enc w)).map _) = _
        rw [e]; rfl
    · have hv : validText t = true := by simpa [plainU] using h
      refine findsU_first (by simp [idxFirst, hv, ht]) (by simpa [goodW] using hv) hw fun i ns hx => ?_
      change some ((strIndex t (enc w)).map _) = _ at hx
      rw [Option.some.injEq, Option.map_eq_some_iff] at hx
      obtain ⟨j, _, hj⟩ := hx
      simp only [Prod.mk.injEq] at hj
      rw [← hj.2]; simp
  | any seps =>
    simp only [plainU, Bool.and_eq_true, decide_eq_true_eq] at h
    by_cases hne : w = []
    · subst hne; exact hnil (by simpa [plainIdx] using h.2)
    · refine findsU_zero hw (fun b hb => wellBehavedU_ok (by simp [wellBehavedU, goodW, goodE, h.1]) hb) (any_startAt hw hne (scalars_iff.1 h.1) h.2) ?_
      change ∃ ns, anyIndex seps (enc w) = _ ∧ _
      unfold anyIndex
      split
      · exact ⟨_, rfl, by simp, by simp⟩
      · exact ⟨_, rfl, by simp, starts_sortedU _⟩
      · exact ⟨_, rfl, by simp, starts_sortedU _⟩
  | super =>
    by_cases hne : w = []
    · subst hne; exact hnil rfl
    · exact findsU_zero hw (fun b hb => wellBehavedU_ok rfl hb) (super_startAt hw hne) ⟨_, rfl, by simp, starts_sortedU _⟩
  | single seps => exact findsU_first (by simpa [idxFirst, plainU] using h) (by simpa [goodW, plainU] using h) hw fun i ns hx => firstRune_one (p := fun r => !seps.contains r) hx
  | list rs n => exact findsU_first (by simpa [idxFirst, plainU] using h) (by simpa [goodW, plainU] using h) hw fun i ns hx => firstRune_one hx
  | range lo hi n => exact findsU_first rfl rfl hw fun i ns hx => firstRune_one hx
  | min n =>
    have hn : 1 ≤ n := by simpa [plainU] using h
    by_cases hne : w = []
    · subst hne; exact hnil (by simpa [plainIdx] using hn)
    · exact min_findsU hn hw hne
  | max n =>
    by_cases hne : w = []
    · subst hne; exact hnil rfl
    · refine findsU_zero hw (fun b hb => wellBehavedU_ok rfl hb) (max_startAt hw hne n) ⟨_, rfl, by simp, ?_⟩
      have ht : Scalars (w.take n) := fun r hr => hw r (List.mem_of_mem_take hr)
      have := ends_sortedU ht 0
      rw [rangeStr_enc ht, ← spots_take, ← rangeStr_enc hw] at this
      simpa only [Nat.zero_add] using this
  | contains needle n =>
    have hn : needleW needle n = true := by simpa [plainU, needleW] using h
    by_cases hne : w = []
    · subst hne
      refine hnil ?_
      rw [needleW, Bool.and_eq_true, Bool.or_eq_true, beq_iff_eq] at hn
      rw [plainIdx, Bool.or_eq_true]
      refine hn.2.imp id fun h1 => ?_
      cases needle with
      | nil => simp [runesIn, runesOf, runesAux] at h1
      | cons => rfl
    · exact contains_findsU hn hw hne
  | «prefix» p => exact prefix_findsU (by simpa [plainU] using h) hw
  | suffix q => exact suffix_findsU (by simpa [plainU] using h) hw
  | prefixSuffix p q =>
    simp only [plainU, Bool.and_eq_true, Bool.or_eq_true, List.isEmpty_iff, Option.isNone_iff_eq_none] at h
    exact prefixSuffix_findsU h.1.1 h.1.2 (h.2.imp id strIndex_none) hw
  | prefixAny p seps =>
    simp only [plainU, Bool.and_eq_true, decide_eq_true_eq] at h
    exact prefixAny_findsU h.1.1 (scalars_iff.1 h.1.2) h.2 hw
  | suffixAny q seps =>
    simp only [plainU, Bool.and_eq_true, decide_eq_true_eq, List.all_eq_true] at h
    exact suffixAny_findsU h.1.1 h.1.2 h.2 hw
  | anyOf ms =>
    rw [plainU, plainUs_iff] at h
    have ht : ∀ u, ∀ m ∈ ms, ∃ b, m.match u = some b := fun u m hm => plainU_total m (h m hm) u
    obtain ⟨r, h1, h2⟩ := anyOf_loopU (w := w) ms [] none (fun m hm => ih m hm (h m hm) w hw) (by intro m hm; simp at hm)
    rw [List.nil_append] at h2
    cases r with
    | none => exact findsU_none h1 fun a b c e hb => (anyOf_true (ht (enc b))).2.2 fun m hm => h2 m hm a b c e hb
    | some x =>
      obtain ⟨i, ns⟩ := x
      obtain ⟨h3, h4, h5, h6⟩ := h2
      refine findsU_some h1 h3 h4 (fun n hn => ?_) fun a b c e hb hlt => (anyOf_true (ht (enc b))).2.2 fun m hm => h6 m hm a b c e hb hlt
      obtain ⟨a, b, c, e, g1, g2, g3⟩ := h5 n hn
      exact ⟨a, b, c, e, g1, g2, (anyOf_true (ht (enc b))).1.2 g3⟩
  | row l ms =>
    rw [plainU] at h
    exact findsU_first (by rw [idxFirst]; exact h) (by rw [goodW, h]; rfl) hw fun i ns hx => rowIndex_one hx
  | everyOf ms => simp [plainU] at h
  | btree => simp [plainU] at h

/-- A case: in `äx.ößd` (characters of two bytes) the matcher of `ö*d`, or of `*ß` with the separator `.`, finds `öß` and `ößd` at 4, of 4 and 5 bytes. -/
theorem C151_utf8_case : let m := Matcher.anyOf [.prefixSuffix (enc [0xF6]) (lit "d"), .suffixAny (enc [0xDF]) [46]]
    let w := [0xE4, 120, 46, 0xF6, 0xDF, 100]
    plainU m = true ∧ Scalars w ∧ m.index (enc w) = some (some (4, [4, 5])) ∧ m.match (enc [0xF6, 0xDF]) = some true := by
  refine ⟨?_, ?_, ?_, ?_⟩
  · decide +kernel
  · unfold Scalars; decide +kernel
  · decide +kernel
  · decide +kernel

/-- False of a separator that is not ASCII: `*b` with the separator `ä` finds, in `äb`, a part that starts inside the separator. -/
theorem C151_utf8_false : ¬ FindsFirstU (.suffixAny (lit "b") [0xE4]) [0xE4, 98] := by
  intro h
  unfold FindsFirstU at h
  rw [show (Matcher.suffixAny (lit "b") [0xE4]).index (enc [0xE4, 98]) = some (some (1, [2])) by decide +kernel] at h
  obtain ⟨a, b, c, h1, h2, _⟩ := h.2.2.1 2 (by simp)
  cases a with
  | nil => simp [enc_nil] at h2
  | cons x a =>
    have hx : x = 0xE4 := by simp at h1; exact h1.1.symm
    rw [hx, enc_cons, List.length_append, show (encodeRune 0xE4).length = 2 by decide] at h2
    omega

end Verif.Glob
