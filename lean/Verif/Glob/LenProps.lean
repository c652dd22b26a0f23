import Verif.Glob.Good
/-
Lengths and the empty string: `lenGood` and `goodE` are right.
-/
namespace Verif.Glob

/-- A function decides a predicate on a string, without a panic. -/
def Dec (f : Str → Option Bool) (L : Str → Prop) (s : Str) : Prop := ∃ b, f s = some b ∧ (b = true ↔ L s)

theorem Dec.intro {f : Str → Option Bool} {L : Str → Prop} {s : Str} (b : Bool) (h : f s = some b) (h' : b = true ↔ L s) : Dec f L s := ⟨b, h, h'⟩

/-- All ASCII strings of a language have the length, if it is known. -/
def LenOk (l : Option Nat) (L : Str → Prop) : Prop := ∀ k, l = some k → ∀ s, Ascii s → L s → s.length = k

theorem anyOfLen_all {ls : List (Option Nat)} {k : Nat} (h : anyOfLen none ls = some k) (hall : ls.all (fun l => l == anyOfLen none ls) = true) :
    ∀ l ∈ ls, l = some k := by
  intro l hl
  rw [List.all_eq_true] at hall
  have := hall l hl
  rw [h] at this
  simpa using this

theorem sumLens_cons {l : Option Nat} {ls : List (Option Nat)} {k : Nat} (h : sumLens (l :: ls) = some k) :
    ∃ a b, l = some a ∧ sumLens ls = some b ∧ k = a + b := by
  cases l with
  | none => simp [sumLens] at h
  | some a => cases hs : sumLens ls with
    | none => simp [sumLens, hs] at h
    | some b => simp only [sumLens, hs, Option.some.injEq] at h; exact ⟨a, b, rfl, rfl, h.symm⟩

theorem langSeq_len : ∀ (ms : List Matcher) (k : Nat), sumLens (lens ms) = some k → (∀ m ∈ ms, LenOk m.len (MLang m)) →
    ∀ s, Ascii s → LangSeq ms s → s.length = k
  | [], k, h, _, s, _, hs => by
    simp only [lens, sumLens, Option.some.injEq] at h
    simp only [LangSeq] at hs
    subst hs h; rfl
  | m :: ms, k, h, hm, s, ha, hs => by
    rw [lens] at h
    obtain ⟨a, b, h1, h2, rfl⟩ := sumLens_cons h
    simp only [LangSeq] at hs
    obtain ⟨u, v, rfl, hu, hv⟩ := hs
    rw [ascii_append] at ha
    have e1 := hm m List.mem_cons_self a h1 u ha.1 hu
    have e2 := langSeq_len ms b h2 (fun m' hm' => hm m' (List.mem_cons_of_mem _ hm')) v ha.2 hv
    rw [List.length_append]; omega

theorem lenGood_ok (m : Matcher) : lenGood m = true → LenOk m.len (MLang m) := by
  induction m using Matcher.ind with
  | h m ih =>
  intro hg k hk s ha hs
  cases m with
  | nothing => simp only [Matcher.len, Option.some.injEq] at hk; simp only [MLang] at hs; subst hs hk; rfl
  | text t =>
    simp only [Matcher.len, Option.some.injEq] at hk
    simp only [MLang] at hs
    subst hs hk
    exact (runes_length ha).symm
  | any seps => simp [Matcher.len] at hk
  | super => simp [Matcher.len] at hk
  | single seps =>
    simp only [Matcher.len, Option.some.injEq] at hk
    simp only [MLang] at hs
    obtain ⟨b, rfl, _⟩ := hs; subst hk; rfl
  | list rs n =>
    simp only [Matcher.len, Option.some.injEq] at hk
    simp only [MLang] at hs
    obtain ⟨b, rfl, _⟩ := hs; subst hk; rfl
  | range lo hi n =>
    simp only [Matcher.len, Option.some.injEq] at hk
    simp only [MLang] at hs
    obtain ⟨b, rfl, _⟩ := hs; subst hk; rfl
  | min n => simp [Matcher.len] at hk
  | max n => simp [Matcher.len] at hk
  | contains n b => simp [Matcher.len] at hk
  | «prefix» p => simp [Matcher.len] at hk
  | suffix p => simp [Matcher.len] at hk
  | prefixSuffix p q => simp [Matcher.len] at hk
  | prefixAny p q => simp [Matcher.len] at hk
  | suffixAny p q => simp [Matcher.len] at hk
  | anyOf ms =>
    rw [Matcher.len] at hk
    rw [lenGood, hk] at hg
    simp only [Option.isNone_some, Bool.false_or, Bool.and_eq_true] at hg
    rw [MLang, langSome_iff] at hs
    obtain ⟨m, hm, hs⟩ := hs
    have hl := anyOfLen_all hk (by rw [hk]; exact hg.2) m.len (by rw [lens_eq]; exact List.mem_map_of_mem hm)
    exact ih m hm (lenGoods_iff.1 hg.1 m hm) k hl s ha hs
  | everyOf ms =>
    rw [lenGood] at hg
    rw [Matcher.len] at hk
    cases hm : ms.isEmpty <;> rw [hm] at hg hk <;> simp at hg hk
  | row l ms =>
    rw [lenGood, Bool.and_eq_true, beq_iff_eq] at hg
    rw [Matcher.len] at hk
    cases hk
    rw [MLang] at hs
    exact langSeq_len ms k hg.2 (fun m hm => ih m hm (lenGoods_iff.1 hg.1 m hm)) s ha hs
  | btree v l r ll rl len =>
    rw [Matcher.len] at hk
    subst hk
    rw [lenGood] at hg
    simp only [Option.isNone_some, Bool.false_or, Bool.and_eq_true, beq_iff_eq] at hg
    obtain ⟨⟨⟨g1, g2⟩, g3⟩, g4⟩ := hg
    obtain ⟨x, y', h1, h2', e1⟩ := sumLens_cons g4
    obtain ⟨y, z', h2, h3', e2⟩ := sumLens_cons h2'
    obtain ⟨z, u, h3, h4, e3⟩ := sumLens_cons h3'
    simp only [sumLens, Option.some.injEq] at h4
    subst h4
    clear h2' h3'
    rw [MLang] at hs
    obtain ⟨a, b, c, rfl, ha', hb, hc⟩ := hs
    rw [ascii_append, ascii_append] at ha
    have e2 := ih v (by simp [Matcher.children]) g1 y h2 b ha.1.2 hb
    have e1 : a.length = x := by
      cases l with
      | none => rw [LangOpt] at ha'; rw [lenOpt] at h1; cases h1; subst ha'; rfl
      | some l => rw [LangOpt] at ha'; rw [lenOpt] at h1; exact ih l (by simp [Matcher.children]) g2 x h1 a ha.1.1 ha'
    have e3 : c.length = z := by
      cases r with
      | none => rw [LangOpt] at hc; rw [lenOpt] at h3; cases h3; subst hc; rfl
      | some r => rw [LangOpt] at hc; rw [lenOpt] at h3; exact ih r (by simp [Matcher.children]) g3 z h3 c ha.2 hc
    simp only [List.length_append]; omega

theorem lenGoodOpt_ok {o : Option Matcher} (h : lenGoodOpt o = true) : LenOk (lenOpt o) (LangOpt o) := by
  cases o with
  | none => intro k hk s _ hs; rw [LangOpt] at hs; rw [lenOpt] at hk; cases hk; subst hs; rfl
  | some m =>
    intro k hk s ha hs
    rw [LangOpt] at hs
    exact lenGood_ok m h k hk s ha hs

/-! ### AnyOf and EveryOf -/

theorem anyOf_dec {ms : List Matcher} {s : Str} (h : ∀ m ∈ ms, Dec m.match (MLang m) s) :
    Dec (fun s => anyOfMatch s (matchFns ms)) (LangSome ms) s := by
  induction ms with
  | nil => exact ⟨false, rfl, by simp [LangSome]⟩
  | cons m ms ih =>
    obtain ⟨b, h1, h2⟩ := h m List.mem_cons_self
    obtain ⟨c, h3, h4⟩ := ih fun m' hm' => h m' (List.mem_cons_of_mem _ hm')
    simp only at h3
    refine ⟨b || c, ?_, ?_⟩
    · simp only [matchFns, anyOfMatch, h1]
      cases b
      · simpa using h3
      · rfl
    · rw [Bool.or_eq_true, h2, h4, LangSome]

theorem everyOf_dec {ms : List Matcher} {s : Str} (h : ∀ m ∈ ms, Dec m.match (MLang m) s) :
    Dec (fun s => everyOfMatch s (matchFns ms)) (LangAll ms) s := by
  induction ms with
  | nil => exact ⟨true, rfl, by simp [LangAll]⟩
  | cons m ms ih =>
    obtain ⟨b, h1, h2⟩ := h m List.mem_cons_self
    obtain ⟨c, h3, h4⟩ := ih fun m' hm' => h m' (List.mem_cons_of_mem _ hm')
    simp only at h3
    refine ⟨b && c, ?_, ?_⟩
    · simp only [matchFns, everyOfMatch, h1]
      cases b
      · rfl
      · simpa using h3
    · rw [Bool.and_eq_true, h2, h4, LangAll]

/-! ### Simple matchers -/

theorem hasPrefix_iff {s p : Str} : hasPrefix s p = true ↔ ∃ c, s = p ++ c := by
  rw [hasPrefix, List.isPrefixOf_iff_prefix]
  exact ⟨fun ⟨c, h⟩ => ⟨c, h.symm⟩, fun ⟨c, h⟩ => ⟨c, h.symm⟩⟩

theorem hasSuffix_iff {s q : Str} : hasSuffix s q = true ↔ ∃ a, s = a ++ q := by
  rw [hasSuffix, List.isSuffixOf_iff_suffix]
  exact ⟨fun ⟨c, h⟩ => ⟨c, h.symm⟩, fun ⟨c, h⟩ => ⟨c, h.symm⟩⟩

theorem noOverlap_spec {p q s a c : Str} (h : noOverlap p q = true) (h1 : s = p ++ c) (h2 : s = a ++ q) : ∃ b, s = p ++ b ++ q := by
  by_cases hl : p.length ≤ a.length
  · have hc : c = s.drop p.length := by rw [h1]; simp
    refine ⟨a.drop p.length, ?_⟩
    have ha : a = p ++ a.drop p.length := by
      have : s.take p.length = p := by rw [h1]; simp
      have e : a.take p.length = p := by
        rw [h2, List.take_append_of_le_length hl] at this
        exact this
      conv_rhs => rw [← e]
      rw [e]
      conv_lhs => rw [← List.take_append_drop p.length a, e]
    rw [← ha, ← h2]
  · exfalso
    rw [noOverlap, List.all_eq_true] at h
    have := h a.length (List.mem_range.2 (by omega))
    rw [Bool.not_eq_true', ← Bool.not_eq_true, List.isPrefixOf_iff_prefix] at this
    apply this
    refine ⟨c, ?_⟩
    have : s.drop a.length = q := by rw [h2]; simp
    rw [← this, h1, List.drop_append_of_le_length (by omega)]

theorem prefixSuffix_dec {p q : Str} (h : noOverlap p q = true) (s : Str) : Dec (Matcher.prefixSuffix p q).match (MLang (.prefixSuffix p q)) s := by
  refine ⟨_, rfl, ?_⟩
  rw [Bool.and_eq_true, hasPrefix_iff, hasSuffix_iff, MLang]
  constructor
  · rintro ⟨⟨c, h1⟩, ⟨a, h2⟩⟩; exact noOverlap_spec h h1 h2
  · rintro ⟨b, rfl⟩; exact ⟨⟨b ++ q, by simp⟩, ⟨p ++ b, rfl⟩⟩

theorem prefixAny_dec (p : Str) (seps : List Nat) {s : Str} (hs : Ascii s) : Dec (Matcher.prefixAny p seps).match (MLang (.prefixAny p seps)) s := by
  refine ⟨_, rfl, ?_⟩
  rw [prefixAnyMatch, MLang]
  by_cases h : hasPrefix s p = true
  · obtain ⟨c, rfl⟩ := hasPrefix_iff.1 h
    rw [ascii_append] at hs
    rw [if_neg (by simp [h])]
    simp only [List.drop_left, Option.isNone_iff_eq_none, indexAnyRunes_none hs.2]
    constructor
    · intro h1; exact ⟨c, rfl, h1⟩
    · rintro ⟨c', h1, h2⟩
      rwa [List.append_cancel_left h1]
  · rw [if_pos (by simpa using h)]
    simp only [Bool.false_eq_true, false_iff]
    rintro ⟨c, rfl, _⟩
    exact h (hasPrefix_iff.2 ⟨c, rfl⟩)

theorem suffixAny_dec (q : Str) (seps : List Nat) {s : Str} (hs : Ascii s) : Dec (Matcher.suffixAny q seps).match (MLang (.suffixAny q seps)) s := by
  refine ⟨_, rfl, ?_⟩
  rw [suffixAnyMatch, MLang]
  by_cases h : hasSuffix s q = true
  · obtain ⟨a, rfl⟩ := hasSuffix_iff.1 h
    rw [ascii_append] at hs
    rw [if_neg (by simp [h])]
    have e : (a ++ q).take ((a ++ q).length - q.length) = a := by simp
    rw [e]
    simp only [Option.isNone_iff_eq_none, indexAnyRunes_none hs.1]
    constructor
    · intro h1; exact ⟨a, rfl, h1⟩
    · rintro ⟨c', h1, h2⟩
      rwa [List.append_cancel_right h1]
  · rw [if_pos (by simpa using h)]
    simp only [Bool.false_eq_true, false_iff]
    rintro ⟨c, rfl, _⟩
    exact h (hasSuffix_iff.2 ⟨c, rfl⟩)

theorem any_dec (seps : List Nat) {s : Str} (hs : Ascii s) : Dec (Matcher.any seps).match (MLang (.any seps)) s := by
  refine ⟨_, rfl, ?_⟩
  rw [Option.isNone_iff_eq_none, indexAnyRunes_none hs, MLang]

theorem needleGood_spec {needle s : Str} (hn : needleGood needle = true) (ha : Ascii s) : needle.length = 1 ∨ ∀ a c, s ≠ a ++ needle ++ c := by
  simp only [needleGood, Bool.or_eq_true, Bool.and_eq_true, beq_iff_eq, List.all_eq_true, decide_eq_true_eq] at hn
  rcases hn with h | ⟨h0, h1⟩
  · exact Or.inl h
  · right
    rintro a c rfl
    cases needle with
    | nil => simp at h0
    | cons b l =>
      rw [ascii_append, ascii_append] at ha
      have := ha.1.2 b (by simp)
      exact absurd this (UInt8.not_lt.2 (h1 b (by simp)))

/-- With a good needle, a negated `contains` says that the needle does not occur. -/
theorem contains_lang {needle : Str} {n : Bool} (hn : (!n || needleGood needle) = true) {s : Str} (ha : Ascii s) :
    MLang (.contains needle n) s ↔ ((∃ a c, s = a ++ needle ++ c) ↔ n = false) := by
  cases n with
  | false => simp [MLang]
  | true =>
    simp only [Bool.not_true, Bool.false_or] at hn
    simp only [MLang, if_true, Bool.true_eq_false, iff_false]
    have hn' := hn
    simp only [needleGood, Bool.or_eq_true, Bool.and_eq_true, beq_iff_eq, List.all_eq_true, decide_eq_true_eq] at hn'
    rcases hn' with h | ⟨h0, h1⟩
    · obtain ⟨x, rfl⟩ := List.length_eq_one_iff.1 h
      constructor
      · rintro h2 ⟨a, c, rfl⟩; exact h2 x (by simp) (by simp)
      · rintro h2 b hb hx
        rw [List.mem_singleton] at hx
        subst hx
        obtain ⟨a, c, rfl⟩ := List.append_of_mem hb
        exact h2 ⟨a, c, by simp⟩
    · constructor
      · rintro h2 ⟨a, c, rfl⟩
        cases needle with
        | nil => simp at h0
        | cons b l => exact h2 b (by simp) (by simp)
      · intro _ b hb hx
        exact absurd (ha b hb) (UInt8.not_lt.2 (h1 b hx))

theorem contains_dec {needle : Str} {n : Bool} (hn : (!n || needleGood needle) = true) {s : Str} (ha : Ascii s) :
    Dec (Matcher.contains needle n).match (MLang (.contains needle n)) s := by
  refine ⟨_, rfl, ?_⟩
  rw [contains_lang hn ha, ← containsStr_iff]
  cases containsStr needle s <;> cases n <;> simp

theorem oneRune_dec (p : Nat → Bool) {s : Str} (hs : Ascii s) (hne : s ≠ []) : oneRune p s = true ↔ ∃ b, s = [b] ∧ p b.toNat = true := by
  cases s with
  | nil => exact absurd rfl hne
  | cons b t =>
    unfold oneRune
    rw [decodeRune_ascii (hs b List.mem_cons_self)]
    cases t with
    | nil => simp
    | cons c t => simp

theorem min_dec {n : Nat} (hn : 1 ≤ n) {s : Str} (hs : Ascii s) : Dec (Matcher.min n).match (MLang (.min n)) s := by
  refine ⟨_, rfl, ?_⟩
  rw [minMatch, runes_length hs, MLang]
  simp; omega

theorem max_dec (n : Nat) {s : Str} (hs : Ascii s) : Dec (Matcher.max n).match (MLang (.max n)) s := by
  refine ⟨_, rfl, ?_⟩
  rw [maxMatch, runes_length hs, MLang]
  simp

theorem ascii_nil : Ascii [] := fun _ h => absurd h (by simp)

theorem text_dec (t : Str) (s : Str) : Dec (Matcher.text t).match (MLang (.text t)) s :=
  ⟨_, rfl, by rw [MLang, decide_eq_true_eq]; exact eq_comm⟩

theorem nothing_dec (s : Str) : Dec Matcher.nothing.match (MLang .nothing) s := ⟨_, rfl, by rw [MLang, List.isEmpty_iff]⟩

theorem super_dec (s : Str) : Dec Matcher.super.match (MLang .super) s := ⟨_, rfl, by simp [MLang]⟩

theorem prefix_dec (p : Str) (s : Str) : Dec (Matcher.prefix p).match (MLang (.prefix p)) s := ⟨_, rfl, by rw [MLang, hasPrefix_iff]⟩

theorem suffix_dec (q : Str) (s : Str) : Dec (Matcher.suffix q).match (MLang (.suffix q)) s := ⟨_, rfl, by rw [MLang, hasSuffix_iff]⟩

/-! ### The empty string -/

theorem oneRune_nil (p : Nat → Bool) : oneRune p [] = p runeError := rfl

theorem btree_nil (value : Str → Idx) (left right : Str → Option Bool) (ll rl len : Option Nat) : btreeMatch value left right ll rl len [] = some false := by
  unfold btreeMatch
  simp only [List.length_nil, Nat.zero_add]
  have : ∀ limit offset, limit = 0 → btreeLoop value left right [] limit 1 offset = some false := by
    intro limit offset h
    subst h
    rw [btreeLoop]
    simp
  cases rl with
  | none => simp only [this 0 _ rfl, ite_self]
  | some r => simp only [Nat.zero_sub, this 0 _ rfl, ite_self]

theorem goodE_ok (m : Matcher) : goodE m = true → Dec m.match (MLang m) [] := by
  induction m using Matcher.ind with
  | h m ih =>
  intro hg
  cases m with
  | nothing => exact nothing_dec _
  | text t => exact text_dec _ _
  | any seps => exact any_dec seps ascii_nil
  | super => exact super_dec _
  | single seps =>
    refine ⟨_, rfl, ?_⟩
    rw [oneRune_nil]
    simp only [goodE] at hg
    simp [hg, MLang]
    simpa using hg
  | list rs n =>
    refine ⟨_, rfl, ?_⟩
    rw [oneRune_nil]
    simp only [goodE, Bool.not_eq_true'] at hg
    simp [hg, MLang]
  | range lo hi n =>
    refine ⟨_, rfl, ?_⟩
    rw [oneRune_nil]
    simp only [goodE, Bool.not_eq_true'] at hg
    simp [hg, MLang]
  | min n => exact min_dec (by simpa [goodE] using hg) ascii_nil
  | max n => exact max_dec n ascii_nil
  | contains n b => exact contains_dec (by simpa only [goodE] using hg) ascii_nil
  | «prefix» p => exact prefix_dec _ _
  | suffix p => exact suffix_dec _ _
  | prefixSuffix p q => exact prefixSuffix_dec (by simpa [goodE] using hg) _
  | prefixAny p q => exact prefixAny_dec p q ascii_nil
  | suffixAny p q => exact suffixAny_dec p q ascii_nil
  | anyOf ms => exact anyOf_dec fun m hm => ih m hm (goodEs_iff.1 hg m hm)
  | everyOf ms => exact everyOf_dec fun m hm => ih m hm (goodEs_iff.1 hg m hm)
  | row l ms =>
    simp only [goodE, Bool.and_eq_true, decide_eq_true_eq] at hg
    refine ⟨false, ?_, ?_⟩
    · show rowMatch _ _ _ = _
      rw [rowMatch, if_neg]
      simp only [runesOf, runesAux, List.length_nil]
      omega
    · simp only [Bool.false_eq_true, false_iff]
      intro h
      have := lenGood_ok _ hg.2 l rfl [] ascii_nil h
      simp at this
      omega
  | btree v l r ll rl len =>
    refine ⟨false, btree_nil _ _ _ _ _ _, ?_⟩
    simp only [Bool.false_eq_true, false_iff, MLang]
    rintro ⟨a, b, c, h, ha, hb, hc⟩
    have h := h.symm
    rw [List.append_eq_nil_iff, List.append_eq_nil_iff] at h
    obtain ⟨⟨rfl, rfl⟩, rfl⟩ := h
    simp only [goodE, Bool.or_eq_true, Bool.and_eq_true] at hg
    rcases hg with ⟨h1, h2⟩ | ⟨⟨⟨h1, h2⟩, h3⟩, h4⟩
    · cases hv : v.len with
      | none => rw [hv] at h1; simp [posLen] at h1
      | some k =>
        have := lenGood_ok v h2 k hv [] ascii_nil hb
        rw [hv] at h1
        simp only [posLen, decide_eq_true_eq, List.length_nil] at h1 this
        omega
    · have o : ∀ (o : Option Matcher), (∀ c ∈ o, goodE c = true → Dec c.match (MLang c) []) → goodEOpt o = true → LangOpt o [] → matchOpt o [] = some true := by
        intro o hi ho hl
        cases o with
        | none => rfl
        | some m =>
          obtain ⟨b, e1, e2⟩ := hi m rfl ho
          rw [LangOpt] at hl
          rw [matchOpt, e1, e2.2 hl]
      obtain ⟨b, e1, e2⟩ := ih v (by simp [Matcher.children]) h1
      rw [e1, e2.2 hb, o l (fun c hc => ih c (by simp only [Option.mem_def] at hc; simp [Matcher.children, hc])) h2 ha,
        o r (fun c hc => ih c (by simp only [Option.mem_def] at hc; simp [Matcher.children, hc])) h3 hc] at h4
      simp at h4

end Verif.Glob
