import Verif.Glob.LoopProps
/-
The check is right: a matcher that passes it decides its language on ASCII strings.
-/
namespace Verif.Glob

theorem lenOk_unique {l : Option Nat} {L : Str → Prop} (h : LenOk l L) {k : Nat} (hk : l = some k) (a b : Str) (ha : Ascii a) (hb : Ascii b) (h1 : L a) (h2 : L b) :
    a.length = b.length := by rw [h k hk a ha h1, h k hk b hb h2]

theorem posLen_some {l : Option Nat} (h : posLen l = true) : ∃ k, l = some k ∧ 1 ≤ k := by
  cases l with
  | none => simp [posLen] at h
  | some k => exact ⟨k, rfl, by simpa [posLen] using h⟩

/-- The cases of `BTree.Match`: the string is too short, or the loop runs. -/
theorem btreeMatch_cases (ix : Str → Idx) (left right : Str → Option Bool) (ll rl len : Option Nat) (s : Str) :
    (∃ l, len = some l ∧ l > s.length ∧ btreeMatch ix left right ll rl len s = some false) ∨
      btreeMatch ix left right ll rl len s = btreeLoop ix left right s (s.length - rl.getD 0) (s.length + 1) (ll.getD 0) := by
  cases len with
  | none => right; cases rl <;> simp [btreeMatch]
  | some l =>
    by_cases h : l > s.length
    · left; exact ⟨l, rfl, h, by simp [btreeMatch, h]⟩
    · right; cases rl <;> simp [btreeMatch, h]

/-- A BTree whose value is found at its first occurrence. -/
theorem btree_first_dec {ix : Str → Idx} {left right : Str → Option Bool} {V L R : Str → Prop} {ll rl len : Option Nat} (hv : IdxFirst ix V)
    (hlen : ∀ a b, Ascii a → Ascii b → V a → V b → a.length = b.length) (hl : ∀ s, Ascii s → Dec left L s) (hr : ∀ s, Ascii s → Dec right R s)
    (hll : LenOk ll L) (hrl : LenOk rl R) (hlen' : LenOk len fun s => ∃ a b c, s = a ++ b ++ c ∧ L a ∧ V b ∧ R c) {s : Str} (ha : Ascii s) :
    Dec (btreeMatch ix left right ll rl len) (fun s => ∃ a b c, s = a ++ b ++ c ∧ L a ∧ V b ∧ R c) s := by
  unfold Dec
  rcases btreeMatch_cases ix left right ll rl len s with ⟨l, e1, e2, e3⟩ | e
  · refine ⟨false, e3, ?_⟩
    simp only [Bool.false_eq_true, false_iff]
    intro h
    have := hlen' l e1 s ha h
    omega
  · rw [e]
    have key : ∀ offset limit, limit ≤ s.length → (∀ a, Ascii a → L a → offset ≤ a.length) → (∀ a b c, s = a ++ b ++ c → R c → a.length + b.length ≤ limit) →
        ∃ b, btreeLoop ix left right s limit (s.length + 1) offset = some b ∧ (b = true ↔ ∃ a b c, s = a ++ b ++ c ∧ L a ∧ V b ∧ R c) := by
      intro offset limit h1 h2 h3
      obtain ⟨b, e1, e2⟩ := btreeLoop_first hv hlen hl hr ha h1 (s.length + 1) offset (by omega) (by omega)
      refine ⟨b, e1, e2.trans ?_⟩
      constructor
      · rintro ⟨a, v, c, g1, g2, g3, g4, _⟩; exact ⟨a, v, c, g1, g2, g3, g4⟩
      · rintro ⟨a, v, c, g1, g2, g3, g4⟩
        refine ⟨a, v, c, g1, g2, g3, g4, h2 a ?_ g2, h3 a v c g1 g4⟩
        rw [g1, ascii_append, ascii_append] at ha
        exact ha.1.1
    have hoff : ∀ a, Ascii a → L a → ll.getD 0 ≤ a.length := by
      intro a ha' hL
      cases ll with
      | none => simp
      | some k => rw [hll k rfl a ha' hL]; simp
    refine key _ _ (Nat.sub_le _ _) hoff ?_
    cases rl with
    | none =>
      intro a b c e _
      have := congrArg List.length e
      simp only [List.length_append, Option.getD_none] at *; omega
    | some k =>
      intro a b c e hc
      have := congrArg List.length e
      rw [e, ascii_append] at ha
      have := hrl k rfl c ha.2 hc
      simp only [List.length_append, Option.getD_some] at *; omega

theorem optDec {o : Option Matcher} (h1 : ∀ c ∈ o, ∀ s, Ascii s → s ≠ [] → Dec c.match (MLang c) s) (h2 : goodEOpt o = true) (s : Str) (ha : Ascii s) :
    Dec (matchOpt o) (LangOpt o) s := by
  cases o with
  | none => exact ⟨s.isEmpty, rfl, by rw [LangOpt, List.isEmpty_iff]⟩
  | some m =>
    have e : Dec m.match (MLang m) s := by
      by_cases hs : s = []
      · subst hs; exact goodE_ok m h2
      · exact h1 m rfl s ha hs
    obtain ⟨b, e1, e2⟩ := e
    exact ⟨b, e1, by rw [LangOpt]; exact e2⟩

theorem row_cond {l : Nat} {ms : List Matcher} (h : (goods ms && decide (1 ≤ l) && lenGood (.row l ms) && (lens ms).all posLen) = true) :
    (∀ m ∈ ms, good m = true) ∧ 1 ≤ l ∧ (∀ m ∈ ms, LenOk m.len (MLang m)) ∧ sumLens (lens ms) = some l ∧ (∀ m ∈ ms, posLen m.len = true) ∧
      LenOk (some l) (MLang (.row l ms)) := by
  simp only [Bool.and_eq_true, decide_eq_true_eq] at h
  obtain ⟨⟨⟨h1, h2⟩, h3⟩, h4⟩ := h
  have h5 := lenGood_ok _ h3
  rw [lenGood, Bool.and_eq_true, beq_iff_eq] at h3
  refine ⟨goods_iff.1 h1, h2, fun m hm => lenGood_ok m (lenGoods_iff.1 h3.1 m hm), h3.2, fun m hm => ?_, h5⟩
  rw [lens_eq, List.all_map, List.all_eq_true] at h4
  exact h4 m hm

theorem good_ok (m : Matcher) :
    (good m = true → ∀ s, Ascii s → s ≠ [] → Dec m.match (MLang m) s) ∧
    (goodIdx m = true → lenGood m = true → posLen m.len = true → IdxFirst m.index (MLang m)) ∧
    (goodIdx0 m = true → IdxStart m.index (MLang m)) := by
  induction m using Matcher.ind with
  | h m ih =>
  cases m with
  | nothing =>
    exact ⟨fun _ s _ _ => nothing_dec s, fun h => absurd h (by simp [goodIdx]), fun _ => nothing_start⟩
  | text t =>
    refine ⟨fun _ s _ _ => text_dec t s, fun h _ _ => text_first (by simpa [goodIdx] using h), fun _ => text_start t⟩
  | any seps =>
    exact ⟨fun _ s ha _ => any_dec seps ha, fun h => absurd h (by simp [goodIdx]), fun h => any_start (by simpa [goodIdx0] using h)⟩
  | super => exact ⟨fun _ s _ _ => super_dec s, fun h => absurd h (by simp [goodIdx]), fun _ => super_start⟩
  | single seps =>
    refine ⟨fun _ s ha hne => ⟨_, rfl, ?_⟩, fun _ _ _ => single_first seps, fun _ => (single_first seps).start ?_⟩
    · rw [oneRune_dec _ ha hne, MLang]; simp
    · rintro a b _ _ h1 h2
      rw [MLang] at h1 h2
      obtain ⟨x, rfl, _⟩ := h1; obtain ⟨y, rfl, _⟩ := h2; rfl
  | list rs n =>
    refine ⟨fun _ s ha hne => ⟨_, rfl, ?_⟩, fun _ _ _ => list_first rs n, fun _ => (list_first rs n).start ?_⟩
    · rw [oneRune_dec _ ha hne, MLang]
    · rintro a b _ _ h1 h2
      rw [MLang] at h1 h2
      obtain ⟨x, rfl, _⟩ := h1; obtain ⟨y, rfl, _⟩ := h2; rfl
  | range lo hi n =>
    refine ⟨fun _ s ha hne => ⟨_, rfl, ?_⟩, fun _ _ _ => range_first lo hi n, fun _ => (range_first lo hi n).start ?_⟩
    · rw [oneRune_dec _ ha hne, MLang]
    · rintro a b _ _ h1 h2
      rw [MLang] at h1 h2
      obtain ⟨x, rfl, _⟩ := h1; obtain ⟨y, rfl, _⟩ := h2; rfl
  | min n =>
    exact ⟨fun h s ha _ => min_dec (by simpa [good] using h) ha, fun h => absurd h (by simp [goodIdx]), fun h => min_start (by simpa [goodIdx0] using h)⟩
  | max n => exact ⟨fun _ s ha _ => max_dec n ha, fun h => absurd h (by simp [goodIdx]), fun _ => max_start n⟩
  | contains needle n =>
    exact ⟨fun h s ha _ => contains_dec (by rw [good] at h; exact h) ha, fun h => absurd h (by simp [goodIdx]), fun h => contains_start (by rw [goodIdx0] at h; exact h)⟩
  | «prefix» p => exact ⟨fun _ s _ _ => prefix_dec p s, fun h => absurd h (by simp [goodIdx]), fun _ => prefix_start p⟩
  | suffix q => exact ⟨fun _ s _ _ => suffix_dec q s, fun h => absurd h (by simp [goodIdx]), fun h => absurd h (by simp [goodIdx0])⟩
  | prefixSuffix p q =>
    exact ⟨fun h s _ _ => prefixSuffix_dec (by simpa [good] using h) s, fun h => absurd h (by simp [goodIdx]), fun h => absurd h (by simp [goodIdx0])⟩
  | prefixAny p seps =>
    exact ⟨fun _ s ha _ => prefixAny_dec p seps ha, fun h => absurd h (by simp [goodIdx]), fun h => prefixAny_start (by simpa [goodIdx0] using h)⟩
  | suffixAny q seps =>
    exact ⟨fun _ s ha _ => suffixAny_dec q seps ha, fun h => absurd h (by simp [goodIdx]), fun h => absurd h (by simp [goodIdx0])⟩
  | anyOf ms =>
    refine ⟨fun h s ha hne => anyOf_dec fun m hm => (ih m hm).1 (goods_iff.1 (by simpa [good] using h) m hm) s ha hne, ?_, ?_⟩
    · intro h hg hp
      obtain ⟨k, hk, hpos⟩ := posLen_some hp
      rw [goodIdx, goodIdxs_iff] at h
      rw [Matcher.len] at hk
      rw [lenGood, hk] at hg
      simp only [Option.isNone_some, Bool.false_or, Bool.and_eq_true] at hg
      have hl : ∀ m ∈ ms, m.len = some k := fun m hm => anyOfLen_all hk (by rw [hk]; exact hg.2) m.len (by rw [lens_eq]; exact List.mem_map_of_mem hm)
      have hlg := lenGoods_iff.1 hg.1
      refine anyOf_first hpos (fun m hm => (ih m hm).2.1 (h m hm) (hlg m hm) (by rw [hl m hm]; simpa [posLen] using hpos)) ?_
      intro m hm
      have := lenGood_ok m (hlg m hm)
      rwa [hl m hm] at this
    · intro h
      rw [goodIdx0, goodIdx0s_iff] at h
      exact anyOf_start fun m hm => (ih m hm).2.2 (h m hm)
  | everyOf ms =>
    refine ⟨fun h s ha hne => everyOf_dec fun m hm => (ih m hm).1 (goods_iff.1 (by simpa [good] using h) m hm) s ha hne,
      fun h => absurd h (by simp [goodIdx]), fun h => ?_⟩
    rw [goodIdx0, Bool.and_eq_true, List.all_eq_true] at h
    refine everyOf_start h.1 ?_
    rintro rfl
    simp at h
  | row l ms =>
    refine ⟨fun h s ha hne => ?_, fun h _ _ => ?_, fun h => ?_⟩
    · obtain ⟨h1, h2, h3, h4, h5, _⟩ := row_cond (by simpa only [good] using h)
      exact row_dec h5 h3 (fun m hm => (ih m hm).1 (h1 m hm)) h4 ha
    · obtain ⟨h1, h2, h3, h4, h5, _⟩ := row_cond (by simpa only [goodIdx] using h)
      exact row_first h5 h3 (fun m hm => (ih m hm).1 (h1 m hm)) h4 h2
    · obtain ⟨h1, h2, h3, h4, h5, h6⟩ := row_cond (by simpa only [goodIdx0] using h)
      exact (row_first h5 h3 (fun m hm => (ih m hm).1 (h1 m hm)) h4 h2).start fun a b => lenOk_unique h6 rfl a b
  | btree v l r ll rl len =>
    refine ⟨fun h s ha hne => ?_, fun h => absurd h (by simp [goodIdx]), fun h => absurd h (by simp [goodIdx0])⟩
    simp only [good, Bool.and_eq_true] at h
    obtain ⟨⟨⟨⟨⟨⟨⟨h1, h2⟩, h3⟩, h4⟩, h5⟩, h6⟩, h7⟩, h8⟩ := h
    have hsub : ∀ (o : Option Matcher), (∀ c ∈ o, c ∈ (Matcher.btree v l r ll rl len).children) → goodOpt o = true → goodEOpt o = true →
        ∀ s, Ascii s → Dec (matchOpt o) (LangOpt o) s := by
      intro o hc ho he s ha
      refine optDec (fun c hc' => ?_) he s ha
      refine (ih c (hc c hc')).1 ?_
      simp only [Option.mem_def] at hc'
      subst hc'
      exact ho
    have hL := hsub l (fun c hc => by simp only [Option.mem_def] at hc; simp [Matcher.children, hc]) h4 h5
    have hR := hsub r (fun c hc => by simp only [Option.mem_def] at hc; simp [Matcher.children, hc]) h6 h7
    have hlen' := lenGood_ok _ h1
    have lenside : ∀ (o : Option Matcher) (k : Option Nat), (k.isNone || (k == lenOpt o && lenGoodOpt o)) = true → LenOk k (LangOpt o) := by
      intro o k hk
      cases k with
      | none => intro k h; cases h
      | some k =>
        simp only [Option.isNone_some, Bool.false_or, Bool.and_eq_true, beq_iff_eq] at hk
        rw [hk.1]
        exact lenGoodOpt_ok hk.2
    have hlang : MLang (.btree v l r ll rl len) = fun s => ∃ a b c, s = a ++ b ++ c ∧ LangOpt l a ∧ MLang v b ∧ LangOpt r c := by
      funext s; rw [MLang]
    rw [hlang] at hlen' ⊢
    rw [Bool.or_eq_true, Bool.and_eq_true, Bool.and_eq_true, Bool.and_eq_true, Bool.and_eq_true] at h8
    rcases h8 with ⟨⟨g1, g2⟩, g3⟩ | ⟨⟨g1, g2⟩, g3⟩
    · obtain ⟨k, hk, _⟩ := posLen_some g3
      exact btree_first_dec ((ih v (by simp [Matcher.children])).2.1 g1 g2 g3) (fun a b => lenOk_unique (lenGood_ok v g2) hk a b) hL hR
        (lenside l ll h2) (lenside r rl h3) hlen' ha
    · rw [Option.isNone_iff_eq_none] at g2 g3
      subst g2 g3
      have hst := (ih v (by simp [Matcher.children])).2.2 g1
      obtain ⟨b, e1, e2⟩ := btreeLoop_start hst hR ha hne
      have hll : ll.getD 0 = 0 := by
        cases ll with
        | none => rfl
        | some k => simp [lenOpt] at h2; simp [h2]
      show ∃ b, btreeMatch v.index (matchOpt none) (matchOpt r) ll none len s = some b ∧ _
      have hlo : matchOpt none = fun s : Str => some s.isEmpty := rfl
      have e3 : (∃ v' c, s = v' ++ c ∧ MLang v v' ∧ LangOpt r c) ↔ ∃ a b c, s = a ++ b ++ c ∧ LangOpt none a ∧ MLang v b ∧ LangOpt r c := by
        simp only [LangOpt]
        constructor
        · rintro ⟨x, c, h1, h2, h3⟩; exact ⟨[], x, c, by simpa using h1, rfl, h2, h3⟩
        · rintro ⟨_, x, c, h1, rfl, h2, h3⟩; exact ⟨x, c, by simpa using h1, h2, h3⟩
      rcases btreeMatch_cases v.index (matchOpt none) (matchOpt r) ll none len s with ⟨l, g1, g2, g3⟩ | e
      · refine ⟨false, g3, ?_⟩
        simp only [Bool.false_eq_true, false_iff]
        intro h
        have := hlen' l g1 s ha h
        omega
      · rw [e, hll, hlo]
        exact ⟨b, e1, e2.trans e3⟩

/-- A matcher that passes the check decides its language on ASCII strings. -/
theorem wellBehaved_ok {m : Matcher} (h : wellBehaved m = true) {s : Str} (ha : Ascii s) : Dec m.match (MLang m) s := by
  rw [wellBehaved, Bool.and_eq_true] at h
  by_cases hs : s = []
  · subst hs; exact goodE_ok m h.2
  · exact (good_ok m).1 h.1 s ha hs

end Verif.Glob
