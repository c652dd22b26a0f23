import Verif.Glob.FlatCompile
import Verif.Glob.FlatDoc
import Verif.Glob.CompileTotal
import Verif.Glob.DocParse
/-
C57 for the patterns of `Verif.Glob.FlatDoc`.
-/
namespace Verif.Glob

/-- The matcher of a literal alternative. -/
def altMatcher (p : List Term) : Matcher := if (altText p).isEmpty then .nothing else .text (altText p)

/-- The matcher of a term. -/
def matcherOf (seps : List Nat) : Term → Matcher
  | .chars cs => .text (textOf cs)
  | .any => if seps.length = 0 then .super else .any seps
  | .super => .super
  | .single => .single seps
  | .list not cs => if not = false && (cs.map Ch.rune).length = 1 then .text ((cs.map Ch.rune).flatMap encodeRune) else .list (cs.map Ch.rune) not
  | .range not lo hi => .range lo hi not
  | .alts p ps => .anyOf ((p :: ps).map altMatcher)

theorem glue_one (m : Matcher) : glueMatchers [m] = none := by
  simp [glueMatchers, glueMatchersAsEvery, glueMatchersAsRow]

theorem minimize_one {n : Nat} {m : Matcher} {ns : List Matcher} (h : minimizeMatchers n [m] = some ns) : ns = [m] := by
  cases n with
  | zero => cases h
  | succ n =>
    unfold minimizeMatchers at h
    split at h
    · simpa using h.symm
    · rename_i d hd
      obtain ⟨h1, h2, h3⟩ := minimizeLoops_glued hd
      simp only [List.length_singleton] at h3
      have e1 : d.right = 1 := by omega
      have e2 : d.left = 0 := by omega
      rw [e1, e2] at h1
      simp only [List.take_succ_cons, List.take_zero, List.drop_zero] at h1
      rw [glue_one] at h1; cases h1

theorem textOf_ne {bs : List Nat} {cs : List Ch} (h : (!cs.isEmpty && cs.all (Ch.ok bs)) = true) : textOf cs ≠ [] := by
  cases cs with
  | nil => simp at h
  | cons c cs =>
    simp only [textOf, List.map_cons, List.flatMap_cons, ne_eq, List.append_eq_nil_iff, not_and]
    intro h
    exact absurd h (List.length_pos_iff.1 (encodeRune_pos _))

theorem literal_nodes {p : List Term} (h : literalAlt p = true) (hok : okTerms true p = true) :
    (p = [] ∧ altText p = [] ∧ nodes p = []) ∨ (altText p ≠ [] ∧ nodes p = [.text (altText p)]) := by
  rcases p with _ | ⟨t, _ | ⟨t', ts⟩⟩
  · exact Or.inl ⟨rfl, rfl, rfl⟩
  · cases t <;> simp only [literalAlt, Bool.false_eq_true] at h
    rename_i cs
    simp only [okTerms, Term.ok, Bool.and_true, apart] at hok
    exact Or.inr ⟨textOf_ne hok, rfl⟩
  · cases t <;> simp [literalAlt] at h

theorem compile_alt {seps : List Nat} {n : Nat} {p : List Term} {m : Matcher} (h : literalAlt p = true) (hok : okTerms true p = true)
    (hc : compile seps n (.pattern (nodes p)) = .ok m) : optimizeMatcher m = altMatcher p := by
  cases n with
  | zero => cases hc
  | succ n =>
    rcases literal_nodes h hok with ⟨rfl, e1, e2⟩ | ⟨e1, e2⟩
    · simp only [nodes, compile, List.length_nil, if_true, Res.ok.injEq] at hc
      subst hc; rfl
    · rw [e2] at hc
      simp only [compile, List.length_singleton] at hc
      rw [if_neg (by omega)] at hc
      cases n with
      | zero => simp [compileChildren, compile] at hc
      | succ n =>
        simp only [compileChildren, compile, optimizeMatcher] at hc
        split at hc <;> try cases hc
        rename_i ns hns
        have := minimize_one hns
        subst this
        simp only [compileMatchers, List.length_singleton, optimizeMatcher, Res.ok.injEq] at hc
        subst hc
        simp [altMatcher, e1, optimizeMatcher]

theorem patterns_eq (ps : List (List Term)) : patterns ps = ps.map fun p => .pattern (nodes p) := by
  induction ps with
  | nil => rfl
  | cons p ps ih => rw [patterns, ih]; rfl

theorem patternChildren_map (ns : List (List Node)) : patternChildren (ns.map .pattern) = some ns := by
  induction ns with
  | nil => rfl
  | cons n ns ih => rw [List.map_cons, patternChildren, ih]; rfl

/-- Literal alternatives that differ have nothing in common. -/
theorem minimizeTree_literal {ps : List (List Term)} (h : ∀ p ∈ ps, literalAlt p = true) (hok : ∀ p ∈ ps, okTerms true p = true)
    {p q : List Term} (hp : p ∈ ps) (hq : q ∈ ps) (hne : altText q ≠ altText p) : minimizeTreeAnyOf (patterns ps) = some none := by
  unfold minimizeTreeAnyOf
  have e : patterns ps = (ps.map nodes).map .pattern := by rw [patterns_eq, List.map_map]; rfl
  rw [e, patternChildren_map]
  simp only
  obtain ⟨left, right, e1, hc⟩ := commonChildren_ok (ps.map nodes)
  rw [e1]
  simp only
  rw [if_pos]
  have hlen : ∀ x ∈ ps, left.length + right.length ≤ (nodes x).length := fun x hx => (hc _ (List.mem_map_of_mem hx)).2.2
  by_contra hcon
  have hpos : 1 ≤ left.length + right.length := by
    simp only [Bool.and_eq_true, decide_eq_true_eq, not_and] at hcon
    by_contra h0
    exact hcon (by omega) (by omega)
  have key : ∀ x ∈ ps, nodes x = [.text (altText x)] := by
    intro x hx
    rcases literal_nodes (h x hx) (hok x hx) with ⟨_, _, h3⟩ | ⟨_, h3⟩
    · have := hlen x hx; rw [h3, List.length_nil] at this; omega
    · exact h3
  have hsame : nodes p = nodes q := by
    have h1 := hc _ (List.mem_map_of_mem hp)
    have h2 := hc _ (List.mem_map_of_mem hq)
    rw [key p hp] at h1
    rw [key q hq] at h2
    simp only [List.length_singleton] at h1 h2
    rw [key p hp, key q hq]
    have hle := h1.2.2
    by_cases hl : left.length = 0
    · have hr : right.length = 1 := by omega
      have a1 := h1.2.1; have a2 := h2.2.1
      rw [hr] at a1 a2
      simp only [Nat.sub_self, List.drop_zero] at a1 a2
      rw [a1, a2]
    · have hl1 : left.length = 1 := by omega
      have a1 := h1.1; have a2 := h2.1
      rw [hl1] at a1 a2
      simp only [List.take_succ_cons, List.take_zero] at a1 a2
      rw [a1, a2]
  rw [key p hp, key q hq] at hsame
  simp only [List.cons.injEq, Node.text.injEq, and_true] at hsame
  exact hne hsame.symm

theorem compileChildren_map {f : Node → Res Matcher} {g : α → Node} {k : α → Matcher} : ∀ {xs : List α} {ms : List Matcher},
    (∀ x ∈ xs, ∀ m, f (g x) = .ok m → optimizeMatcher m = k x) → compileChildren f (xs.map g) = .ok ms → ms = xs.map k
  | [], ms, _, h => by simp only [List.map_nil, compileChildren, Res.ok.injEq] at h; simp [h.symm]
  | x :: xs, ms, hx, h => by
    simp only [List.map_cons, compileChildren] at h
    split at h <;> try cases h
    rename_i m hm
    split at h <;> try cases h
    rename_i ns hns
    have := compileChildren_map (fun y hy => hx y (List.mem_cons_of_mem _ hy)) hns
    rw [hx x (by simp) m hm, this, List.map_cons]

theorem okAlts_iff {ps : List (List Term)} : okAlts ps = true ↔ ∀ p ∈ ps, okTerms true p = true := by
  induction ps with
  | nil => simp [okAlts]
  | cons p ps ih => simp [okAlts, ih]

theorem flat_alts {p : List Term} {ps : List (List Term)} (hok : (Term.alts p ps).ok b = true) (hf : flatTerm (.alts p ps) = true) :
    (∀ q ∈ p :: ps, literalAlt q = true) ∧ (∀ q ∈ p :: ps, okTerms true q = true) ∧ ∃ q ∈ ps, altText q ≠ altText p := by
  simp only [flatTerm, Bool.and_eq_true, List.all_eq_true, List.any_eq_true, bne_iff_ne] at hf
  simp only [Term.ok, Bool.and_eq_true] at hok
  refine ⟨?_, ?_, hf.2⟩
  · simpa using hf.1
  · simpa using And.intro hok.1 (okAlts_iff.1 hok.2)

/-- The compiled matcher of a term. -/
theorem compile_term {seps : List Nat} {n : Nat} {t : Term} {m : Matcher} {b : Bool} (hok : t.ok b = true) (hf : flatTerm t = true) (hc : compile seps n t.node = .ok m) :
    optimizeMatcher m = matcherOf seps t := by
  cases n with
  | zero => cases hc
  | succ n =>
    cases t with
    | chars cs => simp only [Term.node, compile, Res.ok.injEq] at hc; subst hc; rfl
    | any =>
      simp only [Term.node, compile, Res.ok.injEq, optimizeMatcher] at hc
      subst hc
      simp only [matcherOf]
      split
      · rfl
      · rename_i h; rw [optimizeMatcher, if_neg h]
    | super => simp only [Term.node, compile, Res.ok.injEq] at hc; subst hc; rfl
    | single => simp only [Term.node, compile, Res.ok.injEq] at hc; subst hc; rfl
    | range nt lo hi => simp only [Term.node, compile, Res.ok.injEq] at hc; subst hc; rfl
    | list nt cs =>
      simp only [Term.ok, Bool.and_eq_true] at hok
      simp only [Term.node, compile, Res.ok.injEq] at hc
      subst hc
      have e : (runesOf (textOf cs)).map Prod.fst = cs.map Ch.rune := runesIn_textOf hok.2
      rw [e]
      simp only [matcherOf, optimizeMatcher]
      split
      · rfl
      · rename_i h; rw [optimizeMatcher, if_neg h]
    | alts p ps =>
      obtain ⟨h1, h2, q, hq, hne⟩ := flat_alts hok hf
      simp only [Term.node, compile] at hc
      rw [show Node.pattern (nodes p) :: patterns ps = patterns (p :: ps) from rfl, minimizeTree_literal h1 h2 (p := p) (q := q) (by simp) (by simp [hq]) hne] at hc
      simp only at hc
      split at hc <;> try cases hc
      rename_i ms hms
      rw [patterns_eq] at hms
      have := compileChildren_map (k := altMatcher) (fun x hx m hm => compile_alt (h1 x hx) (h2 x hx) hm) hms
      subst this
      rcases ps with _ | ⟨q', ps⟩
      · simp at hq
      · simp [optimizeMatcher, matcherOf]

theorem nodes_eq (ts : List Term) : nodes ts = ts.map Term.node := by
  induction ts with
  | nil => rfl
  | cons t ts ih => rw [nodes, ih]; rfl

theorem anyOfLen_consts (k : Nat) : ∀ (ls : List Nat), anyOfLen (some k) (ls.map some) = if ls.all (· == k) then some k else none
  | [] => rfl
  | l :: ls => by
    rw [List.map_cons, anyOfLen]
    by_cases h : k = l
    · subst h; simp [anyOfLen_consts k ls]
    · have h' : ¬ l = k := fun e => h e.symm
      simp [h, h']

theorem altMatcher_len (p : List Term) : (altMatcher p).len = some (runesOf (altText p)).length := by
  unfold altMatcher
  split
  · rename_i h
    rw [List.isEmpty_iff] at h
    rw [h]; rfl
  · rfl

theorem alts_len {p : List Term} {ps : List (List Term)} : (Matcher.anyOf ((p :: ps).map altMatcher)).len =
    if ps.all (fun q => (runesOf (altText q)).length == (runesOf (altText p)).length) then some (runesOf (altText p)).length else none := by
  rw [Matcher.len, lens_eq, List.map_map, List.map_cons, Function.comp_apply, altMatcher_len, anyOfLen]
  have : ps.map (Matcher.len ∘ altMatcher) = (ps.map fun q => (runesOf (altText q)).length).map some := by
    rw [List.map_map]
    refine List.map_congr_left fun q _ => ?_
    simp [altMatcher_len]
  rw [this, anyOfLen_consts, List.all_map]
  rfl

theorem alts_len_none {p : List Term} {ps : List (List Term)} : (Matcher.anyOf ((p :: ps).map altMatcher)).len = none ↔ varying (.alts p ps) = true := by
  rw [alts_len, varying]
  split
  · rename_i h
    simp only [reduceCtorEq, false_iff, Bool.not_eq_true]
    rw [List.any_eq_false]
    intro q hq
    have := List.all_eq_true.1 h q hq
    simpa using this
  · rename_i h
    simp only [true_iff, List.any_eq_true]
    rw [Bool.not_eq_true, List.all_eq_false] at h
    obtain ⟨q, hq, hne⟩ := h
    exact ⟨q, hq, by simpa using hne⟩

theorem altMatchers_leaf (ps : List (List Term)) : (ps.map altMatcher).all leafAlt = true := by
  rw [List.all_map, List.all_eq_true]
  intro x _
  simp only [Function.comp_apply, altMatcher]
  split
  · rfl
  · rename_i h; simpa [leafAlt] using h

theorem altMatchers_pos {p q : List Term} {ps : List (List Term)} (hq : q ∈ ps) (hne : altText q ≠ altText p) :
    anyOfLen none (lens ((p :: ps).map altMatcher)) ≠ some 0 := by
  intro hc
  have hz : (Matcher.anyOf ((p :: ps).map altMatcher)).len = some 0 := hc
  rw [alts_len] at hz
  split at hz
  · rename_i hall
    simp only [Option.some.injEq] at hz
    have hqz := List.all_eq_true.1 hall q hq
    rw [hz] at hqz
    simp only [beq_iff_eq] at hqz
    have e1 : altText p = [] := by
      by_contra hc; have := runesOf_pos hc; omega
    have e2 : altText q = [] := by
      by_contra hc; have := runesOf_pos hc; omega
    exact hne (by rw [e1, e2])
  · cases hz

/-- What the compiler sees of a term. -/
structure TermFacts (seps : List Nat) (t : Term) (m : Matcher) : Prop where
  el : elem m = true
  glue : (gluable m).map Prod.fst = excludes seps t
  len : m.len = none ↔ isStar t = true ∨ varying t = true
  empty : m.len = none → m.match [] = some true → mayBeEmpty t = true
  idx : badIdx m = true → ∃ s, isStar t = true ∧ excludes seps t = some s ∧ 2 ≤ s.length
  text : ∀ s, m = .text s → theText t = some s
  super : m = .super → isStar t = true ∧ excludes seps t = some []

theorem term_facts {seps : List Nat} {t : Term} {b : Bool} (hok : t.ok b = true) (hf : flatTerm t = true) : TermFacts seps t (matcherOf seps t) := by
  cases t with
  | chars cs =>
    have := textOf_ne (by simpa only [Term.ok] using hok)
    refine ⟨by simpa [matcherOf, elem] using this, rfl, ?_, nofun, nofun, ?_, nofun⟩
    · simp [matcherOf, Matcher.len, isStar, varying]
    · intro s h; simpa [matcherOf, theText] using h
  | any =>
    rw [matcherOf]
    split
    · rename_i h
      have := List.length_eq_zero_iff.1 h
      subst this
      refine ⟨rfl, rfl, by simp [Matcher.len, isStar], fun _ _ => rfl, nofun, nofun, fun _ => ⟨rfl, rfl⟩⟩
    · rename_i h
      refine ⟨?_, rfl, by simp [Matcher.len, isStar], fun _ _ => rfl, ?_, nofun, nofun⟩
      · have : seps ≠ [] := by rintro rfl; simp at h
        simpa [elem] using this
      · intro e
        simp only [badIdx, decide_eq_true_eq] at e
        exact ⟨seps, rfl, rfl, e⟩
  | super => exact ⟨rfl, rfl, by simp [matcherOf, Matcher.len, isStar], fun _ _ => rfl, nofun, nofun, fun _ => ⟨rfl, rfl⟩⟩
  | single => exact ⟨rfl, rfl, by simp [matcherOf, Matcher.len, isStar, varying], nofun, nofun, nofun, nofun⟩
  | range nt lo hi => exact ⟨rfl, rfl, by simp [matcherOf, Matcher.len, isStar, varying], nofun, nofun, nofun, nofun⟩
  | list nt cs =>
    rw [matcherOf]
    split
    · rename_i h
      simp only [Bool.and_eq_true, decide_eq_true_eq, List.length_map] at h
      obtain ⟨rfl, h⟩ := h
      obtain ⟨c, rfl⟩ := List.length_eq_one_iff.1 h
      refine ⟨?_, rfl, by simp [Matcher.len, isStar, varying], nofun, nofun, ?_, nofun⟩
      · have := List.length_pos_iff.1 (encodeRune_pos c.rune)
        simpa [elem] using this
      · intro s h; simpa [theText] using h
    · rename_i h
      refine ⟨?_, ?_, by simp [Matcher.len, isStar, varying], nofun, nofun, nofun, nofun⟩
      · cases nt
        · simpa [elem] using h
        · rfl
      · cases nt <;> rfl
  | alts p ps =>
    obtain ⟨h1, h2, q, hq, hne⟩ := flat_alts hok hf
    refine ⟨?_, rfl, ?_, ?_, ?_, nofun, nofun⟩
    · rw [matcherOf]
      refine leafAlts_elem (altMatchers_leaf _) ?_ (altMatchers_pos hq hne)
      have := List.length_pos_iff.2 (List.ne_nil_of_mem hq)
      simp; omega
    · rw [matcherOf, alts_len_none]; simp [isStar]
    · intro hl he
      rw [matcherOf] at hl he
      rw [alts_len_none] at hl
      simp only [mayBeEmpty, hl, Bool.true_and, List.any_eq_true]
      have hd := anyOf_dec (ms := (p :: ps).map altMatcher) (s := []) (fun m hm => by
        obtain ⟨x, _, rfl⟩ := List.mem_map.1 hm
        refine goodE_ok _ ?_
        unfold altMatcher
        split <;> rfl)
      obtain ⟨b, e1, e2⟩ := hd
      rw [Matcher.match] at he
      have he := e1.symm.trans he
      simp only [Option.some.injEq] at he
      have := e2.1 he
      rw [langSome_iff] at this
      obtain ⟨m, hm, hL⟩ := this
      obtain ⟨x, hx, rfl⟩ := List.mem_map.1 hm
      refine ⟨x, hx, ?_⟩
      unfold altMatcher at hL
      split at hL
      · assumption
      · rw [MLang] at hL; rw [← hL]; rfl
    · intro e
      rw [matcherOf, badIdx, altMatchers_leaf] at e
      cases e

theorem glue_stars {seps : List Nat} {a b : Term} (ha : isStar a = true) (hb : isStar b = true) (h : excludes seps a = excludes seps b) :
    glueMatchers [matcherOf seps a, matcherOf seps b] ≠ none := by
  have key : ∀ t, isStar t = true → ∃ s, excludes seps t = some s ∧ matcherOf seps t = if s.length = 0 then .super else .any s := by
    intro t ht
    cases t <;> simp only [isStar, Bool.false_eq_true] at ht
    · exact ⟨seps, rfl, rfl⟩
    · exact ⟨[], rfl, rfl⟩
  obtain ⟨s, e1, e2⟩ := key a ha
  obtain ⟨s', e1', e2'⟩ := key b hb
  rw [e1, e1', Option.some.injEq] at h
  subst h
  rw [e2, e2']
  split
  · simp [glueMatchers, glueMatchersAsEvery, gluable, glueLoop, Runes.equal]
  · have : Runes.equal s s = true := Runes.equal_iff.2 rfl
    simp [glueMatchers, glueMatchersAsEvery, gluable, glueLoop, this]

theorem fine_of_terms {seps : List Nat} {a b : Term} (fa : TermFacts seps a (matcherOf seps a)) (fb : TermFacts seps b (matcherOf seps b)) (h : fineTerms seps a b = true) :
    Fine (matcherOf seps a) (matcherOf seps b) := by
  simp only [fineTerms, Bool.and_eq_true, Bool.not_eq_true', Bool.and_eq_false_iff] at h
  obtain ⟨⟨h1, h2⟩, h3⟩ := h
  rintro (⟨s, k, k', e1, e2, e3⟩ | ⟨e1, e2, e3, e4, e5⟩ | ⟨e1, e2, e3⟩)
  · have ea := fa.glue
    have eb := fb.glue
    rw [e1] at ea
    rw [e2] at eb
    simp only [Option.map_some] at ea eb
    rw [← ea, ← eb] at h1
    simp at h1
    omega
  · have ma := fa.empty e1 e3
    have mb := fb.empty e2 e4
    rw [ma, mb] at h2
    simp only [Bool.true_eq_false, Bool.not_eq_false', Bool.and_eq_true, beq_iff_eq, false_or] at h2
    exact glue_stars h2.1.1 h2.1.2 h2.2 e5
  · obtain ⟨s, sa, ea, e2⟩ := fa.idx e2
    rw [sa, ea] at h3
    have hb : ((excludes seps b).isSome || varying b) = true ∨ isStar b = true := by
      rcases e3 with e3 | e3
      · left
        rw [← fb.glue]
        obtain ⟨x, hx⟩ := Option.ne_none_iff_exists'.1 e3
        simp [hx]
      · rcases fb.len.1 e3 with h | h
        · exact Or.inr h
        · left; simp [h]
    have hb' : ((excludes seps b).isSome || varying b) = true := by
      rcases hb with h | h
      · exact h
      · cases b <;> simp only [isStar, Bool.false_eq_true] at h <;> rfl
    rw [Bool.or_eq_true] at hb'
    simp at h3
    rcases h3 with h3 | h3
    · omega
    · rcases hb' with h | h
      · rw [h3.1] at h; cases h
      · rw [h3.2] at h; cases h

theorem okTerms_mem {b : Bool} {ts : List Term} (h : okTerms b ts = true) : ∀ t ∈ ts, t.ok b = true := by
  induction ts with
  | nil => simp
  | cons t ts ih =>
    simp only [okTerms, Bool.and_eq_true] at h
    intro x hx
    rcases List.mem_cons.1 hx with rfl | hx
    · exact h.1.1
    · exact ih h.2 x hx

theorem chain_terms {seps : List Nat} : ∀ {ts : List Term}, (∀ t ∈ ts, TermFacts seps t (matcherOf seps t)) → neighbours seps ts = true →
    (ts.map (matcherOf seps)).IsChain Fine
  | [], _, _ => by simp
  | [_], _, _ => by simp
  | a :: b :: ts, hf, h => by
    simp only [neighbours, Bool.and_eq_true] at h
    rw [List.map_cons, List.map_cons, List.isChain_cons_cons]
    exact ⟨fine_of_terms (hf a (by simp)) (hf b (by simp)) h.1, chain_terms (fun t ht => hf t (List.mem_cons_of_mem _ ht)) h.2⟩

theorem ends_terms {seps : List Nat} {ts : List Term} (hf : ∀ t ∈ ts, TermFacts seps t (matcherOf seps t)) (h : endsApart seps ts = true) {p q : Str}
    (hp : PrefSuf (ts.map (matcherOf seps)) p q) : noOverlap p q = true := by
  obtain ⟨mid, e, h1, h2⟩ := hp
  rw [List.map_eq_cons_iff] at e
  obtain ⟨t0, rest, rfl, e0, e⟩ := e
  rw [List.map_eq_append_iff] at e
  obtain ⟨tm, tl, rfl, em, el⟩ := e
  rw [List.map_eq_singleton_iff] at el
  obtain ⟨t1, rfl, el⟩ := el
  have f0 := (hf t0 (by simp)).text p e0
  have f1 := (hf t1 (by simp)).text q el
  have hl : (t0 :: (tm ++ [t1])).getLast? = some t1 := by
    rw [← List.cons_append, List.getLast?_append]; rfl
  unfold endsApart at h
  rw [hl] at h
  simp only [List.head?_cons, Option.bind_some, f0, f1, List.tail_cons, List.dropLast_concat, Bool.or_eq_true, Bool.not_eq_true', Bool.and_eq_false_iff, decide_eq_false_iff_not] at h
  rcases h with (h | h) | h
  · exfalso
    have : tm ≠ [] := by rintro rfl; exact h1 em.symm
    have := List.length_pos_iff.2 this
    simp only [List.length_cons, List.length_append, List.length_nil] at h
    omega
  · exfalso
    rw [List.all_eq_false] at h
    obtain ⟨t, ht, hne⟩ := h
    have := (hf t (by simp [ht])).super (h2 _ (by rw [← em]; exact List.mem_map_of_mem ht))
    rw [this.1, this.2] at hne
    simp at hne
  · exact h

theorem one_goodE {seps : List Nat} {t : Term} {b : Bool} (hok : t.ok b = true) (hf : flatTerm t = true) (h : emptyOk seps [t] = true) : goodE (matcherOf seps t) = true := by
  cases t with
  | chars cs => rfl
  | any => rw [matcherOf]; split <;> rfl
  | super => rfl
  | single => exact h
  | range nt lo hi =>
    simp only [emptyOk, beq_iff_eq] at h
    simp only [matcherOf, goodE, inRange, runeError]
    clear hok hf
    by_cases h1 : lo ≤ 0xFFFD <;> by_cases h2 : 0xFFFD ≤ hi <;> simp [h1, h2] at h ⊢ <;> simp [h]
  | list nt cs =>
    simp only [emptyOk, Bool.not_eq_true'] at h
    subst h
    rw [matcherOf]
    split
    · rfl
    · simp only [Term.ok, Bool.and_eq_true] at hok
      simp only [goodE, inList]
      have : (cs.map Ch.rune).contains runeError = false := by
        rw [Bool.eq_false_iff]
        intro hc
        rw [List.contains_iff_mem, List.mem_map] at hc
        obtain ⟨c, hc, he⟩ := hc
        have := Ch.ok_good (List.all_eq_true.1 hok.2 c hc)
        rw [he] at this
        revert this; decide
      rw [this]; rfl
  | alts p ps =>
    rw [matcherOf, goodE, goodEs_iff]
    intro m hm
    obtain ⟨x, _, rfl⟩ := List.mem_map.1 hm
    unfold altMatcher
    split <;> rfl

/-- C57 for patterns written as documented that satisfy `flatOk`, and ASCII subjects: `Compile` gives a matcher, and `Match` decides the documented language of the
pattern. A pattern that is only `?` or only a class is excepted for the empty string. Missing: the patterns and subjects for which it is false (see
`C57_false`), and those that are not covered: other braces, `*` before another wildcard when there are several separators, subjects that are not ASCII. -/
theorem C57_flat_partial (seps : List Nat) (ts : List Term) (h : flatOk seps ts = true) : ∃ m, globCompile (writeTerms ts) seps = .ok m ∧
    ∀ s, Ascii s → s ≠ [] ∨ emptyOk seps ts = true → ∃ b, m.match s = some b ∧ (b = true ↔ TermsLang seps ts (s.map UInt8.toNat)) := by
  simp only [flatOk, Bool.and_eq_true] at h
  obtain ⟨⟨⟨hok, hflat⟩, hn⟩, hends⟩ := h
  obtain ⟨m, hm⟩ := compile_total seps _ (.pattern (nodes ts)) (Nat.le_refl _)
  refine ⟨m, by rw [globCompile, C75_parse_documented ts hok]; exact hm, ?_⟩
  have himp := compile_implements seps _ _ _ hm
  have hgood : good m = true ∧ (emptyOk seps ts = true → goodE m = true) := by
    have hterm : ∀ t ∈ ts, t.ok false = true ∧ flatTerm t = true := fun t ht => ⟨okTerms_mem hok t ht, List.all_eq_true.1 hflat t ht⟩
    have hfacts : ∀ t ∈ ts, TermFacts seps t (matcherOf seps t) := fun t ht => term_facts (hterm t ht).1 (hterm t ht).2
    have hpos := Node.size_pos (.pattern (nodes ts))
    obtain ⟨n, hn'⟩ : ∃ n, (Node.pattern (nodes ts)).size = n + 1 := ⟨_, (Nat.succ_pred_eq_of_pos hpos).symm⟩
    rw [hn'] at hm
    simp only [compile] at hm
    split at hm
    · simp only [Res.ok.injEq] at hm
      subst hm; exact ⟨rfl, fun _ => rfl⟩
    · split at hm <;> try cases hm
      rename_i ms hms
      rw [nodes_eq] at hms
      have := compileChildren_map (k := matcherOf seps) (fun x hx m hm => compile_term (hterm x hx).1 (hterm x hx).2 hm) hms
      subst this
      split at hm <;> try cases hm
      rename_i ns hns
      split at hm
      · rename_i m' hm'
        simp only [Res.ok.injEq] at hm
        subst hm
        obtain ⟨g1, g2⟩ := sequence_good (fun x hx => by
          obtain ⟨t, ht, rfl⟩ := List.mem_map.1 hx
          exact (hfacts t ht).el) (chain_terms hfacts hn) hns hm' (fun p q => ends_terms hfacts hends)
        refine ⟨g1, fun he => g2 fun e hone => ?_⟩
        rw [List.map_eq_singleton_iff] at hone
        obtain ⟨t, rfl, rfl⟩ := hone
        exact one_goodE (hterm t (by simp)).1 (hterm t (by simp)).2 he
      · rename_i hno; exact absurd hm (hno m)
  intro s ha hs
  have hd : Dec m.match (MLang m) s := by
    rcases hs with hs | hs
    · exact (good_ok m).1 hgood.1 s ha hs
    · exact wellBehaved_ok (by rw [wellBehaved, hgood.1, hgood.2 hs]; rfl) ha
  obtain ⟨b, e1, e2⟩ := hd
  exact ⟨b, e1, e2.trans ((himp s ha).trans (pattern_lang hok))⟩

end Verif.Glob
