import Verif.Glob.RuneStr
import Verif.Glob.GlobLang
/-
The language of a matcher on lists of runes: what it is meant to match in UTF-8 encoded strings, and that the compiler preserves it. As `Verif.Glob.Lang` and
`Verif.Glob.CompileLang`, which are for ASCII strings.
-/
namespace Verif.Glob

/-- Runes as they are after encoding: the same, unless they are not Unicode scalar values. -/
def norm (rs : List Nat) : List Nat := runesIn (enc rs)

theorem norm_eq {rs : List Nat} (h : Scalars rs) : norm rs = rs := runesIn_enc h

@[simp] theorem norm_nil : norm [] = [] := rfl

theorem norm_one (r : Nat) : ∃ x, norm [r] = [x] := by
  by_cases h : validRune r = true
  · exact ⟨r, norm_eq (by intro x hx; simp at hx; subst hx; exact h)⟩
  · have : enc [r] = [0xEF, 0xBF, 0xBD] := by
      rw [enc_singleton]
      simp [validRune] at h
      unfold encodeRune
      rw [if_neg (by omega), if_neg (by omega), if_pos (by simp; omega)]
    exact ⟨0xFFFD, by rw [norm, this]; decide⟩

mutual
/-- The language of a matcher. -/
def RLang : Matcher → List Nat → Prop
  | .nothing, w => w = []
  | .text t, w => w = runesIn t
  | .any seps, w => ∀ r ∈ w, r ∉ norm seps
  | .super, _ => True
  | .single seps, w => ∃ r, w = [r] ∧ r ∉ norm seps
  | .list rs not, w => ∃ r, w = [r] ∧ inList (norm rs) not r = true
  | .range lo hi not, w => ∃ r, w = [r] ∧ inRange lo hi not r = true
  | .min n, w => n ≤ w.length
  | .max n, w => w.length ≤ n
  | .contains needle not, w => if not then ∀ r ∈ w, r ∉ runesIn needle else ∃ a c, w = a ++ runesIn needle ++ c
  | .prefix p, w => ∃ c, w = runesIn p ++ c
  | .suffix q, w => ∃ a, w = a ++ runesIn q
  | .prefixSuffix p q, w => ∃ b, w = runesIn p ++ b ++ runesIn q
  | .prefixAny p seps, w => ∃ c, w = runesIn p ++ c ∧ ∀ r ∈ c, r ∉ norm seps
  | .suffixAny q seps, w => ∃ a, w = a ++ runesIn q ∧ ∀ r ∈ a, r ∉ norm seps
  | .anyOf ms, w => RSome ms w
  | .everyOf ms, w => RAll ms w
  | .row _ ms, w => RSeq ms w
  | .btree v l r _ _ _, w => ∃ a b c, w = a ++ b ++ c ∧ ROpt l a ∧ RLang v b ∧ ROpt r c
/-- A side of a BTree. -/
def ROpt : Option Matcher → List Nat → Prop
  | none, w => w = []
  | some m, w => RLang m w
/-- One of the matchers. -/
def RSome : List Matcher → List Nat → Prop
  | [], _ => False
  | m :: ms, w => RLang m w ∨ RSome ms w
/-- All matchers. -/
def RAll : List Matcher → List Nat → Prop
  | [], _ => True
  | m :: ms, w => RLang m w ∧ RAll ms w
/-- The matchers one after the other. -/
def RSeq : List Matcher → List Nat → Prop
  | [], w => w = []
  | m :: ms, w => ∃ a c, w = a ++ c ∧ RLang m a ∧ RSeq ms c
end

theorem rSome_iff {ms : List Matcher} {s : List Nat} : RSome ms s ↔ ∃ m ∈ ms, RLang m s := by
  induction ms with
  | nil => simp [RSome]
  | cons m ms ih => simp [RSome, ih]

theorem rAll_iff {ms : List Matcher} {s : List Nat} : RAll ms s ↔ ∀ m ∈ ms, RLang m s := by
  induction ms with
  | nil => simp [RAll]
  | cons m ms ih => simp [RAll, ih]

theorem rSeq_append {ms ns : List Matcher} {s : List Nat} : RSeq (ms ++ ns) s ↔ ∃ a c, s = a ++ c ∧ RSeq ms a ∧ RSeq ns c := by
  induction ms generalizing s with
  | nil =>
    simp only [List.nil_append, RSeq]
    constructor
    · intro h; exact ⟨[], s, rfl, rfl, h⟩
    · rintro ⟨a, c, rfl, rfl, h⟩; exact h
  | cons m ms ih =>
    simp only [List.cons_append, RSeq]
    constructor
    · rintro ⟨a, c, rfl, h1, h2⟩
      obtain ⟨a', c', rfl, h3, h4⟩ := ih.1 h2
      exact ⟨a ++ a', c', by simp, ⟨a, a', rfl, h1, h3⟩, h4⟩
    · rintro ⟨a, c, rfl, ⟨a', c', rfl, h1, h2⟩, h3⟩
      exact ⟨a', c' ++ c, by simp, h1, ih.2 ⟨c', c, rfl, h2, h3⟩⟩

theorem rSeq_singleton {m : Matcher} {s : List Nat} : RSeq [m] s ↔ RLang m s := by
  simp only [RSeq]
  constructor
  · rintro ⟨a, c, rfl, h, rfl⟩; simpa using h
  · intro h; exact ⟨s, [], by simp, h, rfl⟩

/-! ### Optimising a matcher -/

theorem optimizeBTree_rlang (v : Matcher) (l r : Option Matcher) (ll rl len : Option Nat) (s : List Nat) :
    RLang (optimizeBTree v l r ll rl len) s ↔ RLang (.btree v l r ll rl len) s := by
  unfold optimizeBTree
  cases v <;> try rfl
  case text t =>
  simp only
  split
  · simp only [RLang, ROpt]
    constructor
    · rintro rfl; exact ⟨[], runesIn t, [], by simp, rfl, rfl, rfl⟩
    · rintro ⟨_, _, _, rfl, rfl, rfl, rfl⟩; simp
  · simp only [RLang, ROpt, Bool.false_eq_true, if_false]
    constructor
    · rintro ⟨a, c, rfl⟩; exact ⟨a, runesIn t, c, by simp, trivial, rfl, trivial⟩
    · rintro ⟨a, _, c, rfl, _, rfl, _⟩; exact ⟨a, c, rfl⟩
  · simp only [RLang, ROpt]
    constructor
    · rintro ⟨a, rfl⟩; exact ⟨a, runesIn t, [], by simp, trivial, rfl, rfl⟩
    · rintro ⟨a, _, _, rfl, _, rfl, rfl⟩; exact ⟨a, by simp⟩
  · simp only [RLang, ROpt]
    constructor
    · rintro ⟨a, rfl⟩; exact ⟨[], runesIn t, a, by simp, rfl, rfl, trivial⟩
    · rintro ⟨_, _, a, rfl, rfl, rfl, _⟩; exact ⟨a, by simp⟩
  · simp only [RLang, ROpt]
    constructor
    · rintro ⟨a, rfl⟩; exact ⟨[], runesIn t, _, by rw [List.nil_append, List.append_assoc], rfl, rfl, a, rfl⟩
    · rintro ⟨_, _, _, rfl, rfl, rfl, a, rfl⟩; exact ⟨a, by simp⟩
  · simp only [RLang, ROpt]
    constructor
    · rintro ⟨a, rfl⟩; exact ⟨_, runesIn t, [], by rw [List.append_nil], ⟨a, rfl⟩, rfl, rfl⟩
    · rintro ⟨_, _, _, rfl, ⟨a, rfl⟩, rfl, rfl⟩; exact ⟨a, by simp⟩
  · simp only [RLang, ROpt]
    constructor
    · rintro ⟨a, rfl, h⟩; exact ⟨a, runesIn t, [], by simp, h, rfl, rfl⟩
    · rintro ⟨a, _, _, rfl, h, rfl, rfl⟩; exact ⟨a, by simp, h⟩
  · simp only [RLang, ROpt]
    constructor
    · rintro ⟨a, rfl, h⟩; exact ⟨[], runesIn t, a, by simp, rfl, rfl, h⟩
    · rintro ⟨_, _, a, rfl, rfl, rfl, h⟩; exact ⟨a, by simp, h⟩
  · rfl

theorem optimize_rlang (m : Matcher) : ∀ s, (RLang (optimizeMatcher m) s ↔ RLang m s) := by
  induction m using Matcher.ind with
  | h m ih =>
  intro s
  cases m <;> try rfl
  case any seps =>
    rw [optimizeMatcher]
    split
    · rename_i h
      have : seps = [] := List.length_eq_zero_iff.1 h
      subst this; simp [RLang]
    · rfl
  case anyOf ms =>
    rcases ms with _ | ⟨m, _ | ⟨m', ms⟩⟩
    · rfl
    · simp [optimizeMatcher, RLang, RSome]
    · rfl
  case list rs n =>
    rw [optimizeMatcher]
    split
    · rename_i h
      simp only [Bool.and_eq_true, decide_eq_true_eq] at h
      obtain ⟨rfl, h⟩ := h
      obtain ⟨r, rfl⟩ := List.length_eq_one_iff.1 h
      simp only [RLang, List.flatMap_cons, List.flatMap_nil, List.append_nil]
      have e : encodeRune r = enc [r] := (enc_singleton r).symm
      obtain ⟨x, hx⟩ := norm_one r
      rw [e, ← norm, hx]
      simp [inList]
    · rfl
  case btree v l r ll rl len =>
    rw [optimizeMatcher, optimizeBTree_rlang, RLang, RLang]
    have side : ∀ o : Option Matcher, (∀ c ∈ o, c ∈ (Matcher.btree v l r ll rl len).children) → ∀ s, (ROpt (optimizeOpt o) s ↔ ROpt o s) := by
      intro o ho s
      cases o with
      | none => rfl
      | some c => rw [optimizeOpt, ROpt, ROpt]; exact ih c (ho c rfl) s
    have hl := side l fun c hc => by simp only [Option.mem_def] at hc; simp [Matcher.children, hc]
    have hr := side r fun c hc => by simp only [Option.mem_def] at hc; simp [Matcher.children, hc]
    constructor
    · rintro ⟨a, b, c, rfl, h1, h2, h3⟩
      exact ⟨a, b, c, rfl, (hl a).1 h1, h2, (hr c).1 h3⟩
    · rintro ⟨a, b, c, rfl, h1, h2, h3⟩
      exact ⟨a, b, c, rfl, (hl a).2 h1, h2, (hr c).2 h3⟩

/-! ### Gluing matchers -/

/-- Sequences of gluable matchers with the same separators: `k` single runes and, if `star`, runs of runes. -/
def RStar (sep : List Nat) (k : Nat) (star : Bool) (s : List Nat) : Prop :=
  (∀ b ∈ s, b ∉ norm sep) ∧ k ≤ s.length ∧ (star = true ∨ s.length = k)

theorem rStar_cons_star {sep : List Nat} {k : Nat} {star : Bool} {s : List Nat} :
    (∃ a c, s = a ++ c ∧ (∀ b ∈ a, b ∉ norm sep) ∧ RStar sep k star c) ↔ RStar sep k true s := by
  constructor
  · rintro ⟨a, c, rfl, h1, h2, h3, h4⟩
    refine ⟨?_, by simp; omega, Or.inl rfl⟩
    intro b hb
    rcases List.mem_append.1 hb with h | h
    · exact h1 b h
    · exact h2 b h
  · rintro ⟨h1, h2, _⟩
    refine ⟨s.take (s.length - k), s.drop (s.length - k), (List.take_append_drop _ _).symm, fun b hb => h1 b (List.mem_of_mem_take hb),
      fun b hb => h1 b (List.mem_of_mem_drop hb), ?_, Or.inr ?_⟩ <;> rw [List.length_drop] <;> omega

theorem rStar_cons_single {sep : List Nat} {k : Nat} {star : Bool} {s : List Nat} :
    (∃ a c, s = a ++ c ∧ (∃ b : Nat, a = [b] ∧ b ∉ norm sep) ∧ RStar sep k star c) ↔ RStar sep (k + 1) star s := by
  constructor
  · rintro ⟨_, c, rfl, ⟨b, rfl, h1⟩, h2, h3, h4⟩
    refine ⟨?_, by simp; omega, ?_⟩
    · intro b' hb
      rcases List.mem_append.1 hb with h | h
      · rw [List.mem_singleton] at h; subst h; exact h1
      · exact h2 b' h
    · rcases h4 with h | h
      · exact Or.inl h
      · right; simp; omega
  · rintro ⟨h1, h2, h3⟩
    cases s with
    | nil => simp at h2
    | cons b s =>
      refine ⟨[b], s, rfl, ⟨b, rfl, h1 b (by simp)⟩, fun b' hb => h1 b' (by simp [hb]), by simpa using h2, ?_⟩
      rcases h3 with h | h
      · exact Or.inl h
      · right; simpa using h

theorem glueLoop_rlang (sep : List Nat) : ∀ (ms : List Matcher) (hA hS hG : Bool) (n : Nat) (A S G : Bool) (N : Nat),
    glueLoop sep ms (hA, hS, hG, n) = some (A, S, G, N) →
    ∃ k star, N = n + k ∧ (A || S) = (hA || hS || star) ∧ G = (hG || decide (0 < k)) ∧ (S = true → hS = true ∨ sep = []) ∧
      (ms ≠ [] → star = true ∨ 0 < k) ∧ ∀ s, RSeq ms s ↔ RStar sep k star s
  | [], hA, hS, hG, n, A, S, G, N, h => by
    simp only [glueLoop, Option.some.injEq, Prod.mk.injEq] at h
    obtain ⟨rfl, rfl, rfl, rfl⟩ := h
    refine ⟨0, false, rfl, by simp, by simp, fun h => Or.inl h, fun h => absurd rfl h, fun s => ?_⟩
    rw [RSeq, RStar]
    constructor
    · rintro rfl; simp
    · rintro ⟨_, _, h⟩
      simpa using h
  | m :: ms, hA, hS, hG, n, A, S, G, N, h => by
    simp only [glueLoop] at h
    cases hg : gluable m with
    | none => rw [hg] at h; cases h
    | some sk =>
      obtain ⟨sp, kind⟩ := sk
      rw [hg] at h
      simp only at h
      split at h
      · rename_i heq
        rw [Runes.equal_iff] at heq
        subst heq
        have hone : ∀ (m : Matcher), gluable m = some (sp, .single) → ∀ s, (RLang m s ↔ ∃ b : Nat, s = [b] ∧ b ∉ norm sp) := by
          intro m hm s
          cases m <;> simp only [gluable, Option.some.injEq, Prod.mk.injEq, reduceCtorEq, and_false] at hm
          · obtain ⟨rfl, _⟩ := hm; rw [RLang]
          · rename_i rs nt
            cases nt with
            | false => simp at hm
            | true =>
              simp only [Bool.not_true, Bool.false_eq_true, if_false, Option.some.injEq, Prod.mk.injEq, and_true] at hm
              subst hm; simp [RLang, inList]
        cases kind with
        | super =>
          have hm : m = .super ∧ sp = [] := by
            cases m <;> simp only [gluable, Option.some.injEq, Prod.mk.injEq, reduceCtorEq, and_false] at hg
            · exact ⟨rfl, hg.1.symm⟩
            · split at hg <;> simp at hg
          obtain ⟨rfl, rfl⟩ := hm
          obtain ⟨k, star, h1, h2, h3, h4, h5, h6⟩ := glueLoop_rlang [] ms _ _ _ _ _ _ _ _ h
          refine ⟨k, true, h1, by rw [h2]; simp, h3, fun _ => Or.inr rfl, fun _ => Or.inl rfl, fun s => ?_⟩
          rw [RSeq, ← rStar_cons_star (star := star)]
          simp [h6, RLang]
        | any =>
          have hm : m = .any sp := by
            cases m <;> simp only [gluable, Option.some.injEq, Prod.mk.injEq, reduceCtorEq, and_false] at hg
            · rw [hg.1]
            · split at hg <;> simp at hg
          subst hm
          obtain ⟨k, star, h1, h2, h3, h4, h5, h6⟩ := glueLoop_rlang sp ms _ _ _ _ _ _ _ _ h
          refine ⟨k, true, h1, by rw [h2]; simp, h3, h4, fun _ => Or.inl rfl, fun s => ?_⟩
          rw [RSeq, ← rStar_cons_star (star := star)]
          simp only [h6, RLang]
        | single =>
          obtain ⟨k, star, h1, h2, h3, h4, h5, h6⟩ := glueLoop_rlang sp ms _ _ _ _ _ _ _ _ h
          refine ⟨k + 1, star, by omega, h2, by rw [h3]; simp, h4, fun _ => Or.inr (by omega), fun s => ?_⟩
          rw [RSeq, ← rStar_cons_single]
          simp only [h6, hone m hg]
      · cases h

theorem glueEvery_rlang {ms : List Matcher} {m : Matcher} (h : glueMatchersAsEvery ms = some m) {s : List Nat} : RLang m s ↔ RSeq ms s := by
  unfold glueMatchersAsEvery at h
  split at h
  · cases h
  · cases h
  · rename_i m0 rest hne
    split at h
    · cases h
    · rename_i sep kind hg
      split at h
      · cases h
      · rename_i A S G N hl
        obtain ⟨k, star, h1, h2, h3, h4, h5, h6⟩ := glueLoop_rlang sep _ _ _ _ _ _ _ _ _ hl
        simp only [Bool.false_or, Nat.zero_add, Bool.false_eq_true, false_or] at h1 h2 h3 h4
        replace h5 := h5 (by simp)
        rw [h6]
        subst h1
        split at h
        · rename_i hc
          simp only [Bool.and_eq_true, Bool.not_eq_true'] at hc
          obtain ⟨⟨hS, hA⟩, hG⟩ := hc
          simp only [Option.some.injEq] at h
          subst h
          rw [hG] at h3
          have hk : N = 0 := by simpa using h3.symm
          have := h4 hS
          subst this hk
          have : star = true := by simpa using h5
          simp [RLang, RStar, this]
        · rename_i hc1
          split at h
          · rename_i hc
            simp only [Bool.and_eq_true, Bool.not_eq_true'] at hc
            obtain ⟨⟨hA, hS⟩, hG⟩ := hc
            simp only [Option.some.injEq] at h
            subst h
            rw [hG] at h3
            have hk : N = 0 := by simpa using h3.symm
            subst hk
            have : star = true := by simpa using h5
            simp [RLang, RStar, this]
          · rename_i hc2
            split at h
            · rename_i hc
              simp only [Bool.and_eq_true, decide_eq_true_eq] at hc
              obtain ⟨⟨h7, h8⟩, h9⟩ := hc
              have : sep = [] := List.length_eq_zero_iff.1 h9
              subst this
              rw [h2] at h7
              simp only [Option.some.injEq] at h
              subst h
              simp [RLang, RStar, h7]
            · rename_i hc3
              simp only [Option.some.injEq] at h
              subst h
              rw [RLang, rAll_iff]
              have hcont : (∀ m ∈ (if sep.length > 0 then [Matcher.contains (sep.flatMap encodeRune) true] else []), RLang m s) ↔ ∀ b ∈ s, b ∉ norm sep := by
                split
                · simp only [List.mem_singleton, forall_eq, RLang, if_true]
                  rfl
                · rename_i h
                  have : sep = [] := List.length_eq_zero_iff.1 (by omega)
                  subst this; simp [norm_nil]
              simp only [List.mem_append, or_imp, forall_and, hcont]
              unfold RStar
              by_cases hN : 0 < N
              · have hG : G = true := by rw [h3]; simpa using hN
                rw [if_pos hN]
                cases hAS : (!A && !S)
                · have hst : star = true := by rw [← h2]; revert hAS; cases A <;> cases S <;> simp
                  simp only [Bool.false_eq_true, if_false, List.append_nil, List.mem_singleton, forall_eq, RLang, hst]
                  constructor
                  · rintro ⟨h7, h8⟩; exact ⟨h8, h7, by simp⟩
                  · rintro ⟨h7, h8, _⟩; exact ⟨h8, h7⟩
                · have hst : star = false := by rw [← h2]; revert hAS; cases A <;> cases S <;> simp
                  simp only [if_true, List.cons_append, List.nil_append, List.mem_cons, List.not_mem_nil, or_false, forall_eq_or_imp, forall_eq, RLang, hst, Bool.false_eq_true, false_or]
                  constructor
                  · rintro ⟨⟨h7, h8⟩, h9⟩; exact ⟨h9, h7, by omega⟩
                  · rintro ⟨h7, h8, h9⟩; exact ⟨⟨h8, by omega⟩, h7⟩
              · have hN0 : N = 0 := by omega
                subst hN0
                have hst : star = true := by simpa using h5
                subst hst
                simp
    
theorem glue_rlang {ms : List Matcher} {m : Matcher} (h : glueMatchers ms = some m) {s : List Nat} : RLang m s ↔ RSeq ms s := by
  unfold glueMatchers at h
  split at h
  · rename_i m' h'
    simp only [Option.some.injEq] at h
    subst h; exact glueEvery_rlang h'
  · unfold glueMatchersAsRow at h
    split at h
    · cases h
    · rw [Option.map_eq_some_iff] at h
      obtain ⟨l, _, rfl⟩ := h
      rw [RLang]

/-! ### Compiling and minimising a sequence of matchers -/

theorem newBTree_rlang (v : Matcher) (l r : Option Matcher) (s : List Nat) :
    RLang (newBTree v l r) s ↔ ∃ a b c, s = a ++ b ++ c ∧ ROpt l a ∧ RLang v b ∧ ROpt r c := by
  unfold newBTree
  rw [RLang]

theorem compileMatchers_rlang : ∀ (n : Nat) (ms : List Matcher) (m : Matcher), compileMatchers n ms = .ok m → ∀ s, (RLang m s ↔ RSeq ms s)
  | 0, ms, m, h => by cases h
  | n + 1, ms, m, h => by
    intro s
    unfold compileMatchers at h
    split at h
    · cases h
    · simp only [Res.ok.injEq] at h
      subst h; exact rSeq_singleton.symm
    · rename_i m0 rest hne
      split at h
      · rename_i g hg
        simp only [Res.ok.injEq] at h
        subst h; exact glue_rlang hg
      · split at h
        · split at h
          · rename_i r hr
            simp only [Res.ok.injEq] at h
            subst h
            rw [newBTree_rlang, RSeq]
            have ih := compileMatchers_rlang n rest r hr
            simp only [ROpt]
            constructor
            · rintro ⟨_, b, c, rfl, rfl, h1, h2⟩
              exact ⟨b, c, rfl, h1, (ih c).1 h2⟩
            · rintro ⟨b, c, rfl, h1, h2⟩
              exact ⟨[], b, c, rfl, rfl, h1, (ih c).2 h2⟩
          · rename_i hno
            exact absurd h (hno m)
        · rename_i idx l hidx
          simp only at h
          split at h
          · cases h
          · rename_i val hval
            have side : ∀ (part : List Matcher) (o : Option Matcher), (if part.isEmpty then Res.ok none else match compileMatchers n part with
              | .ok l => .ok (some l)
              | .err e => .err e
              | .panic => .panic
              | .steps => .steps) = Res.ok o → ∀ s, (ROpt o s ↔ RSeq part s) := by
              intro part o ho s
              split at ho
              · rename_i he
                rw [List.isEmpty_iff] at he
                simp only [Res.ok.injEq] at ho
                subst ho he; rw [ROpt, RSeq]
              · split at ho <;> simp only [Res.ok.injEq, reduceCtorEq] at ho
                rename_i l' hl'
                subst ho
                rw [ROpt]; exact compileMatchers_rlang n part l' hl' s
            split at h <;> try cases h
            rename_i lo hlo
            split at h <;> try cases h
            rename_i ro hro
            have hL := side _ _ hlo
            have hR := side _ _ hro
            have hsplit : m0 :: rest = (m0 :: rest).take idx ++ (val :: (m0 :: rest).drop (idx + 1)) := by
              have hlt : idx < (m0 :: rest).length := by
                by_contra hc
                rw [List.getElem?_eq_none (by omega)] at hval; cases hval
              rw [List.getElem?_eq_getElem hlt, Option.some.injEq] at hval
              rw [← hval, List.getElem_cons_drop, List.take_append_drop]
            rw [newBTree_rlang]
            conv_rhs => rw [hsplit]
            rw [rSeq_append]
            simp only [RSeq]
            constructor
            · rintro ⟨a, b, c, rfl, h1, h2, h3⟩
              exact ⟨a, b ++ c, by simp, (hL a).1 h1, b, c, rfl, h2, (hR c).1 h3⟩
            · rintro ⟨a, _, rfl, h1, b, c, rfl, h2, h3⟩
              exact ⟨a, b, c, by simp, (hL a).2 h1, h2, (hR c).2 h3⟩

theorem rSeq_congr_mid {as bs ms cs : List Matcher} (h : ∀ s, (RSeq ms s ↔ RSeq bs s)) {s : List Nat} :
    RSeq (as ++ ms ++ cs) s ↔ RSeq (as ++ bs ++ cs) s := by
  rw [rSeq_append, rSeq_append]
  constructor
  all_goals
    rintro ⟨x, z, rfl, hx, hz⟩
    rw [rSeq_append] at hx
    obtain ⟨x, y, rfl, hx, hy⟩ := hx
    refine ⟨x ++ y, z, rfl, ?_, hz⟩
    rw [rSeq_append]
    refine ⟨x, y, rfl, hx, ?_⟩
  · exact (h y).1 hy
  · exact (h y).2 hy

theorem minimizeMatchers_rlang : ∀ (n : Nat) (ms ns : List Matcher), minimizeMatchers n ms = some ns → ∀ s, (RSeq ns s ↔ RSeq ms s)
  | 0, _, _, h => by cases h
  | n + 1, ms, ns, h => by
    intro s
    unfold minimizeMatchers at h
    split at h
    · simp only [Option.some.injEq] at h; subst h; rfl
    · rename_i d hd
      obtain ⟨h1, h2, h3⟩ := minimizeLoops_glued hd
      have hms : ms = ms.take d.left ++ (ms.take d.right).drop d.left ++ ms.drop d.right := by
        have : ms.take d.left = (ms.take d.right).take d.left := by rw [List.take_take]; congr 1; omega
        rw [this, List.take_append_drop, List.take_append_drop]
      have step : ∀ s, (RSeq (ms.take d.left ++ [d.m] ++ ms.drop d.right) s ↔ RSeq ms s) := by
        intro s
        conv_rhs => rw [hms]
        exact rSeq_congr_mid (fun s => by rw [rSeq_singleton]; exact glue_rlang h1)
      simp only at h
      split at h
      · simp only [Option.some.injEq] at h; subst h; exact step s
      · exact (minimizeMatchers_rlang n _ ns h s).trans (step s)

/-- A matcher is meant to match what the node matches. -/
def RImplements (seps : List Nat) (m : Matcher) (t : Node) : Prop := ∀ s, RLang m s ↔ Matches seps t s

theorem RImplements.optimize {seps : List Nat} {m : Matcher} {t : Node} (h : RImplements seps m t) : RImplements seps (optimizeMatcher m) t :=
  fun s => (optimize_rlang m s).trans (h s)

theorem rSome_implements {seps : List Nat} {cs : List Node} {ms : List Matcher} (h : List.Forall₂ (fun c m => RImplements seps m c) cs ms) {s : List Nat} :
    RSome ms s ↔ MatchesSome seps cs s := by
  induction h with
  | nil => simp [RSome, MatchesSome]
  | cons h1 _ ih => rw [RSome, MatchesSome, h1 s, ih]

theorem rSeq_implements {seps : List Nat} {cs : List Node} {ms : List Matcher} (h : List.Forall₂ (fun c m => RImplements seps m c) cs ms) :
    ∀ {s : List Nat}, RSeq ms s ↔ MatchesSeq seps cs s := by
  induction h with
  | nil => intro s; simp [RSeq, MatchesSeq]
  | cons h1 _ ih =>
    intro s
    rw [RSeq, MatchesSeq]
    simp only [h1 _, ih]

/-- The compiler: the matcher of a tree is meant to match what the tree matches. -/
theorem compile_rimplements {seps : List Nat} (hs : Scalars seps) : ∀ (n : Nat) (t : Node) (m : Matcher), compile seps n t = .ok m → RImplements seps m t
  | 0, _, _, h => by cases h
  | n + 1, t, m, h => by
    have kids : ∀ {cs : List Node} {ms : List Matcher}, compileChildren (compile seps n) cs = .ok ms → List.Forall₂ (fun c m => RImplements seps m c) cs ms := by
      intro cs ms h
      refine List.Forall₂.imp ?_ (compileChildren_ok h)
      rintro c _ ⟨m0, h1, rfl⟩
      exact (compile_rimplements hs n c m0 h1).optimize
    have leaf : ∀ m0, RImplements seps m0 t → Res.ok (optimizeMatcher m0) = Res.ok m → RImplements seps m t := by
      intro m0 h0 h1
      simp only [Res.ok.injEq] at h1
      subst h1; exact h0.optimize
    cases t with
    | nothing =>
      simp only [compile] at h
      exact leaf _ (fun s => by simp [RLang, Matches]) h
    | any =>
      simp only [compile] at h
      exact leaf _ (fun s => by simp [RLang, Matches, norm_eq hs]) h
    | super =>
      simp only [compile] at h
      exact leaf _ (fun s => by simp [RLang, Matches]) h
    | single =>
      simp only [compile] at h
      exact leaf _ (fun s => by rw [RLang, Matches, norm_eq hs]) h
    | list nt chars =>
      simp only [compile] at h
      refine leaf _ (fun s => ?_) h
      rw [RLang, Matches]
      have e : ∀ r, inList (norm ((runesOf chars).map Prod.fst)) nt r = true ↔ (r ∈ runesIn chars ↔ nt = false) := by
        intro r
        rw [show (runesOf chars).map Prod.fst = runesIn chars from rfl, norm_eq (runesIn_scalars chars)]
        simp only [inList, beq_iff_eq]
        rw [Bool.eq_iff_iff, List.contains_iff_mem]
        cases nt <;> simp
      simp only [e]
    | range nt lo hi =>
      simp only [compile] at h
      refine leaf _ (fun s => ?_) h
      rw [RLang, Matches]
      have e : ∀ r, inRange lo hi nt r = true ↔ ((lo ≤ r ∧ r ≤ hi) ↔ nt = false) := by
        intro r
        simp only [inRange, beq_iff_eq]
        rw [Bool.eq_iff_iff, Bool.and_eq_true, decide_eq_true_eq, decide_eq_true_eq]
        cases nt <;> simp
      simp only [e]
    | text t =>
      simp only [compile] at h
      exact leaf _ (fun s => by rw [RLang, Matches]) h
    | anyOf cs =>
      simp only [compile] at h
      obtain ⟨o, e1, e2⟩ := minimizeTree_ok seps cs
      rw [e1] at h
      cases o with
      | some t' =>
        intro s
        rw [← e2 t' rfl]
        exact compile_rimplements hs n t' m h s
      | none =>
        simp only at h
        split at h <;> try cases h
        rename_i ms hms
        intro s
        rw [RLang, Matches, rSome_implements (kids hms)]
    | pattern cs =>
      simp only [compile] at h
      split at h
      · rename_i he
        simp only [Res.ok.injEq] at h
        have : cs = [] := List.length_eq_zero_iff.1 he
        subst this h
        intro s
        simp [RLang, Matches, MatchesSeq]
      · split at h <;> try cases h
        rename_i ms hms
        split at h <;> try cases h
        rename_i ms' hms'
        split at h
        · rename_i m0 hm0
          simp only [Res.ok.injEq] at h
          subst h
          intro s
          rw [optimize_rlang _ s, compileMatchers_rlang _ _ _ hm0 s, minimizeMatchers_rlang _ _ _ hms' s, rSeq_implements (kids hms), Matches]
        · rename_i hno; exact absurd h (hno m)

end Verif.Glob
