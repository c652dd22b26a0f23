import Verif.Glob.GoodProps
import Verif.Glob.Spec
/-
The compiler preserves the language: the matcher of a pattern is meant to match what the pattern matches.
-/
namespace Verif.Glob

theorem encodeRune_ascii_iff {r : Nat} {b : UInt8} (hb : b < 0x80) : b ∈ encodeRune r ↔ b.toNat = r := by
  have hb' := toNat_lt_of_ascii hb
  by_cases h : r < 0x80
  · rw [encodeRune, if_pos h, List.mem_singleton]
    constructor
    · rintro rfl; simp; omega
    · rintro rfl; simp
  · have : b.toNat ≠ r := by omega
    simp only [this, iff_false]
    unfold encodeRune
    rw [if_neg h]
    intro hm
    have key : ∀ n, 0x80 ≤ n → n < 256 → b ≠ UInt8.ofNat n := by
      rintro n h1 h2 rfl
      simp at hb'; omega
    split at hm
    · simp only [List.mem_cons, List.not_mem_nil, or_false] at hm
      rcases hm with hm | hm <;> exact key _ (by omega) (by omega) hm
    · split at hm
      · simp only [List.mem_cons, List.not_mem_nil, or_false] at hm
        rcases hm with hm | hm | hm <;> subst hm <;> simp at hb'
      · rename_i h2 h3
        simp only [Bool.or_eq_true, Bool.and_eq_true, decide_eq_true_eq, not_or, not_and, Nat.not_lt] at h3
        split at hm
        · simp only [List.mem_cons, List.not_mem_nil, or_false] at hm
          rcases hm with hm | hm | hm <;> exact key _ (by omega) (by omega) hm
        · simp only [List.mem_cons, List.not_mem_nil, or_false] at hm
          rcases hm with hm | hm | hm | hm <;> exact key _ (by omega) (by omega) hm

theorem encodeRune_eq_ascii {r : Nat} {s : Str} (ha : Ascii s) : s = encodeRune r ↔ ∃ b, s = [b] ∧ b.toNat = r := by
  by_cases h : r < 0x80
  · rw [encodeRune, if_pos h]
    constructor
    · rintro rfl; exact ⟨_, rfl, by simp; omega⟩
    · rintro ⟨b, rfl, rfl⟩; simp
  · constructor
    · rintro rfl; exact absurd ha (encodeRune_not_ascii (by omega))
    · rintro ⟨b, rfl, rfl⟩
      have := toNat_lt_of_ascii (ha b (by simp)); omega

/-! ### Optimising a matcher -/

theorem optimizeBTree_lang (v : Matcher) (l r : Option Matcher) (ll rl len : Option Nat) (s : Str) :
    MLang (optimizeBTree v l r ll rl len) s ↔ MLang (.btree v l r ll rl len) s := by
  unfold optimizeBTree
  cases v <;> try rfl
  case text t =>
  simp only
  split
  · simp only [MLang, LangOpt]
    constructor
    · rintro rfl; exact ⟨[], s, [], by simp, rfl, rfl, rfl⟩
    · rintro ⟨_, _, _, rfl, rfl, rfl, rfl⟩; simp
  · simp only [MLang, LangOpt, Bool.false_eq_true, if_false]
    constructor
    · rintro ⟨a, c, rfl⟩; exact ⟨a, t, c, by simp, trivial, rfl, trivial⟩
    · rintro ⟨a, _, c, rfl, _, rfl, _⟩; exact ⟨a, c, rfl⟩
  · simp only [MLang, LangOpt]
    constructor
    · rintro ⟨a, rfl⟩; exact ⟨a, t, [], by simp, trivial, rfl, rfl⟩
    · rintro ⟨a, _, _, rfl, _, rfl, rfl⟩; exact ⟨a, by simp⟩
  · simp only [MLang, LangOpt]
    constructor
    · rintro ⟨a, rfl⟩; exact ⟨[], t, a, by simp, rfl, rfl, trivial⟩
    · rintro ⟨_, _, a, rfl, rfl, rfl, _⟩; exact ⟨a, by simp⟩
  · simp only [MLang, LangOpt]
    constructor
    · rintro ⟨a, rfl⟩; exact ⟨[], t, _, by rw [List.nil_append, List.append_assoc], rfl, rfl, a, rfl⟩
    · rintro ⟨_, _, _, rfl, rfl, rfl, a, rfl⟩; exact ⟨a, by simp⟩
  · simp only [MLang, LangOpt]
    constructor
    · rintro ⟨a, rfl⟩; exact ⟨_, t, [], by rw [List.append_nil], ⟨a, rfl⟩, rfl, rfl⟩
    · rintro ⟨_, _, _, rfl, ⟨a, rfl⟩, rfl, rfl⟩; exact ⟨a, by simp⟩
  · simp only [MLang, LangOpt]
    constructor
    · rintro ⟨a, rfl, h⟩; exact ⟨a, t, [], by simp, h, rfl, rfl⟩
    · rintro ⟨a, _, _, rfl, h, rfl, rfl⟩; exact ⟨a, by simp, h⟩
  · simp only [MLang, LangOpt]
    constructor
    · rintro ⟨a, rfl, h⟩; exact ⟨[], t, a, by simp, rfl, rfl, h⟩
    · rintro ⟨_, _, a, rfl, rfl, rfl, h⟩; exact ⟨a, by simp, h⟩
  · rfl

theorem optimize_lang (m : Matcher) : ∀ s, Ascii s → (MLang (optimizeMatcher m) s ↔ MLang m s) := by
  induction m using Matcher.ind with
  | h m ih =>
  intro s ha
  cases m <;> try rfl
  case any seps =>
    rw [optimizeMatcher]
    split
    · rename_i h
      have : seps = [] := List.length_eq_zero_iff.1 h
      subst this; simp [MLang]
    · rfl
  case anyOf ms =>
    rcases ms with _ | ⟨m, _ | ⟨m', ms⟩⟩
    · rfl
    · simp [optimizeMatcher, MLang, LangSome]
    · rfl
  case list rs n =>
    rw [optimizeMatcher]
    split
    · rename_i h
      simp only [Bool.and_eq_true, decide_eq_true_eq] at h
      obtain ⟨rfl, h⟩ := h
      obtain ⟨r, rfl⟩ := List.length_eq_one_iff.1 h
      simp only [MLang, List.flatMap_cons, List.flatMap_nil, List.append_nil]
      rw [encodeRune_eq_ascii ha]
      simp [inList]
    · rfl
  case btree v l r ll rl len =>
    rw [optimizeMatcher, optimizeBTree_lang, MLang, MLang]
    have side : ∀ o : Option Matcher, (∀ c ∈ o, c ∈ (Matcher.btree v l r ll rl len).children) → ∀ s, Ascii s → (LangOpt (optimizeOpt o) s ↔ LangOpt o s) := by
      intro o ho s hs
      cases o with
      | none => rfl
      | some c => rw [optimizeOpt, LangOpt, LangOpt]; exact ih c (ho c rfl) s hs
    have hl := side l fun c hc => by simp only [Option.mem_def] at hc; simp [Matcher.children, hc]
    have hr := side r fun c hc => by simp only [Option.mem_def] at hc; simp [Matcher.children, hc]
    constructor
    · rintro ⟨a, b, c, rfl, h1, h2, h3⟩
      rw [ascii_append, ascii_append] at ha
      exact ⟨a, b, c, rfl, (hl a ha.1.1).1 h1, h2, (hr c ha.2).1 h3⟩
    · rintro ⟨a, b, c, rfl, h1, h2, h3⟩
      rw [ascii_append, ascii_append] at ha
      exact ⟨a, b, c, rfl, (hl a ha.1.1).2 h1, h2, (hr c ha.2).2 h3⟩

/-! ### Gluing matchers -/

/-- Sequences of gluable matchers with the same separators: `k` single runes and, if `star`, runs of runes. -/
def StarLang (sep : List Nat) (k : Nat) (star : Bool) (s : Str) : Prop :=
  (∀ b ∈ s, b.toNat ∉ sep) ∧ k ≤ s.length ∧ (star = true ∨ s.length = k)

theorem starLang_cons_star {sep : List Nat} {k : Nat} {star : Bool} {s : Str} :
    (∃ a c, s = a ++ c ∧ (∀ b ∈ a, b.toNat ∉ sep) ∧ StarLang sep k star c) ↔ StarLang sep k true s := by
  constructor
  · rintro ⟨a, c, rfl, h1, h2, h3, h4⟩
    refine ⟨?_, by simp; omega, Or.inl rfl⟩
    intro b hb
    rcases List.mem_append.1 hb with h | h
    · exact h1 b h
    · exact h2 b h
  · rintro ⟨h1, h2, _⟩
    refine ⟨s.take (s.length - k), s.drop (s.length - k), (List.take_append_drop _ _).symm, fun b hb => h1 b (List.mem_of_mem_take hb),
      fun b hb => h1 b (List.mem_of_mem_drop hb), ?_, Or.inr ?_⟩ <;> rw [List.length_drop] <;> omega

theorem starLang_cons_single {sep : List Nat} {k : Nat} {star : Bool} {s : Str} :
    (∃ a c, s = a ++ c ∧ (∃ b : UInt8, a = [b] ∧ b.toNat ∉ sep) ∧ StarLang sep k star c) ↔ StarLang sep (k + 1) star s := by
  constructor
  · rintro ⟨_, c, rfl, ⟨b, rfl, h1⟩, h2, h3, h4⟩
    refine ⟨?_, by simp; omega, ?_⟩
    · intro b' hb
      rcases List.mem_append.1 hb with h | h
      · rw [List.mem_singleton] at h; subst h; exact h1
      · exact h2 b' h
    · rcases h4 with h | h
      · exact Or.inl h
      · right; simp; omega
  · rintro ⟨h1, h2, h3⟩
    cases s with
    | nil => simp at h2
    | cons b s =>
      refine ⟨[b], s, rfl, ⟨b, rfl, h1 b (by simp)⟩, fun b' hb => h1 b' (by simp [hb]), by simpa using h2, ?_⟩
      rcases h3 with h | h
      · exact Or.inl h
      · right; simpa using h

theorem glueLoop_lang (sep : List Nat) : ∀ (ms : List Matcher) (hA hS hG : Bool) (n : Nat) (A S G : Bool) (N : Nat),
    glueLoop sep ms (hA, hS, hG, n) = some (A, S, G, N) →
    ∃ k star, N = n + k ∧ (A || S) = (hA || hS || star) ∧ G = (hG || decide (0 < k)) ∧ (S = true → hS = true ∨ sep = []) ∧
      (ms ≠ [] → star = true ∨ 0 < k) ∧ ∀ s, LangSeq ms s ↔ StarLang sep k star s
  | [], hA, hS, hG, n, A, S, G, N, h => by
    simp only [glueLoop, Option.some.injEq, Prod.mk.injEq] at h
    obtain ⟨rfl, rfl, rfl, rfl⟩ := h
    refine ⟨0, false, rfl, by simp, by simp, fun h => Or.inl h, fun h => absurd rfl h, fun s => ?_⟩
    rw [LangSeq, StarLang]
    constructor
    · rintro rfl; simp
    · rintro ⟨_, _, h⟩
      simpa using h
  | m :: ms, hA, hS, hG, n, A, S, G, N, h => by
    simp only [glueLoop] at h
    cases hg : gluable m with
    | none => rw [hg] at h; cases h
    | some sk =>
      obtain ⟨sp, kind⟩ := sk
      rw [hg] at h
      simp only at h
      split at h
      · rename_i heq
        rw [Runes.equal_iff] at heq
        subst heq
        have hone : ∀ (m : Matcher), gluable m = some (sp, .single) → ∀ s, (MLang m s ↔ ∃ b : UInt8, s = [b] ∧ b.toNat ∉ sp) := by
          intro m hm s
          cases m <;> simp only [gluable, Option.some.injEq, Prod.mk.injEq, reduceCtorEq, and_false] at hm
          · obtain ⟨rfl, _⟩ := hm; rw [MLang]
          · rename_i rs nt
            cases nt with
            | false => simp at hm
            | true =>
              simp only [Bool.not_true, Bool.false_eq_true, if_false, Option.some.injEq, Prod.mk.injEq, and_true] at hm
              subst hm; simp [MLang, inList]
        cases kind with
        | super =>
          have hm : m = .super ∧ sp = [] := by
            cases m <;> simp only [gluable, Option.some.injEq, Prod.mk.injEq, reduceCtorEq, and_false] at hg
            · exact ⟨rfl, hg.1.symm⟩
            · split at hg <;> simp at hg
          obtain ⟨rfl, rfl⟩ := hm
          obtain ⟨k, star, h1, h2, h3, h4, h5, h6⟩ := glueLoop_lang [] ms _ _ _ _ _ _ _ _ h
          refine ⟨k, true, h1, by rw [h2]; simp, h3, fun _ => Or.inr rfl, fun _ => Or.inl rfl, fun s => ?_⟩
          rw [LangSeq, ← starLang_cons_star (star := star)]
          simp [h6, MLang]
        | any =>
          have hm : m = .any sp := by
            cases m <;> simp only [gluable, Option.some.injEq, Prod.mk.injEq, reduceCtorEq, and_false] at hg
            · rw [hg.1]
            · split at hg <;> simp at hg
          subst hm
          obtain ⟨k, star, h1, h2, h3, h4, h5, h6⟩ := glueLoop_lang sp ms _ _ _ _ _ _ _ _ h
          refine ⟨k, true, h1, by rw [h2]; simp, h3, h4, fun _ => Or.inl rfl, fun s => ?_⟩
          rw [LangSeq, ← starLang_cons_star (star := star)]
          simp only [h6, MLang]
        | single =>
          obtain ⟨k, star, h1, h2, h3, h4, h5, h6⟩ := glueLoop_lang sp ms _ _ _ _ _ _ _ _ h
          refine ⟨k + 1, star, by omega, h2, by rw [h3]; simp, h4, fun _ => Or.inr (by omega), fun s => ?_⟩
          rw [LangSeq, ← starLang_cons_single]
          simp only [h6, hone m hg]
      · cases h

theorem glueEvery_lang {ms : List Matcher} {m : Matcher} (h : glueMatchersAsEvery ms = some m) {s : Str} (ha : Ascii s) : MLang m s ↔ LangSeq ms s := by
  unfold glueMatchersAsEvery at h
  split at h
  · cases h
  · cases h
  · rename_i m0 rest hne
    split at h
    · cases h
    · rename_i sep kind hg
      split at h
      · cases h
      · rename_i A S G N hl
        obtain ⟨k, star, h1, h2, h3, h4, h5, h6⟩ := glueLoop_lang sep _ _ _ _ _ _ _ _ _ hl
        simp only [Bool.false_or, Nat.zero_add, Bool.false_eq_true, false_or] at h1 h2 h3 h4
        replace h5 := h5 (by simp)
        rw [h6]
        subst h1
        split at h
        · rename_i hc
          simp only [Bool.and_eq_true, Bool.not_eq_true'] at hc
          obtain ⟨⟨hS, hA⟩, hG⟩ := hc
          simp only [Option.some.injEq] at h
          subst h
          rw [hG] at h3
          have hk : N = 0 := by simpa using h3.symm
          have := h4 hS
          subst this hk
          have : star = true := by simpa using h5
          simp [MLang, StarLang, this]
        · rename_i hc1
          split at h
          · rename_i hc
            simp only [Bool.and_eq_true, Bool.not_eq_true'] at hc
            obtain ⟨⟨hA, hS⟩, hG⟩ := hc
            simp only [Option.some.injEq] at h
            subst h
            rw [hG] at h3
            have hk : N = 0 := by simpa using h3.symm
            subst hk
            have : star = true := by simpa using h5
            simp [MLang, StarLang, this]
          · rename_i hc2
            split at h
            · rename_i hc
              simp only [Bool.and_eq_true, decide_eq_true_eq] at hc
              obtain ⟨⟨h7, h8⟩, h9⟩ := hc
              have : sep = [] := List.length_eq_zero_iff.1 h9
              subst this
              rw [h2] at h7
              simp only [Option.some.injEq] at h
              subst h
              simp [MLang, StarLang, h7]
            · rename_i hc3
              simp only [Option.some.injEq] at h
              subst h
              rw [MLang, langAll_iff]
              have hcont : (∀ m ∈ (if sep.length > 0 then [Matcher.contains (sep.flatMap encodeRune) true] else []), MLang m s) ↔ ∀ b ∈ s, b.toNat ∉ sep := by
                split
                · simp only [List.mem_singleton, forall_eq, MLang, if_true, List.mem_flatMap, not_exists, not_and]
                  constructor
                  · intro h b hb hs; exact h b hb _ hs ((encodeRune_ascii_iff (ha b hb)).2 rfl)
                  · intro h b hb r hr hbr
                    rw [encodeRune_ascii_iff (ha b hb)] at hbr
                    subst hbr; exact h b hb hr
                · rename_i h
                  have : sep = [] := List.length_eq_zero_iff.1 (by omega)
                  subst this; simp
              simp only [List.mem_append, or_imp, forall_and, hcont]
              unfold StarLang
              by_cases hN : 0 < N
              · have hG : G = true := by rw [h3]; simpa using hN
                rw [if_pos hN]
                cases hAS : (!A && !S)
                · have hst : star = true := by rw [← h2]; revert hAS; cases A <;> cases S <;> simp
                  simp only [Bool.false_eq_true, if_false, List.append_nil, List.mem_singleton, forall_eq, MLang, hst]
                  constructor
                  · rintro ⟨h7, h8⟩; exact ⟨h8, h7, by simp⟩
                  · rintro ⟨h7, h8, _⟩; exact ⟨h8, h7⟩
                · have hst : star = false := by rw [← h2]; revert hAS; cases A <;> cases S <;> simp
                  simp only [if_true, List.cons_append, List.nil_append, List.mem_cons, List.not_mem_nil, or_false, forall_eq_or_imp, forall_eq, MLang, hst, Bool.false_eq_true, false_or]
                  constructor
                  · rintro ⟨⟨h7, h8⟩, h9⟩; exact ⟨h9, h7, by omega⟩
                  · rintro ⟨h7, h8, h9⟩; exact ⟨⟨h8, by omega⟩, h7⟩
              · have hN0 : N = 0 := by omega
                subst hN0
                have hst : star = true := by simpa using h5
                subst hst
                simp
    
theorem glue_lang {ms : List Matcher} {m : Matcher} (h : glueMatchers ms = some m) {s : Str} (ha : Ascii s) : MLang m s ↔ LangSeq ms s := by
  unfold glueMatchers at h
  split at h
  · rename_i m' h'
    simp only [Option.some.injEq] at h
    subst h; exact glueEvery_lang h' ha
  · unfold glueMatchersAsRow at h
    split at h
    · cases h
    · rw [Option.map_eq_some_iff] at h
      obtain ⟨l, _, rfl⟩ := h
      rw [MLang]

/-! ### Compiling and minimising a sequence of matchers -/

theorem newBTree_lang (v : Matcher) (l r : Option Matcher) (s : Str) :
    MLang (newBTree v l r) s ↔ ∃ a b c, s = a ++ b ++ c ∧ LangOpt l a ∧ MLang v b ∧ LangOpt r c := by
  unfold newBTree
  rw [MLang]

theorem compileMatchers_lang : ∀ (n : Nat) (ms : List Matcher) (m : Matcher), compileMatchers n ms = .ok m → ∀ s, Ascii s → (MLang m s ↔ LangSeq ms s)
  | 0, ms, m, h => by cases h
  | n + 1, ms, m, h => by
    intro s ha
    unfold compileMatchers at h
    split at h
    · cases h
    · simp only [Res.ok.injEq] at h
      subst h; exact langSeq_singleton.symm
    · rename_i m0 rest hne
      split at h
      · rename_i g hg
        simp only [Res.ok.injEq] at h
        subst h; exact glue_lang hg ha
      · split at h
        · split at h
          · rename_i r hr
            simp only [Res.ok.injEq] at h
            subst h
            rw [newBTree_lang, LangSeq]
            have ih := compileMatchers_lang n rest r hr
            simp only [LangOpt]
            constructor
            · rintro ⟨_, b, c, rfl, rfl, h1, h2⟩
              rw [ascii_append] at ha
              exact ⟨b, c, rfl, h1, (ih c ha.2).1 h2⟩
            · rintro ⟨b, c, rfl, h1, h2⟩
              rw [ascii_append] at ha
              exact ⟨[], b, c, rfl, rfl, h1, (ih c ha.2).2 h2⟩
          · rename_i hno
            exact absurd h (hno m)
        · rename_i idx l hidx
          simp only at h
          split at h
          · cases h
          · rename_i val hval
            have side : ∀ (part : List Matcher) (o : Option Matcher), (if part.isEmpty then Res.ok none else match compileMatchers n part with
              | .ok l => .ok (some l)
              | .err e => .err e
              | .panic => .panic
              | .steps => .steps) = Res.ok o → ∀ s, Ascii s → (LangOpt o s ↔ LangSeq part s) := by
              intro part o ho s hs
              split at ho
              · rename_i he
                rw [List.isEmpty_iff] at he
                simp only [Res.ok.injEq] at ho
                subst ho he; rw [LangOpt, LangSeq]
              · split at ho <;> simp only [Res.ok.injEq, reduceCtorEq] at ho
                rename_i l' hl'
                subst ho
                rw [LangOpt]; exact compileMatchers_lang n part l' hl' s hs
            split at h <;> try cases h
            rename_i lo hlo
            split at h <;> try cases h
            rename_i ro hro
            have hL := side _ _ hlo
            have hR := side _ _ hro
            have hsplit : m0 :: rest = (m0 :: rest).take idx ++ (val :: (m0 :: rest).drop (idx + 1)) := by
              have hlt : idx < (m0 :: rest).length := by
                by_contra hc
                rw [List.getElem?_eq_none (by omega)] at hval; cases hval
              rw [List.getElem?_eq_getElem hlt, Option.some.injEq] at hval
              rw [← hval, List.getElem_cons_drop, List.take_append_drop]
            rw [newBTree_lang]
            conv_rhs => rw [hsplit]
            rw [langSeq_append]
            simp only [LangSeq]
            constructor
            · rintro ⟨a, b, c, rfl, h1, h2, h3⟩
              rw [ascii_append, ascii_append] at ha
              exact ⟨a, b ++ c, by simp, (hL a ha.1.1).1 h1, b, c, rfl, h2, (hR c ha.2).1 h3⟩
            · rintro ⟨a, _, rfl, h1, b, c, rfl, h2, h3⟩
              rw [ascii_append, ascii_append] at ha
              exact ⟨a, b, c, by simp, (hL a ha.1).2 h1, h2, (hR c ha.2.2).2 h3⟩

theorem minimizeLoops_glued {ms : List Matcher} {d : Glued} (h : minimizeLoops ms = some d) :
    glueMatchers ((ms.take d.right).drop d.left) = some d.m ∧ d.left < d.right ∧ d.right ≤ ms.length := by
  unfold minimizeLoops at h
  have key : ∀ (ps : List (Nat × Nat)) (o : Option Glued), (∀ p ∈ ps, p.1 < p.2 ∧ p.2 ≤ ms.length) →
      (∀ d, o = some d → glueMatchers ((ms.take d.right).drop d.left) = some d.m ∧ d.left < d.right ∧ d.right ≤ ms.length) →
      ∀ d, ps.foldl (fun done lr => minimizeStep ms done lr.1 lr.2) o = some d →
        glueMatchers ((ms.take d.right).drop d.left) = some d.m ∧ d.left < d.right ∧ d.right ≤ ms.length := by
    intro ps
    induction ps with
    | nil => intro o _ ho d hd; exact ho d hd
    | cons p ps ih =>
      intro o hp ho d hd
      rw [List.foldl_cons] at hd
      refine ih _ (fun q hq => hp q (List.mem_cons_of_mem _ hq)) ?_ d hd
      intro d' hd'
      have hp0 := hp p List.mem_cons_self
      unfold minimizeStep at hd'
      split at hd'
      · exact ho d' hd'
      · rename_i g hg
        split at hd'
        · simp only [Option.some.injEq] at hd'
          subst hd'; exact ⟨hg, hp0.1, hp0.2⟩
        · rename_i d0
          simp only at hd'
          rw [ite_eq_iff] at hd'
          rcases hd' with ⟨_, hd'⟩ | ⟨_, hd'⟩ <;> simp only [Option.some.injEq] at hd' <;> subst hd'
          · exact ⟨hg, hp0.1, hp0.2⟩
          · exact ho d0 rfl
  refine key _ none ?_ (by intro d hd; cases hd) d h
  intro p hp
  simp only [List.mem_flatMap, List.mem_range, List.mem_map] at hp
  obtain ⟨l, hl, k, hk, rfl⟩ := hp
  simp only; omega

theorem langSeq_congr_mid {as bs ms cs : List Matcher} (h : ∀ s, Ascii s → (LangSeq ms s ↔ LangSeq bs s)) {s : Str} (ha : Ascii s) :
    LangSeq (as ++ ms ++ cs) s ↔ LangSeq (as ++ bs ++ cs) s := by
  rw [langSeq_append, langSeq_append]
  constructor
  all_goals
    rintro ⟨x, z, rfl, hx, hz⟩
    rw [ascii_append] at ha
    rw [langSeq_append] at hx
    obtain ⟨x, y, rfl, hx, hy⟩ := hx
    rw [ascii_append] at ha
    refine ⟨x ++ y, z, rfl, ?_, hz⟩
    rw [langSeq_append]
    refine ⟨x, y, rfl, hx, ?_⟩
  · exact (h y ha.1.2).1 hy
  · exact (h y ha.1.2).2 hy

theorem minimizeMatchers_lang : ∀ (n : Nat) (ms ns : List Matcher), minimizeMatchers n ms = some ns → ∀ s, Ascii s → (LangSeq ns s ↔ LangSeq ms s)
  | 0, _, _, h => by cases h
  | n + 1, ms, ns, h => by
    intro s ha
    unfold minimizeMatchers at h
    split at h
    · simp only [Option.some.injEq] at h; subst h; rfl
    · rename_i d hd
      obtain ⟨h1, h2, h3⟩ := minimizeLoops_glued hd
      have hms : ms = ms.take d.left ++ (ms.take d.right).drop d.left ++ ms.drop d.right := by
        have : ms.take d.left = (ms.take d.right).take d.left := by rw [List.take_take]; congr 1; omega
        rw [this, List.take_append_drop, List.take_append_drop]
      have step : ∀ s, Ascii s → (LangSeq (ms.take d.left ++ [d.m] ++ ms.drop d.right) s ↔ LangSeq ms s) := by
        intro s hs
        conv_rhs => rw [hms]
        exact langSeq_congr_mid (fun s hs => by rw [langSeq_singleton]; exact glue_lang h1 hs) hs
      simp only at h
      split at h
      · simp only [Option.some.injEq] at h; subst h; exact step s ha
      · exact (minimizeMatchers_lang n _ ns h s ha).trans (step s ha)

end Verif.Glob
