import Verif.Glob.GoodProps
import Verif.Glob.DocLang
import Mathlib.Data.List.Chain
/-
Which sequences of matchers are compiled to a matcher that passes the check of `Verif.Glob.Good`.
-/
namespace Verif.Glob

/-- An alternative: a text or nothing. -/
def leafAlt : Matcher → Bool
  | .nothing => true
  | .text t => !t.isEmpty
  | _ => false

/-- It starts with a lower bound on the length. -/
def startsMin : List Matcher → Bool
  | .min _ :: _ => true
  | _ => false

open Classical in
/-- The matchers in a sequence, before and after gluing. Braces and trees of matchers that pass the check may be among them. -/
noncomputable def elem : Matcher → Bool
  | .text t => !t.isEmpty
  | .single _ => true
  | .list rs not => not || rs.length != 1
  | .range _ _ _ => true
  | .super => true
  | .any s => !s.isEmpty
  | .min n => decide (1 ≤ n)
  | .everyOf ms => ms.all goodIdxZero && startsMin ms
  | .row l ms => goods ms && decide (1 ≤ l) && lenGood (.row l ms) && (lens ms).all posLen
  | .anyOf ms => decide (2 ≤ ms.length) && goods ms &&
      match anyOfLen none (lens ms) with
      | none => goodEs ms
      | some k => decide (1 ≤ k) && goodIdxs ms && lenGood (.anyOf ms)
  | .btree v l r ll rl len => len.isNone && good (.btree v l r ll rl len) && goodE (.btree v l r ll rl len) &&
      decide (optimizeMatcher (.btree v l r ll rl len) = .btree v l r ll rl len)
  | _ => false

theorem anyOfLen_some : ∀ (ls : List (Option Nat)) (k j : Nat), anyOfLen (some k) ls = some j → k = j ∧ ∀ l ∈ ls, l = some j
  | [], k, j, h => by simp only [anyOfLen, Option.some.injEq] at h; simp [h]
  | none :: ls, k, j, h => by simp [anyOfLen] at h
  | some l :: ls, k, j, h => by
    rw [anyOfLen] at h
    split at h
    · cases h
    · rename_i hk
      simp only [ne_eq, Decidable.not_not] at hk
      obtain ⟨h1, h2⟩ := anyOfLen_some ls k j h
      refine ⟨h1, ?_⟩
      intro l' hl'
      rcases List.mem_cons.1 hl' with rfl | h'
      · rw [← hk, h1]
      · exact h2 l' h'

theorem leafAlt_len {m : Matcher} (h : leafAlt m = true) : m.len ≠ none := by
  cases m <;> simp [leafAlt, Matcher.len] at h ⊢

theorem leafAlts_len {ms : List Matcher} {k : Nat} (h : ms.all leafAlt = true) (hk : anyOfLen none (lens ms) = some k) : ∀ m ∈ ms, m.len = some k := by
  cases ms with
  | nil => simp
  | cons m ms =>
    simp only [List.all_cons, Bool.and_eq_true] at h
    have := leafAlt_len h.1
    obtain ⟨j, hj⟩ := Option.ne_none_iff_exists'.1 this
    rw [lens, hj, anyOfLen] at hk
    obtain ⟨h1, h2⟩ := anyOfLen_some _ _ _ hk
    subst h1
    intro m' hm'
    rcases List.mem_cons.1 hm' with rfl | h'
    · exact hj
    · rw [lens_eq] at h2
      exact h2 _ (List.mem_map_of_mem h')

theorem leafAlts_lenGood {ms : List Matcher} (h : ms.all leafAlt = true) : lenGood (.anyOf ms) = true := by
  rw [lenGood]
  cases hk : anyOfLen none (lens ms) with
  | none => rfl
  | some k =>
    have h1 := leafAlts_len h hk
    have h2 : lenGoods ms = true := by
      rw [lenGoods_iff]
      intro m hm
      have := List.all_eq_true.1 h m hm
      cases m <;> simp [leafAlt] at this <;> rfl
    have h3 : (lens ms).all (fun l => l == some k) = true := by
      rw [lens_eq, List.all_map, List.all_eq_true]
      intro m hm
      simp [h1 m hm]
    rw [h2, h3]; rfl

/-- Literal alternatives are an element. -/
theorem leafAlts_elem {ms : List Matcher} (h : ms.all leafAlt = true) (h2 : 2 ≤ ms.length) (h0 : anyOfLen none (lens ms) ≠ some 0) : elem (.anyOf ms) = true := by
  have h3 := List.all_eq_true.1 h
  have hg : goods ms = true := by
    rw [goods_iff]
    intro m hm
    have := h3 m hm
    cases m <;> simp [leafAlt] at this <;> rfl
  simp only [elem, Bool.and_eq_true, decide_eq_true_eq]
  refine ⟨⟨h2, hg⟩, ?_⟩
  split
  · rw [goodEs_iff]
    intro m hm
    have := h3 m hm
    cases m <;> simp [leafAlt] at this <;> rfl
  · rename_i k hk
    have h1 := leafAlts_len h hk
    have hk0 : k ≠ 0 := by rintro rfl; exact h0 hk
    simp only [Bool.and_eq_true, decide_eq_true_eq]
    refine ⟨⟨by omega, ?_⟩, leafAlts_lenGood h⟩
    rw [goodIdxs_iff]
    intro m hm
    have a := h3 m hm
    have b := h1 m hm
    cases m <;> simp [leafAlt, Matcher.len, goodIdx] at a b ⊢
    · omega
    · exact a

theorem elem_lenGood {m : Matcher} (h : elem m = true) : lenGood m = true := by
  cases m <;> simp only [elem, Bool.false_eq_true, Bool.and_eq_true] at h <;> try rfl
  case anyOf ms =>
    obtain ⟨_, h⟩ := h
    split at h
    · rename_i hn; rw [lenGood, hn]; rfl
    · simp only [Bool.and_eq_true] at h; exact h.2
  case everyOf ms =>
    rw [lenGood]
    cases ms with
    | nil => simp [startsMin] at h
    | cons => rfl
  case row l ms => exact h.1.2
  case btree => rw [lenGood, h.1.1.1]; rfl

theorem runesOf_pos {t : Str} (h : t ≠ []) : 1 ≤ (runesOf t).length := by
  cases t with
  | nil => exact absurd rfl h
  | cons b t => rw [runesOf, List.length_cons, runesAux_cons]; simp

/-- An element with a length. -/
theorem elem_fixed {m : Matcher} (h : elem m = true) {k : Nat} (hk : m.len = some k) : 1 ≤ k ∧ goodIdx m = true ∧ good m = true := by
  cases m <;> simp only [elem, Bool.false_eq_true, Bool.and_eq_true, Matcher.len, reduceCtorEq, Option.some.injEq] at h hk
  case text t =>
    simp only [Bool.not_eq_true', List.isEmpty_eq_false_iff] at h
    refine ⟨hk ▸ runesOf_pos h, ?_, rfl⟩
    simpa [goodIdx] using h
  case single => exact ⟨by omega, rfl, rfl⟩
  case list => exact ⟨by omega, rfl, rfl⟩
  case range => exact ⟨by omega, rfl, rfl⟩
  case anyOf ms =>
    rw [hk] at h
    simp only [Bool.and_eq_true, decide_eq_true_eq] at h
    exact ⟨h.2.1.1, by rw [goodIdx]; exact h.2.1.2, by rw [good]; exact h.1.2⟩
  case btree => rw [hk] at h; simp at h
  case everyOf ms =>
    cases ms with
    | nil => simp [startsMin] at h
    | cons => simp at hk
  case row l ms =>
    simp only [decide_eq_true_eq] at h
    refine ⟨hk ▸ h.1.1.2, ?_, ?_⟩
    · simp only [goodIdx, Bool.and_eq_true, decide_eq_true_eq]; exact h
    · simp only [good, Bool.and_eq_true, decide_eq_true_eq]; exact h

/-- Without a length, and `Index` may miss matches at the start: `*` with at least two separators, braces that are not literal, a tree. -/
def badIdx : Matcher → Bool
  | .any s => decide (2 ≤ s.length)
  | .anyOf ms => !ms.all leafAlt
  | .btree _ _ _ _ _ _ => true
  | _ => false

/-- An element without a length. -/
theorem elem_open {m : Matcher} (h : elem m = true) (hk : m.len = none) : good m = true ∧ goodE m = true ∧ (badIdx m = false → goodIdx0 m = true) := by
  cases m <;> simp only [elem, Bool.false_eq_true, Bool.and_eq_true, Matcher.len, reduceCtorEq] at h hk
  case any s => exact ⟨rfl, rfl, fun h => by simp only [badIdx, decide_eq_false_iff_not] at h; simp only [goodIdx0, decide_eq_true_eq]; omega⟩
  case super => exact ⟨rfl, rfl, fun _ => rfl⟩
  case min n => exact ⟨by simpa [good] using h, by simpa [goodE] using h, fun _ => by simpa [goodIdx0] using h⟩
  case anyOf ms =>
    rw [hk] at h
    refine ⟨by rw [good]; exact h.1.2, by rw [goodE]; exact h.2, fun hb => ?_⟩
    simp only [badIdx, Bool.not_eq_false', List.all_eq_true] at hb
    rw [goodIdx0, goodIdx0s_iff]
    intro m hm
    have := hb m hm
    cases m <;> simp [leafAlt] at this <;> rfl
  case everyOf ms =>
    have h3 := List.all_eq_true.1 h.1
    have hne : ms ≠ [] := by rintro rfl; simp [startsMin] at h
    refine ⟨?_, ?_, fun _ => ?_⟩
    · rw [good, goods_iff]
      intro m hm
      have := h3 m hm
      cases m <;> simp [goodIdxZero] at this <;> simp [good, this]
    · rw [goodE, goodEs_iff]
      intro m hm
      have := h3 m hm
      cases m <;> simp [goodIdxZero] at this <;> simp [goodE, this]
    · simp [goodIdx0, hne]
      simpa using h3
  case btree => exact ⟨h.1.1.2, h.1.2, nofun⟩

/-- Elements are optimised already. -/
theorem elem_opt {m : Matcher} (h : elem m = true) : optimizeMatcher m = m := by
  cases m <;> simp only [elem, Bool.false_eq_true, Bool.and_eq_true] at h <;> try rfl
  case any s =>
    rw [optimizeMatcher, if_neg]
    intro h'
    have := List.length_eq_zero_iff.1 h'
    subst this; simp at h
  case list rs n =>
    rw [optimizeMatcher, if_neg]
    simp only [Bool.and_eq_true, decide_eq_true_eq, not_and]
    rintro rfl
    simpa using h
  case anyOf ms =>
    rcases ms with _ | ⟨a, _ | ⟨b, ms⟩⟩
    · rfl
    · simp at h
    · rfl
  case btree => simpa using h.2

/-! ### Gluing -/

theorem gluable_super {m : Matcher} {s : List Nat} (h : gluable m = some (s, .super)) : m = .super ∧ s = [] := by
  cases m <;> simp only [gluable, Option.some.injEq, Prod.mk.injEq, reduceCtorEq, and_false] at h
  · exact ⟨rfl, h.1.symm⟩
  · split at h <;> simp at h

theorem gluable_any {m : Matcher} {s : List Nat} (h : gluable m = some (s, .any)) : m = .any s := by
  cases m <;> simp only [gluable, Option.some.injEq, Prod.mk.injEq, reduceCtorEq, and_false] at h
  · rw [h.1]
  · split at h <;> simp at h

theorem glueLoop_all (sep : List Nat) : ∀ (ms : List Matcher) (hA hS hG : Bool) (n : Nat) (A S G : Bool) (N : Nat),
    glueLoop sep ms (hA, hS, hG, n) = some (A, S, G, N) →
    (hA = true → A = true) ∧ (hS = true → S = true) ∧ (hG = true → G = true) ∧ n ≤ N ∧ (G = true → hG = true ∨ 0 < N) ∧
    (A = true → hA = true ∨ .any sep ∈ ms) ∧ (S = true → hS = true ∨ .super ∈ ms) ∧
    ∀ m ∈ ms, ∃ k, gluable m = some (sep, k) ∧ (k = .super → S = true) ∧ (k = .any → A = true) ∧ (k = .single → G = true ∧ 0 < N)
  | [], hA, hS, hG, n, A, S, G, N, h => by
    simp only [glueLoop, Option.some.injEq, Prod.mk.injEq] at h
    obtain ⟨rfl, rfl, rfl, rfl⟩ := h
    simp +contextual
  | m :: ms, hA, hS, hG, n, A, S, G, N, h => by
    simp only [glueLoop] at h
    cases hg : gluable m with
    | none => rw [hg] at h; cases h
    | some sk =>
      obtain ⟨sp, kind⟩ := sk
      rw [hg] at h
      simp only at h
      split at h
      · rename_i heq
        rw [Runes.equal_iff] at heq
        subst heq
        cases kind <;> simp only at h <;> obtain ⟨h1, h2, h3, h4, h5, hA', hS', h6⟩ := glueLoop_all sp ms _ _ _ _ _ _ _ _ h
        · refine ⟨h1, fun _ => h2 rfl, h3, h4, h5, fun h => (hA' h).imp id (List.mem_cons_of_mem _), fun _ => Or.inr (by rw [(gluable_super hg).1]; simp), ?_⟩
          intro m' hm'
          rcases List.mem_cons.1 hm' with rfl | h'
          · exact ⟨_, hg, fun _ => h2 rfl, nofun, nofun⟩
          · exact h6 m' h'
        · refine ⟨fun _ => h1 rfl, h2, h3, h4, h5, fun _ => Or.inr (by rw [gluable_any hg]; simp), fun h => (hS' h).imp id (List.mem_cons_of_mem _), ?_⟩
          intro m' hm'
          rcases List.mem_cons.1 hm' with rfl | h'
          · exact ⟨_, hg, nofun, fun _ => h1 rfl, nofun⟩
          · exact h6 m' h'
        · refine ⟨h1, h2, fun _ => h3 rfl, by omega, fun _ => Or.inr (by omega), fun h => (hA' h).imp id (List.mem_cons_of_mem _), fun h => (hS' h).imp id (List.mem_cons_of_mem _), ?_⟩
          intro m' hm'
          rcases List.mem_cons.1 hm' with rfl | h'
          · exact ⟨_, hg, nofun, nofun, fun _ => ⟨h3 rfl, by omega⟩⟩
          · exact h6 m' h'
      · cases h

/-- Neighbours that the compiled matcher does not treat as documented: two single wildcards or classes with the same separators, of which there are at least two;
two wildcards that may match nothing and are not glued; a matcher without a length of which `Index` may miss matches (a `*` with at least two separators, braces, a tree)
before a matcher without a length or one that could be glued. -/
def Bad (a b : Matcher) : Prop :=
  (∃ s k k', gluable a = some (s, k) ∧ gluable b = some (s, k') ∧ 2 ≤ s.length) ∨
  (a.len = none ∧ b.len = none ∧ a.match [] = some true ∧ b.match [] = some true ∧ glueMatchers [a, b] = none) ∨
  (a.len = none ∧ badIdx a = true ∧ (gluable b ≠ none ∨ b.len = none))

/-- Neighbours. -/
abbrev Fine (a b : Matcher) : Prop := ¬ Bad a b

theorem needleGood_encode (c : Nat) : needleGood (encodeRune c) = true := by
  rw [needleGood, Bool.or_eq_true, Bool.and_eq_true]
  have hp := List.length_pos_iff.1 (encodeRune_pos c)
  by_cases h : c < 0x80
  · left; rw [encodeRune, if_pos h]; rfl
  · right
    refine ⟨by simpa using hp, ?_⟩
    rw [List.all_eq_true]
    intro b hb
    rw [decide_eq_true_eq]
    by_contra hc
    have hlt : b < 0x80 := by simpa using hc
    have := (encodeRune_ascii_iff hlt).1 hb
    have := toNat_lt_of_ascii hlt
    omega

/-- The matchers that gluing gives. -/
def isGlued : Matcher → Bool
  | .super => true
  | .any _ => true
  | .min _ => true
  | .everyOf _ => true
  | .row _ _ => true
  | _ => false

/-- What gluing gives: a row, `**`, `*`, or a matcher for several runes. -/
inductive GlueResult (S : List Matcher) (g : Matcher) : Prop
  | row : gluable g = none → g.len ≠ none → g ≠ .super → GlueResult S g
  | super : g = .super → (∀ m ∈ S, m = .super) → GlueResult S g
  | any (s : List Nat) : g = .any s → (∀ m ∈ S, m = .any s) → GlueResult S g
  | every : gluable g = none → g.len = none → g.match [] ≠ some true → g ≠ .super → (∀ m ∈ S, gluable m ≠ none) → badIdx g = false → GlueResult S g

theorem sumLens_ge : ∀ {ls : List (Option Nat)} {k : Nat}, sumLens ls = some k → ls.all posLen = true → ls.length ≤ k
  | [], k, _, _ => by simp
  | l :: ls, k, h, hp => by
    simp only [List.all_cons, Bool.and_eq_true] at hp
    obtain ⟨a, b, rfl, h2, rfl⟩ := sumLens_cons h
    have := sumLens_ge h2 hp.2
    have := hp.1
    simp [posLen] at this
    simp; omega

theorem sumLens_some : ∀ {ls : List (Option Nat)} {k : Nat}, sumLens ls = some k → ∀ l ∈ ls, l ≠ none
  | [], k, _, l, h => by simp at h
  | l :: ls, k, h, l', hl => by
    obtain ⟨a, b, rfl, h2, rfl⟩ := sumLens_cons h
    rcases List.mem_cons.1 hl with rfl | hl
    · simp
    · exact sumLens_some h2 l' hl

theorem glue_spec {S : List Matcher} {g : Matcher} (h : glueMatchers S = some g) (hel : ∀ m ∈ S, elem m = true) (hch : S.IsChain Fine) :
    elem g = true ∧ isGlued g = true ∧ 2 ≤ S.length ∧ GlueResult S g := by
  unfold glueMatchers at h
  split at h
  · rename_i g' h'
    simp only [Option.some.injEq] at h
    subst h
    unfold glueMatchersAsEvery at h'
    split at h'
    · cases h'
    · cases h'
    · rename_i m0 rest hne
      obtain ⟨m1, rest', rfl⟩ : ∃ m1 r, rest = m1 :: r := by
        cases rest with
        | nil => exact absurd rfl (hne)
        | cons a b => exact ⟨a, b, rfl⟩
      split at h'
      · cases h'
      · rename_i sep kind hg
        split at h'
        · cases h'
        · rename_i A Su G N hl
          obtain ⟨-, -, -, -, h5, hA', hS', h6⟩ := glueLoop_all sep _ _ _ _ _ _ _ _ _ hl
          have hgl : ∀ m ∈ m0 :: m1 :: rest', gluable m ≠ none := fun m hm => by
            obtain ⟨k, e, _⟩ := h6 m hm
            rw [e]; simp
          have hsep : sep.length ≤ 1 := by
            by_contra hc
            obtain ⟨k, e, _⟩ := h6 m0 (by simp)
            obtain ⟨k', e', _⟩ := h6 m1 (by simp)
            exact (List.isChain_cons_cons.1 hch).1 (Or.inl ⟨sep, k, k', e, e', by omega⟩)
          refine ⟨?_, ?_, by simp, ?_⟩
          all_goals
            split at h'
            · rename_i hc
              simp only [Bool.and_eq_true, Bool.not_eq_true'] at hc
              simp only [Option.some.injEq] at h'
              subst h'
              first
                | rfl
                | refine .super rfl fun m hm => ?_
                  obtain ⟨k, e, k1, k2, k3⟩ := h6 m hm
                  cases k
                  · exact (gluable_super e).1
                  · have := k2 rfl; rw [hc.1.2] at this; cases this
                  · have := (k3 rfl).1; rw [hc.2] at this; cases this
            · split at h'
              · rename_i _ hc
                simp only [Bool.and_eq_true, Bool.not_eq_true'] at hc
                simp only [Option.some.injEq] at h'
                subst h'
                have hall : ∀ m ∈ m0 :: m1 :: rest', m = .any sep := fun m hm => by
                  obtain ⟨k, e, k1, k2, k3⟩ := h6 m hm
                  cases k
                  · have := k1 rfl; rw [hc.1.2] at this; cases this
                  · exact gluable_any e
                  · have := (k3 rfl).1; rw [hc.2] at this; cases this
                first
                  | rfl
                  | (have h0 := hall m0 (by simp); have := hel m0 (by simp); rw [h0] at this; exact this)
                  | exact .any sep rfl hall
              · rename_i hc1 hc2
                split at h'
                · rename_i hc
                  simp only [Bool.and_eq_true, decide_eq_true_eq] at hc
                  simp only [Option.some.injEq] at h'
                  subst h'
                  first
                    | rfl
                    | (simp only [elem, decide_eq_true_eq]; exact hc.1.2)
                    | exact .every rfl rfl (by simp [Matcher.match, minMatch, runesOf, runesAux]) (by simp) hgl rfl
                · simp only [Option.some.injEq] at h'
                  have hN : 0 < N := by
                    by_contra hN
                    have hN0 : N = 0 := by omega
                    have hG : G = false := by
                      by_contra hc
                      rcases h5 (by simpa using hc) with h | h
                      · cases h
                      · omega
                    obtain ⟨k, e, k1, k2, k3⟩ := h6 m0 (by simp)
                    have hAS : A = true ∧ Su = true := by
                      cases hA : A <;> cases hS : Su
                      · exfalso
                        cases k
                        · have := k1 rfl; rw [hS] at this; cases this
                        · have := k2 rfl; rw [hA] at this; cases this
                        · have := (k3 rfl).1; rw [hG] at this; cases this
                      · rw [hA, hS, hG] at hc1; simp at hc1
                      · rw [hA, hS, hG] at hc2; simp at hc2
                      · exact ⟨rfl, rfl⟩
                    rcases hA' hAS.1 with h | ha
                    · cases h
                    · rcases hS' hAS.2 with h | hs
                      · cases h
                      · obtain ⟨k', e', _⟩ := h6 _ hs
                        simp only [gluable, Option.some.injEq, Prod.mk.injEq] at e'
                        have := hel _ ha
                        rw [← e'.1] at this
                        simp [elem] at this
                  rw [if_pos hN] at h'
                  subst h'
                  have hcont : ∀ m ∈ (if sep.length > 0 then [Matcher.contains (sep.flatMap encodeRune) true] else []), goodIdxZero m = true := by
                    intro m hm
                    split at hm
                    · rename_i hlen
                      obtain ⟨c, rfl⟩ := List.length_eq_one_iff.1 (show sep.length = 1 by omega)
                      rw [List.mem_singleton] at hm
                      subst hm
                      simp [goodIdxZero, needleGood_encode]
                    · simp at hm
                  have hzero : ∀ m ∈ [Matcher.min N] ++ (if (!A && !Su) = true then [Matcher.max N] else []) ++
                      (if sep.length > 0 then [Matcher.contains (sep.flatMap encodeRune) true] else []), goodIdxZero m = true := by
                    intro m hm
                    rcases List.mem_append.1 hm with hm | hm
                    · rcases List.mem_append.1 hm with hm | hm
                      · rw [List.mem_singleton] at hm
                        subst hm; simp only [goodIdxZero, decide_eq_true_eq]; exact hN
                      · split at hm
                        · rw [List.mem_singleton] at hm
                          subst hm; rfl
                        · simp at hm
                    · exact hcont m hm
                  first
                    | rfl
                    | refine .every rfl rfl ?_ (by simp) hgl rfl
                      simp [Matcher.match, matchFns, everyOfMatch, minMatch, runesOf, runesAux]
                    | rw [elem, Bool.and_eq_true, List.all_eq_true]
                      exact ⟨hzero, rfl⟩
  · unfold glueMatchersAsRow at h
    split at h
    · cases h
    · rename_i hlen
      rw [Option.map_eq_some_iff] at h
      obtain ⟨l, hl, rfl⟩ := h
      have hpos : (lens S).all posLen = true := by
        rw [lens_eq, List.all_map, List.all_eq_true]
        intro m hm
        have := sumLens_some hl m.len (by rw [lens_eq]; exact List.mem_map_of_mem hm)
        obtain ⟨k, hk⟩ := Option.ne_none_iff_exists'.1 this
        simp only [Function.comp_apply, hk, posLen, decide_eq_true_eq]
        exact (elem_fixed (hel m hm) hk).1
      have hgood : goods S = true := by
        rw [goods_iff]
        intro m hm
        have := sumLens_some hl m.len (by rw [lens_eq]; exact List.mem_map_of_mem hm)
        obtain ⟨k, hk⟩ := Option.ne_none_iff_exists'.1 this
        exact (elem_fixed (hel m hm) hk).2.2
      have hlg : lenGood (.row l S) = true := by
        rw [lenGood, hl, lenGoods_iff.2 fun m hm => elem_lenGood (hel m hm)]
        simp
      have hge := sumLens_ge hl hpos
      rw [lens_eq, List.length_map] at hge
      refine ⟨?_, rfl, by omega, .row rfl (by simp [Matcher.len]) (by simp)⟩
      simp only [elem, hpos, hgood, hlg, Bool.and_true, Bool.true_and, decide_eq_true_eq]
      omega


/-! ### Minimising -/

/-- No part of the sequence can be glued. -/
def NoGlue (ms : List Matcher) : Prop := ∀ as ss cs, ms = as ++ ss ++ cs → glueMatchers ss = none

theorem minimizeLoops_none {ms : List Matcher} (h : minimizeLoops ms = none) : NoGlue ms := by
  unfold minimizeLoops at h
  have stay : ∀ (ps : List (Nat × Nat)) (o : Option Glued), o ≠ none → ps.foldl (fun done lr => minimizeStep ms done lr.1 lr.2) o ≠ none := by
    intro ps
    induction ps with
    | nil => intro o ho; exact ho
    | cons p ps ih =>
      intro o ho
      rw [List.foldl_cons]
      refine ih _ ?_
      unfold minimizeStep
      split
      · exact ho
      · split
        · simp
        · simp only
          intro hc
          rw [ite_eq_iff] at hc
          rcases hc with ⟨_, hc⟩ | ⟨_, hc⟩ <;> cases hc
  have key : ∀ (ps : List (Nat × Nat)) (o : Option Glued), ps.foldl (fun done lr => minimizeStep ms done lr.1 lr.2) o = none →
      ∀ p ∈ ps, glueMatchers ((ms.take p.2).drop p.1) = none := by
    intro ps
    induction ps with
    | nil => simp
    | cons p ps ih =>
      intro o ho q hq
      rw [List.foldl_cons] at ho
      rcases List.mem_cons.1 hq with rfl | hq
      · by_contra hc
        obtain ⟨g, hg⟩ := Option.ne_none_iff_exists'.1 hc
        refine stay ps _ ?_ ho
        unfold minimizeStep
        rw [hg]
        simp only
        split
        · simp
        · intro hc
          rw [ite_eq_iff] at hc
          rcases hc with ⟨_, hc⟩ | ⟨_, hc⟩ <;> cases hc
      · exact ih _ ho q hq
  intro as ss cs e
  by_cases hs : ss = []
  · subst hs; rfl
  · have hlen := List.length_pos_iff.2 hs
    have hml : ms.length = as.length + ss.length + cs.length := by rw [e]; simp; omega
    have := key _ none h (as.length, as.length + ss.length) (by
      simp only [List.mem_flatMap, List.mem_range, List.mem_map]
      exact ⟨as.length, by omega, cs.length, by omega, by rw [Prod.mk.injEq]; omega⟩)
    simp only at this
    rw [e] at this
    rwa [show as.length + ss.length = (as ++ ss).length by simp, List.take_left', List.drop_left'] at this <;> rfl

/-- The sequence is a text, `**`s and a text. -/
def PrefSuf (ms : List Matcher) (p q : Str) : Prop := ∃ mid, ms = .text p :: (mid ++ [.text q]) ∧ mid ≠ [] ∧ ∀ m ∈ mid, m = .super

theorem prefSuf_step {as ss cs : List Matcher} {g : Matcher} {p q : Str} (h : PrefSuf (as ++ [g] ++ cs) p q) (hg : isGlued g = true) (hs : ss ≠ [])
    (hg' : g = .super → ∀ m ∈ ss, m = .super) : PrefSuf (as ++ ss ++ cs) p q := by
  obtain ⟨mid, e, h1, h2⟩ := h
  cases as with
  | nil =>
    simp only [List.nil_append, List.singleton_append, List.cons.injEq] at e
    rw [e.1] at hg; cases hg
  | cons a as =>
    simp only [List.cons_append, List.append_assoc, List.nil_append, List.cons.injEq] at e
    obtain ⟨rfl, e⟩ := e
    rcases List.eq_nil_or_concat cs with rfl | ⟨cs', c, rfl⟩
    · have := congrArg List.getLast? e
      simp at this
      subst this; cases hg
    · have e' : (as ++ g :: cs') ++ [c] = mid ++ [.text q] := by simpa using e
      obtain ⟨rfl, e3⟩ := List.append_inj' e' rfl
      simp only [List.cons.injEq, and_true] at e3
      subst e3
      refine ⟨as ++ ss ++ cs', by simp, by simp [hs], ?_⟩
      have hgs : g = .super := h2 g (by simp)
      intro m hm
      simp only [List.mem_append] at hm
      rcases hm with (hm | hm) | hm
      · exact h2 m (by simp [hm])
      · exact hg' hgs m hm
      · exact h2 m (by simp [hm])

theorem fine_glued {S : List Matcher} {g x : Matcher} (hr : GlueResult S g) (f : Matcher) (hf : f ∈ S) (hgl : glueMatchers S = some g) (h0 : S.head? = some f) (h : Fine x f) : Fine x g := by
  rintro (⟨s, k, k', e1, e2, e3⟩ | ⟨e1, e2, e3, e4, e5⟩ | ⟨e1, e2, e3⟩)
  · cases hr with
    | row q1 => rw [q1] at e2; cases e2
    | super q1 q2 => subst q1; have := q2 f hf; subst this; exact h (Or.inl ⟨s, k, k', e1, e2, e3⟩)
    | any s' q1 q2 => subst q1; have := q2 f hf; subst this; exact h (Or.inl ⟨s, k, k', e1, e2, e3⟩)
    | every q1 => rw [q1] at e2; cases e2
  · cases hr with
    | row q1 q2 => exact q2 e2
    | super q1 q2 => subst q1; have := q2 f hf; subst this; exact h (Or.inr (Or.inl ⟨e1, e2, e3, e4, e5⟩))
    | any s' q1 q2 => subst q1; have := q2 f hf; subst this; exact h (Or.inr (Or.inl ⟨e1, e2, e3, e4, e5⟩))
    | every q1 q2 q3 => exact q3 e4
  · cases hr with
    | row q1 q2 =>
      rcases e3 with e3 | e3
      · exact e3 q1
      · exact q2 e3
    | super q1 q2 => subst q1; have := q2 f hf; subst this; exact h (Or.inr (Or.inr ⟨e1, e2, e3⟩))
    | any s' q1 q2 => subst q1; have := q2 f hf; subst this; exact h (Or.inr (Or.inr ⟨e1, e2, e3⟩))
    | every q1 q2 q3 q4 q5 => exact h (Or.inr (Or.inr ⟨e1, e2, Or.inl (q5 f hf)⟩))

theorem glued_fine {S : List Matcher} {g y : Matcher} (hr : GlueResult S g) (f : Matcher) (hf : f ∈ S) (h : Fine f y) : Fine g y := by
  rintro (⟨s, k, k', e1, e2, e3⟩ | ⟨e1, e2, e3, e4, e5⟩ | ⟨e1, e2, e3⟩)
  · cases hr with
    | row q1 => rw [q1] at e1; cases e1
    | super q1 q2 => subst q1; have := q2 f hf; subst this; exact h (Or.inl ⟨s, k, k', e1, e2, e3⟩)
    | any s' q1 q2 => subst q1; have := q2 f hf; subst this; exact h (Or.inl ⟨s, k, k', e1, e2, e3⟩)
    | every q1 => rw [q1] at e1; cases e1
  · cases hr with
    | row q1 q2 => exact q2 e1
    | super q1 q2 => subst q1; have := q2 f hf; subst this; exact h (Or.inr (Or.inl ⟨e1, e2, e3, e4, e5⟩))
    | any s' q1 q2 => subst q1; have := q2 f hf; subst this; exact h (Or.inr (Or.inl ⟨e1, e2, e3, e4, e5⟩))
    | every q1 q2 q3 => exact q3 e3
  · cases hr with
    | row q1 q2 => exact q2 e1
    | super q1 => subst q1; cases e2
    | any s' q1 q2 => subst q1; have := q2 f hf; subst this; exact h (Or.inr (Or.inr ⟨e1, e2, e3⟩))
    | every q1 q2 q3 q4 q5 q6 => rw [q6] at e2; cases e2

theorem chain_glued {as ss cs : List Matcher} {g : Matcher} (h : (as ++ ss ++ cs).IsChain Fine) (hr : GlueResult ss g) (hgl : glueMatchers ss = some g) (hs : ss ≠ []) :
    (as ++ [g] ++ cs).IsChain Fine := by
  rw [List.isChain_append, List.isChain_append] at h ⊢
  obtain ⟨⟨h1, h2, h3⟩, h4, h5⟩ := h
  refine ⟨⟨h1, by simp, ?_⟩, h4, ?_⟩
  · intro x hx y hy
    simp only [List.head?_cons, Option.mem_def, Option.some.injEq] at hy
    subst hy
    obtain ⟨f, hf⟩ : ∃ f, ss.head? = some f := by
      cases ss with
      | nil => exact absurd rfl hs
      | cons f _ => exact ⟨f, rfl⟩
    exact fine_glued hr f (List.mem_of_mem_head? hf) hgl hf (h3 x hx f hf)
  · intro x hx y hy
    simp only [List.getLast?_append, List.getLast?_singleton, Option.some_or, Option.mem_def, Option.some.injEq] at hx
    subst hx
    obtain ⟨z, hz⟩ : ∃ z, ss.getLast? = some z := by
      rw [List.getLast?_eq_some_getLast hs]; exact ⟨_, rfl⟩
    refine glued_fine hr z (List.mem_of_mem_getLast? hz) (h5 z ?_ y hy)
    rw [List.getLast?_append, hz]; rfl

theorem minimize_spec : ∀ (n : Nat) (ms ns : List Matcher), minimizeMatchers n ms = some ns → (∀ m ∈ ms, elem m = true) → ms.IsChain Fine →
    (∀ m ∈ ns, elem m = true) ∧ ns.IsChain Fine ∧ NoGlue ns ∧ (∀ p q, PrefSuf ns p q → PrefSuf ms p q) ∧ (∀ e, ns = [e] → isGlued e = false → ms = [e])
  | 0, _, _, h, _, _ => by cases h
  | n + 1, ms, ns, h, hel, hch => by
    unfold minimizeMatchers at h
    split at h
    · rename_i hno
      simp only [Option.some.injEq] at h
      subst h
      exact ⟨hel, hch, minimizeLoops_none hno, fun _ _ h => h, fun _ h _ => h⟩
    · rename_i d hd
      obtain ⟨h1, h2, h3⟩ := minimizeLoops_glued hd
      have hms : ms = ms.take d.left ++ (ms.take d.right).drop d.left ++ ms.drop d.right := by
        have : ms.take d.left = (ms.take d.right).take d.left := by rw [List.take_take]; congr 1; omega
        rw [this, List.take_append_drop, List.take_append_drop]
      generalize has : ms.take d.left = as at h hms
      generalize hss : (ms.take d.right).drop d.left = ss at hms h1
      generalize hcs : ms.drop d.right = cs at h hms
      have hel' : ∀ m ∈ as ++ ss ++ cs, elem m = true := by rw [← hms]; exact hel
      have hch' : (as ++ ss ++ cs).IsChain Fine := by rw [← hms]; exact hch
      obtain ⟨g1, g2, g3, g4⟩ := glue_spec h1 (fun m hm => hel' m (by simp [hm])) (by
        rw [List.isChain_append, List.isChain_append] at hch'; exact hch'.1.2.1)
      have hne : ss ≠ [] := by rintro rfl; simp at g3
      have c1 : ∀ m ∈ as ++ [d.m] ++ cs, elem m = true := by
        intro m hm
        simp only [List.mem_append, List.mem_singleton] at hm
        rcases hm with (hm | rfl) | hm
        · exact hel' m (by simp [hm])
        · exact g1
        · exact hel' m (by simp [hm])
      have c2 := chain_glued hch' g4 h1 hne
      have c3 : ∀ p q, PrefSuf (as ++ [d.m] ++ cs) p q → PrefSuf ms p q := by
        intro p q hp
        rw [hms]
        refine prefSuf_step hp g2 hne ?_
        intro hsup
        cases g4 with
        | row q1 q2 q3 => exact absurd hsup q3
        | super q1 q2 => exact q2
        | any s q1 q2 => rw [hsup] at q1; cases q1
        | every q1 q2 q3 q4 => exact absurd hsup q4
      have c4 : ∀ e, as ++ [d.m] ++ cs = [e] → isGlued e = false → False := by
        intro e he hi
        have : d.m ∈ [e] := by rw [← he]; simp
        rw [List.mem_singleton] at this
        rw [this, hi] at g2; cases g2
      simp only at h
      split at h
      · rename_i hl
        exfalso
        rw [hms] at hl
        simp at hl; omega
      · obtain ⟨k1, k2, k3, k4, k5⟩ := minimize_spec n _ ns h c1 c2
        exact ⟨k1, k2, k3, fun p q hp => c3 p q (k4 p q hp), fun e he hi => absurd hi (by
          intro hi; exact c4 e (k5 e he hi) hi)⟩

end Verif.Glob
