import Verif.Glob.OneTerm
import Verif.Glob.Flat
/-
C160: a pattern that is a run of stars.
-/
namespace Verif.Glob

/-- Nothing, or `*` with separators. -/
def StarTail (tail : List Matcher) : Prop := tail = [] ∨ ∃ seps, seps ≠ [] ∧ tail = [.any seps]

theorem glueLoop_supers : ∀ (n : Nat) (b : Bool), glueLoop [] (List.replicate n .super) (false, b, false, 0) = some (false, b || decide (0 < n), false, 0)
  | 0, b => by simp [glueLoop]
  | n + 1, b => by
    rw [List.replicate_succ, glueLoop]
    simp only [gluable]
    rw [if_pos (Runes.equal_iff.2 rfl), glueLoop_supers n true]
    simp

theorem glue_supers (n : Nat) (h : 2 ≤ n) : glueMatchers (List.replicate n .super) = some .super := by
  obtain ⟨k, rfl⟩ : ∃ k, n = k + 2 := ⟨n - 2, by omega⟩
  have h2 := glueLoop_supers (k + 2) false
  rw [List.replicate_succ, List.replicate_succ] at h2 ⊢
  rw [glueMatchers, glueMatchersAsEvery]
  · simp only [gluable, h2]
    simp
  · simp

theorem glueLoop_mixed {seps : List Nat} (hs : seps ≠ []) : ∀ (n : Nat) (b : Bool), glueLoop [] (List.replicate n .super ++ [.any seps]) (false, b, false, 0) = none
  | 0, b => by
    rw [List.replicate_zero, List.nil_append, glueLoop]
    simp only [gluable]
    rw [if_neg (fun h => hs (Runes.equal_iff.1 h))]
  | n + 1, b => by
    rw [List.replicate_succ, List.cons_append, glueLoop]
    simp only [gluable]
    rw [if_pos (Runes.equal_iff.2 rfl), glueLoop_mixed hs n true]

theorem glue_mixed {seps : List Nat} (hs : seps ≠ []) (n : Nat) : glueMatchers (List.replicate n .super ++ [.any seps]) = none := by
  cases n with
  | zero => exact glue_one _
  | succ n =>
    have h2 := glueLoop_mixed hs (n + 1) false
    have hr : glueMatchersAsRow (List.replicate (n + 1) .super ++ [.any seps]) = none := by
      rw [glueMatchersAsRow]; split
      · rfl
      · rw [List.replicate_succ, List.cons_append]; simp [lens, sumLens, Matcher.len]
    have he : glueMatchersAsEvery (List.replicate (n + 1) .super ++ [.any seps]) = none := by
      rw [List.replicate_succ, List.cons_append] at h2 ⊢
      rw [glueMatchersAsEvery]
      · simp only [gluable, h2]
      · intro h; simp at h
    rw [glueMatchers, he, hr]

theorem minimize_run (tail : List Matcher) (ht : StarTail tail) : ∀ (fuel n : Nat), n < fuel →
    minimizeMatchers fuel (List.replicate n .super ++ tail) = some (List.replicate (min n 1) .super ++ tail)
  | 0, n, h => absurd h (by omega)
  | fuel + 1, n, h => by
    rw [minimizeMatchers]
    cases hl : minimizeLoops (List.replicate n .super ++ tail) with
    | none =>
      have hn : n ≤ 1 := by
        by_contra hc
        have := minimizeLoops_none hl [] (List.replicate n .super) tail (by simp)
        rw [glue_supers n (by omega)] at this
        cases this
      simp [Nat.min_eq_left hn]
    | some d =>
      obtain ⟨hg, hlt, hle⟩ := minimizeLoops_glued hl
      have hr : d.right ≤ n := by
        by_contra hc
        rcases ht with rfl | ⟨seps, hs, rfl⟩
        · simp at hle; omega
        · simp at hle
          rw [List.take_of_length_le (by simp; omega), List.drop_append_of_le_length (by simp; omega), List.drop_replicate, glue_mixed hs] at hg
          cases hg
      have h2 : 2 ≤ d.right - d.left := by
        by_contra hc
        rw [List.take_append_of_le_length (by simpa using hr), List.take_replicate, List.drop_replicate, Nat.min_eq_left hr,
          show d.right - d.left = 1 by omega] at hg
        rw [List.replicate_one, glue_one] at hg
        cases hg
      have hm : d.m = .super := by
        rw [List.take_append_of_le_length (by simpa using hr), List.take_replicate, List.drop_replicate, Nat.min_eq_left hr, glue_supers _ h2] at hg
        injection hg with hg
        exact hg.symm
      have hnext : (List.replicate n Matcher.super ++ tail).take d.left ++ [d.m] ++ (List.replicate n Matcher.super ++ tail).drop d.right =
          List.replicate (d.left + 1 + (n - d.right)) .super ++ tail := by
        rw [List.take_append_of_le_length (by simp; omega), List.take_replicate, List.drop_append_of_le_length (by simpa using hr), List.drop_replicate, hm,
          Nat.min_eq_left (by omega), List.replicate_add, List.replicate_add]
        simp
      dsimp only
      rw [hnext, if_neg (by simp; omega), minimize_run tail ht fuel _ (by omega), Nat.min_eq_right (by omega), Nat.min_eq_right (by omega)]

/-- The matcher of a run of `**`, with a `*` behind it or not. -/
theorem compile_run (seps : List Nat) (n : Nat) (hn : 1 ≤ n) (odd : Bool) (bound : Nat) (hb : 2 ≤ bound) :
    compile seps bound (.pattern (List.replicate n .super ++ if odd then [.any] else [])) =
      .ok (if odd = true ∧ seps ≠ [] then newBTree .super none (some (.any seps)) else .super) := by
  obtain ⟨bound, rfl⟩ : ∃ k, bound = k + 2 := ⟨bound - 2, by omega⟩
  have hc : ∀ k (rest : List Node) ms, compileChildren (compile seps (bound + 1)) rest = .ok ms →
      compileChildren (compile seps (bound + 1)) (List.replicate k .super ++ rest) = .ok (List.replicate k .super ++ ms) := by
    intro k rest ms h
    induction k with
    | zero => simpa using h
    | succ k ih =>
      rw [List.replicate_succ, List.cons_append, compileChildren, ih]
      simp [compile, optimizeMatcher, List.replicate_succ]
  by_cases hodd : odd = true ∧ seps ≠ []
  · obtain ⟨rfl, hs⟩ := hodd
    have hl : seps.length ≠ 0 := fun h => hs (List.length_eq_zero_iff.1 h)
    have ho : optimizeMatcher (.any seps) = .any seps := by rw [optimizeMatcher, if_neg hl]
    have h1 := hc n [Node.any] [Matcher.any seps] (by simp [compileChildren, compile, ho])
    have h2 := minimize_run [.any seps] (.inr ⟨seps, hs, rfl⟩) ((List.replicate n Matcher.super ++ [Matcher.any seps]).length + 1) n (by simp; omega)
    rw [if_pos (show true = true ∧ seps ≠ [] from ⟨rfl, hs⟩), compile]
    rw [if_neg (by simp)]
    simp only [if_true]
    rw [h1]
    dsimp only
    rw [h2, Nat.min_eq_right hn, List.replicate_one]
    have hg : glueMatchers [Matcher.super, .any seps] = none := glue_mixed hs 1
    simp [compileMatchers, hg, chooseValue, Matcher.len, newBTree, optimizeMatcher, optimizeBTree, optimizeOpt, hs]
  · rw [if_neg hodd]
    have h0 : ∃ k, 1 ≤ k ∧ compileChildren (compile seps (bound + 1)) (List.replicate n .super ++ if odd then [.any] else []) = .ok (List.replicate k .super ++ []) := by
      cases odd with
      | false => exact ⟨n, hn, hc n [] [] rfl⟩
      | true =>
        obtain rfl : seps = [] := by by_contra h; exact hodd ⟨rfl, h⟩
        refine ⟨n + 1, by omega, ?_⟩
        have := hc n [Node.any] [Matcher.super] (by simp [compileChildren, compile, optimizeMatcher])
        simpa [List.replicate_succ'] using this
    obtain ⟨k, hk, h1⟩ := h0
    have h2 := minimize_run [] (.inl rfl) ((List.replicate k Matcher.super ++ []).length + 1) k (by simp)
    rw [compile]
    rw [if_neg (by simp; omega), h1]
    dsimp only
    rw [h2, Nat.min_eq_right hk]
    simp [compileMatchers, optimizeMatcher]

/-- The stars are read in pairs. -/
theorem stars_terms (n : Nat) : writeTerms (List.replicate n .super) = List.replicate (2 * n) 42 := by
  induction n with
  | zero => rfl
  | succ n ih => rw [List.replicate_succ, writeTerms, ih, show 2 * (n + 1) = 2 + 2 * n by omega, List.replicate_add]; rfl

theorem ok_supers (odd : Bool) (n : Nat) : okTerms false (List.replicate n .super ++ if odd then [.any] else []) = true := by
  induction n with
  | zero => cases odd <;> rfl
  | succ n ih => rw [List.replicate_succ, List.cons_append, okTerms, ih]; simp [Term.ok, apart]

theorem nodes_run (odd : Bool) (n : Nat) : nodes (List.replicate n .super ++ if odd then [.any] else []) = List.replicate n .super ++ if odd then [.any] else [] := by
  induction n with
  | zero => cases odd <;> rfl
  | succ n ih => rw [List.replicate_succ, List.cons_append, nodes, ih]; rfl

theorem superAny_match (seps : List Nat) (s : Str) : (newBTree .super none (some (.any seps))).match s = some (decide (s ≠ [])) := by
  simp only [newBTree, Matcher.len, Matcher.match, matchOpt]
  unfold btreeMatch
  simp only [Option.getD_some, Bool.false_eq_true, if_false]
  rw [btreeLoop]
  by_cases hs : s = []
  · subst hs; simp
  · have hl : 0 < s.length := List.length_pos_iff.2 hs
    rw [if_pos hl]
    simp only [Matcher.index, superIndex, List.take_length, List.drop_zero, List.reverse_append, List.reverse_cons, List.reverse_nil, List.nil_append, List.cons_append]
    rw [btreeSegments]
    have hn : (indexAnyRunes [] seps).isNone = true := (indexAnyRunes_isNone [] seps).2 (fun r hr => by cases hr)
    simp [hs, hn]

/-- **C160** What a pattern of `k` stars matches, for all separators and strings of any bytes. -/
theorem C160_stars (seps : List Nat) (k : Nat) (hk : 1 ≤ k) (s : Str) : ∃ b, globMatch (List.replicate k 42) seps s = some (some b) ∧
    (b = true ↔ if k = 1 then ∀ r ∈ runesIn s, r ∉ seps else if k % 2 = 1 ∧ seps ≠ [] then s ≠ [] else True) := by
  by_cases h1 : k = 1
  · subst h1
    obtain ⟨b, hb, h⟩ := C113_one_term seps .any (by simp) (by decide) s
    refine ⟨b, hb, ?_⟩
    rw [h, if_pos rfl]
    simp [Term.Lang, seen, oneRuneTerm, runesIn]
  · rw [if_neg h1]
    have hw : List.replicate k 42 = writeTerms (List.replicate (k / 2) .super ++ if k % 2 == 1 then [.any] else []) := by
      rw [writeTerms_append, stars_terms]
      rcases Nat.mod_two_eq_zero_or_one k with h | h
      · simp [h, writeTerms]; omega
      · rw [show writeTerms (if (k % 2 == 1) = true then [Term.any] else []) = List.replicate 1 42 by rw [h]; rfl, ← List.replicate_add]
        congr 1; omega
    rw [hw, globMatch, globCompile, C75_parse_documented _ (ok_supers _ _), nodes_run]
    simp only
    rw [compile_run seps (k / 2) (by omega) _ _ (by
      obtain ⟨j, hj⟩ : ∃ j, k / 2 = j + 1 := ⟨k / 2 - 1, by omega⟩
      rw [hj, List.replicate_succ, List.cons_append, Node.size, sizes, show Node.size .super = 1 from rfl]; omega)]
    by_cases ho : k % 2 = 1 ∧ seps ≠ []
    · rw [if_pos ho, if_pos (by simpa using ho)]
      simp only [superAny_match]
      exact ⟨_, rfl, by simp⟩
    · rw [if_neg ho, if_neg (by simpa using ho)]
      exact ⟨true, rfl, by simp⟩

/-- **C160** A run of three or more stars should match every string, as `**` alone does; it does so for all strings if and only if the number is even or there are no separators. -/
theorem C160_empty (seps : List Nat) (k : Nat) (hk : 2 ≤ k) : (∀ s, globMatch (List.replicate k 42) seps s = some (some true)) ↔ k % 2 = 0 ∨ seps = [] := by
  constructor
  · intro h
    by_contra hc
    push Not at hc
    obtain ⟨b, hb, e⟩ := C160_stars seps k (by omega) []
    rw [h []] at hb
    injection hb with hb; injection hb with hb
    subst hb
    rw [if_neg (by omega), if_pos ⟨by omega, hc.2⟩] at e
    exact (e.1 rfl) rfl
  · intro h s
    obtain ⟨b, hb, e⟩ := C160_stars seps k (by omega) s
    rw [if_neg (by omega), if_neg (by rintro ⟨h1, h2⟩; rcases h with h | h; omega; exact h2 h)] at e
    rw [hb, e.2 trivial]

/-- `***` with `/`: the empty string does not match, `a/b` does. -/
theorem C160_case : globMatch (lit "***") [47] [] = some (some false) ∧ globMatch (lit "***") [47] (lit "a/b") = some (some true) ∧
    globMatch (lit "****") [47] [] = some (some true) := by decide +kernel

end Verif.Glob
