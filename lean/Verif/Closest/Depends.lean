import Verif.Closest.HistoryProps
/-
C155: what the result of a search depends on.
-/
namespace Verif.Closest
open Spec

/-! ## Specification -/

open Classical in
/-- The word (in lower case) has a fragment in common with the query. -/
noncomputable def related (other : Str → Str) (sizes : List Nat) (q w : Str) : Bool := decide (∃ f ∈ frags sizes q, f ∈ frags sizes (toLower other w))

/-- The calls of `Closest` and `ClosestN` have the same possible results, and may crash, in one index as in the other. -/
def SameAnswers (cm : CM) (q : Str) (cm' : CM) (q' : Str) : Prop :=
  (MatchPanics cm q ↔ MatchPanics cm' q') ∧ (∀ out, Closest cm q out ↔ Closest cm' q' out) ∧ ∀ n out, ClosestN cm q n out ↔ ClosestN cm' q' n out

/-! ## Proofs -/

theorem card_positions (P : Str → Prop) [DecidablePred P] : ∀ words : List Str, ((Finset.range words.length).filter fun i => P (words.getD i [])).card = words.countP fun w => decide (P w)
  | [] => rfl
  | w :: words => by
    have ih := card_positions P words
    rw [List.length_cons, Finset.range_add_one', Finset.filter_insert, List.countP_cons]
    have e : (Finset.filter (fun i => P ((w :: words).getD i [])) (Finset.map ⟨fun i => i + 1, fun i j => Nat.succ.inj⟩ (Finset.range words.length))).card = words.countP fun w => decide (P w) := by
      rw [Finset.filter_map, Finset.card_map, ← ih]
      congr 1
    have h0 : (w :: words).getD 0 [] = w := rfl
    rw [h0]
    by_cases h : P w
    · rw [if_pos h, Finset.card_insert_of_notMem (by simp), e]; simp [h]
    · rw [if_neg h, e]; simp [h]

theorem one_holders (other : Str → Str) (sizes : List Nat) (words : List Str) (f : Str) : (history other sizes [words]).holders f = holders other sizes words f := by
  simp [history]

theorem one_word (other : Str → Str) (sizes : List Nat) (words : List Str) {i : Nat} (h : i < words.length) : (history other sizes [words]).word i = words.getD i [] := by
  simp [history, h]

theorem one_holders_card (other : Str → Str) (sizes : List Nat) (words : List Str) (f : Str) :
    ((history other sizes [words]).holders f).card = words.countP fun w => decide (f ∈ frags sizes (toLower other w)) := by
  rw [one_holders, holders]
  exact card_positions (fun w => f ∈ frags sizes (toLower other w)) words

theorem one_key_card (other : Str → Str) (sizes : List Nat) (words : List Str) (f k : Str) :
    (((history other sizes [words]).holders f).filter fun i => (history other sizes [words]).word i = k).card =
      words.countP fun w => decide (f ∈ frags sizes (toLower other w) ∧ w = k) := by
  rw [one_holders, holders, Finset.filter_filter, ← card_positions]
  congr 1
  apply Finset.filter_congr
  intro i hi
  rw [one_word other sizes words (Finset.mem_range.1 hi)]

theorem one_found (other : Str → Str) (sizes : List Nat) (words : List Str) (q k : Str) : (history other sizes [words]).Found sizes q k ↔ k ∈ words.filter (related other sizes q) := by
  unfold Idx.Found related
  rw [List.mem_filter, decide_eq_true_eq]
  simp only [one_holders, holders, Finset.mem_filter, Finset.mem_range]
  constructor
  · rintro ⟨f, hf, i, ⟨hi, hi2⟩, rfl⟩
    rw [one_word other sizes words hi]
    refine ⟨?_, f, hf, hi2⟩
    rw [List.getD_eq_getElem _ _ hi]
    exact List.getElem_mem hi
  · rintro ⟨hk, f, hf, hf2⟩
    obtain ⟨i, hi, rfl⟩ := List.getElem_of_mem hk
    have e : words.getD i [] = words[i] := List.getD_eq_getElem _ _ hi
    exact ⟨f, hf, i, ⟨hi, by rw [e]; exact hf2⟩, by rw [one_word other sizes words hi, e]⟩

theorem countP_related {other : Str → Str} {sizes : List Nat} {q f : Str} (hf : f ∈ frags sizes q) (words : List Str) (P : Str → Bool) (hP : ∀ w, P w = true → f ∈ frags sizes (toLower other w)) :
    (words.filter (related other sizes q)).countP P = words.countP P := by
  rw [List.countP_filter]
  apply List.countP_congr
  intro w _
  simp only [Bool.and_eq_true, and_iff_left_iff_imp]
  intro h
  unfold related
  rw [decide_eq_true_eq]
  exact ⟨f, hf, hP w h⟩

theorem one_score {other : Str → Str} {sizes : List Nat} {words words' : List Str} {q : Str}
    (h : (words.filter (related other sizes q)).Perm (words'.filter (related other sizes q))) (k : Str) :
    (history other sizes [words]).score sizes q k = (history other sizes [words']).score sizes q k := by
  unfold Idx.score
  refine Finset.sum_congr rfl fun f hf => ?_
  simp only [one_holders_card, one_key_card]
  have c1 : words.countP (fun w => decide (f ∈ frags sizes (toLower other w))) = words'.countP fun w => decide (f ∈ frags sizes (toLower other w)) := by
    rw [← countP_related (other := other) hf words _ (by simp), ← countP_related (other := other) hf words' _ (by simp)]
    exact h.countP_eq _
  have c2 : words.countP (fun w => decide (f ∈ frags sizes (toLower other w) ∧ w = k)) = words'.countP fun w => decide (f ∈ frags sizes (toLower other w) ∧ w = k) := by
    rw [← countP_related (other := other) hf words _ (fun w hw => (of_decide_eq_true hw).1), ← countP_related (other := other) hf words' _ (fun w hw => (of_decide_eq_true hw).1)]
    exact h.countP_eq _
  rw [c1, c2]

theorem frags_sizes {sizes sizes' : List Nat} (h : ∀ j, j ∈ sizes ↔ j ∈ sizes') : frags sizes = frags sizes' := by
  funext w
  unfold frags
  have : sizes.toFinset = sizes'.toFinset := by ext j; simp [h]
  rw [this]

/-- The answers are a function of the words found and their scores. -/
theorem same_of {other : Str → Str} {sizes sizes' : List Nat} {words words' : List Str} {cm cm' : CM} (h1 : new other words (sizes.map Int.ofNat) = some cm)
    (h2 : new other words' (sizes'.map Int.ofNat) = some cm') {q q' : Str}
    (hf : ∀ k, (history other sizes [words]).Found sizes q k ↔ (history other sizes' [words']).Found sizes' q' k)
    (hs : ∀ k, (history other sizes [words]).score sizes q k = (history other sizes' [words']).score sizes' q' k) : SameAnswers cm q cm' q' := by
  obtain ⟨c1, e1, a1⟩ := C94_search other sizes words []
  obtain ⟨c2, e2, a2⟩ := C94_search other sizes' words' []
  rw [h1] at e1; rw [h2] at e2
  have g1 : cm = c1 := by simpa using e1
  have g2 : cm' = c2 := by simpa using e2
  subst g1; subst g2
  obtain ⟨p1, _, q1, r1, _⟩ := a1 q
  obtain ⟨p2, _, q2, r2, _⟩ := a2 q'
  refine ⟨?_, fun out => ?_, fun n out => ?_⟩
  · rw [p1, p2, hf]
  · rw [q1, q2]; simp only [hf, hs]
  · rw [r1, r2]; simp only [hf, hs]

/-! ## The theorems -/

/-- **C155** The result of a search in an index made by `New` depends only on how often each of the words that have a fragment in common with the query occurs: not on the order of the words, and not
on other words. -/
theorem C155_words (other : Str → Str) (sizes : List Nat) (words words' : List Str) (cm cm' : CM) (h1 : new other words (sizes.map Int.ofNat) = some cm)
    (h2 : new other words' (sizes.map Int.ofNat) = some cm') (q : Str)
    (h : ∀ w, (∃ f ∈ frags sizes q, f ∈ frags sizes (toLower other w)) → words.count w = words'.count w) : SameAnswers cm q cm' q := by
  have hp : (words.filter (related other sizes q)).Perm (words'.filter (related other sizes q)) := by
    rw [List.perm_iff_count]
    intro w
    by_cases hw : related other sizes q w = true
    · rw [List.count_filter hw, List.count_filter hw]
      exact h w (by simpa [related] using hw)
    · rw [List.count_eq_zero_of_not_mem fun hm => hw (List.mem_filter.1 hm).2, List.count_eq_zero_of_not_mem fun hm => hw (List.mem_filter.1 hm).2]
  refine same_of h1 h2 (fun k => ?_) fun k => one_score hp k
  rw [one_found, one_found]
  exact hp.mem_iff

/-- **C155** It does not depend on the order of the fragment sizes or on how often each is given. -/
theorem C155_sizes (other : Str → Str) (sizes sizes' : List Nat) (words : List Str) (cm cm' : CM) (h1 : new other words (sizes.map Int.ofNat) = some cm)
    (h2 : new other words (sizes'.map Int.ofNat) = some cm') (h : ∀ j, j ∈ sizes ↔ j ∈ sizes') (q : Str) : SameAnswers cm q cm' q := by
  have e := frags_sizes h
  have eh : history other sizes [words] = history other sizes' [words] := by unfold history holders; rw [e]
  refine same_of h1 h2 (fun k => ?_) fun k => ?_
  · rw [eh]; unfold Idx.Found; rw [e]
  · rw [eh]; unfold Idx.score; rw [e]

/-- **C155** Of the query only the set of its fragments matters. -/
theorem C155_query (other : Str → Str) (sizes : List Nat) (words : List Str) (cm : CM) (h1 : new other words (sizes.map Int.ofNat) = some cm) (q q' : Str)
    (h : ∀ f, f ∈ frags sizes q ↔ f ∈ frags sizes q') : SameAnswers cm q cm q' := by
  have e : frags sizes q = frags sizes q' := Finset.ext h
  refine same_of h1 h1 (fun k => ?_) fun k => ?_
  · unfold Idx.Found; rw [e]
  · unfold Idx.score; rw [e]

/-- Cases: the list in another order with an unrelated word more; the queries `abab` and `baba`, of which `ab` and `ba` are the fragments. -/
theorem C155_case : let words := [lit "abx", lit "cdy"]
    let words' := [lit "cdy", lit "zz", lit "abx"]
    (∀ w, (∃ f ∈ frags [2] (lit "abcd"), f ∈ frags [2] (toLower id w)) → words.count w = words'.count w) ∧ (∃ f ∈ frags [2] (lit "abcd"), f ∈ frags [2] (toLower id (lit "abx"))) ∧
    ∀ f, f ∈ frags [2] (lit "abab") ↔ f ∈ frags [2] (lit "baba") := by
  refine ⟨fun w hw => ?_, by decide +kernel, fun f => ?_⟩
  · have hz : w ≠ lit "zz" := by
      rintro rfl
      revert hw; decide +kernel
    by_cases h1 : w = lit "abx"
    · subst h1; decide
    · by_cases h2 : w = lit "cdy"
      · subst h2; decide
      · rw [List.count_eq_zero_of_not_mem (by simp [h1, h2]), List.count_eq_zero_of_not_mem (by simp [h1, h2, hz])]
  · rw [show frags [2] (lit "abab") = frags [2] (lit "baba") by decide +kernel]

/-- A word that shares a fragment with the query does matter, even for which of two others is the better one: for `abcd` the words `abx` and `cdy` are equally good, but with `ab` in the list `cdy` is better than `abx`;
and a word given twice is better than the same word given once. -/
theorem C155_third_word : (let x := history id [2] [[lit "abx", lit "cdy"]]; x.score [2] (lit "abcd") (lit "abx") = x.score [2] (lit "abcd") (lit "cdy")) ∧
    (let x := history id [2] [[lit "abx", lit "cdy", lit "ab"]]; x.score [2] (lit "abcd") (lit "abx") < x.score [2] (lit "abcd") (lit "cdy")) ∧
    (let x := history id [2] [[lit "abx", lit "cdy", lit "cdy"]]; x.score [2] (lit "abcd") (lit "abx") < x.score [2] (lit "abcd") (lit "cdy")) := by
  refine ⟨?_, ?_, ?_⟩ <;> decide +kernel

end Verif.Closest
