import Verif.Closest.Lemmas
import Mathlib.Data.Finset.Dedup
import Mathlib.Data.Finset.Card
import Mathlib.Tactic.Ring
import Mathlib.Data.List.GetD
import Mathlib.Algebra.Order.BigOperators.Group.List
/-
The index made by `New` and `Add`, and the meaning of the sums.
-/
namespace Verif.Closest
open Spec

theorem mem_fragmentsOf {word f : Str} {j : Nat} : f ∈ fragmentsOf word j ↔ f ∈ windows word j ∧ blank f = false := by
  unfold fragmentsOf windows
  simp only [List.mem_filter, List.mem_map, List.mem_range, Finset.mem_image, Finset.mem_range, Bool.not_eq_true']

/-- `splitWord` computes the fragments. -/
theorem splitWord_eq (sizes : List Nat) (word : Str) :
    ∃ fs, splitWord (sizes.map Int.ofNat) word = some fs ∧ fs.Nodup ∧ fs.toFinset = frags sizes word := by
  unfold splitWord
  rw [if_neg]
  · dsimp only
    have hm : ∀ f, f ∈ ((sizes.map Int.ofNat).flatMap fun j => fragmentsOf word j.toNat).dedup ↔
        f ∈ ((sizes.toFinset.biUnion (windows word)).filter fun f => blank f = false) := by
      intro f
      simp only [List.mem_dedup, List.mem_flatMap, List.mem_map, Finset.mem_filter, Finset.mem_biUnion, List.mem_toFinset]
      constructor
      · rintro ⟨_, ⟨j, hj, rfl⟩, hf⟩
        obtain ⟨h1, h2⟩ := mem_fragmentsOf.1 hf
        exact ⟨⟨j, hj, h1⟩, h2⟩
      · rintro ⟨⟨j, hj, h1⟩, h2⟩
        exact ⟨_, ⟨j, hj, rfl⟩, mem_fragmentsOf.2 ⟨h1, h2⟩⟩
    unfold frags
    dsimp only
    by_cases he : (((sizes.map Int.ofNat).flatMap fun j => fragmentsOf word j.toNat).dedup).length = 0
    · rw [if_pos he]
      rw [List.length_eq_zero_iff] at he
      rw [if_pos]
      · exact ⟨[word], rfl, List.nodup_singleton _, rfl⟩
      · rw [Finset.eq_empty_iff_forall_notMem]
        intro f hf
        rw [← hm, he] at hf
        cases hf
    · rw [if_neg he, if_neg]
      · refine ⟨_, rfl, List.nodup_dedup _, ?_⟩
        ext f
        rw [List.mem_toFinset, hm]
      · intro h
        apply he
        rw [List.length_eq_zero_iff, List.eq_nil_iff_forall_not_mem]
        intro f hf
        rw [hm, h] at hf
        simp at hf
  · simp

/-- An index of the words `words` (position = identifier). -/
structure Indexed (other : Str → Str) (sizes : List Nat) (words : List Str) (cm : CM) : Prop where
  szs : cm.sizes = sizes.map Int.ofNat
  key : ∀ i, i < words.length → cm.key i = words.getD i []
  sub : ∀ f, (cm.sub f = none ∧ holders other sizes words f = ∅) ∨
    ∃ ids, cm.sub f = some ids ∧ ids.Nodup ∧ ids ≠ [] ∧ ids.toFinset = holders other sizes words f

theorem foldl_addId (i : Nat) : ∀ (fs : List Str) (sub : Str → Option (List Nat)) (f : Str), fs.Nodup →
    fs.foldl (addId i) sub f = if f ∈ fs then some (((sub f).getD []).insert i) else sub f
  | [], sub, f, _ => by simp
  | g :: fs, sub, f, h => by
    rw [List.foldl_cons, foldl_addId i fs _ f (List.nodup_cons.1 h).2]
    have hg := (List.nodup_cons.1 h).1
    unfold addId
    by_cases e : f = g
    · subst e
      rw [if_neg hg, if_pos rfl, if_pos List.mem_cons_self]
    · rw [if_neg e]
      simp only [List.mem_cons, e, false_or]

theorem holders_snoc (other : Str → Str) (sizes : List Nat) (words : List Str) (s f : Str) :
    holders other sizes (words ++ [s]) f =
      if f ∈ frags sizes (toLower other s) then insert words.length (holders other sizes words f) else holders other sizes words f := by
  ext i
  have key : i ∈ holders other sizes (words ++ [s]) f ↔ (i < words.length ∧ f ∈ frags sizes (toLower other (words.getD i []))) ∨
      (i = words.length ∧ f ∈ frags sizes (toLower other s)) := by
    unfold holders
    rw [Finset.mem_filter, Finset.mem_range, List.length_append, List.length_singleton]
    constructor
    · rintro ⟨h1, h2⟩
      rcases Nat.lt_or_ge i words.length with h | h
      · left; refine ⟨h, ?_⟩
        rwa [List.getD_append _ _ _ _ h] at h2
      · right
        have : i = words.length := by omega
        subst this
        refine ⟨rfl, ?_⟩
        rw [List.getD_append_right _ _ _ _ (Nat.le_refl _), Nat.sub_self] at h2
        exact h2
    · rintro (⟨h1, h2⟩ | ⟨rfl, h2⟩)
      · refine ⟨by omega, ?_⟩
        rwa [List.getD_append _ _ _ _ h1]
      · refine ⟨by omega, ?_⟩
        rw [List.getD_append_right _ _ _ _ (Nat.le_refl _), Nat.sub_self]
        exact h2
  rw [key]
  have hh : i ∈ holders other sizes words f ↔ i < words.length ∧ f ∈ frags sizes (toLower other (words.getD i [])) := by
    unfold holders; rw [Finset.mem_filter, Finset.mem_range]
  split
  · rename_i hf
    rw [Finset.mem_insert, hh]
    constructor
    · rintro (h | h)
      · exact Or.inr h
      · exact Or.inl h.1
    · rintro (h | h)
      · exact Or.inr ⟨h, hf⟩
      · exact Or.inl h
  · rename_i hf
    rw [hh]
    constructor
    · rintro (h | h)
      · exact h
      · exact absurd h.2 hf
    · exact Or.inl

theorem Indexed.addWord {other : Str → Str} {sizes : List Nat} {words : List Str} {cm : CM} (h : Indexed other sizes words cm) (s : Str) :
    ∃ cm', addWord other cm words.length s = some cm' ∧ Indexed other sizes (words ++ [s]) cm' := by
  obtain ⟨fs, e, hn, hf⟩ := splitWord_eq sizes (toLower other s)
  unfold Closest.addWord
  rw [h.szs, e]
  refine ⟨_, rfl, rfl, ?_, ?_⟩
  · intro i hi
    simp only [CM.key]
    by_cases hil : i = words.length
    · subst hil
      rw [if_pos rfl, List.getD_append_right _ _ _ _ (Nat.le_refl _), Nat.sub_self]; rfl
    · rw [List.length_append, List.length_singleton] at hi
      rw [if_neg hil, List.getD_append _ _ _ _ (by omega), ← h.key i (by omega)]; rfl
  · intro f
    simp only [foldl_addId _ fs cm.sub f hn]
    rw [holders_snoc]
    have hmem : f ∈ frags sizes (toLower other s) ↔ f ∈ fs := by rw [← hf, List.mem_toFinset]
    by_cases hfs : f ∈ fs
    · rw [if_pos hfs, if_pos (hmem.2 hfs)]
      right
      refine ⟨_, rfl, ?_, ?_, ?_⟩
      · apply List.Nodup.insert
        rcases h.sub f with ⟨e1, -⟩ | ⟨ids, e1, h2, -⟩
        · rw [e1]; exact List.nodup_nil
        · rw [e1]; exact h2
      · intro he
        have := List.mem_insert_self (a := words.length) (l := (cm.sub f).getD [])
        rw [he] at this; cases this
      · have hti : ∀ (l : List Nat) (x : Nat), (l.insert x).toFinset = insert x l.toFinset := by intro l x; ext; simp
        rw [hti]
        congr 1
        rcases h.sub f with ⟨e1, e2⟩ | ⟨ids, e1, -, -, h2⟩
        · rw [e1, e2]; rfl
        · rw [e1]; exact h2
    · rw [if_neg hfs, if_neg (fun e => hfs (hmem.1 e))]
      exact h.sub f

theorem Indexed.addWords {other : Str → Str} {sizes : List Nat} : ∀ (ss words : List Str) (cm : CM), Indexed other sizes words cm →
    ∃ cm', addWords other words.length ss cm = some cm' ∧ Indexed other sizes (words ++ ss) cm'
  | [], words, cm, h => ⟨cm, rfl, by rwa [List.append_nil]⟩
  | s :: ss, words, cm, h => by
    obtain ⟨cm1, e1, h1⟩ := h.addWord s
    obtain ⟨cm2, e2, h2⟩ := Indexed.addWords ss (words ++ [s]) cm1 h1
    refine ⟨cm2, ?_, ?_⟩
    · rw [Closest.addWords, e1]
      rw [List.length_append, List.length_singleton] at e2
      exact e2
    · rwa [List.append_assoc] at h2

/-- `New` indexes the words. -/
theorem new_indexed (other : Str → Str) (words : List Str) (sizes : List Nat) :
    ∃ cm, new other words (sizes.map Int.ofNat) = some cm ∧ Indexed other sizes words cm := by
  have h0 : Indexed other sizes [] ⟨sizes.map Int.ofNat, fun _ => none, fun _ => none⟩ := ⟨rfl, by simp, fun f => Or.inl ⟨rfl, rfl⟩⟩
  obtain ⟨cm, e, h⟩ := Indexed.addWords words [] _ h0
  exact ⟨cm, e, h⟩

/-! ### The sums -/

theorem sumS_apply (l : List Scores) (k : Str) : sumS l k =
    if ∃ m ∈ l, (m k).isSome then some ((l.map fun m => (m k).getD 0).sum) else none := by
  induction l with
  | nil => simp [sumS, zeroS]
  | cons m l ih =>
    rw [sumS_cons]
    unfold merge
    rw [ih]
    simp only [List.exists_mem_cons_iff, List.map_cons, List.sum_cons]
    by_cases h : ∃ m ∈ l, (m k).isSome
    · rw [if_pos h, if_pos (Or.inr h)]
      cases m k <;> simp
    · rw [if_neg h]
      have hz : (l.map fun m => (m k).getD 0).sum = 0 := by
        rw [List.sum_eq_zero_iff]
        intro x hx
        obtain ⟨m', hm', rfl⟩ := List.mem_map.1 hx
        cases h' : m' k with
        | none => rfl
        | some v => exact absurd ⟨m', hm', by rw [h']; rfl⟩ h
      rw [hz]
      cases h' : m k with
      | none => simp [h]
      | some v => simp

theorem contrib_apply {other : Str → Str} {sizes : List Nat} {words : List Str} {cm : CM} (h : Indexed other sizes words cm) (f k : Str) :
    contrib cm f k = if ∃ i ∈ holders other sizes words f, words.getD i [] = k then some (points other sizes words f k) else none := by
  have hlt : ∀ i ∈ holders other sizes words f, i < words.length := by
    intro i hi; unfold holders at hi; rw [Finset.mem_filter, Finset.mem_range] at hi; exact hi.1
  unfold contrib
  rcases h.sub f with ⟨e1, e2⟩ | ⟨ids, e1, hn, hne, hs⟩
  · rw [e1]
    simp only [e2, Finset.notMem_empty, false_and, exists_false, if_false]
    rfl
  · rw [e1]
    simp only
    rw [sumS_apply]
    have hmem : ∀ i, i ∈ ids ↔ i ∈ holders other sizes words f := by intro i; rw [← hs, List.mem_toFinset]
    have hkey : ∀ i ∈ ids, cm.key i = words.getD i [] := fun i hi => h.key i (hlt i ((hmem i).1 hi))
    have hcond : (∃ m ∈ ids.map fun i => single (cm.key i) (1 + 1000 / (cm.key i).length + 1000 / ids.length), (m k).isSome) ↔
        ∃ i ∈ holders other sizes words f, words.getD i [] = k := by
      constructor
      · rintro ⟨m, hm, hk⟩
        obtain ⟨i, hi, rfl⟩ := List.mem_map.1 hm
        refine ⟨i, (hmem i).1 hi, ?_⟩
        unfold single at hk
        rw [← hkey i hi]
        by_contra hc
        rw [if_neg (fun e => hc e.symm)] at hk
        cases hk
      · rintro ⟨i, hi, hk⟩
        refine ⟨_, List.mem_map.2 ⟨i, (hmem i).2 hi, rfl⟩, ?_⟩
        unfold single
        rw [hkey i ((hmem i).2 hi), if_pos hk.symm]
        rfl
    by_cases hc : ∃ i ∈ holders other sizes words f, words.getD i [] = k
    · rw [if_pos hc, if_pos (hcond.2 hc)]
      congr 1
      have hcard : (holders other sizes words f).card = ids.length := by rw [← hs]; exact List.toFinset_card_of_nodup hn
      unfold points
      rw [hcard]
      have hf : ((holders other sizes words f).filter fun i => words.getD i [] = k) = (ids.filter fun i => words.getD i [] = k).toFinset := by
        rw [← hs]; ext i; simp
      rw [hf, List.toFinset_card_of_nodup (hn.filter _)]
      clear hf hcard hcond hc hmem hs hne hn e1
      generalize ids.length = n
      induction ids with
      | nil => simp
      | cons i ids ih =>
        rw [List.map_cons, List.map_cons, List.sum_cons, ih (fun j hj => hkey j (List.mem_cons_of_mem _ hj)), List.filter_cons]
        unfold single
        rw [hkey i List.mem_cons_self]
        by_cases e : words.getD i [] = k
        · rw [if_pos e.symm, if_pos (by simpa using e), List.length_cons, e]
          simp only [Option.getD_some]
          ring
        · rw [if_neg (fun h => e h.symm), if_neg (by simpa using e)]
          simp
    · rw [if_neg hc, if_neg (fun e => hc (hcond.1 e))]

/-- The sum over the fragments of a query. -/
theorem sum_contrib {other : Str → Str} {sizes : List Nat} {words : List Str} {cm : CM} (h : Indexed other sizes words cm) (q k : Str) (fs : List Str)
    (hn : fs.Nodup) (hf : fs.toFinset = frags sizes q) :
    sumS (fs.map (contrib cm)) k = if ∃ f ∈ frags sizes q, ∃ i ∈ holders other sizes words f, words.getD i [] = k then some (score other sizes words q k) else none := by
  rw [sumS_apply]
  have hmem : ∀ f, f ∈ fs ↔ f ∈ frags sizes q := by intro f; rw [← hf, List.mem_toFinset]
  have hcond : (∃ m ∈ fs.map (contrib cm), (m k).isSome) ↔ ∃ f ∈ frags sizes q, ∃ i ∈ holders other sizes words f, words.getD i [] = k := by
    constructor
    · rintro ⟨m, hm, hk⟩
      obtain ⟨f, hf, rfl⟩ := List.mem_map.1 hm
      refine ⟨f, (hmem f).1 hf, ?_⟩
      rw [contrib_apply h] at hk
      by_contra hc
      rw [if_neg hc] at hk
      cases hk
    · rintro ⟨f, hf, hc⟩
      refine ⟨_, List.mem_map.2 ⟨f, (hmem f).2 hf, rfl⟩, ?_⟩
      rw [contrib_apply h, if_pos hc]; rfl
  by_cases hc : ∃ f ∈ frags sizes q, ∃ i ∈ holders other sizes words f, words.getD i [] = k
  · rw [if_pos hc, if_pos (hcond.2 hc)]
    congr 1
    unfold score
    rw [← hf, List.sum_toFinset _ hn, List.map_map]
    congr 1
    apply List.map_congr_left
    intro f _
    simp only [Function.comp]
    rw [contrib_apply h]
    split
    · rfl
    · rename_i hno
      have : ((holders other sizes words f).filter fun i => words.getD i [] = k) = ∅ := by
        rw [Finset.filter_eq_empty_iff]
        intro i hi he
        exact hno ⟨i, hi, he⟩
      unfold points
      rw [this]
      simp
  · rw [if_neg hc, if_neg (fun e => hc (hcond.1 e))]

theorem shares_iff {other : Str → Str} {sizes : List Nat} {words : List Str} {q k : Str} :
    (∃ f ∈ frags sizes q, ∃ i ∈ holders other sizes words f, words.getD i [] = k) ↔ Shares other sizes words q k := by
  unfold Shares holders
  simp only [Finset.mem_filter, Finset.mem_range]
  constructor
  · rintro ⟨f, hf, i, ⟨hi, hh⟩, rfl⟩
    refine ⟨?_, f, hf, hh⟩
    rw [List.getD_eq_getElem _ _ hi]
    exact List.getElem_mem hi
  · rintro ⟨hk, f, hf, hh⟩
    obtain ⟨i, hi, rfl⟩ := List.getElem_of_mem hk
    refine ⟨f, hf, i, ⟨hi, ?_⟩, ?_⟩
    · rwa [List.getD_eq_getElem _ _ hi]
    · rw [List.getD_eq_getElem _ _ hi]

end Verif.Closest
