import Verif.Closest.AccuracyLemmas
/-
C103, C104: what the two accuracy measurements of closestmatch/closestmatch.go may return.
-/
namespace Verif.Closest
open Spec

/-! ### The identifiers of an index -/

theorem lt_current : ∀ (lists : List (List Str)) (i : Nat), i < (current lists).length ↔ ∃ l ∈ lists, i < l.length
  | [], i => by simp [current]
  | w :: lists, i => by
    have ih := lt_current lists i
    have h : i < (current (w :: lists)).length ↔ i < w.length ∨ i < (current lists).length := by
      simp only [current, List.length_append, List.length_drop]
      omega
    rw [h, ih]
    simp

theorem current_getD (other : Str → Str) (sizes : List Nat) : ∀ (lists : List (List Str)) (i : Nat), (current lists).getD i [] = (history other sizes lists).word i
  | [], i => by simp [current, history]
  | w :: lists, i => by
    have ih := current_getD other sizes lists i
    have hlt := lt_current lists i
    simp only [history] at ih ⊢
    simp only [current]
    by_cases h : i < (current lists).length
    · rw [List.getD_append _ _ _ _ h, ih]
      obtain ⟨l, hl, hil⟩ := hlt.1 h
      have hne : lists.filter (fun words => decide (i < words.length)) ≠ [] := by
        intro e
        have : l ∈ lists.filter (fun words => decide (i < words.length)) := List.mem_filter.2 ⟨hl, by simpa using hil⟩
        rw [e] at this
        simp at this
      rw [List.filter_cons]
      split
      · obtain ⟨a, as, e⟩ := List.exists_cons_of_ne_nil hne
        rw [e]; simp [List.getLastD]
      · rfl
    · have he : lists.filter (fun words => decide (i < words.length)) = [] := by
        rw [List.filter_eq_nil_iff]
        intro l hl hc
        exact h (hlt.2 ⟨l, hl, by simpa using hc⟩)
      rw [List.getD_append_right _ _ _ _ (by omega), List.filter_cons, he]
      split
      · rename_i hw
        simp only [decide_eq_true_eq] at hw
        simp [List.getLastD, show (current lists).length + (i - (current lists).length) = i by omega]
      · rename_i hw
        simp only [decide_eq_true_eq] at hw
        simp [List.getLastD]
        rw [List.getElem?_eq_none (by omega)]; rfl

theorem addWords_id (other : Str → Str) : ∀ (ss : List Str) (i : Nat) (cm cm' : CM), addWords other i ss cm = some cm' →
    ∀ k, (cm'.id k).isSome = true ↔ (cm.id k).isSome = true ∨ (i ≤ k ∧ k < i + ss.length)
  | [], i, cm, cm', h, k => by
    rw [addWords, Option.some.injEq] at h
    subst h
    simp
  | s :: ss, i, cm, cm', h, k => by
    rw [addWords] at h
    cases e : addWord other cm i s with
    | none => rw [e] at h; cases h
    | some cm1 =>
      rw [e, Option.bind_some] at h
      rw [addWords_id other ss (i + 1) cm1 cm' h k]
      have : (cm1.id k).isSome = true ↔ (cm.id k).isSome = true ∨ k = i := by
        unfold addWord at e
        cases e2 : splitWord cm.sizes (toLower other s) with
        | none => rw [e2] at e; cases e
        | some fs =>
          rw [e2, Option.map_some, Option.some.injEq] at e
          subst e
          dsimp only
          split <;> simp_all
      rw [this, List.length_cons]
      constructor
      · rintro ((h | h) | h)
        · exact Or.inl h
        · exact Or.inr (by omega)
        · exact Or.inr (by omega)
      · rintro (h | h)
        · exact Or.inl (Or.inl h)
        · by_cases e : k = i
          · exact Or.inl (Or.inr e)
          · exact Or.inr (by omega)

theorem foldlM_id (other : Str → Str) : ∀ (more : List (List Str)) (cm cm' : CM), more.foldlM (CM.add other) cm = some cm' →
    ∀ k, (cm'.id k).isSome = true ↔ (cm.id k).isSome = true ∨ ∃ l ∈ more, k < l.length
  | [], cm, cm', h, k => by
    rw [List.foldlM_nil] at h
    cases h
    simp
  | l :: more, cm, cm', h, k => by
    rw [List.foldlM_cons] at h
    cases e : cm.add other l with
    | none => rw [e] at h; cases h
    | some cm1 =>
      rw [e] at h
      rw [foldlM_id other more cm1 cm' h k, addWords_id other l 0 cm cm1 e k]
      simp
      tauto

/-- An index made by `New` and `Add`: it is the abstract index, and has the identifiers below the number of its words. -/
structure Full (sizes : List Nat) (x : Idx) (ws : List Str) (cm : CM) : Prop where
  holds : Holds sizes x cm
  ids : ∀ k, (cm.id k).isSome = true ↔ k < ws.length
  words : ∀ k, x.word k = ws.getD k []

theorem full_history (other : Str → Str) (sizes : List Nat) (words : List Str) (more : List (List Str)) :
    ∃ cm, ((new other words (sizes.map Int.ofNat)).bind fun cm => more.foldlM (CM.add other) cm) = some cm ∧
      Full sizes (history other sizes (words :: more)) (current (words :: more)) cm := by
  obtain ⟨cm, e, h⟩ := holds_history other sizes words more
  refine ⟨cm, e, h, fun k => ?_, fun k => (current_getD ..).symm⟩
  cases e1 : new other words (sizes.map Int.ofNat) with
  | none => rw [e1] at e; cases e
  | some cm1 =>
    rw [e1, Option.bind_some] at e
    rw [foldlM_id other more cm1 cm e k, addWords_id other words 0 _ cm1 e1 k, lt_current]
    simp

/-! ### The word of a trial -/

theorem pickLoop_eq (cm : CM) (num : Nat) : ∀ (order : List Nat) (i : Nat),
    pickLoop cm num i order = if i < num then ((order[num - i - 1]?).map fun j => cm.key j).getD [] else []
  | [], i => by simp [pickLoop]
  | j :: order, i => by
    rw [pickLoop]
    by_cases h : i + 1 = num
    · rw [if_neg (by simpa using h), if_pos (by omega), show num - i - 1 = 0 by omega]
      simp [CM.key]
    · rw [if_pos h, pickLoop_eq cm num order (i + 1)]
      by_cases h2 : i < num
      · rw [if_pos (by omega), if_pos h2, List.getElem?_cons, if_neg (by omega)]
        congr 3
      · rw [if_neg (by omega), if_neg h2]

theorem Full.order_perm {sizes : List Nat} {x : Idx} {ws : List Str} {cm : CM} (h : Full sizes x ws cm) (order : List Nat) :
    cm.Order order ↔ order.Perm (List.range ws.length) := by
  constructor
  · rintro ⟨h1, h2⟩
    rw [List.perm_ext_iff_of_nodup h1 List.nodup_range]
    intro a
    rw [h2, h.ids, List.mem_range]
  · intro hp
    refine ⟨hp.nodup_iff.2 List.nodup_range, fun i => ?_⟩
    rw [hp.mem_iff, List.mem_range, h.ids]

theorem Full.picks {sizes : List Nat} {x : Idx} {ws : List Str} {cm : CM} (h : Full sizes x ws cm) (o : Str) :
    (∃ order num, cm.Order order ∧ num < order.length ∧ pickLoop cm num 0 order = o) ↔ (o = [] ∧ ws ≠ []) ∨ (2 ≤ ws.length ∧ o ∈ ws) := by
  have hkey : ∀ k, cm.key k = ws.getD k [] := fun k => (h.holds.key k).trans (h.words k)
  constructor
  · rintro ⟨order, num, ho, hn, rfl⟩
    rw [h.order_perm] at ho
    have hl := ho.length_eq
    rw [List.length_range] at hl
    rw [pickLoop_eq]
    split
    · rename_i hpos
      right
      rw [List.getElem?_eq_getElem (by omega)]
      simp only [Option.map_some, Option.getD_some, hkey]
      have hm : order[num - 0 - 1] < ws.length := List.mem_range.1 (ho.mem_iff.1 (List.getElem_mem _))
      rw [List.getD_eq_getElem _ _ hm]
      exact ⟨by omega, List.getElem_mem _⟩
    · left
      refine ⟨rfl, ?_⟩
      intro e
      rw [e, List.length_nil] at hl
      omega
  · rintro (⟨rfl, hne⟩ | ⟨h2, ho⟩)
    · refine ⟨List.range ws.length, 0, (h.order_perm _).2 (.refl _), ?_, ?_⟩
      · rw [List.length_range]; exact List.length_pos_iff.2 hne
      · rw [pickLoop_eq, if_neg (by omega)]
    · obtain ⟨j, hj, rfl⟩ := List.getElem_of_mem ho
      refine ⟨j :: (List.range ws.length).erase j, 1, (h.order_perm _).2 ?_, ?_, ?_⟩
      · exact (List.perm_cons_erase (List.mem_range.2 hj)).symm
      · rw [List.length_cons, List.length_erase_of_mem (List.mem_range.2 hj), List.length_range]; omega
      · rw [pickLoop_eq, if_pos (by omega)]
        simp [hkey, List.getElem?_eq_getElem hj]

/-! ### One trial -/

theorem Full.doTrial_crash {sizes : List Nat} {x : Idx} {ws : List Str} {cm : CM} (h : Full sizes x ws cm) (mutate : Str → Draw (Option Str)) :
    DoTrial cm mutate .crash ↔ ws = [] ∨ ∃ o, ((o = [] ∧ ws ≠ []) ∨ (2 ≤ ws.length ∧ o ∈ ws)) ∧
      (Can (mutate o) none ∨ ∃ q, Can (mutate o) (some (some q)) ∧ x.Found sizes q []) := by
  constructor
  · intro hd
    cases hd with
    | empty ho =>
      rw [h.order_perm] at ho
      have := ho.length_eq
      simp at this
      exact Or.inl (List.length_eq_zero_iff.1 (by omega))
    | rand order num ho hn hc => exact Or.inr ⟨_, (h.picks _).1 ⟨order, num, ho, hn, rfl⟩, Or.inl hc⟩
    | search order num q ho hn hc hp =>
      exact Or.inr ⟨_, (h.picks _).1 ⟨order, num, ho, hn, rfl⟩, Or.inr ⟨q, hc, (h.holds.panics_iff q).1 hp⟩⟩
  · rintro (rfl | ⟨o, ho, hc⟩)
    · exact .empty ((h.order_perm _).2 (by simp))
    · obtain ⟨order, num, ho', hn, rfl⟩ := (h.picks o).2 ho
      rcases hc with hc | ⟨q, hc, hf⟩
      · exact .rand order num ho' hn hc
      · exact .search order num q ho' hn hc ((h.holds.panics_iff q).2 hf)

theorem Full.doTrial_skip {sizes : List Nat} {x : Idx} {ws : List Str} {cm : CM} (h : Full sizes x ws cm) (mutate : Str → Draw (Option Str)) :
    DoTrial cm mutate .skip ↔ ∃ o, ((o = [] ∧ ws ≠ []) ∨ (2 ≤ ws.length ∧ o ∈ ws)) ∧ Can (mutate o) (some none) := by
  constructor
  · intro hd
    cases hd with
    | «continue» order num ho hn hc => exact ⟨_, (h.picks _).1 ⟨order, num, ho, hn, rfl⟩, hc⟩
  · rintro ⟨o, ho, hc⟩
    obtain ⟨order, num, ho', hn, rfl⟩ := (h.picks o).2 ho
    exact .continue order num ho' hn hc

theorem Full.doTrial_test {sizes : List Nat} {x : Idx} {ws : List Str} {cm : CM} (h : Full sizes x ws cm) (mutate : Str → Draw (Option Str)) (w q : Str) (b : Bool) :
    DoTrial cm mutate (.test w q b) ↔ ((w = [] ∧ ws ≠ []) ∨ (2 ≤ ws.length ∧ w ∈ ws)) ∧ Can (mutate w) (some (some q)) ∧
      ∃ out, x.Answers sizes q out ∧ b = (out == w) := by
  constructor
  · intro hd
    cases hd with
    | test order num q out ho hn hc hp => exact ⟨(h.picks _).1 ⟨order, num, ho, hn, rfl⟩, hc, out, (h.holds.closest_best q out).1 hp, rfl⟩
  · rintro ⟨ho, hc, out, ha, rfl⟩
    obtain ⟨order, num, ho', hn, rfl⟩ := (h.picks w).2 ho
    exact .test order num q out ho' hn hc ((h.holds.closest_best q out).2 ha)

/-! ### The loop -/

theorem trials_panic {cm : CM} {mutate : Str → Draw (Option Str)} : ∀ (n c t : Nat), Trials cm mutate n c t .panic → DoTrial cm mutate .crash := by
  intro n c t h
  generalize hr : Accuracy.panic = r at h
  induction h with
  | nan => cases hr
  | percent => cases hr
  | crash n c t h => exact h
  | skip n c t r h1 h2 ih => exact ih hr
  | test n c t r o q b h1 h2 ih => exact ih hr

theorem trials_nan {cm : CM} {mutate : Str → Draw (Option Str)} : ∀ (n c t : Nat), Trials cm mutate n c t .nan ↔ t = 0 ∧ (n ≠ 0 → DoTrial cm mutate .skip)
  | 0, c, t => by
    constructor
    · intro h; cases h; simp
    · rintro ⟨rfl, _⟩; exact .nan c
  | n + 1, c, t => by
    constructor
    · intro h
      cases h with
      | skip _ _ _ _ h1 h2 => exact ⟨((trials_nan n c t).1 h2).1, fun _ => h1⟩
      | test _ _ _ _ o q b h1 h2 => exact absurd ((trials_nan n _ (t + 1)).1 h2).1 (by omega)
    · rintro ⟨rfl, h⟩
      exact .skip _ _ _ _ (h (by omega)) ((trials_nan n c 0).2 ⟨rfl, fun _ => h (by omega)⟩)

theorem trials_percent {cm : CM} {mutate : Str → Draw (Option Str)} (C T : Nat) : ∀ (n c t : Nat), Trials cm mutate n c t (.percent C T) ↔
    T ≠ 0 ∧ ∃ r w s, C = c + r ∧ T = t + r + w ∧ r + w + s = n ∧ (r ≠ 0 → ∃ o q, DoTrial cm mutate (.test o q true)) ∧
      (w ≠ 0 → ∃ o q, DoTrial cm mutate (.test o q false)) ∧ (s ≠ 0 → DoTrial cm mutate .skip)
  | 0, c, t => by
    constructor
    · intro h
      cases h with
      | percent _ _ h => exact ⟨h, 0, 0, 0, rfl, rfl, rfl, by simp, by simp, by simp⟩
    · rintro ⟨h, r, w, s, rfl, rfl, e, _⟩
      obtain ⟨rfl, rfl, rfl⟩ : r = 0 ∧ w = 0 ∧ s = 0 := by omega
      exact .percent _ _ h
  | n + 1, c, t => by
    constructor
    · intro h
      cases h with
      | skip _ _ _ _ h1 h2 =>
        obtain ⟨h, r, w, s, e1, e2, e3, hr, hw, hs⟩ := (trials_percent C T n c t).1 h2
        exact ⟨h, r, w, s + 1, e1, e2, by omega, hr, hw, fun _ => h1⟩
      | test _ _ _ _ o q b h1 h2 =>
        cases b with
        | true =>
          obtain ⟨h, r, w, s, e1, e2, e3, hr, hw, hs⟩ := (trials_percent C T n (c + 1) (t + 1)).1 h2
          exact ⟨h, r + 1, w, s, by omega, by omega, by omega, fun _ => ⟨o, q, h1⟩, hw, hs⟩
        | false =>
          obtain ⟨h, r, w, s, e1, e2, e3, hr, hw, hs⟩ := (trials_percent C T n c (t + 1)).1 h2
          exact ⟨h, r, w + 1, s, by omega, by omega, by omega, hr, fun _ => ⟨o, q, h1⟩, hs⟩
    · rintro ⟨h, r, w, s, e1, e2, e3, hr, hw, hs⟩
      rcases Nat.eq_zero_or_pos r with rfl | hr0
      · rcases Nat.eq_zero_or_pos w with rfl | hw0
        · exact .skip _ _ _ _ (hs (by omega)) ((trials_percent C T n c t).2 ⟨h, 0, 0, s - 1, e1, e2, by omega, hr, hw, fun _ => hs (by omega)⟩)
        · obtain ⟨o, q, hd⟩ := hw (by omega)
          exact .test _ _ _ _ o q false hd
            ((trials_percent C T n c (t + 1)).2 ⟨h, 0, w - 1, s, e1, by omega, by omega, hr, fun _ => ⟨o, q, hd⟩, hs⟩)
      · obtain ⟨o, q, hd⟩ := hr (by omega)
        exact .test _ _ _ _ o q true hd
          ((trials_percent C T n (c + 1) (t + 1)).2 ⟨h, r - 1, w, s, by omega, by omega, by omega, fun _ => ⟨o, q, hd⟩, hw, hs⟩)

/-! ## C103, C104 -/

/-- **C103** After `New` and any number of calls of `Add`, with fragment sizes that are not negative, and for any random numbers,
`AccuracyMutatingWords` may
* panic exactly if the index has no word, or a query that it may make from a word that it may test crashes the search;
* return NaN exactly if the index has a word;
* return `100.0 * c / t` exactly if `c ≤ t`, `1 ≤ t ≤ 200`, some test finds its word (if `c` is not 0) and some test does not (if `c` is not `t`). -/
theorem C103_accuracy_words (other : Str → Str) (sizes : List Nat) (words : List Str) (more : List (List Str)) :
    ∃ cm, ((new other words (sizes.map Int.ofNat)).bind fun cm => more.foldlM (CM.add other) cm) = some cm ∧
      let x := history other sizes (words :: more)
      let ws := current (words :: more)
      (AccuracyMutatingWords cm .panic ↔ ws = [] ∨ ∃ w q, Tested WordTest ws w q ∧ x.Found sizes q []) ∧
      (AccuracyMutatingWords cm .nan ↔ ws ≠ []) ∧
      (∀ c t, AccuracyMutatingWords cm (.percent c t) ↔ c ≤ t ∧ 1 ≤ t ∧ t ≤ 200 ∧
        (c ≠ 0 → ∃ w q, Tested WordTest ws w q ∧ x.Answers sizes q w) ∧
        (c ≠ t → ∃ w q out, Tested WordTest ws w q ∧ x.Answers sizes q out ∧ out ≠ w)) := by
  obtain ⟨cm, e, h⟩ := full_history other sizes words more
  refine ⟨cm, e, ?_⟩
  intro x ws
  have hcan : ∀ o q, Can (mutateWords o) (some (some q)) ↔ WordTest o q := by
    intro o q; rw [can_mutateWords]; simp
  have hskip : ws ≠ [] → DoTrial cm mutateWords .skip := by
    intro hne
    refine (h.doTrial_skip mutateWords).2 ⟨[], Or.inl ⟨rfl, hne⟩, (can_mutateWords [] _).2 (Or.inr ⟨rfl, ?_⟩)⟩
    intro vs hvs
    rw [isWords_iff.1 hvs]
    simp [splitSpace]
  have htest : ∀ w q b, DoTrial cm mutateWords (.test w q b) ↔ Tested WordTest ws w q ∧ ∃ out, x.Answers sizes q out ∧ b = (out == w) := by
    intro w q b
    rw [h.doTrial_test, hcan]
    constructor
    · rintro ⟨⟨rfl, _⟩ | ⟨h1, h2⟩, h3, h4⟩
      · exact absurd h3 (not_wordTest_nil q)
      · exact ⟨⟨h1, h2, h3⟩, h4⟩
    · rintro ⟨⟨h1, h2, h3⟩, h4⟩
      exact ⟨Or.inr ⟨h1, h2⟩, h3, h4⟩
  have hcrash : DoTrial cm mutateWords .crash ↔ ws = [] ∨ ∃ w q, Tested WordTest ws w q ∧ x.Found sizes q [] := by
    rw [h.doTrial_crash]
    constructor
    · rintro (h1 | ⟨o, ho, hc | ⟨q, hc, hf⟩⟩)
      · exact Or.inl h1
      · rw [can_mutateWords] at hc; simp at hc
      · rw [hcan] at hc
        rcases ho with ⟨rfl, _⟩ | ⟨h1, h2⟩
        · exact absurd hc (not_wordTest_nil q)
        · exact Or.inr ⟨o, q, ⟨h1, h2, hc⟩, hf⟩
    · rintro (h1 | ⟨o, q, ⟨h1, h2, h3⟩, hf⟩)
      · exact Or.inl h1
      · exact Or.inr ⟨o, Or.inr ⟨h1, h2⟩, Or.inr ⟨q, (hcan o q).2 h3, hf⟩⟩
  refine ⟨?_, ?_, ?_⟩
  · rw [← hcrash]
    exact ⟨trials_panic 200 0 0, .crash 199 0 0⟩
  · unfold AccuracyMutatingWords
    rw [trials_nan]
    constructor
    · rintro ⟨_, hs⟩ hw
      obtain ⟨o, ⟨_, ho⟩ | ⟨ho, _⟩, _⟩ := (h.doTrial_skip mutateWords).1 (hs (by omega))
      · exact ho hw
      · have : (current (words :: more)).length = 0 := by rw [show current (words :: more) = [] from hw]; rfl
        omega
    · exact fun hw => ⟨rfl, fun _ => hskip hw⟩
  · intro c t
    unfold AccuracyMutatingWords
    rw [trials_percent]
    have hr : (∃ o q, DoTrial cm mutateWords (.test o q true)) ↔ ∃ w q, Tested WordTest ws w q ∧ x.Answers sizes q w := by
      simp only [htest]
      constructor
      · rintro ⟨w, q, h1, out, h2, h3⟩
        rw [eq_comm, beq_iff_eq] at h3
        subst h3
        exact ⟨out, q, h1, h2⟩
      · rintro ⟨w, q, h1, h2⟩
        exact ⟨w, q, h1, w, h2, by simp⟩
    have hw : (∃ o q, DoTrial cm mutateWords (.test o q false)) ↔ ∃ w q out, Tested WordTest ws w q ∧ x.Answers sizes q out ∧ out ≠ w := by
      simp only [htest]
      constructor
      · rintro ⟨w, q, h1, out, h2, h3⟩
        rw [eq_comm, beq_eq_false_iff_ne] at h3
        exact ⟨w, q, out, h1, h2, h3⟩
      · rintro ⟨w, q, out, h1, h2, h3⟩
        exact ⟨w, q, h1, out, h2, by simpa using h3⟩
    rw [hr, hw]
    constructor
    · rintro ⟨h0, r, w, s, e1, e2, e3, h1, h2, h3⟩
      exact ⟨by omega, by omega, by omega, fun _ => h1 (by omega), fun _ => h2 (by omega)⟩
    · rintro ⟨h0, h1, h2, h3, h4⟩
      refine ⟨by omega, c, t - c, 200 - t, by omega, by omega, by omega, h3, fun _ => h4 (by omega), fun _ => hskip ?_⟩
      intro hw
      have hl : ws.length = 0 := by rw [hw]; rfl
      by_cases hc : c = 0
      · obtain ⟨_, _, _, ⟨h5, _⟩, _⟩ := h4 (by omega); omega
      · obtain ⟨_, _, ⟨h5, _⟩, _⟩ := h3 hc; omega

/-- **C104** After `New` and any number of calls of `Add`, with fragment sizes that are not negative, and for any random numbers,
`AccuracyMutatingLetters` may always panic; it never returns NaN; and it may return `100.0 * c / t` exactly if `t` is 200, `c` at most 200, some
test finds its word (if `c` is not 0) and some test does not (if `c` is not 200). -/
theorem C104_accuracy_letters (other : Str → Str) (sizes : List Nat) (words : List Str) (more : List (List Str)) :
    ∃ cm, ((new other words (sizes.map Int.ofNat)).bind fun cm => more.foldlM (CM.add other) cm) = some cm ∧
      let x := history other sizes (words :: more)
      let ws := current (words :: more)
      AccuracyMutatingLetters cm .panic ∧ ¬ AccuracyMutatingLetters cm .nan ∧
      (∀ c t, AccuracyMutatingLetters cm (.percent c t) ↔ t = 200 ∧ c ≤ 200 ∧
        (c ≠ 0 → ∃ w q, Tested LetterTest ws w q ∧ x.Answers sizes q w) ∧
        (c ≠ 200 → ∃ w q out, Tested LetterTest ws w q ∧ x.Answers sizes q out ∧ out ≠ w)) := by
  obtain ⟨cm, e, h⟩ := full_history other sizes words more
  refine ⟨cm, e, ?_⟩
  intro x ws
  have hcan : ∀ o q, Can (mutateLetters o) (some (some q)) ↔ LetterTest o q := by
    intro o q; rw [can_mutateLetters]; simp
  have hskip : ¬ DoTrial cm mutateLetters .skip := by
    rw [h.doTrial_skip]
    rintro ⟨o, _, hc⟩
    rw [can_mutateLetters] at hc
    simp at hc
  have htest : ∀ w q b, DoTrial cm mutateLetters (.test w q b) ↔ Tested LetterTest ws w q ∧ ∃ out, x.Answers sizes q out ∧ b = (out == w) := by
    intro w q b
    rw [h.doTrial_test, hcan]
    constructor
    · rintro ⟨⟨rfl, _⟩ | ⟨h1, h2⟩, h3, h4⟩
      · exact absurd h3 (not_letterTest_nil q)
      · exact ⟨⟨h1, h2, h3⟩, h4⟩
    · rintro ⟨⟨h1, h2, h3⟩, h4⟩
      exact ⟨Or.inr ⟨h1, h2⟩, h3, h4⟩
  have hcrash : DoTrial cm mutateLetters .crash := by
    rw [h.doTrial_crash]
    by_cases hw : current (words :: more) = []
    · exact Or.inl hw
    · exact Or.inr ⟨[], Or.inl ⟨rfl, hw⟩, Or.inl ((can_mutateLetters [] none).2 (Or.inr ⟨rfl, rfl⟩))⟩
  refine ⟨.crash 199 0 0 hcrash, ?_, ?_⟩
  · unfold AccuracyMutatingLetters
    rw [trials_nan]
    rintro ⟨_, hs⟩
    exact hskip (hs (by omega))
  · intro c t
    unfold AccuracyMutatingLetters
    rw [trials_percent]
    have hr : (∃ o q, DoTrial cm mutateLetters (.test o q true)) ↔ ∃ w q, Tested LetterTest ws w q ∧ x.Answers sizes q w := by
      simp only [htest]
      constructor
      · rintro ⟨w, q, h1, out, h2, h3⟩
        rw [eq_comm, beq_iff_eq] at h3
        subst h3
        exact ⟨out, q, h1, h2⟩
      · rintro ⟨w, q, h1, h2⟩
        exact ⟨w, q, h1, w, h2, by simp⟩
    have hw : (∃ o q, DoTrial cm mutateLetters (.test o q false)) ↔ ∃ w q out, Tested LetterTest ws w q ∧ x.Answers sizes q out ∧ out ≠ w := by
      simp only [htest]
      constructor
      · rintro ⟨w, q, h1, out, h2, h3⟩
        rw [eq_comm, beq_eq_false_iff_ne] at h3
        exact ⟨w, q, out, h1, h2, h3⟩
      · rintro ⟨w, q, out, h1, h2, h3⟩
        exact ⟨w, q, h1, out, h2, by simpa using h3⟩
    rw [hr, hw]
    constructor
    · rintro ⟨h0, r, w, s, e1, e2, e3, h1, h2, h3⟩
      have hs : s = 0 := by
        by_contra hc
        exact hskip (h3 hc)
      exact ⟨by omega, by omega, fun _ => h1 (by omega), fun _ => h2 (by omega)⟩
    · rintro ⟨rfl, h1, h3, h4⟩
      exact ⟨by omega, c, 200 - c, 0, by omega, by omega, by omega, h3, fun _ => h4 (by omega), by simp⟩

/-- With `New` alone, `AccuracyMutatingWords` may panic exactly if there is no word, or one of the words is empty and another is a single word
with a single space before or behind it. -/
theorem C103_new_panics_iff (other : Str → Str) (sizes : List Nat) (words : List Str) (cm : CM) (hcm : new other words (sizes.map Int.ofNat) = some cm) :
    AccuracyMutatingWords cm .panic ↔
      words = [] ∨ ([] ∈ words ∧ ∃ w ∈ words, ∃ v : Str, 32 ∉ v ∧ (w = v ++ [32] ∨ w = 32 :: v)) := by
  obtain ⟨cm', e, h, -⟩ := C103_accuracy_words other sizes words []
  obtain ⟨cm2, e2, h2⟩ := holds_history other sizes words []
  rw [hcm] at e e2
  have e' : cm = cm' := by simpa using e
  have e2' : cm = cm2 := by simpa using e2
  subst e' e2'
  have hf : ∀ q, (history other sizes [words]).Found sizes q [] ↔ q = [] ∧ [] ∈ words := by
    intro q
    rw [← h2.panics_iff, C94_new_crashes_iff other sizes words cm hcm]
  rw [h, show current [words] = words by simp [current]]
  simp only [hf]
  constructor
  · rintro (h | ⟨w, q, ⟨_, hw, ht⟩, rfl, hm⟩)
    · exact Or.inl h
    · exact Or.inr ⟨hm, w, hw, (wordTest_nil_iff w).1 ht⟩
  · rintro (h | ⟨hm, w, hw, hv⟩)
    · exact Or.inl h
    · refine Or.inr ⟨w, [], ⟨?_, hw, (wordTest_nil_iff w).2 hv⟩, rfl, hm⟩
      have hne : w ≠ [] := by
        obtain ⟨v, -, rfl | rfl⟩ := hv <;> simp
      obtain ⟨i, hi, rfl⟩ := List.getElem_of_mem hw
      obtain ⟨j, hj, hj'⟩ := List.getElem_of_mem hm
      rcases Nat.lt_or_ge words.length 2 with hc | hc
      · obtain rfl : i = j := by omega
        exact absurd hj' hne
      · exact hc

/-- With an index of one word nothing is ever tested: `AccuracyMutatingWords` can only return NaN and `AccuracyMutatingLetters` only panic. -/
theorem C104_one_word (other : Str → Str) (sizes : List Nat) (word : Str) (cm : CM) (hcm : new other [word] (sizes.map Int.ofNat) = some cm) (r : Accuracy) :
    (AccuracyMutatingWords cm r ↔ r = .nan) ∧ (AccuracyMutatingLetters cm r ↔ r = .panic) := by
  obtain ⟨cm', e, h1, h2, h3⟩ := C103_accuracy_words other sizes [word] []
  obtain ⟨cm2, e2, h4, h5, h6⟩ := C104_accuracy_letters other sizes [word] []
  rw [hcm] at e e2
  have e' : cm = cm' := by simpa using e
  have e2' : cm = cm2 := by simpa using e2
  subst e' e2'
  have hcur : current [[word]] = [word] := by simp [current]
  rw [hcur] at h1 h2
  simp only [hcur, Tested] at h1 h3 h6
  cases r with
  | panic => exact ⟨by rw [h1]; simp, by simp [h4]⟩
  | nan => exact ⟨by rw [h2]; simp, by simp [h5]⟩
  | percent c t =>
    constructor
    · rw [h3]; simp
      intro _ h _ h7
      omega
    · rw [h6]; simp
      intro _ _ h7
      omega

/-! ### Examples -/

/-- Removing one of three words; reversing; and two letters replaced. -/
example : WordTest (lit "my bank card") (lit "my card") ∧ WordTest (lit "my bank card") (lit "card my") ∧ WordTest (lit "bank") (lit "bapz") ∧
    ¬ WordTest (lit "bank card") (lit "bank card") := by
  refine ⟨⟨[lit "my", lit "bank", lit "card"], isWords_iff.2 (by decide), Or.inl ⟨by decide, [lit "my", lit "card"],
      ⟨[lit "my"], lit "bank", [lit "card"], rfl, rfl⟩, by decide⟩⟩,
    ⟨[lit "my", lit "bank", lit "card"], isWords_iff.2 (by decide), Or.inr (Or.inl ⟨by decide, [lit "my", lit "card"],
      ⟨[lit "my"], lit "bank", [lit "card"], rfl, rfl⟩, by decide⟩)⟩,
    ⟨[lit "bank"], isWords_iff.2 (by decide), Or.inr (Or.inr (Or.inr ⟨by decide, lit "bapk",
      ⟨lit "ba", 110, lit "k", 112, by decide, by decide, by decide, by decide⟩, ⟨lit "bap", 107, [], 122, by decide, by decide, by decide, by decide⟩⟩))⟩, ?_⟩
  rintro ⟨ws, hw, h⟩
  have e : ws = [lit "bank", lit "card"] := (isWords_iff.1 hw).trans (by decide)
  subst e
  have hlen : ∀ vs, WithoutOne [lit "bank", lit "card"] vs → ([32].intercalate vs).length = 4 ∧ vs.length = 1 := by
    intro vs hv
    obtain ⟨d, hd, rfl⟩ := withoutOne_iff.1 hv
    clear hv
    revert d
    decide
  have hrl : ∀ {s q : Str}, Replaced s q → q.length = s.length := by
    rintro s q ⟨a, c, b, x, rfl, rfl, _⟩
    simp
  rcases h with ⟨h, _⟩ | ⟨_, vs, hv, h⟩ | ⟨_, vs, us, p, hv, hu, h1, h2⟩ | ⟨h, _⟩
  · revert h; decide
  · obtain ⟨h4, h5⟩ := hlen vs hv
    obtain ⟨v, rfl⟩ := List.length_eq_one_iff.1 h5
    rw [List.reverse_singleton] at h
    rw [← h] at h4
    revert h4; decide
  · obtain ⟨h4, h5⟩ := hlen vs hv
    obtain ⟨v, rfl⟩ := List.length_eq_one_iff.1 h5
    rw [List.perm_singleton.1 hu] at h1
    have e1 := hrl h1
    have e2 := hrl h2
    rw [e1, h4] at e2
    revert e2; decide
  · revert h; decide

/-- With the words "bank" and "mail", one letter of "bank" removed gives "ban", which is tested and found. -/
example : let x := history id [2] [[lit "bank", lit "mail"]]
    LetterTest (lit "bank") (lit "ban") ∧ Tested LetterTest (current [[lit "bank", lit "mail"]]) (lit "bank") (lit "ban") ∧
    x.Found [2] (lit "ban") (lit "bank") ∧ ¬ x.Found [2] (lit "ban") (lit "mail") := by
  refine ⟨Or.inr (Or.inl ⟨lit "ban", 107, [], by decide, by decide⟩), ⟨by decide, by decide, Or.inr (Or.inl ⟨lit "ban", 107, [], by decide, by decide⟩)⟩, ?_⟩
  simp only [Idx.Found]
  decide +kernel

/-- The word list ["", "mail "]: the measurement may crash. -/
example : let words : List Str := [[], lit "mail "]
    [] ∈ words ∧ ∃ w ∈ words, ∃ v : Str, 32 ∉ v ∧ (w = v ++ [32] ∨ w = 32 :: v) :=
  ⟨by decide, lit "mail ", by decide, lit "mail", by decide, Or.inl (by decide)⟩

end Verif.Closest
