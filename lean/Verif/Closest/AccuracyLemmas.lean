import Verif.Closest.Accuracy
import Verif.Closest.AccuracySpec
import Verif.Closest.HistoryProps
import Mathlib.Data.List.Basic
import Mathlib.Tactic.IntervalCases
/-
Lemmas about the mutations of closestmatch/closestmatch.go:214-346.
-/
namespace Verif.Closest
open Spec

/-! ### Splitting and joining -/

theorem splitSpace_ne (s : Str) : splitSpace s ≠ [] := by
  cases s with
  | nil => simp [splitSpace]
  | cons b s => unfold splitSpace; split; · simp
                split <;> simp

theorem joinSpace_eq : ∀ ws : List Str, joinSpace ws = [32].intercalate ws
  | [] => rfl
  | [w] => by simp [joinSpace, List.intercalate]
  | w :: v :: ws => by
    rw [joinSpace, joinSpace_eq (v :: ws)]
    · simp [List.intercalate]
    · simp

theorem isWords_split : ∀ s : Str, IsWords s (splitSpace s)
  | [] => ⟨by simp [splitSpace], by simp [splitSpace], rfl⟩
  | b :: s => by
    obtain ⟨h1, h2, h3⟩ := isWords_split s
    refine ⟨splitSpace_ne _, ?_, ?_⟩
    · unfold splitSpace
      split
      · simpa using h2
      · rename_i hb
        split
        · rename_i e; exact absurd e h1
        · rename_i w ws e
          rw [e] at h2
          intro v hv
          rcases List.mem_cons.1 hv with rfl | hv
          · have := h2 w (by simp)
            simp [this]; exact fun h => hb h.symm
          · exact h2 v (by simp [hv])
    · unfold splitSpace
      rw [← joinSpace_eq] at h3 ⊢
      split
      · rename_i hb
        rw [joinSpace, h3, hb]; · rfl
        exact h1
      · split
        · rename_i e; exact absurd e h1
        · rename_i w ws e
          rw [e] at h3
          cases ws with
          | nil => simpa [joinSpace] using h3
          | cons v ws => simpa [joinSpace] using h3

theorem isWords_unique : ∀ {s : Str} {ws vs : List Str}, IsWords s ws → IsWords s vs → ws = vs := by
  have key : ∀ (ws vs : List Str), ws ≠ [] → vs ≠ [] → (∀ w ∈ ws, (32 : UInt8) ∉ w) → (∀ w ∈ vs, (32 : UInt8) ∉ w) →
      joinSpace ws = joinSpace vs → ws = vs := by
    intro ws
    induction ws with
    | nil => intro vs h; exact absurd rfl h
    | cons w ws ih =>
      intro vs _ hv h1 h2 e
      cases vs with
      | nil => exact absurd rfl hv
      | cons v vs =>
        have hw := h1 w (by simp)
        have hv' := h2 v (by simp)
        have tw : ∀ (u : Str), (32 : UInt8) ∉ u → ∀ r : Str, (u ++ 32 :: r).takeWhile (· ≠ 32) = u := by
          intro u hu r
          rw [List.takeWhile_append_of_pos]
          · simp
          · intro a ha; simp; rintro rfl; exact hu ha
        cases ws with
        | nil =>
          cases vs with
          | nil => simpa [joinSpace] using e
          | cons v2 vs =>
            rw [joinSpace, joinSpace] at e
            · rw [e] at hw; simp at hw
            · simp
        | cons w2 ws =>
          cases vs with
          | nil =>
            rw [joinSpace, joinSpace] at e
            · rw [← e] at hv'; simp at hv'
            · simp
          | cons v2 vs =>
            rw [joinSpace, joinSpace.eq_3 v] at e
            · have e1 : w = v := by
                have := congrArg (List.takeWhile (· ≠ 32)) e
                rwa [tw w hw, tw v hv'] at this
              subst e1
              rw [List.append_right_inj, List.cons_inj_right] at e
              rw [ih (v2 :: vs) (by simp) (by simp) (fun x hx => h1 x (by simp [hx])) (fun x hx => h2 x (by simp [hx])) e]
            · simp
            · simp
  intro s ws vs h1 h2
  exact key ws vs h1.1 h2.1 h1.2.1 h2.2.1 (by rw [joinSpace_eq, joinSpace_eq, h1.2.2, h2.2.2])

theorem isWords_iff {s : Str} {ws : List Str} : IsWords s ws ↔ ws = splitSpace s :=
  ⟨fun h => isWords_unique h (isWords_split s), fun h => h ▸ isWords_split s⟩

/-! ### Removing, reversing, shuffling -/

theorem withoutOne_iff {ws vs : List Str} : WithoutOne ws vs ↔ ∃ d < ws.length, vs = ws.take d ++ ws.drop (d + 1) := by
  constructor
  · rintro ⟨a, w, b, rfl, rfl⟩
    refine ⟨a.length, by simp, ?_⟩
    simp
  · rintro ⟨d, hd, rfl⟩
    refine ⟨ws.take d, ws[d], ws.drop (d + 1), ?_, rfl⟩
    rw [List.getElem_cons_drop, List.take_append_drop]

theorem swapAt_length (l : List Str) (i j : Nat) : (swapAt l i j).length = l.length := by simp [swapAt]

theorem swapAt_get {l : List Str} {i j : Nat} (hi : i < l.length) (hj : j < l.length) (k : Nat) :
    (swapAt l i j)[k]? = if k = j then l[i]? else if k = i then l[j]? else l[k]? := by
  simp only [swapAt, List.getElem?_set, List.getD_eq_getElem _ _ hi, List.getD_eq_getElem _ _ hj, List.length_set]
  by_cases h1 : k = j
  · subst h1; simp [hj, hi]
  · rw [if_neg (fun h => h1 h.symm), if_neg h1]
    by_cases h2 : k = i
    · subst h2; simp [hi, hj]
    · rw [if_neg (fun h => h2 h.symm), if_neg h2]

theorem swapAt_swapAt {l : List Str} {i j : Nat} (hi : i < l.length) (hj : j < l.length) : swapAt (swapAt l i j) i j = l := by
  apply List.ext_getElem?
  intro k
  have hl := swapAt_length l i j
  rw [swapAt_get (by omega) (by omega), swapAt_get hi hj, swapAt_get hi hj, swapAt_get hi hj]
  split
  · rename_i h; subst h; split <;> simp_all
  · split <;> simp_all

theorem swapAt_perm {l : List Str} {i j : Nat} (hi : i < l.length) (hj : j < l.length) : (swapAt l i j).Perm l := by
  unfold swapAt
  rw [List.getD_eq_getElem _ _ hi, List.getD_eq_getElem _ _ hj]
  exact List.set_set_perm hi hj

theorem reverseLoop_get : ∀ (m left right : Nat) (l : List Str), left ≤ right + 1 → right < l.length → right < left + m →
    ∀ k, (reverseLoop m left right l)[k]? = if left ≤ k ∧ k ≤ right then l[left + right - k]? else l[k]?
  | 0, left, right, l, h1, h2, h3, k => by
    rw [if_neg (by omega)]; rfl
  | m + 1, left, right, l, h1, h2, h3, k => by
    unfold reverseLoop
    by_cases hlt : left < right
    · simp only [hlt, if_true]
      rw [reverseLoop_get m (left + 1) (right - 1) (swapAt l left right) (by omega) (by rw [swapAt_length]; omega) (by omega) k]
      have hi : left < l.length := by omega
      rw [swapAt_get hi h2, swapAt_get hi h2]
      have e : left + 1 + (right - 1) - k = left + right - k := by omega
      rw [e]
      by_cases hc : left + 1 ≤ k ∧ k ≤ right - 1
      · rw [if_pos hc, if_neg (by omega), if_neg (by omega), if_pos (by omega)]
      · rw [if_neg hc]
        by_cases e1 : k = right
        · subst e1; rw [if_pos rfl, if_pos (by omega)]; congr 1; omega
        · rw [if_neg e1]
          by_cases e2 : k = left
          · subst e2; rw [if_pos rfl, if_pos (by omega)]; congr 1; omega
          · rw [if_neg e2, if_neg (by omega)]
    · simp only [hlt, if_false]
      split
      · congr 1; omega
      · rfl

theorem reverseLoop_eq (l : List Str) : reverseLoop l.length 0 (l.length - 1) l = l.reverse := by
  rcases Nat.eq_zero_or_pos l.length with h | h
  · rw [List.length_eq_zero_iff.1 h]; rfl
  · apply List.ext_getElem?
    intro k
    rw [reverseLoop_get l.length 0 (l.length - 1) l (by omega) (by omega) (by omega)]
    by_cases hk : k < l.length
    · rw [if_pos (by omega), List.getElem?_reverse hk]
      congr 1; omega
    · rw [if_neg (by omega), List.getElem?_eq_none (by omega), List.getElem?_eq_none (by simp; omega)]

theorem can_ret {α : Type} {a : α} {o : Option α} : Can (.ret a) o ↔ o = some a :=
  ⟨fun h => by cases h; rfl, fun h => h ▸ .ret a⟩

theorem can_intn {α : Type} {n : Nat} {k : Nat → Draw α} {o : Option α} : Can (.intn n k) o ↔ (∃ i < n, Can (k i) o) ∨ (n = 0 ∧ o = none) := by
  constructor
  · intro h
    cases h with
    | intn hi h => exact Or.inl ⟨_, hi, h⟩
    | zero => exact Or.inr ⟨rfl, rfl⟩
  · rintro (⟨i, hi, h⟩ | ⟨rfl, rfl⟩)
    · exact .intn hi h
    · exact .zero

theorem can_shuffle_sound {k : List Str → Draw (Option Str)} {o : Option (Option Str)} : ∀ (m i : Nat) (l : List Str), i + m = l.length →
    Can (shuffle m i l k) o → ∃ us : List Str, us.Perm l ∧ Can (k us) o
  | 0, i, l, _, h => ⟨l, .refl _, h⟩
  | m + 1, i, l, hl, h => by
    rw [shuffle, can_intn] at h
    rcases h with ⟨j, hj, h⟩ | ⟨h, _⟩
    · obtain ⟨us, hp, hc⟩ := can_shuffle_sound m (i + 1) (swapAt l i j) (by rw [swapAt_length]; omega) h
      exact ⟨us, hp.trans (swapAt_perm (by omega) (by omega)), hc⟩
    · omega

theorem can_shuffle_complete {k : List Str → Draw (Option Str)} {o : Option (Option Str)} : ∀ (r p₀ us : List Str), us.Perm (p₀ ++ r) → Can (k us) o →
    ∃ p : List Str, p.Perm p₀ ∧ Can (shuffle r.length p₀.length (p ++ r) k) o
  | [], p₀, us, hp, h => ⟨us, by simpa using hp, by simpa [shuffle] using h⟩
  | x :: r, p₀, us, hp, h => by
    obtain ⟨p', hp', h'⟩ := can_shuffle_complete r (p₀ ++ [x]) us (by simpa using hp) h
    have hlen : p'.length = p₀.length + 1 := by simpa using hp'.length_eq
    have hx : x ∈ p' := hp'.mem_iff.2 (by simp)
    obtain ⟨j, hj, hjx⟩ := List.getElem_of_mem hx
    have hi : p₀.length < (p' ++ r).length := by simp; omega
    have hj' : j < (p' ++ r).length := by simp; omega
    have hl : ((swapAt p' p₀.length j).take p₀.length).length = p₀.length := by simp [swapAt_length, hlen]
    have hjx' : p'[j]? = some x := by rw [List.getElem?_eq_getElem hj, hjx]
    have hq : swapAt (p' ++ r) p₀.length j = (swapAt p' p₀.length j).take p₀.length ++ x :: r := by
      apply List.ext_getElem?
      intro k
      rw [swapAt_get hi hj' k, List.getElem?_append (l₁ := List.take _ _), hl, List.getElem?_take, swapAt_get (by omega) hj,
        List.getElem?_append_left (by omega), List.getElem?_append_left hj, List.getElem?_append]
      by_cases hk : k < p₀.length
      · simp only [hk, if_true, hlen, show k < p₀.length + 1 by omega]
      · simp only [hk, if_false]
        by_cases hk2 : k = p₀.length
        · subst hk2
          simp only [if_true, Nat.sub_self, List.getElem?_cons_zero, hjx']
          split
          · rename_i h; rw [h, hjx']
          · rfl
        · rw [if_neg (by omega), if_neg hk2, if_neg (by omega), List.getElem?_cons, if_neg (by omega), hlen]
          congr 1
    refine ⟨(swapAt p' p₀.length j).take p₀.length, ?_, ?_⟩
    · have h1 : (swapAt p' p₀.length j).Perm (p₀ ++ [x]) := (swapAt_perm (by omega) hj).trans hp'
      have h2 : swapAt p' p₀.length j = (swapAt p' p₀.length j).take p₀.length ++ [x] := by
        apply List.ext_getElem?
        intro k
        rw [List.getElem?_append, hl]
        split
        · rw [List.getElem?_take, if_pos (by assumption)]
        · rename_i hk
          rw [swapAt_get (by omega) hj]
          by_cases hk2 : k = p₀.length
          · subst hk2
            simp only [Nat.sub_self, List.getElem?_cons_zero, if_true, hjx']
            split
            · rename_i h; rw [h, hjx']
            · rfl
          · rw [if_neg (by omega), if_neg hk2, List.getElem?_eq_none (by omega), List.getElem?_eq_none (by simp; omega)]
      rw [h2] at h1
      exact (List.perm_append_right_iff _).1 h1
    · rw [List.length_cons, shuffle, can_intn]
      refine Or.inl ⟨j, by omega, ?_⟩
      rw [← hq, swapAt_swapAt hi hj']
      simpa using h'

/-- The shuffling loop may leave every order of the words, and nothing else. -/
theorem can_shuffle {k : List Str → Draw (Option Str)} {o : Option (Option Str)} {l : List Str} :
    Can (shuffle l.length 0 l k) o ↔ ∃ us : List Str, us.Perm l ∧ Can (k us) o := by
  constructor
  · exact can_shuffle_sound l.length 0 l (by omega)
  · rintro ⟨us, hp, h⟩
    obtain ⟨p, hp', h'⟩ := can_shuffle_complete l [] us (by simpa using hp) h
    rw [List.Perm.eq_nil hp'] at h'
    exact h'

/-! ### The mutations -/

theorem letters_iff (x : UInt8) : (∃ l < letters.length, letters.getD l 0 = x) ↔ 97 ≤ x ∧ x ≤ 122 := by
  have h1 : ∀ l : Fin 26, 97 ≤ letters.getD l.1 0 ∧ letters.getD l.1 0 ≤ 122 := by decide
  have h2 : ∀ x : Fin 256, 97 ≤ UInt8.ofNat x.1 ∧ UInt8.ofNat x.1 ≤ 122 → letters.getD (x.1 - 97) 0 = UInt8.ofNat x.1 := by decide +kernel
  constructor
  · rintro ⟨l, hl, rfl⟩; exact h1 ⟨l, hl⟩
  · rintro ⟨ha, hb⟩
    have hx : UInt8.ofNat x.toNat = x := by simp
    have := h2 ⟨x.toNat, x.toNat_lt⟩ (by rw [hx]; exact ⟨ha, hb⟩)
    dsimp only at this
    rw [hx] at this
    refine ⟨x.toNat - 97, ?_, this⟩
    have : x.toNat ≤ 122 := UInt8.le_iff_toNat_le.1 hb
    have h26 : letters.length = 26 := by decide
    omega

theorem can_replaceLetter {k : Str → Draw (Option Str)} {o : Option (Option Str)} {s : Str} (hs : s ≠ []) :
    Can (replaceLetter s k) o ↔ ∃ q, Replaced s q ∧ Can (k q) o := by
  have hpos : 0 < s.length := List.length_pos_iff.2 hs
  have h26 : letters.length = 26 := by decide
  unfold replaceLetter
  rw [can_intn]
  simp only [can_intn]
  constructor
  · rintro (⟨ii, hii, ⟨l, hl, h⟩ | ⟨h, _⟩⟩ | ⟨h, _⟩)
    · have hlet := (letters_iff (letters.getD l 0)).1 ⟨l, hl, rfl⟩
      refine ⟨_, ⟨s.take ii, s[ii], s.drop (ii + 1), letters.getD l 0, ?_, by simp, hlet⟩, h⟩
      rw [List.getElem_cons_drop, List.take_append_drop]
    · omega
    · omega
  · rintro ⟨q, ⟨a, c, b, x, rfl, rfl, hx⟩, h⟩
    obtain ⟨l, hl, rfl⟩ := (letters_iff x).2 hx
    refine Or.inl ⟨a.length, by simp, Or.inl ⟨l, hl, ?_⟩⟩
    simpa using h

theorem Spec.Replaced.ne {s q : Str} (h : Replaced s q) : s ≠ [] ∧ q ≠ [] := by
  obtain ⟨a, c, b, x, rfl, rfl, _⟩ := h
  simp

theorem can_rest {us : List Str} {o : Option (Option Str)} :
    Can (if (joinSpace us).length = 0 then .ret none
      else replaceLetter (joinSpace us) fun t => replaceLetter t fun t => .ret (some t)) o ↔
      (joinSpace us = [] ∧ o = some none) ∨ ∃ p q, Replaced (joinSpace us) p ∧ Replaced p q ∧ o = some (some q) := by
  by_cases h : joinSpace us = []
  · rw [if_pos (by simp [h]), can_ret]
    constructor
    · intro e; exact Or.inl ⟨h, e⟩
    · rintro (⟨_, e⟩ | ⟨p, q, hp, _⟩)
      · exact e
      · exact absurd h hp.ne.1
  · rw [if_neg (by simpa using h), can_replaceLetter h]
    constructor
    · rintro ⟨p, hp, hc⟩
      rw [can_replaceLetter hp.ne.2] at hc
      obtain ⟨q, hq, hc⟩ := hc
      exact Or.inr ⟨p, q, hp, hq, can_ret.1 hc⟩
    · rintro (⟨e, _⟩ | ⟨p, q, hp, hq, rfl⟩)
      · exact absurd e h
      · exact ⟨p, hp, (can_replaceLetter hp.ne.2).2 ⟨q, hq, .ret _⟩⟩

theorem can_mutateWords (s : Str) (o : Option (Option Str)) : Can (mutateWords s) o ↔
    (∃ q, o = some (some q) ∧ WordTest s q) ∨ (o = some none ∧ ∀ ws, IsWords s ws → ws.length < 3) := by
  have hpos : 0 < (splitSpace s).length := List.length_pos_iff.2 (splitSpace_ne s)
  have hws := isWords_split s
  have hj : joinSpace (splitSpace s) = s := by rw [joinSpace_eq]; exact hws.2.2
  have hres : ∀ us : List Str, joinSpace us = [] → us.length < 2 := by
    intro us h
    match us with
    | [] => simp
    | [_] => simp
    | a :: b :: us => rw [joinSpace.eq_3 _ _ (by simp)] at h; simp at h
  have hone : ∀ d : Nat, d < (splitSpace s).length → ((splitSpace s).take d ++ (splitSpace s).drop (d + 1)).length = (splitSpace s).length - 1 := by
    intro d hd; simp; omega
  unfold mutateWords
  rw [can_intn]
  simp only [reverseLoop_eq]
  generalize hW : splitSpace s = W at *
  constructor
  · rintro (⟨c, hc, h⟩ | ⟨h, _⟩)
    · split at h
      · split at h
        · rename_i h3
          refine Or.inr ⟨can_ret.1 h, fun ws hw => ?_⟩
          rw [isWords_unique hw hws]; exact h3
        · rename_i h3
          rw [can_intn] at h
          rcases h with ⟨d, hd, h⟩ | ⟨h, _⟩
          · exact Or.inl ⟨_, can_ret.1 h, W, hws, Or.inl ⟨by omega, _, withoutOne_iff.2 ⟨d, hd, rfl⟩, joinSpace_eq _⟩⟩
          · omega
      · split at h
        · split at h
          · rename_i h3
            rw [can_intn] at h
            rcases h with ⟨d, hd, h⟩ | ⟨h, _⟩
            · exact Or.inl ⟨_, can_ret.1 h, W, hws, Or.inr (Or.inl ⟨by omega, _, withoutOne_iff.2 ⟨d, hd, rfl⟩, joinSpace_eq _⟩)⟩
            · omega
          · rename_i h3
            refine Or.inr ⟨can_ret.1 h, fun ws hw => ?_⟩
            rw [isWords_unique hw hws]; omega
        · split at h
          · rename_i h3
            rw [can_intn] at h
            rcases h with ⟨d, hd, h⟩ | ⟨h, _⟩
            · rw [can_shuffle] at h
              obtain ⟨us, hp, h⟩ := h
              rw [can_rest] at h
              rcases h with ⟨e, ho⟩ | ⟨p, q, h1, h2, ho⟩
              · refine Or.inr ⟨ho, fun ws hw => ?_⟩
                rw [isWords_unique hw hws]
                have := hres us e
                rw [hp.length_eq, hone d hd] at this
                omega
              · exact Or.inl ⟨q, ho, W, hws, Or.inr (Or.inr (Or.inl ⟨by omega, _, us, p, withoutOne_iff.2 ⟨d, hd, rfl⟩, hp, joinSpace_eq us ▸ h1, h2⟩))⟩
            · omega
          · rename_i h3
            rw [can_rest] at h
            rcases h with ⟨e, ho⟩ | ⟨p, q, h1, h2, ho⟩
            · refine Or.inr ⟨ho, fun ws hw => ?_⟩
              rw [isWords_unique hw hws]; omega
            · exact Or.inl ⟨q, ho, W, hws, Or.inr (Or.inr (Or.inr ⟨by omega, p, hj ▸ h1, h2⟩))⟩
    · omega
  · rintro (⟨q, rfl, ws, hw, h⟩ | ⟨rfl, h⟩)
    · rw [isWords_unique hw hws] at h
      rcases h with ⟨h3, vs, hv, rfl⟩ | ⟨h3, vs, hv, rfl⟩ | ⟨h3, vs, us, p, hv, hp, h1, h2⟩ | ⟨h3, p, h1, h2⟩
      · obtain ⟨d, hd, rfl⟩ := withoutOne_iff.1 hv
        refine Or.inl ⟨0, by omega, ?_⟩
        rw [if_pos rfl, if_neg (by omega), can_intn]
        exact Or.inl ⟨d, hd, by rw [← joinSpace_eq]; exact .ret _⟩
      · obtain ⟨d, hd, rfl⟩ := withoutOne_iff.1 hv
        refine Or.inl ⟨1, by omega, ?_⟩
        rw [if_neg (by omega), if_pos rfl, if_pos (by omega), can_intn]
        exact Or.inl ⟨d, hd, by rw [← joinSpace_eq]; exact .ret _⟩
      · obtain ⟨d, hd, rfl⟩ := withoutOne_iff.1 hv
        refine Or.inl ⟨2, by omega, ?_⟩
        rw [if_neg (by omega), if_neg (by omega), if_pos (by omega), can_intn]
        exact Or.inl ⟨d, hd, can_shuffle.2 ⟨us, hp, can_rest.2 (Or.inr ⟨p, q, by rw [joinSpace_eq]; exact h1, h2, rfl⟩)⟩⟩
      · refine Or.inl ⟨2, by omega, ?_⟩
        rw [if_neg (by omega), if_neg (by omega), if_neg (by omega)]
        exact can_rest.2 (Or.inr ⟨p, q, by rw [hj]; exact h1, h2, rfl⟩)
    · refine Or.inl ⟨0, by omega, ?_⟩
      rw [if_pos rfl, if_pos (h W hws)]
      exact .ret _

theorem can_mutateLetters (s : Str) (o : Option (Option Str)) : Can (mutateLetters s) o ↔
    (∃ q, o = some (some q) ∧ LetterTest s q) ∨ (o = none ∧ s = []) := by
  have h26 : letters.length = 26 := by decide
  have hsplit : ∀ ii (h : ii < s.length), s = s.take ii ++ s[ii] :: s.drop (ii + 1) := by
    intro ii h; rw [List.getElem_cons_drop, List.take_append_drop]
  unfold mutateLetters
  rw [can_intn]
  constructor
  · rintro (⟨c, hc, h⟩ | ⟨h, _⟩)
    · split at h
      · simp only [can_intn, can_ret] at h
        rcases h with ⟨ii, hii, ⟨l, hl, h⟩ | ⟨h, _⟩⟩ | ⟨h, ho⟩
        · refine Or.inl ⟨_, h, Or.inl ⟨_, _, _, _, hsplit ii hii, ?_, (letters_iff _).1 ⟨l, hl, rfl⟩⟩⟩
          simp
        · omega
        · exact Or.inr ⟨ho, List.length_eq_zero_iff.1 h⟩
      · split at h
        · simp only [can_intn, can_ret] at h
          rcases h with ⟨ii, hii, h⟩ | ⟨h, ho⟩
          · exact Or.inl ⟨_, h, Or.inr (Or.inl ⟨_, _, _, hsplit ii hii, rfl⟩)⟩
          · exact Or.inr ⟨ho, List.length_eq_zero_iff.1 h⟩
        · simp only [can_intn, can_ret] at h
          rcases h with ⟨ii, hii, ⟨l, hl, h⟩ | ⟨h, _⟩⟩ | ⟨h, ho⟩
          · refine Or.inl ⟨_, h, Or.inr (Or.inr ⟨_, _, _, _, hsplit ii hii, ?_, (letters_iff _).1 ⟨l, hl, rfl⟩⟩)⟩
            simp
          · omega
          · exact Or.inr ⟨ho, List.length_eq_zero_iff.1 h⟩
    · omega
  · rintro (⟨q, rfl, ⟨a, c, b, x, rfl, rfl, hx⟩ | ⟨a, c, b, rfl, rfl⟩ | ⟨a, c, b, x, rfl, rfl, hx⟩⟩ | ⟨rfl, rfl⟩)
    · obtain ⟨l, hl, rfl⟩ := (letters_iff x).2 hx
      refine Or.inl ⟨0, by omega, ?_⟩
      simp only [if_true, can_intn, can_ret]
      exact Or.inl ⟨a.length, by simp, Or.inl ⟨l, hl, by simp⟩⟩
    · refine Or.inl ⟨1, by omega, ?_⟩
      rw [if_neg (by omega), if_pos rfl, can_intn]
      exact Or.inl ⟨a.length, by simp, can_ret.2 (by simp)⟩
    · obtain ⟨l, hl, rfl⟩ := (letters_iff x).2 hx
      refine Or.inl ⟨2, by omega, ?_⟩
      rw [if_neg (by omega), if_neg (by omega)]
      simp only [can_intn, can_ret]
      exact Or.inl ⟨a.length, by simp, Or.inl ⟨l, hl, by simp⟩⟩
    · refine Or.inl ⟨1, by omega, ?_⟩
      rw [if_neg (by omega), if_pos rfl]
      exact .zero

theorem not_wordTest_nil (q : Str) : ¬ WordTest [] q := by
  rintro ⟨ws, hw, h⟩
  have e : ws = [[]] := isWords_iff.1 hw
  subst e
  rcases h with ⟨h, _⟩ | ⟨h, _⟩ | ⟨h, _⟩ | ⟨_, p, h, _⟩
  · simp at h
  · simp at h
  · simp at h
  · exact h.ne.1 rfl

theorem not_letterTest_nil (q : Str) : ¬ LetterTest [] q := by
  rintro (h | ⟨a, c, b, h, _⟩ | ⟨a, c, b, x, h, _⟩)
  · exact h.ne.1 rfl
  · simp at h
  · simp at h

/-- A query of the measurement with words is empty only if the word is one word with one space before or behind it. -/
theorem wordTest_nil_iff (s : Str) : WordTest s [] ↔ ∃ v : Str, 32 ∉ v ∧ (s = v ++ [32] ∨ s = 32 :: v) := by
  constructor
  · rintro ⟨ws, hw, h⟩
    have hle : ∀ us : List Str, [32].intercalate us = [] → us = [] ∨ us = [[]] := by
      intro us h
      rw [← joinSpace_eq] at h
      match us, h with
      | [], _ => simp
      | [a], h => simp [joinSpace] at h; simp [h]
      | a :: b :: us, h => rw [joinSpace.eq_3 _ _ (by simp)] at h; simp at h
    rcases h with ⟨h3, vs, hv, e⟩ | ⟨h3, vs, hv, e⟩ | ⟨_, vs, us, p, _, _, _, h⟩ | ⟨_, p, _, h⟩
    · obtain ⟨a, w, b, rfl, rfl⟩ := hv
      have := hle _ e.symm
      simp at h3
      rcases this with h | h <;> have := congrArg List.length h <;> simp only [List.length_append, List.length_nil, List.length_cons] at this <;> omega
    · obtain ⟨a, w, b, rfl, rfl⟩ := hv
      have h := hle _ e.symm
      simp at h3
      have h : a ++ b = [[]] := by
        rcases h with h | h
        · have := congrArg List.length h
          simp only [List.length_reverse, List.length_append, List.length_nil] at this
          omega
        · have := congrArg List.reverse h
          rwa [List.reverse_reverse] at this
      have hcase : (a = [] ∧ b = [[]]) ∨ (a = [[]] ∧ b = []) := by
        cases a with
        | nil => exact Or.inl ⟨rfl, h⟩
        | cons x a => simp at h; exact Or.inr ⟨by rw [h.1, h.2.1], h.2.2⟩
      refine ⟨w, hw.2.1 w (by simp), ?_⟩
      have h5 := hw.2.2
      rcases hcase with ⟨rfl, rfl⟩ | ⟨rfl, rfl⟩
      · left; rw [← h5, ← joinSpace_eq]; simp [joinSpace]
      · right; rw [← h5, ← joinSpace_eq]; simp [joinSpace]
    · exact absurd rfl h.ne.2
    · exact absurd rfl h.ne.2
  · rintro ⟨v, hv, rfl | rfl⟩
    · refine ⟨[v, []], ⟨by simp, by simp [hv], by rw [← joinSpace_eq]; simp [joinSpace]⟩, Or.inr (Or.inl ⟨by simp, [[]], ⟨[], v, [[]], rfl, rfl⟩, rfl⟩)⟩
    · refine ⟨[[], v], ⟨by simp, by simp [hv], by rw [← joinSpace_eq]; simp [joinSpace]⟩, Or.inr (Or.inl ⟨by simp, [[]], ⟨[[]], v, [], rfl, rfl⟩, rfl⟩)⟩

end Verif.Closest
