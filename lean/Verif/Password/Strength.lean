import Verif.FormGen.FormProb
import Mathlib.Data.Nat.Choose.Basic
import Mathlib.Data.Nat.Factorial.Basic
import Mathlib.Algebra.Order.Field.Basic
import Mathlib.Tactic.Positivity
import Mathlib.Tactic.Linarith
/-
C134: how many passwords a request allows, and what it takes to guess one.
-/
namespace Verif.Password
open Finset

/-! ### Specification -/

/-- Ways to write `n` characters of an alphabet of `k` one after the other. -/
def ways (allowRepeat : Bool) (k n : Nat) : Nat := if allowRepeat then k ^ n else k.descFactorial n

/-- The number of passwords of `n` characters of which `d` are among `D` digits, `s` among `S` symbols and the others among `L` letters: choose the
places of the digits, those of the symbols among the others, and the characters. -/
def passwords (allowRepeat : Bool) (L D S n d s : Nat) : Nat :=
  n.choose d * (n - d).choose s * (ways allowRepeat L (n - d - s) * ways allowRepeat D d * ways allowRepeat S s)

/-! ### Counting -/

/-- Words with `a`, `b` and `c` characters of three alphabets. -/
def Word (rep : Bool) (A D S : Finset UInt8) (a b c : Nat) (w : Str) : Prop :=
  w.length = a + b + c ∧ w.countP (· ∈ A) = a ∧ w.countP (· ∈ D) = b ∧ w.countP (· ∈ S) = c ∧ (rep = false → w.Nodup)

/-- The characters that can still be used after `x`. -/
def rm (rep : Bool) (A : Finset UInt8) (x : UInt8) : Finset UInt8 := if rep then A else A.erase x

theorem countP_sum_le {A D S : Finset UInt8} (h1 : Disjoint A D) (h2 : Disjoint A S) (h3 : Disjoint D S) : ∀ w : Str,
    w.countP (· ∈ A) + w.countP (· ∈ D) + w.countP (· ∈ S) ≤ w.length
  | [] => by simp
  | x :: w => by
    have ih := countP_sum_le h1 h2 h3 w
    have a1 : x ∈ A → x ∉ D := fun h => Finset.disjoint_left.1 h1 h
    have a2 : x ∈ A → x ∉ S := fun h => Finset.disjoint_left.1 h2 h
    have a3 : x ∈ D → x ∉ S := fun h => Finset.disjoint_left.1 h3 h
    simp only [List.countP_cons, List.length_cons, decide_eq_true_eq]
    by_cases e1 : x ∈ A <;> by_cases e2 : x ∈ D <;> by_cases e3 : x ∈ S <;> simp_all <;> omega

theorem countP_rm {rep : Bool} {A : Finset UInt8} {x : UInt8} {w : Str} (h : rep = false → x ∉ w) :
    w.countP (· ∈ rm rep A x) = w.countP (· ∈ A) := by
  unfold rm
  cases rep with
  | true => rfl
  | false =>
    apply List.countP_congr
    intro y hy
    have : y ≠ x := fun e => h rfl (e ▸ hy)
    simp [this]

/-- If the counts add up to the length, every character is in one of the alphabets. -/
theorem mem_of_full {A D S : Finset UInt8} (h1 : Disjoint A D) (h2 : Disjoint A S) (h3 : Disjoint D S) : ∀ {w : Str},
    w.length ≤ w.countP (· ∈ A) + w.countP (· ∈ D) + w.countP (· ∈ S) → ∀ x ∈ w, x ∈ A ∨ x ∈ D ∨ x ∈ S
  | [], _, x, hx => by cases hx
  | y :: w, h, x, hx => by
    have le := countP_sum_le h1 h2 h3 w
    have a1 : y ∈ A → y ∉ D := fun h => Finset.disjoint_left.1 h1 h
    have a2 : y ∈ A → y ∉ S := fun h => Finset.disjoint_left.1 h2 h
    have a3 : y ∈ D → y ∉ S := fun h => Finset.disjoint_left.1 h3 h
    simp only [List.countP_cons, List.length_cons, decide_eq_true_eq] at h
    have hw : w.length ≤ w.countP (· ∈ A) + w.countP (· ∈ D) + w.countP (· ∈ S) ∧ (y ∈ A ∨ y ∈ D ∨ y ∈ S) := by
      by_cases e1 : y ∈ A <;> by_cases e2 : y ∈ D <;> by_cases e3 : y ∈ S <;> simp_all <;> omega
    rcases List.mem_cons.1 hx with rfl | hx
    · exact hw.2
    · exact mem_of_full h1 h2 h3 hw.1 x hx

theorem word_cons {rep : Bool} {A D S : Finset UInt8} (h1 : Disjoint A D) (h2 : Disjoint A S) (h3 : Disjoint D S) (a b c : Nat) (x : UInt8)
    (w : Str) : Word rep A D S a b c (x :: w) ↔
    (x ∈ A ∧ ∃ a', a = a' + 1 ∧ Word rep (rm rep A x) D S a' b c w) ∨ (x ∈ D ∧ ∃ b', b = b' + 1 ∧ Word rep A (rm rep D x) S a b' c w) ∨
    (x ∈ S ∧ ∃ c', c = c' + 1 ∧ Word rep A D (rm rep S x) a b c' w) := by
  have a1 : x ∈ A → x ∉ D := fun h => Finset.disjoint_left.1 h1 h
  have a2 : x ∈ A → x ∉ S := fun h => Finset.disjoint_left.1 h2 h
  have a3 : x ∈ D → x ∉ S := fun h => Finset.disjoint_left.1 h3 h
  have sub : ∀ {X : Finset UInt8}, rm rep X x ⊆ X := by
    intro X; unfold rm; split
    · exact Finset.Subset.refl _
    · exact Finset.erase_subset _ _
  have fresh : ∀ {X : Finset UInt8}, rep = false → x ∉ rm rep X x := by
    intro X h; unfold rm; rw [h]; simp
  constructor
  · rintro ⟨hl, hA, hD, hS, hn⟩
    have hall := mem_of_full h1 h2 h3 (w := x :: w) (by omega) x List.mem_cons_self
    have hn' : rep = false → x ∉ w ∧ w.Nodup := fun h => List.nodup_cons.1 (hn h)
    have er : ∀ X : Finset UInt8, w.countP (· ∈ rm rep X x) = w.countP (· ∈ X) := fun X => countP_rm fun h => (hn' h).1
    simp only [List.countP_cons, List.length_cons, decide_eq_true_eq] at hA hD hS hl
    rcases hall with hx | hx | hx
    · refine Or.inl ⟨hx, a - 1, ?_, ?_, ?_, ?_, ?_, fun h => (hn' h).2⟩
      all_goals (try rw [er]); simp [hx, a1 hx, a2 hx] at hA hD hS ⊢ <;> omega
    · have hxA : x ∉ A := fun h => a1 h hx
      refine Or.inr (Or.inl ⟨hx, b - 1, ?_, ?_, ?_, ?_, ?_, fun h => (hn' h).2⟩)
      all_goals (try rw [er]); simp [hx, hxA, a3 hx] at hA hD hS ⊢ <;> omega
    · have hxA : x ∉ A := fun h => a2 h hx
      have hxD : x ∉ D := fun h => a3 h hx
      refine Or.inr (Or.inr ⟨hx, c - 1, ?_, ?_, ?_, ?_, ?_, fun h => (hn' h).2⟩)
      all_goals (try rw [er]); simp [hx, hxA, hxD] at hA hD hS ⊢ <;> omega
  · rintro (⟨hx, a', rfl, hl, hA, hD, hS, hn⟩ | ⟨hx, b', rfl, hl, hA, hD, hS, hn⟩ | ⟨hx, c', rfl, hl, hA, hD, hS, hn⟩)
    · have hf : rep = false → x ∉ w := by
        intro h hm
        rcases mem_of_full (h1.mono_left sub) (h2.mono_left sub) h3 (w := w) (by omega) x hm with e | e | e
        · exact fresh h e
        · exact a1 hx e
        · exact a2 hx e
      rw [countP_rm hf] at hA
      refine ⟨by simp [hl]; omega, ?_, ?_, ?_, fun h => List.nodup_cons.2 ⟨hf h, hn h⟩⟩ <;> simp [hx, a1 hx, a2 hx, hA, hD, hS]
    · have hxA : x ∉ A := fun h => a1 h hx
      have hf : rep = false → x ∉ w := by
        intro h hm
        rcases mem_of_full (h1.mono_right sub) h2 (h3.mono_left sub) (w := w) (by omega) x hm with e | e | e
        · exact hxA e
        · exact fresh h e
        · exact a3 hx e
      rw [countP_rm hf] at hD
      refine ⟨by simp [hl]; omega, ?_, ?_, ?_, fun h => List.nodup_cons.2 ⟨hf h, hn h⟩⟩ <;> simp [hx, hxA, a3 hx, hA, hD, hS]
    · have hxA : x ∉ A := fun h => a2 h hx
      have hxD : x ∉ D := fun h => a3 h hx
      have hf : rep = false → x ∉ w := by
        intro h hm
        rcases mem_of_full h1 (h2.mono_right sub) (h3.mono_right sub) (w := w) (by omega) x hm with e | e | e
        · exact hxA e
        · exact hxD e
        · exact fresh h e
      rw [countP_rm hf] at hS
      refine ⟨by simp [hl]; omega, ?_, ?_, ?_, fun h => List.nodup_cons.2 ⟨hf h, hn h⟩⟩ <;> simp [hx, hxA, hxD, hA, hD, hS]

theorem ways_succ (rep : Bool) (A : Finset UInt8) (n : Nat) {x : UInt8} (hx : x ∈ A) : A.card * ways rep (rm rep A x).card n = ways rep A.card (n + 1) := by
  unfold ways rm
  cases rep with
  | true => simp [pow_succ, Nat.mul_comm]
  | false =>
    simp only [Bool.false_eq_true, if_false]
    rw [Finset.card_erase_of_mem hx]
    have : 0 < A.card := Finset.card_pos.2 ⟨x, hx⟩
    obtain ⟨k, hk⟩ : ∃ k, A.card = k + 1 := ⟨A.card - 1, by omega⟩
    rw [hk, Nat.succ_descFactorial_succ]
    rfl

/-- The number of ways to choose the places, by the class of the first character. -/
def arr (a b c : Nat) : Nat := (a + b + c).choose b * (a + c).choose c

theorem arr_zero : arr 0 0 0 = 1 := rfl

theorem arr_succ (a b c : Nat) (h : 0 < a + b + c) : arr a b c =
    (if a = 0 then 0 else arr (a - 1) b c) + (if b = 0 then 0 else arr a (b - 1) c) + (if c = 0 then 0 else arr a b (c - 1)) := by
  unfold arr
  rcases a with _ | a <;> rcases b with _ | b <;> rcases c with _ | c
  · simp at h
  · simp
  · simp
  · simp only [if_true, Nat.succ_ne_zero, if_false, Nat.add_sub_cancel, Nat.zero_add]
    rw [show b + 1 + (c + 1) = (b + (c + 1)) + 1 by omega, Nat.choose_succ_succ]
    rw [show b + 1 + c = b + (c + 1) by omega]
    simp
  · simp
  · simp only [if_true, Nat.succ_ne_zero, if_false, Nat.add_sub_cancel, Nat.add_zero]
    rw [show a + 1 + (c + 1) = (a + (c + 1)) + 1 by omega, Nat.choose_succ_succ, show a + 1 + c = a + (c + 1) by omega]
    simp; omega
  · simp only [if_true, Nat.succ_ne_zero, if_false, Nat.add_sub_cancel, Nat.add_zero]
    rw [show a + 1 + (b + 1) = (a + (b + 1)) + 1 by omega, Nat.choose_succ_succ, show a + 1 + b = a + (b + 1) by omega]
    simp; omega
  · simp only [Nat.succ_ne_zero, if_false, Nat.add_sub_cancel]
    rw [show a + 1 + (b + 1) + (c + 1) = (a + b + c + 2) + 1 by omega, Nat.choose_succ_succ (a + b + c + 2) b,
      show a + 1 + (c + 1) = (a + c + 1) + 1 by omega, Nat.choose_succ_succ (a + c + 1) c,
      show a + (b + 1) + (c + 1) = a + b + c + 2 by omega, show a + 1 + b + (c + 1) = a + b + c + 2 by omega,
      show a + 1 + (b + 1) + c = a + b + c + 2 by omega, show a + (c + 1) = a + c + 1 by omega, show a + 1 + c = a + c + 1 by omega]
    ring

theorem count_words (rep : Bool) : ∀ (n : Nat) (A D S : Finset UInt8) (a b c : Nat), a + b + c = n → Disjoint A D → Disjoint A S → Disjoint D S →
    ∃ T : Finset Str, (∀ w, w ∈ T ↔ Word rep A D S a b c w) ∧ T.card = arr a b c * (ways rep A.card a * ways rep D.card b * ways rep S.card c)
  | 0, A, D, S, a, b, c, h, _, _, _ => by
    obtain ⟨rfl, rfl, rfl⟩ : a = 0 ∧ b = 0 ∧ c = 0 := by omega
    refine ⟨{[]}, fun w => ?_, ?_⟩
    · rw [Finset.mem_singleton]
      constructor
      · rintro rfl; exact ⟨rfl, rfl, rfl, rfl, fun _ => List.nodup_nil⟩
      · rintro ⟨h, -⟩; exact List.length_eq_zero_iff.1 h
    · unfold ways; simp [arr_zero]
  | n + 1, A, D, S, a, b, c, h, h1, h2, h3 => by
    have sub : ∀ {X : Finset UInt8} {x}, rm rep X x ⊆ X := by
      intro X x; unfold rm; split
      · exact Finset.Subset.refl _
      · exact Finset.erase_subset _ _
    -- the words that begin with `x`
    have tails : ∀ x : UInt8, ∃ T : Finset Str, (∀ w, w ∈ T ↔ Word rep A D S a b c (x :: w)) ∧ T.card =
        (if x ∈ A then if a = 0 then 0 else arr (a - 1) b c * (ways rep (rm rep A x).card (a - 1) * ways rep D.card b * ways rep S.card c) else 0) +
        (if x ∈ D then if b = 0 then 0 else arr a (b - 1) c * (ways rep A.card a * ways rep (rm rep D x).card (b - 1) * ways rep S.card c) else 0) +
        (if x ∈ S then if c = 0 then 0 else arr a b (c - 1) * (ways rep A.card a * ways rep D.card b * ways rep (rm rep S x).card (c - 1)) else 0) := by
      intro x
      have a1 : x ∈ A → x ∉ D := fun h => Finset.disjoint_left.1 h1 h
      have a2 : x ∈ A → x ∉ S := fun h => Finset.disjoint_left.1 h2 h
      have a3 : x ∈ D → x ∉ S := fun h => Finset.disjoint_left.1 h3 h
      simp only [word_cons h1 h2 h3]
      by_cases eA : x ∈ A
      · have eD := a1 eA
        have eS := a2 eA
        simp only [eA, eD, eS, true_and, false_and, or_false, if_true, if_false, Nat.add_zero]
        rcases a with _ | a
        · exact ⟨∅, by simp, by simp⟩
        · obtain ⟨T, hT, hc⟩ := count_words rep n (rm rep A x) D S a b c (by omega) (h1.mono_left sub) (h2.mono_left sub) h3
          refine ⟨T, fun w => ?_, ?_⟩
          · rw [hT]
            constructor
            · intro hw; exact ⟨a, rfl, hw⟩
            · rintro ⟨a', e, hw⟩; cases e; exact hw
          · rw [hc]; simp
      · by_cases eD : x ∈ D
        · have eS := a3 eD
          simp only [eA, eD, eS, true_and, false_and, or_false, false_or, if_true, if_false, Nat.add_zero, Nat.zero_add]
          rcases b with _ | b
          · exact ⟨∅, by simp, by simp⟩
          · obtain ⟨T, hT, hc⟩ := count_words rep n A (rm rep D x) S a b c (by omega) (h1.mono_right sub) h2 (h3.mono_left sub)
            refine ⟨T, fun w => ?_, ?_⟩
            · rw [hT]
              constructor
              · intro hw; exact ⟨b, rfl, hw⟩
              · rintro ⟨a', e, hw⟩; cases e; exact hw
            · rw [hc]; simp
        · by_cases eS : x ∈ S
          · simp only [eA, eD, eS, true_and, false_and, false_or, if_true, if_false, Nat.zero_add]
            rcases c with _ | c
            · exact ⟨∅, by simp, by simp⟩
            · obtain ⟨T, hT, hc⟩ := count_words rep n A D (rm rep S x) a b c (by omega) h1 (h2.mono_right sub) (h3.mono_right sub)
              refine ⟨T, fun w => ?_, ?_⟩
              · rw [hT]
                constructor
                · intro hw; exact ⟨c, rfl, hw⟩
                · rintro ⟨a', e, hw⟩; cases e; exact hw
              · rw [hc]; simp
          · exact ⟨∅, by simp [eA, eD, eS], by simp [eA, eD, eS]⟩
    choose T hT hc using tails
    refine ⟨((A ∪ D ∪ S).sigma T).map ⟨fun p => p.1 :: p.2, ?_⟩, fun w => ?_, ?_⟩
    · rintro ⟨x, w⟩ ⟨x', w'⟩ e
      injection e with e1 e2
      subst e1; subst e2; rfl
    · rw [Finset.mem_map]
      constructor
      · rintro ⟨⟨x, t⟩, hm, rfl⟩
        rw [Finset.mem_sigma] at hm
        exact (hT x t).1 hm.2
      · intro hw
        cases w with
        | nil => have := hw.1; simp at this; omega
        | cons x t => 
          refine ⟨⟨x, t⟩, Finset.mem_sigma.2 ⟨?_, (hT x t).2 hw⟩, rfl⟩
          rcases (word_cons h1 h2 h3 a b c x t).1 hw with ⟨h, -⟩ | ⟨h, -⟩ | ⟨h, -⟩ <;> simp [h]
    · rw [Finset.card_map, Finset.card_sigma, Finset.sum_congr rfl fun x _ => hc x, Finset.sum_add_distrib, Finset.sum_add_distrib,
        arr_succ a b c (by omega)]
      have part : ∀ (X : Finset UInt8) (k m p q : Nat), X ⊆ A ∪ D ∪ S →
          (∑ x ∈ A ∪ D ∪ S, if x ∈ X then if k = 0 then 0 else m * (p * ways rep (rm rep X x).card (k - 1) * q) else 0) =
          (if k = 0 then 0 else m) * (p * ways rep X.card k * q) := by
        intro X k m p q hX
        rw [Finset.sum_ite_mem, Finset.inter_eq_right.2 hX]
        rcases k with _ | k
        · simp
        · simp only [Nat.succ_ne_zero, if_false, Nat.add_sub_cancel]
          by_cases he : X = ∅
          · subst he; unfold ways; cases rep <;> simp
          · obtain ⟨x0, hx0⟩ := Finset.nonempty_iff_ne_empty.2 he
            have hcard : ∀ x ∈ X, (rm rep X x).card = (rm rep X x0).card := by
              intro x hx
              unfold rm
              split
              · rfl
              · rw [Finset.card_erase_of_mem hx, Finset.card_erase_of_mem hx0]
            rw [Finset.sum_congr rfl fun x hx => by rw [hcard x hx], Finset.sum_const, nsmul_eq_mul, Nat.cast_id, ← ways_succ rep X k hx0]
            ring
      have pA := part A a (arr (a - 1) b c) 1 (ways rep D.card b * ways rep S.card c) (by intro x hx; simp [hx])
      have pD := part D b (arr a (b - 1) c) (ways rep A.card a) (ways rep S.card c) (by intro x hx; simp [hx])
      have pS := part S c (arr a b (c - 1)) (ways rep A.card a * ways rep D.card b) 1 (by intro x hx; simp [hx])
      simp only [Nat.one_mul, Nat.mul_one] at pA pD pS
      simp only [← Nat.mul_assoc] at pA pD pS ⊢
      rw [pA, pD, pS]
      ring

/-! ## C134 -/

theorem countIn_eq (L : Str) (w : Str) : countIn L w = w.countP (· ∈ L.toFinset) := by
  unfold countIn
  rw [List.countP_eq_length_filter]
  simp

theorem letters_nodup {g : Generator} (hd : g.Distinct) (nu : Bool) : (g.letters nu).Nodup := by
  unfold Generator.letters
  split
  · exact (List.nodup_append'.1 hd.1).1
  · exact hd.1

/-- **C134** The passwords that satisfy a request, and their number. -/
theorem C134_number (g : Generator) (hs : g.Separate) (hd : g.Distinct) (n d s : Nat) (hds : d + s ≤ n) (noUpper allowRepeat : Bool) :
    ∃ T : Finset Str, (∀ pw, pw ∈ T ↔ Conforms g n d s noUpper allowRepeat pw) ∧
      T.card = passwords allowRepeat (g.letters noUpper).length g.digits.length g.symbols.length n d s := by
  have apart : ∀ {a b : Str}, Apart a b → Disjoint a.toFinset b.toFinset := by
    intro a b h
    rw [Finset.disjoint_left]
    intro x hx hy
    exact h x (List.mem_toFinset.1 hx) (List.mem_toFinset.1 hy)
  obtain ⟨T, hT, hc⟩ := count_words allowRepeat n (g.letters noUpper).toFinset g.digits.toFinset g.symbols.toFinset (n - d - s) d s (by omega)
    (apart (letters_apart_digits hs noUpper)) (apart (letters_apart_symbols hs noUpper)) (apart hs.2.2)
  have el : g.lowerLetters ++ (if noUpper then [] else g.upperLetters) = g.letters noUpper := by
    unfold Generator.letters; cases noUpper <;> simp
  refine ⟨T, fun pw => ?_, ?_⟩
  · rw [hT]
    constructor
    · rintro ⟨h1, h2, h3, h4, h5⟩
      rw [← countIn_eq] at h2 h3 h4
      exact ⟨by omega, by omega, by omega, by rw [el]; omega, h5⟩
    · rintro ⟨h1, h2, h3, h4, h5⟩
      rw [el] at h4
      refine ⟨by omega, ?_, ?_, ?_, h5⟩ <;> rw [← countIn_eq] <;> omega
  · rw [hc, List.toFinset_card_of_nodup (letters_nodup hd noUpper), List.toFinset_card_of_nodup hd.2.1, List.toFinset_card_of_nodup hd.2.2]
    unfold passwords arr
    rw [show n - d - s + d + s = n by omega, show n - d - s + s = n - d by omega]

open FormGen in
/-- **C134** Every password that satisfies the request comes out with the same probability: that of getting a password at all, divided by the number
of passwords. -/
theorem C134_probability (g : Generator) (hg : g.AllAscii) (hs : g.Separate) (hd : g.Distinct) (fuel : Nat) (hf : 0 < fuel)
    (n d s : Nat) (noUpper allowRepeat : Bool) (pw : Str) (h : Conforms g n d s noUpper allowRepeat pw) :
    (g.generate fuel n d s noUpper allowRepeat).prob pw =
      (g.generate fuel n d s noUpper allowRepeat).probDone /
        passwords allowRepeat (g.letters noUpper).length g.digits.length g.symbols.length n d s := by
  have hds : d + s ≤ n := by
    have h1 := h.letters
    omega
  obtain ⟨T, hT, hc⟩ := C134_number g hs hd n d s hds noUpper allowRepeat
  obtain ⟨v, hv, h1, h0⟩ := C06_uniform g hg hs hd fuel hf n d s (by omega) (by omega) noUpper allowRepeat
  have hsum : (g.generate fuel n d s noUpper allowRepeat).probDone = T.card * v := by
    unfold Prog.probDone
    rw [expect_support _ _ (support (g.generate fuel n d s noUpper allowRepeat) ∪ T) Finset.subset_union_left]
    simp only [mul_one]
    rw [← Finset.sum_subset (Finset.subset_union_right (s₁ := support (g.generate fuel n d s noUpper allowRepeat)) (s₂ := T))
        fun o _ hno => h0 o fun hA => hno ((hT o).2 hA),
      Finset.sum_congr rfl fun o ho => h1 o ((hT o).1 ho), Finset.sum_const, nsmul_eq_mul]
  have hpos : (T.card : ℚ) ≠ 0 := by
    have : 0 < T.card := Finset.card_pos.2 ⟨pw, (hT pw).2 h⟩
    positivity
  rw [h1 pw h, hsum, ← hc, mul_comm, mul_div_assoc, div_self hpos, mul_one]

theorem expect_one_le {α} (p : Prog α) : p.probDone ≤ 1 := by
  unfold Prog.probDone
  induction p with
  | ret a => exact le_refl _
  | draw m k ih =>
    simp only [Prog.expect]
    rcases Nat.eq_zero_or_pos m with rfl | hm
    · simp
    · rw [div_le_one (by positivity)]
      calc _ ≤ ∑ i ∈ range m, (1 : ℚ) := Finset.sum_le_sum fun i _ => ih i
        _ = m := by simp
  | fail e => exact zero_le_one
  | stuck => exact zero_le_one

/-- **C134** No password is more likely than one in the number of passwords: who tries `k` passwords finds it with probability at most `k` in that
number, whatever the guesses. -/
theorem C134_guessing (g : Generator) (hg : g.AllAscii) (hs : g.Separate) (hd : g.Distinct) (fuel : Nat) (hf : 0 < fuel)
    (n d s : Nat) (noUpper allowRepeat : Bool) (guesses : Finset Str) :
    ∑ pw ∈ guesses, (g.generate fuel n d s noUpper allowRepeat).prob pw ≤
      guesses.card / passwords allowRepeat (g.letters noUpper).length g.digits.length g.symbols.length n d s := by
  have each : ∀ pw, (g.generate fuel n d s noUpper allowRepeat).prob pw ≤
      1 / passwords allowRepeat (g.letters noUpper).length g.digits.length g.symbols.length n d s := by
    intro pw
    by_cases h : Conforms g n d s noUpper allowRepeat pw
    · rw [C134_probability g hg hs hd fuel hf n d s noUpper allowRepeat pw h]
      exact div_le_div_of_nonneg_right (expect_one_le _) (by positivity)
    · obtain ⟨v, hv, -, h0⟩ := C06_uniform g hg hs hd fuel hf n d s (by omega) (by omega) noUpper allowRepeat
      rw [h0 pw h]
      positivity
  calc _ ≤ ∑ _pw ∈ guesses, (1 / passwords allowRepeat (g.letters noUpper).length g.digits.length g.symbols.length n d s : ℚ) :=
        Finset.sum_le_sum fun pw _ => each pw
    _ = _ := by rw [Finset.sum_const, nsmul_eq_mul, mul_one_div]

open FormGen in
/-- **C134** The same for the function `Generate` of the package: 26 or 52 letters, 10 digits and 30 symbols; if characters may repeat each password has
exactly the probability one in their number. -/
theorem C134_default (fuel : Nat) (hf : 0 < fuel) (n d s : Nat) (noUpper : Bool) (pw : Str)
    (h : Conforms defaultGenerator n d s noUpper true pw) :
    (generate fuel n d s noUpper true).prob pw =
      1 / ((n.choose d * (n - d).choose s * ((if noUpper then 26 else 52) ^ (n - d - s) * 10 ^ d * 30 ^ s) : Nat) : ℚ) := by
  have hds : d + s ≤ n := by
    have h1 := h.letters
    omega
  have := C134_probability defaultGenerator default_ascii default_separate default_distinct fuel hf n d s noUpper true pw h
  have e : (defaultGenerator.generate fuel n d s noUpper true) = generate fuel n d s noUpper true := rfl
  rw [e, sure_done _ (sure_generate fuel hf n d s noUpper (by omega))] at this
  rw [this]
  unfold passwords ways
  obtain ⟨e1, e2, e3, e4⟩ := default_fields
  have el : (defaultGenerator.letters noUpper).length = if noUpper then 26 else 52 := by
    unfold Generator.letters
    rw [e1, e2]
    cases noUpper <;> decide
  have ed : defaultGenerator.digits.length = 10 := by rw [e3]; decide
  have es : defaultGenerator.symbols.length = 30 := by rw [e4]; decide
  rw [el, ed, es]
  rfl

/-! ### Concrete cases -/

/-- Passwords of 16 characters with 4 digits and 2 symbols. -/
example : 2 ^ 92 < passwords true 52 10 30 16 4 2 ∧ passwords true 52 10 30 16 4 2 < 2 ^ 100 := by decide +kernel

/-- A small case by hand: with letters `ab`, digit `1` and symbol `!`, no repeats: one letter, one digit, one symbol in any order. -/
example : passwords false 2 1 1 3 1 1 = 12 := by decide

example : Conforms ⟨lit "ab", [], lit "1", lit "!"⟩ 3 1 1 true false (lit "!b1") := by
  refine ⟨?_, ?_, ?_, ?_, ?_⟩ <;> decide

end Verif.Password
