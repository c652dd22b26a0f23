import Verif.Glob.HeapSafe
/-
The matchers with buffers give the results of `Verif.Glob.Match`.
-/
namespace Verif.Glob.Heap
open Segments

/-- All that was owned is still owned and unchanged. -/
def Ext (O O' : Owned) : Prop := ∀ n a, O n = some a → O' n = some a

theorem Ext.refl (O : Owned) : Ext O O := fun _ _ h => h
theorem Ext.trans {A B C : Owned} (h : Ext A B) (h' : Ext B C) : Ext A C := fun n a e => h' n a (h n a e)
theorem Ext.upd {O O' : Owned} (h : Ext O O') {n : Nat} (hn : O n = none) (a : List Nat) : Ext O (upd O' n a) := by
  intro m b e
  unfold Heap.upd
  split
  · rename_i hm; subst hm; rw [hn] at e; cases e
  · exact h m b e
theorem Ext.del {O O' : Owned} (h : Ext O O') {n : Nat} (hn : O n = none) : Ext O (del O' n) := by
  intro m b e
  unfold Heap.del
  split
  · rename_i hm; subst hm; rw [hn] at e; cases e
  · exact h m b e
theorem Ext.none {O O' : Owned} (h : Ext O O') {n : Nat} (hn : O' n = none) : O n = none := by
  cases e : O n with
  | none => rfl
  | some a => rw [h n a e] at hn; cases hn

/-- The slice has these elements, in an array that the goroutine owns and did not own before. -/
def Buf (O O' : Owned) (s : Slice) (xs : List Nat) : Prop := ∃ n arr, s.loc = .dyn n ∧ O n = none ∧ O' n = some arr ∧ s.len = xs.length ∧ arr.take s.len = xs

/-- The slice has these elements: a shared one, or as above. -/
def Holds (O O' : Owned) (s : Slice) (xs : List Nat) : Prop := (∃ t, s = ⟨.static t, 1⟩ ∧ xs = [t.value]) ∨ Buf O O' s xs

theorem Buf.ext {O A B : Owned} {s : Slice} {xs : List Nat} (h : Buf O A s xs) (e : Ext A B) : Buf O B s xs := by
  obtain ⟨n, arr, h1, h2, h3, h4, h5⟩ := h
  exact ⟨n, arr, h1, h2, e _ _ h3, h4, h5⟩
theorem Buf.base {O P A : Owned} {s : Slice} {xs : List Nat} (h : Buf P A s xs) (e : Ext O P) : Buf O A s xs := by
  obtain ⟨n, arr, h1, h2, h3, h4, h5⟩ := h
  exact ⟨n, arr, h1, e.none h2, h3, h4, h5⟩
theorem Holds.ext {O A B : Owned} {s : Slice} {xs : List Nat} (h : Holds O A s xs) (e : Ext A B) : Holds O B s xs := h.imp id fun h => h.ext e
theorem Holds.base {O P A : Owned} {s : Slice} {xs : List Nat} (h : Holds P A s xs) (e : Ext O P) : Holds O A s xs := h.imp id fun h => h.base e
theorem Buf.empty {O A : Owned} {s : Slice} {xs : List Nat} (h : Buf O A s xs) : Buf O A s.empty [] := by
  obtain ⟨n, arr, h1, h2, h3, h4, h5⟩ := h
  exact ⟨n, arr, h1, h2, h3, rfl, rfl⟩
theorem Buf.len {O A : Owned} {s : Slice} {xs : List Nat} (h : Buf O A s xs) : s.len = xs.length := h.choose_spec.choose_spec.2.2.2.1

/-! ### Steps -/

theorem safe_acquire {B : Owned} (c : Nat) : Safe (acquire c) B fun r O' => ∃ s, r = some s ∧ Ext B O' ∧ Buf B O' s [] := by
  intro n arr hn
  exact ⟨_, rfl, (Ext.refl B).upd hn arr, n, arr, rfl, hn, by simp [upd], rfl, rfl⟩

theorem safe_lit {B : Owned} (x : Nat) : Safe (lit x) B fun r O' => ∃ s, r = some s ∧ Ext B O' ∧ Buf B O' s [x] := by
  intro n hn
  exact ⟨_, rfl, (Ext.refl B).upd hn _, n, [x], rfl, hn, by simp [upd], rfl, rfl⟩

/-- `append` to an own buffer: all that was owned at `O`, when the buffer was not, is untouched. -/
theorem safe_push {O A : Owned} {s : Slice} {xs : List Nat} (hA : Ext O A) (h : Buf O A s xs) (x : Nat) :
    Safe (push s x) A fun r O' => ∃ s', r = some s' ∧ Ext O O' ∧ Buf O O' s' (xs ++ [x]) := by
  obtain ⟨n, arr, h1, h2, h3, h4, h5⟩ := h
  obtain ⟨l, len⟩ := s
  simp only at h1 h4 h5
  subst h1
  have hle : len ≤ arr.length := by
    have := congrArg List.length h5
    rw [List.length_take] at this; omega
  refine ⟨arr, h3, hle, fun hlt => ?_, fun hge n' room hn => ?_⟩
  · refine ⟨_, rfl, hA.upd h2 _, n, _, rfl, h2, by simp [upd]; rfl, by simp [h4], ?_⟩
    simp only
    rw [List.take_add_one, List.take_set_of_le (Nat.le_refl _), h5]
    simp [hlt]
  · refine ⟨_, rfl, hA.upd (hA.none hn) _, n', _, rfl, hA.none hn, by simp [upd]; rfl, by simp [h4], ?_⟩
    simp only
    have e : (arr.take len).length = len := List.length_take_of_le hle
    rw [List.take_append, e, h5, List.take_of_length_le (by omega)]
    simp

theorem safe_pushAll {O : Owned} : ∀ (ys : List Nat) {A : Owned} {s : Slice} {xs : List Nat}, Ext O A → Buf O A s xs →
    Safe (pushAll s ys) A fun r O' => ∃ s', r = some s' ∧ Ext O O' ∧ Buf O O' s' (xs ++ ys)
  | [], A, s, xs, hA, h => ⟨s, rfl, hA, by simpa using h⟩
  | y :: ys, A, s, xs, hA, h => by
    refine Safe.bind ((safe_push hA h y).mono ?_)
    rintro r O' ⟨s', rfl, h1, h2⟩
    refine (safe_pushAll ys h1 h2).mono ?_
    rintro r O'' ⟨s'', rfl, h3, h4⟩
    exact ⟨s'', rfl, h3, by simpa using h4⟩

theorem safe_get {O A : Owned} {s : Slice} {xs : List Nat} (h : Holds O A s xs) {i x : Nat} (hx : xs[i]? = some x) :
    Safe (get s i) A fun r O' => r = some x ∧ O' = A := by
  rcases h with ⟨t, rfl, rfl⟩ | ⟨n, arr, h1, h2, h3, h4, h5⟩
  · have : i = 0 := by
      by_contra hc
      rw [List.getElem?_eq_none (by simp; omega)] at hx; cases hx
    subst this
    simp only [List.getElem?_cons_zero, Option.some.injEq] at hx
    exact ⟨rfl, rfl, by rw [hx], rfl⟩
  · obtain ⟨l, len⟩ := s
    simp only at h1 h4 h5
    subst h1
    have hi : i < len := by
      by_contra hc
      rw [List.getElem?_eq_none (by omega)] at hx; cases hx
    refine ⟨arr, x, h3, hi, ?_, rfl, rfl⟩
    rw [← h5, List.getElem?_take_of_lt hi] at hx
    exact hx

theorem safe_readFrom {O A : Owned} {s : Slice} {xs : List Nat} (h : Holds O A s xs) : ∀ (n i : Nat), i + n = xs.length →
    Safe (readFrom s i n) A fun r O' => r = some (xs.drop i) ∧ O' = A
  | 0, i, e => ⟨by rw [List.drop_eq_nil_of_le (by omega)], rfl⟩
  | n + 1, i, e => by
    have hi : i < xs.length := by omega
    refine Safe.bind ((safe_get h (List.getElem?_eq_getElem hi)).mono ?_)
    rintro r O' ⟨rfl, rfl⟩
    refine Safe.bind ((safe_readFrom h n (i + 1) (by omega)).mono ?_)
    rintro r O' ⟨rfl, rfl⟩
    exact ⟨by rw [List.getElem_cons_drop], rfl⟩

theorem Holds.len {O A : Owned} {s : Slice} {xs : List Nat} (h : Holds O A s xs) : s.len = xs.length := by
  rcases h with ⟨t, rfl, rfl⟩ | h
  · rfl
  · exact h.len

theorem safe_readAll {O A : Owned} {s : Slice} {xs : List Nat} (h : Holds O A s xs) : Safe (readAll s) A fun r O' => r = some xs ∧ O' = A := by
  have := safe_readFrom h s.len 0 (by rw [h.len]; omega)
  rw [List.drop_zero] at this
  exact this

theorem safe_release {O A : Owned} {s : Slice} {xs : List Nat} (hA : Ext O A) (h : Holds O A s xs) : Safe (release s) A fun r O' => r = some () ∧ Ext O O' := by
  rcases h with ⟨t, rfl, rfl⟩ | ⟨n, arr, h1, h2, h3, h4, h5⟩
  · exact ⟨rfl, hA⟩
  · obtain ⟨l, len⟩ := s
    simp only at h1
    subst h1
    exact ⟨by rw [h3]; nofun, rfl, hA.del h2⟩

theorem safe_set {O A : Owned} {s : Slice} {xs : List Nat} (hA : Ext O A) (h : Buf O A s xs) {i : Nat} (hi : i < xs.length) (x : Nat) :
    Safe (set s i x) A fun r O' => r = some () ∧ Ext O O' ∧ Buf O O' s (xs.set i x) := by
  obtain ⟨n, arr, h1, h2, h3, h4, h5⟩ := h
  obtain ⟨l, len⟩ := s
  simp only at h1 h4 h5
  subst h1
  refine ⟨arr, h3, by simp only; omega, rfl, hA.upd h2 _, n, _, rfl, h2, by simp [upd]; rfl, by simp [h4], ?_⟩
  simp only
  rw [List.take_set, h5]

/-! ### Two buffers -/

/-- Two buffers that the goroutine got after `O`, in different arrays. -/
structure Two (O A : Owned) (s : Slice) (xs : List Nat) (t : Slice) (ys : List Nat) : Prop where
  ext : Ext O A
  fst : Buf O A s xs
  snd : Buf O A t ys
  apart : s.loc ≠ t.loc

theorem Two.swap {O A : Owned} {s t : Slice} {xs ys : List Nat} (h : Two O A s xs t ys) : Two O A t ys s xs := ⟨h.ext, h.snd, h.fst, fun e => h.apart e.symm⟩
theorem Two.more {O A B : Owned} {s t : Slice} {xs ys : List Nat} (h : Two O A s xs t ys) (e : Ext A B) : Two O B s xs t ys :=
  ⟨h.ext.trans e, h.fst.ext e, h.snd.ext e, h.apart⟩
theorem Two.empty {O A : Owned} {s t : Slice} {xs ys : List Nat} (h : Two O A s xs t ys) : Two O A s.empty [] t ys := ⟨h.ext, h.fst.empty, h.snd, h.apart⟩

/-- All but the first buffer. -/
theorem Two.rest {O A : Owned} {s t : Slice} {xs ys : List Nat} (h : Two O A s xs t ys) : ∃ P, Ext O P ∧ Ext P A ∧ Buf P A s xs ∧ Buf O P t ys := by
  obtain ⟨n, a, h1, h2, h3, h4, h5⟩ := h.fst
  obtain ⟨m, b, g1, g2, g3, g4, g5⟩ := h.snd
  have hne : m ≠ n := by
    rintro rfl
    exact h.apart (by rw [h1, g1])
  refine ⟨del A n, h.ext.del h2, ?_, ⟨n, a, h1, by simp [del], h3, h4, h5⟩, ⟨m, b, g1, g2, by simp [del, hne, g3], g4, g5⟩⟩
  intro k c hk
  unfold del at hk
  split at hk
  · cases hk
  · exact hk

theorem Two.pushAll {O A : Owned} {s t : Slice} {xs ys : List Nat} (h : Two O A s xs t ys) (zs : List Nat) :
    Safe (pushAll s zs) A fun r O' => ∃ s', r = some s' ∧ Two O O' s' (xs ++ zs) t ys := by
  obtain ⟨P, h1, h2, h3, h4⟩ := h.rest
  refine (safe_pushAll zs h2 h3).mono ?_
  rintro r O' ⟨s', rfl, e, hb⟩
  refine ⟨s', rfl, h1.trans e, hb.base h1, h4.ext e, ?_⟩
  obtain ⟨n, a, g1, g2, _⟩ := hb
  obtain ⟨m, b, k1, k2, k3, _⟩ := h4
  rw [g1, k1]
  rintro ⟨⟩
  rw [g2] at k3
  cases k3

theorem Two.pushAllSnd {O A : Owned} {s t : Slice} {xs ys : List Nat} (h : Two O A s xs t ys) (zs : List Nat) :
    Safe (Heap.pushAll t zs) A fun r O' => ∃ t', r = some t' ∧ Two O O' s xs t' (ys ++ zs) :=
  (h.swap.pushAll zs).mono fun _ _ ⟨t', e, h'⟩ => ⟨t', e, h'.swap⟩

theorem Two.release {O A : Owned} {s t : Slice} {xs ys : List Nat} (h : Two O A s xs t ys) :
    Safe (release s) A fun r O' => r = some () ∧ Ext O O' ∧ Buf O O' t ys := by
  obtain ⟨P, h1, h2, h3, h4⟩ := h.rest
  refine (safe_release h2 (Or.inr h3)).mono ?_
  rintro r O' ⟨rfl, e⟩
  exact ⟨rfl, h1.trans e, h4.ext e⟩

/-! ### `Index` of the matchers without parts -/

/-- The result of `Index`, with the slice in memory. -/
inductive IdxPost (O : Owned) : Idx → Option (Option (Nat × Slice)) → Owned → Prop where
  | panic (O' : Owned) : IdxPost O none none O'
  | no (O' : Owned) (h : Ext O O') : IdxPost O (some none) (some none) O'
  | yes (O' : Owned) (i : Nat) (s : Slice) (xs : List Nat) (h : Ext O O') (hs : Holds O O' s xs) : IdxPost O (some (some (i, xs))) (some (some (i, s))) O'

/-- The program gives the result `v`, and leaves alone all that the goroutine owned before. -/
def IndexOk (p : IdxH) (v : Idx) : Prop := ∀ O, Safe p O (IdxPost O v)

/-- The result of `Match`. -/
inductive MatchPost (O : Owned) : Option Bool → Option Bool → Owned → Prop where
  | panic (O' : Owned) : MatchPost O none none O'
  | ret (O' : Owned) (b : Bool) (h : Ext O O') : MatchPost O (some b) (some b) O'

/-- The same for `Match`. -/
def MatchOk (p : Prog Bool) (v : Option Bool) : Prop := ∀ O, Safe p O (MatchPost O v)

theorem indexOk_no : IndexOk (pure none) (some none) := fun O => .no O (Ext.refl O)

theorem indexOk_static (i : Nat) (t : Static) : IndexOk (pure (some (i, ⟨.static t, 1⟩))) (some (some (i, [t.value]))) :=
  fun O => .yes O i _ _ (Ext.refl O) (Or.inl ⟨t, rfl, rfl⟩)

theorem indexOk_lit (i x : Nat) : IndexOk (do let segments ← lit x; pure (some (i, segments))) (some (some (i, [x]))) := by
  intro O
  refine Safe.bind ((safe_lit x).mono ?_)
  rintro r O' ⟨s, rfl, h1, h2⟩
  exact .yes O' i s _ h1 (Or.inr h2)

/-- The steps of a fresh buffer that is filled. -/
theorem safe_fresh (O : Owned) (c : Nat) : Safe (acquire c) O fun r O' => ∃ s, r = some s ∧ Ext O O' ∧ Buf O O' s [] := safe_acquire c

theorem fill {O A : Owned} {s : Slice} {xs : List Nat} (hA : Ext O A) (h : Buf O A s xs) (ys : List Nat) (x i : Nat) :
    Safe (do let s ← pushAll s ys; let s ← push s x; pure (some (i, s))) A (IdxPost O (some (some (i, xs ++ ys ++ [x])))) := by
  refine Safe.bind ((safe_pushAll ys hA h).mono ?_)
  rintro r O1 ⟨s1, rfl, h1, h2⟩
  refine Safe.bind ((safe_push h1 h2 x).mono ?_)
  rintro r O2 ⟨s2, rfl, h3, h4⟩
  exact .yes O2 i s2 _ h3 (Or.inr h4)

theorem fill' {O A : Owned} {s : Slice} {xs : List Nat} (hA : Ext O A) (h : Buf O A s xs) (x : Nat) (ys : List Nat) (i : Nat) :
    Safe (do let s ← push s x; let s ← pushAll s ys; pure (some (i, s))) A (IdxPost O (some (some (i, xs ++ [x] ++ ys)))) := by
  refine Safe.bind ((safe_push hA h x).mono ?_)
  rintro r O1 ⟨s1, rfl, h1, h2⟩
  refine Safe.bind ((safe_pushAll ys h1 h2).mono ?_)
  rintro r O2 ⟨s2, rfl, h3, h4⟩
  exact .yes O2 i s2 _ h3 (Or.inr h4)

theorem ends_ok (c : Nat) (ys : List Nat) (x i : Nat) :
    IndexOk (do let s ← acquire c; let s ← pushAll s ys; let s ← push s x; pure (some (i, s))) (some (some (i, ys ++ [x]))) := by
  intro O
  refine Safe.bind ((safe_fresh O c).mono ?_)
  rintro r O1 ⟨s, rfl, h1, h2⟩
  exact fill h1 h2 ys x i

theorem starts_ok (c : Nat) (x : Nat) (ys : List Nat) (i : Nat) :
    IndexOk (do let s ← acquire c; let s ← push s x; let s ← pushAll s ys; pure (some (i, s))) (some (some (i, x :: ys))) := by
  intro O
  refine Safe.bind ((safe_fresh O c).mono ?_)
  rintro r O1 ⟨s, rfl, h1, h2⟩
  exact fill' h1 h2 x ys i

theorem anyIndex_ok (seps : List Nat) (s : Str) : IndexOk (anyIndexH seps s) (anyIndex seps s) := by
  unfold anyIndexH anyIndex
  cases e : indexAnyRunes s seps with
  | none => exact ends_ok _ _ _ _
  | some i =>
    cases i with
    | zero => exact indexOk_static 0 (.rune 0)
    | succ i => exact ends_ok _ _ _ _

theorem superIndex_ok (s : Str) : IndexOk (superIndexH s) (superIndex s) := ends_ok _ _ _ _

theorem firstRune_ok (p : Nat → Bool) (s : Str) : IndexOk (firstRuneH p s) (firstRune p s) := by
  unfold firstRuneH firstRune
  cases (rangeStr s).find? fun x => p x.2 with
  | none => exact indexOk_no
  | some x => exact indexOk_static _ (.rune _)

theorem minIndex_ok (limit : Nat) (s : Str) : IndexOk (minIndexH limit s) (minIndex limit s) := by
  unfold minIndexH minIndex
  split
  · exact indexOk_no
  · intro O
    refine Safe.bind ((safe_fresh O _).mono ?_)
    rintro r O1 ⟨s1, rfl, h1, h2⟩
    refine Safe.bind ((safe_pushAll _ h1 h2).mono ?_)
    rintro r O2 ⟨s2, rfl, h3, h4⟩
    rw [List.nil_append] at h4
    have hl := h4.len
    simp only [hl]
    generalize ((((rangeStr s).zipIdx 1).filter fun x => x.2 ≥ limit).map fun x => x.1.1 + runeLen x.1.2) = xs at *
    cases xs with
    | nil => exact .no O2 h3
    | cons x xs => exact .yes O2 0 s2 _ h3 (Or.inr h4)

theorem maxIndex_ok (limit : Nat) (s : Str) : IndexOk (maxIndexH limit s) (maxIndex limit s) := starts_ok _ _ _ _

theorem containsIndex_ok (needle : Str) (not : Bool) (s : Str) : IndexOk (containsIndexH needle not s) (containsIndex needle not s) := by
  unfold containsIndexH containsIndex
  have key : ∀ t : Str, IndexOk (containsIndexH.containsTail 0 t) (some (some (0, (rangeStr t).map Prod.fst ++ [t.length]))) := by
    intro t
    have := ends_ok (t.length + 1) ((rangeStr t).map fun x => 0 + x.1) (0 + t.length) 0
    simp only [Nat.zero_add] at this
    unfold containsIndexH.containsTail
    simp only [Nat.zero_add]
    exact this
  cases strIndex needle s with
  | none =>
    cases not with
    | false => exact indexOk_no
    | true => exact key s
  | some idx =>
    cases not with
    | false =>
      simp only
      split
      · exact indexOk_lit 0 _
      · exact ends_ok _ _ _ _
    | true => exact key (s.take idx)

theorem prefixIndex_ok (p s : Str) : IndexOk (prefixIndexH p s) (prefixIndex p s) := by
  unfold prefixIndexH prefixIndex
  cases strIndex p s with
  | none => exact indexOk_no
  | some idx => exact starts_ok _ _ _ _

theorem prefixAnyIndex_ok (p : Str) (seps : List Nat) (s : Str) : IndexOk (prefixAnyIndexH p seps s) (prefixAnyIndex p seps s) := by
  unfold prefixAnyIndexH prefixAnyIndex
  cases strIndex p s with
  | none => exact indexOk_no
  | some idx => exact starts_ok _ _ _ _

theorem suffixIndex_ok (q s : Str) : IndexOk (suffixIndexH q s) (suffixIndex q s) := by
  unfold suffixIndexH suffixIndex
  cases strIndex q s with
  | none => exact indexOk_no
  | some idx => exact indexOk_lit 0 _

theorem suffixAnyIndex_ok (q : Str) (seps : List Nat) (s : Str) : IndexOk (suffixAnyIndexH q seps s) (suffixAnyIndex q seps s) := by
  unfold suffixAnyIndexH suffixAnyIndex
  cases strIndex q s with
  | none => exact indexOk_no
  | some idx =>
    simp only
    cases lastIndexAnyRunes (s.take idx) seps with
    | none => exact fun O => .panic O
    | some r => exact indexOk_lit _ _

/-! ### reverseSegments -/

theorem getD_lt {xs : List Nat} {i : Nat} (h : i < xs.length) : xs.getD i 0 = xs[i] := by simp [h]

/-- What the loop of `reverseSegments` does to a list. -/
def swapLoop (xs : List Nat) : Nat → Nat → List Nat
  | _, 0 => xs
  | i, n + 1 => swapLoop ((xs.set i (xs.getD (xs.length - i - 1) 0)).set (xs.length - i - 1) (xs.getD i 0)) (i + 1) n

theorem safe_reverseLoop {O : Owned} (s : Slice) : ∀ (n i : Nat) {A : Owned} {xs : List Nat}, Ext O A → Buf O A s xs → 2 * (i + n) ≤ xs.length →
    Safe (reverseLoop s i n) A fun r O' => r = some () ∧ Ext O O' ∧ Buf O O' s (swapLoop xs i n)
  | 0, i, A, xs, hA, h, _ => ⟨rfl, hA, h⟩
  | n + 1, i, A, xs, hA, h, hi => by
    have hl := h.len
    have h1 : xs.length - i - 1 < xs.length := by omega
    have h2 : i < xs.length := by omega
    refine Safe.bind ((safe_get (x := xs.getD (xs.length - i - 1) 0) (Or.inr h) (by rw [hl, List.getElem?_eq_getElem h1, getD_lt h1])).mono ?_)
    rintro r O1 ⟨rfl, rfl⟩
    refine Safe.bind ((safe_get (x := xs.getD i 0) (Or.inr h) (by rw [List.getElem?_eq_getElem h2, getD_lt h2])).mono ?_)
    rintro r O1 ⟨rfl, rfl⟩
    refine Safe.bind ((safe_set hA h h2 _).mono ?_)
    rintro r O2 ⟨rfl, h3, h4⟩
    rw [hl]
    refine Safe.bind ((safe_set h3 h4 (i := xs.length - i - 1) (by rw [List.length_set]; exact h1) _).mono ?_)
    rintro r O3 ⟨rfl, h5, h6⟩
    exact safe_reverseLoop s n (i + 1) h5 h6 (by simp only [List.length_set]; omega)

theorem swapLoop_length (n : Nat) : ∀ (xs : List Nat) (i : Nat), (swapLoop xs i n).length = xs.length := by
  induction n with
  | zero => intro xs i; rfl
  | succ n ih => intro xs i; rw [swapLoop, ih]; simp

theorem swapLoop_get (n : Nat) : ∀ (xs : List Nat) (i : Nat), 2 * (i + n) ≤ xs.length → ∀ j, j < xs.length →
    (swapLoop xs i n).getD j 0 = if (i ≤ j ∧ j < i + n) ∨ (xs.length - (i + n) ≤ j ∧ j < xs.length - i) then xs.getD (xs.length - 1 - j) 0 else xs.getD j 0 := by
  induction n with
  | zero => intro xs i h j hj; rw [swapLoop, if_neg (by omega)]
  | succ n ih =>
    intro xs i h j hj
    rw [swapLoop, ih _ _ (by simp only [List.length_set]; omega) j (by simpa using hj)]
    simp only [List.length_set]
    have g : ∀ k, k < xs.length → ((xs.set i (xs.getD (xs.length - i - 1) 0)).set (xs.length - i - 1) (xs.getD i 0)).getD k 0 =
        if k = xs.length - i - 1 then xs.getD i 0 else if k = i then xs.getD (xs.length - i - 1) 0 else xs.getD k 0 := by
      intro k hk
      rw [List.getD_eq_getElem?_getD]
      by_cases h1 : k = xs.length - i - 1
      · rw [if_pos h1, h1, List.getElem?_set_self (by simp; omega)]; rfl
      · rw [if_neg h1, List.getElem?_set_ne (fun e => h1 e.symm)]
        by_cases h2 : k = i
        · rw [if_pos h2, h2, List.getElem?_set_self (by omega)]; rfl
        · rw [if_neg h2, List.getElem?_set_ne (fun e => h2 e.symm), List.getD_eq_getElem?_getD]
    rw [g j hj, g _ (show xs.length - 1 - j < xs.length by omega)]
    by_cases c1 : j = i
    · subst c1
      rw [if_neg (by omega), if_neg (by omega), if_pos rfl, if_pos (by omega)]
      congr 1; omega
    · by_cases c2 : j = xs.length - i - 1
      · rw [if_neg (by omega), if_pos c2, if_pos (by omega)]
        congr 1; omega
      · by_cases c3 : (i + 1 ≤ j ∧ j < i + 1 + n) ∨ (xs.length - (i + 1 + n) ≤ j ∧ j < xs.length - (i + 1))
        · rw [if_pos c3, if_neg (by omega), if_neg (by omega), if_pos (by omega)]
        · rw [if_neg c3, if_neg c2, if_neg c1, if_neg (by omega)]

theorem swapLoop_reverse (xs : List Nat) : swapLoop xs 0 (xs.length / 2) = xs.reverse := by
  apply List.ext_getElem (by rw [swapLoop_length, List.length_reverse])
  intro j h1 h2
  have hj : j < xs.length := by rwa [swapLoop_length] at h1
  have := swapLoop_get (xs.length / 2) xs 0 (by omega) j hj
  rw [getD_lt h1] at this
  rw [this, List.getElem_reverse]
  split
  · rw [getD_lt (by omega)]
  · rw [getD_lt hj]
    congr 1; omega

theorem safe_reverseSegments {O A : Owned} {s : Slice} {xs : List Nat} (hA : Ext O A) (h : Buf O A s xs) :
    Safe (reverseSegments s) A fun r O' => r = some () ∧ Ext O O' ∧ Buf O O' s xs.reverse := by
  have := safe_reverseLoop s (xs.length / 2) 0 hA h (by omega)
  rw [swapLoop_reverse] at this
  unfold reverseSegments
  rw [h.len]
  exact this

theorem prefixSuffixIndex_ok (p q s : Str) : IndexOk (prefixSuffixIndexH p q s) (prefixSuffixIndex p q s) := by
  unfold prefixSuffixIndexH prefixSuffixIndex
  cases strIndex p s with
  | none => exact indexOk_no
  | some idx =>
    simp only
    split
    · exact indexOk_lit _ _
    · split
      · exact indexOk_no
      · intro O
        refine Safe.bind ((safe_fresh O _).mono ?_)
        rintro r O1 ⟨s1, rfl, h1, h2⟩
        refine Safe.bind ((safe_pushAll _ h1 h2).mono ?_)
        rintro r O2 ⟨s2, rfl, h3, h4⟩
        rw [List.nil_append] at h4
        have hl := h4.len
        simp only [hl]
        generalize suffixEnds q (s.length + 1) (s.drop idx) = xs at *
        cases xs with
        | nil =>
          refine Safe.bind ((safe_release h3 (Or.inr h4)).mono ?_)
          rintro r O3 ⟨rfl, h5⟩
          exact .no O3 h5
        | cons x xs =>
          refine Safe.bind ((safe_reverseSegments h3 h4).mono ?_)
          rintro r O3 ⟨rfl, h5, h6⟩
          exact .yes O3 _ s2 _ h5 (Or.inr h6)

/-! ### `AnyOf`, `EveryOf`, `Row`, `BTree` -/

/-- Functions that agree, one by one. -/
inductive MatchFnsOk : List (Str → Prog Bool) → List (Str → Option Bool) → Prop where
  | nil : MatchFnsOk [] []
  | cons {p f ps fs} (h : ∀ s, MatchOk (p s) (f s)) (t : MatchFnsOk ps fs) : MatchFnsOk (p :: ps) (f :: fs)

inductive IndexFnsOk : List (Str → IdxH) → List (Str → Idx) → Prop where
  | nil : IndexFnsOk [] []
  | cons {p f ps fs} (h : ∀ s, IndexOk (p s) (f s)) (t : IndexFnsOk ps fs) : IndexFnsOk (p :: ps) (f :: fs)

theorem MatchPost.ext {O A B : Owned} {v r : Option Bool} (h : MatchPost A v r B) (e : Ext O A) : MatchPost O v r B := by
  cases h with
  | panic => exact .panic B
  | ret _ b h => exact .ret B b (e.trans h)

theorem IdxPost.ext {O A B : Owned} {v : Idx} {r : Option (Option (Nat × Slice))} (h : IdxPost A v r B) (e : Ext O A) : IdxPost O v r B := by
  cases h with
  | panic => exact .panic B
  | no _ h => exact .no B (e.trans h)
  | yes _ i s xs h hs => exact .yes B i s xs (e.trans h) (hs.base e)

theorem matchOk_pure (b : Bool) : MatchOk (pure b) (some b) := fun O => .ret O b (Ext.refl O)

/-- After a `Match`. -/
theorem MatchOk.bind {p : Prog Bool} {v : Option Bool} (h : MatchOk p v) {β : Type} {f : Bool → Prog β} {A : Owned} {Q : Option β → Owned → Prop}
    (hn : v = none → ∀ O', Q none O') (hs : ∀ b, v = some b → ∀ O', Ext A O' → Safe (f b) O' Q) : Safe (p >>= f) A Q := by
  refine Safe.bind ((h A).mono ?_)
  rintro r O' hr
  cases hr with
  | panic => exact hn rfl O'
  | ret _ b e => exact hs b rfl O' e

/-- After an `Index`. -/
theorem IndexOk.bind {p : IdxH} {v : Idx} (h : IndexOk p v) {β : Type} {f : Option (Nat × Slice) → Prog β} {A : Owned} {Q : Option β → Owned → Prop}
    (hn : v = none → ∀ O', Q none O') (h0 : v = some none → ∀ O', Ext A O' → Safe (f none) O' Q)
    (hs : ∀ i xs, v = some (some (i, xs)) → ∀ O' s, Ext A O' → Holds A O' s xs → Safe (f (some (i, s))) O' Q) : Safe (p >>= f) A Q := by
  refine Safe.bind ((h A).mono ?_)
  rintro r O' hr
  cases hr with
  | panic => exact hn rfl O'
  | no _ e => exact h0 rfl O' e
  | yes _ i s xs e hs' => exact hs i xs rfl O' s e hs'

theorem anyOfMatch_ok (s : Str) {ps : List (Str → Prog Bool)} {fs : List (Str → Option Bool)} (h : MatchFnsOk ps fs) : MatchOk (anyOfMatchH s ps) (anyOfMatch s fs) := by
  induction h with
  | nil => exact matchOk_pure false
  | @cons p f ps fs h t ih =>
    intro O
    unfold anyOfMatchH anyOfMatch
    refine (h s).bind (fun e O' => by rw [e]; exact .panic O') fun b e O' he => ?_
    rw [e]
    cases b with
    | true => exact .ret O' true he
    | false => exact (ih O').mono fun r B hB => hB.ext he

theorem everyOfMatch_ok (s : Str) {ps : List (Str → Prog Bool)} {fs : List (Str → Option Bool)} (h : MatchFnsOk ps fs) :
    MatchOk (everyOfMatchH s ps) (everyOfMatch s fs) := by
  induction h with
  | nil => exact matchOk_pure true
  | @cons p f ps fs h t ih =>
    intro O
    unfold everyOfMatchH everyOfMatch
    refine (h s).bind (fun e O' => by rw [e]; exact .panic O') fun b e O' he => ?_
    rw [e]
    cases b with
    | false => exact .ret O' false he
    | true => exact (ih O').mono fun r B hB => hB.ext he

/-- `segments = append(segments[:0], seg...)`. -/
theorem safe_copy {O A : Owned} {s t : Slice} {xs ys : List Nat} (hA : Ext O A) (hs : Buf O A s xs) (ht : Holds O A t ys) {β : Type} {f : Slice → Prog β}
    {Q : Option β → Owned → Prop} (hf : ∀ O' s', Ext O O' → Buf O O' s' ys → Safe (f s') O' Q) :
    Safe (do let zs ← readAll t; let s ← pushAll s.empty zs; f s) A Q := by
  refine Safe.bind ((safe_readAll ht).mono ?_)
  rintro r O1 ⟨rfl, rfl⟩
  refine Safe.bind ((safe_pushAll ys hA hs.empty).mono ?_)
  rintro r O2 ⟨s2, rfl, h1, h2⟩
  exact hf O2 s2 h1 h2

theorem safe_appendMerge {O A : Owned} {s t : Slice} {xs ys : List Nat} (hA : Ext O A) (hs : Buf O A s xs) (ht : Holds O A t ys) :
    Safe (appendMergeH s t) A fun r O' => ∃ s', r = some s' ∧ Ext O O' ∧ Buf O O' s' (appendMerge xs ys) := by
  unfold appendMergeH
  refine Safe.bind ((safe_readAll (Or.inr hs)).mono ?_)
  rintro r O1 ⟨rfl, rfl⟩
  refine Safe.bind ((safe_readAll ht).mono ?_)
  rintro r O1 ⟨rfl, rfl⟩
  exact safe_pushAll _ hA hs.empty

theorem anyOfLoop_ok (s : Str) {ps : List (Str → IdxH)} {fs : List (Str → Idx)} (h : IndexFnsOk ps fs) : ∀ (O A : Owned) (sl : Slice) (xs : List Nat),
    Ext O A → Buf O A sl xs → Safe (anyOfLoopH s none sl ps) A (IdxPost O (anyOfIndex s none fs)) ∧
      ∀ i, Safe (anyOfLoopH s (some i) sl ps) A (IdxPost O (anyOfIndex s (some (i, xs)) fs)) := by
  induction h with
  | nil =>
    intro O A sl xs hA hb
    refine ⟨?_, fun i => .yes A i sl xs hA (Or.inr hb)⟩
    refine Safe.bind ((safe_release hA (Or.inr hb)).mono ?_)
    rintro r O1 ⟨rfl, h1⟩
    exact .no O1 h1
  | @cons p f ps fs h t ih =>
    intro O A sl xs hA hb
    refine ⟨?_, fun i => ?_⟩
    · unfold anyOfLoopH anyOfIndex
      refine (h s).bind (fun e O' => by rw [e]; exact .panic O') (fun e O' he => ?_) fun j ys e O' sl' he hs => ?_
      · rw [e]; exact (ih O O' sl xs (hA.trans he) (hb.ext he)).1
      · rw [e]
        exact safe_copy (hA.trans he) (hb.ext he) (hs.base hA) fun O2 s2 h1 h2 => (ih O O2 s2 ys h1 h2).2 j
    · unfold anyOfLoopH anyOfIndex
      refine (h s).bind (fun e O' => by rw [e]; exact .panic O') (fun e O' he => ?_) fun j ys e O' sl' he hs => ?_
      · rw [e]; exact (ih O O' sl xs (hA.trans he) (hb.ext he)).2 i
      · rw [e]
        simp only
        split
        · exact safe_copy (hA.trans he) (hb.ext he) (hs.base hA) fun O2 s2 h1 h2 => (ih O O2 s2 ys h1 h2).2 j
        · split
          · exact (ih O O' sl xs (hA.trans he) (hb.ext he)).2 i
          · refine Safe.bind ((safe_appendMerge (hA.trans he) (hb.ext he) (hs.base hA)).mono ?_)
            rintro r O2 ⟨s2, rfl, h1, h2⟩
            exact (ih O O2 s2 _ h1 h2).2 i

theorem anyOfIndex_ok (s : Str) {ps : List (Str → IdxH)} {fs : List (Str → Idx)} (h : IndexFnsOk ps fs) : IndexOk (anyOfIndexH s ps) (anyOfIndex s none fs) := by
  intro O
  refine Safe.bind ((safe_fresh O _).mono ?_)
  rintro r O1 ⟨s1, rfl, h1, h2⟩
  exact (anyOfLoop_ok s h O O1 s1 [] h1 h2).1

theorem everyOfLoop_ok (s : Str) {ps : List (Str → IdxH)} {fs : List (Str → Idx)} (h : IndexFnsOk ps fs) :
    ∀ (O A : Owned) (first : Bool) (index offset : Nat) (next current : Slice) (ns cs : List Nat) (sub : Str), Two O A next ns current cs → (first = true → cs = []) →
      Safe (everyOfLoopH s first index offset next current sub ps) A (IdxPost O (everyOfIndex s first index offset cs sub fs)) := by
  induction h with
  | nil =>
    intro O A first index offset next current ns cs sub ht _
    refine Safe.bind (ht.release.mono ?_)
    rintro r O1 ⟨rfl, h1, h2⟩
    exact .yes O1 index current cs h1 (Or.inr h2)
  | @cons p f ps fs h t ih =>
    intro O A first index offset next current ns cs sub ht hf
    have stop : ∀ {A : Owned} {next current : Slice} {ns cs : List Nat}, Two O A next ns current cs →
        Safe (do release next; release current; pure none) A (IdxPost O (some none)) := by
      intro A next current ns cs ht
      refine Safe.bind (ht.release.mono ?_)
      rintro r O1 ⟨rfl, h1, h2⟩
      refine Safe.bind ((safe_release h1 (Or.inr h2)).mono ?_)
      rintro r O2 ⟨rfl, h3⟩
      exact .no O2 h3
    unfold everyOfLoopH everyOfIndex
    refine (h sub).bind (fun e O' => by rw [e]; exact .panic O') (fun e O' he => ?_) fun j ys e O' sl' he hs => ?_
    · rw [e]; exact stop (ht.more he)
    · rw [e]
      have ht' := ht.more he
      simp only
      cases first with
      | true =>
        rw [hf rfl] at ht'
        refine Safe.bind ((safe_readAll hs).mono ?_)
        rintro r O1 ⟨rfl, rfl⟩
        refine Safe.bind ((ht'.pushAllSnd ys).mono ?_)
        rintro r O2 ⟨s2, rfl, h2⟩
        simp only [Bool.not_true, Bool.false_and, if_true]
        split
        · exact .panic O2
        · exact ih O O2 false _ _ next s2 ns ys _ h2 nofun
      | false =>
        refine Safe.bind ((safe_readAll (Or.inr ht'.snd)).mono ?_)
        rintro r O1 ⟨rfl, rfl⟩
        refine Safe.bind ((safe_readAll hs).mono ?_)
        rintro r O1 ⟨rfl, rfl⟩
        refine Safe.bind ((ht'.empty.pushAll _).mono ?_)
        rintro r O2 ⟨s2, rfl, h2⟩
        rw [List.nil_append] at h2
        simp only [Bool.not_false, Bool.true_and, Bool.false_eq_true, if_false, h2.fst.len]
        generalize (cs.flatMap fun (ex : Nat) => ys.filter fun (n : Nat) => ((ex : Int) + ((index : Int) - ((j : Int) + offset)) = (n : Int))) = zs at *
        cases zs with
        | nil => exact stop h2
        | cons z zs =>
          refine Safe.bind ((safe_readAll (Or.inr h2.fst)).mono ?_)
          rintro r O3 ⟨rfl, rfl⟩
          refine Safe.bind ((h2.swap.empty.pushAll _).mono ?_)
          rintro r O4 ⟨s4, rfl, h4⟩
          simp only [List.isEmpty_cons, Bool.false_eq_true, if_false]
          split
          · exact .panic O4
          · exact ih O O4 false _ _ s2 s4 _ _ _ h4.swap nofun

theorem everyOfIndex_ok (s : Str) {ps : List (Str → IdxH)} {fs : List (Str → Idx)} (h : IndexFnsOk ps fs) :
    IndexOk (everyOfIndexH s ps) (everyOfIndex s true 0 0 [] s fs) := by
  intro O
  refine Safe.bind ((safe_fresh O _).mono ?_)
  rintro r O1 ⟨s1, rfl, h1, h2⟩
  refine Safe.bind ((safe_fresh O1 _).mono ?_)
  rintro r O2 ⟨s2, rfl, h3, h4⟩
  refine everyOfLoop_ok s h O O2 true 0 0 s1 s2 [] [] s ⟨h1.trans h3, h2.ext h3, h4.base h1, ?_⟩ fun _ => rfl
  obtain ⟨n, a, g1, g2, g3, _⟩ := h2
  obtain ⟨m, b, k1, k2, k3, _⟩ := h4
  rw [g1, k1]
  rintro ⟨⟩
  rw [k2] at g3
  cases g3

theorem rowMatchAll_ok (s : Str) {ps : List (Str → Prog Bool)} {fs : List (Str → Option Bool)} (h : MatchFnsOk ps fs) :
    ∀ (ls : List (Option Nat)) (idx : Nat), MatchOk (rowMatchAllH s idx (ls.zip ps)) (rowMatchAll s idx (ls.zip fs)) := by
  induction h with
  | nil => intro ls idx; rw [List.zip_nil_right, List.zip_nil_right]; exact matchOk_pure true
  | @cons p f ps fs h t ih =>
    intro ls idx
    cases ls with
    | nil => exact matchOk_pure true
    | cons l ls =>
      rw [List.zip_cons_cons, List.zip_cons_cons]
      intro O
      unfold rowMatchAllH rowMatchAll
      simp only
      split
      · exact .ret O false (Ext.refl O)
      · split
        · exact .panic O
        · refine (h _).bind (fun e O' => by rw [e]; exact .panic O') fun b e O' he => ?_
          rw [e]
          cases b with
          | false => exact .ret O' false he
          | true => exact (ih ls _ O').mono fun r B hB => hB.ext he

theorem rowMatch_ok (l : Nat) (ls : List (Option Nat)) {ps : List (Str → Prog Bool)} {fs : List (Str → Option Bool)} (h : MatchFnsOk ps fs) (s : Str) :
    MatchOk (rowMatchH l (ls.zip ps) s) (rowMatch l (ls.zip fs) s) := by
  unfold rowMatchH rowMatch
  split
  · exact rowMatchAll_ok s h ls 0
  · exact matchOk_pure false

theorem rowIndex_ok (l : Nat) (ls : List (Option Nat)) {ps : List (Str → Prog Bool)} {fs : List (Str → Option Bool)} (h : MatchFnsOk ps fs) (s : Str) :
    ∀ is : List Nat, IndexOk (rowIndexH l (ls.zip ps) s is) (rowIndex l (ls.zip fs) s is)
  | [] => indexOk_no
  | i :: is => by
    intro O
    unfold rowIndexH rowIndex
    split
    · exact indexOk_no O
    · refine (rowMatchAll_ok (s.drop i) h ls 0).bind (fun e O' => by rw [e]; exact .panic O') fun b e O' he => ?_
      rw [e]
      cases b with
      | true => exact (indexOk_static i (.row l) O').ext he
      | false => exact (rowIndex_ok l ls h s is O').mono fun r B hB => hB.ext he

theorem btreeSegments_ok {right : Str → Prog Bool} {right' : Str → Option Bool} (hr : ∀ s, MatchOk (right s) (right' s)) (s : Str) (pos : Nat) {P : Owned} {sl : Slice}
    {xs : List Nat} : ∀ (n : Nat) (A : Owned), n ≤ xs.length → Holds P A sl xs →
      Safe (btreeSegmentsH right s pos sl n) A (MatchPost A (btreeSegments right' s pos (xs.take n).reverse))
  | 0, A, _, _ => matchOk_pure false A
  | n + 1, A, hn, hs => by
    have e1 : (xs.take (n + 1)).reverse = xs[n] :: (xs.take n).reverse := by
      rw [List.take_add_one, List.getElem?_eq_getElem (by omega), List.reverse_append]; rfl
    rw [e1]
    unfold btreeSegmentsH btreeSegments
    refine Safe.bind ((safe_get hs (List.getElem?_eq_getElem (show n < xs.length by omega))).mono ?_)
    rintro r O1 ⟨rfl, rfl⟩
    simp only
    refine (hr _).bind (fun e O' => by rw [e]; exact .panic O') fun b e O' he => ?_
    rw [e]
    cases b with
    | true => exact .ret O' true he
    | false => exact (btreeSegments_ok hr s pos n O' (by omega) (hs.ext he)).mono fun r B hB => hB.ext he

theorem btreeLoop_ok {value : Str → IdxH} {value' : Str → Idx} (hv : ∀ s, IndexOk (value s) (value' s)) {left right : Str → Prog Bool} {left' right' : Str → Option Bool}
    (hl : ∀ s, MatchOk (left s) (left' s)) (hr : ∀ s, MatchOk (right s) (right' s)) (s : Str) (limit : Nat) :
    ∀ n offset : Nat, MatchOk (btreeLoopH value left right s limit n offset) (btreeLoop value' left' right' s limit n offset)
  | 0, _ => fun O => .panic O
  | n + 1, offset => by
    intro O
    unfold btreeLoopH btreeLoop
    split
    · refine (hv _).bind (fun e O' => by rw [e]; exact .panic O') (fun e O' he => by rw [e]; exact .ret O' false he) fun index xs e O' sl he hs => ?_
      rw [e]
      simp only
      refine (hl _).bind (fun e O' => by rw [e]; exact .panic O') fun b e O2 he2 => ?_
      rw [e]
      have hs2 := hs.ext he2
      have e02 := he.trans he2
      cases b with
      | true =>
        simp only [if_true]
        have hseg := btreeSegments_ok hr s (offset + index) (P := O) (sl := sl) (xs := xs) xs.length O2 (Nat.le_refl _) hs2
        rw [List.take_length] at hseg
        rw [hs.len]
        refine Safe.bind (hseg.mono ?_)
        intro r O3 h3
        generalize btreeSegments right' s (offset + index) xs.reverse = v at h3 ⊢
        cases h3 with
        | panic => exact .panic O3
        | ret _ b e3 =>
          refine Safe.bind ((safe_release (e02.trans e3) (hs2.ext e3)).mono ?_)
          rintro r O4 ⟨rfl, e4⟩
          cases b with
          | true => exact .ret O4 true e4
          | false => exact (btreeLoop_ok hv hl hr s limit n _ O4).mono fun r B hB => hB.ext e4
      | false =>
        simp only [Bool.false_eq_true, if_false]
        refine Safe.bind ((safe_release e02 hs2).mono ?_)
        rintro r O4 ⟨rfl, e4⟩
        exact (btreeLoop_ok hv hl hr s limit n _ O4).mono fun r B hB => hB.ext e4
    · exact .ret O false (Ext.refl O)

theorem btreeMatch_ok {value : Str → IdxH} {value' : Str → Idx} (hv : ∀ s, IndexOk (value s) (value' s)) {left right : Str → Prog Bool} {left' right' : Str → Option Bool}
    (hl : ∀ s, MatchOk (left s) (left' s)) (hr : ∀ s, MatchOk (right s) (right' s)) (ll rl len : Option Nat) (s : Str) :
    MatchOk (btreeMatchH value left right ll rl len s) (btreeMatch value' left' right' ll rl len s) := by
  have key : ∀ (b : Bool) (limit offset : Nat), MatchOk (if b then pure false else btreeLoopH value left right s limit (s.length + 1) offset)
      (if b then some false else btreeLoop value' left' right' s limit (s.length + 1) offset) := by
    intro b limit offset
    cases b with
    | true => exact matchOk_pure false
    | false => exact btreeLoop_ok hv hl hr s _ _ _
  exact key _ _ _

/-! ### All matchers -/

mutual
theorem match_ok : ∀ (m : Matcher) (s : Str), MatchOk (matchH m s) (m.match s)
  | .anyOf ms, s => by simp only [matchH, Matcher.match]; exact anyOfMatch_ok s (matchFns_ok ms)
  | .everyOf ms, s => by simp only [matchH, Matcher.match]; exact everyOfMatch_ok s (matchFns_ok ms)
  | .row l ms, s => by simp only [matchH, Matcher.match]; exact rowMatch_ok l (lens ms) (matchFns_ok ms) s
  | .btree v l r ll rl len, s => by
    simp only [matchH, Matcher.match]
    exact btreeMatch_ok (index_ok v) (matchOpt_ok l) (matchOpt_ok r) ll rl len s
  | .nothing, s => by simp only [matchH, Matcher.match]; exact matchOk_pure _
  | .text t, s => by simp only [matchH, Matcher.match]; exact matchOk_pure _
  | .any seps, s => by simp only [matchH, Matcher.match]; exact matchOk_pure _
  | .super, s => by simp only [matchH, Matcher.match]; exact matchOk_pure _
  | .single seps, s => by simp only [matchH, Matcher.match]; exact matchOk_pure _
  | .list rs not, s => by simp only [matchH, Matcher.match]; exact matchOk_pure _
  | .range lo hi not, s => by simp only [matchH, Matcher.match]; exact matchOk_pure _
  | .min l, s => by simp only [matchH, Matcher.match]; exact matchOk_pure _
  | .max l, s => by simp only [matchH, Matcher.match]; exact matchOk_pure _
  | .contains needle not, s => by simp only [matchH, Matcher.match]; exact matchOk_pure _
  | .prefix p, s => by simp only [matchH, Matcher.match]; exact matchOk_pure _
  | .suffix q, s => by simp only [matchH, Matcher.match]; exact matchOk_pure _
  | .prefixSuffix p q, s => by simp only [matchH, Matcher.match]; exact matchOk_pure _
  | .prefixAny p seps, s => by simp only [matchH, Matcher.match]; exact matchOk_pure _
  | .suffixAny q seps, s => by simp only [matchH, Matcher.match]; exact matchOk_pure _
theorem matchOpt_ok : ∀ (m : Option Matcher) (s : Str), MatchOk (matchOptH m s) (matchOpt m s)
  | none, s => by simp only [matchOptH, matchOpt]; exact matchOk_pure _
  | some m, s => by simp only [matchOptH, matchOpt]; exact match_ok m s
theorem matchFns_ok : ∀ ms : List Matcher, MatchFnsOk (matchFnsH ms) (matchFns ms)
  | [] => by simp only [matchFnsH, matchFns]; exact .nil
  | m :: ms => by simp only [matchFnsH, matchFns]; exact .cons (match_ok m) (matchFns_ok ms)
theorem index_ok : ∀ (m : Matcher) (s : Str), IndexOk (indexH m s) (m.index s)
  | .anyOf ms, s => by simp only [indexH, Matcher.index]; exact anyOfIndex_ok s (indexFns_ok ms)
  | .everyOf ms, s => by simp only [indexH, Matcher.index]; exact everyOfIndex_ok s (indexFns_ok ms)
  | .row l ms, s => by simp only [indexH, Matcher.index]; exact rowIndex_ok l (lens ms) (matchFns_ok ms) s _
  | .btree v l r ll rl len, s => by simp only [indexH, Matcher.index]; exact indexOk_no
  | .nothing, s => by simp only [indexH, Matcher.index]; exact indexOk_static 0 (.rune 0)
  | .text t, s => by
    simp only [indexH, Matcher.index]
    cases strIndex t s with
    | none => exact indexOk_no
    | some i => exact indexOk_static i (.text t)
  | .any seps, s => by simp only [indexH, Matcher.index]; exact anyIndex_ok seps s
  | .super, s => by simp only [indexH, Matcher.index]; exact superIndex_ok s
  | .single seps, s => by simp only [indexH, Matcher.index]; exact firstRune_ok _ s
  | .list rs not, s => by simp only [indexH, Matcher.index]; exact firstRune_ok _ s
  | .range lo hi not, s => by simp only [indexH, Matcher.index]; exact firstRune_ok _ s
  | .min l, s => by simp only [indexH, Matcher.index]; exact minIndex_ok l s
  | .max l, s => by simp only [indexH, Matcher.index]; exact maxIndex_ok l s
  | .contains needle not, s => by simp only [indexH, Matcher.index]; exact containsIndex_ok needle not s
  | .prefix p, s => by simp only [indexH, Matcher.index]; exact prefixIndex_ok p s
  | .suffix q, s => by simp only [indexH, Matcher.index]; exact suffixIndex_ok q s
  | .prefixSuffix p q, s => by simp only [indexH, Matcher.index]; exact prefixSuffixIndex_ok p q s
  | .prefixAny p seps, s => by simp only [indexH, Matcher.index]; exact prefixAnyIndex_ok p seps s
  | .suffixAny q seps, s => by simp only [indexH, Matcher.index]; exact suffixAnyIndex_ok q seps s
theorem indexFns_ok : ∀ ms : List Matcher, IndexFnsOk (indexFnsH ms) (indexFns ms)
  | [] => by simp only [indexFnsH, indexFns]; exact .nil
  | m :: ms => by simp only [indexFnsH, indexFns]; exact .cons (index_ok m) (indexFns_ok ms)
end

/-- What a goroutine has after its calls. -/
def CallsPost (cs : List (Matcher × Str)) : Option (List Bool) → Owned → Prop
  | none, _ => ∃ c ∈ cs, c.1.match c.2 = none
  | some bs, _ => (cs.map fun c => c.1.match c.2) = bs.map some

theorem calls_ok : ∀ (cs : List (Matcher × Str)) (O : Owned), Safe (calls cs) O (CallsPost cs)
  | [], O => rfl
  | (m, s) :: cs, O => by
    refine (match_ok m s).bind (fun e O' => ⟨(m, s), List.mem_cons_self .., e⟩) fun b e O' he => ?_
    refine Safe.bind ((calls_ok cs O').mono ?_)
    intro r O2 h
    cases r with
    | none =>
      obtain ⟨c, hc, e⟩ := h
      exact ⟨c, List.mem_cons_of_mem _ hc, e⟩
    | some bs =>
      show ((m, s) :: cs).map (fun c => c.1.match c.2) = (b :: bs).map some
      rw [List.map_cons, List.map_cons, e, show cs.map (fun c => c.1.match c.2) = bs.map some from h]

/-! ### The theorems -/

section
variable {ι : Type} [DecidableEq ι]

/-- Any number of goroutines call `Match` of any globs, on any strings, any number of times, and their steps are interleaved in any way; the pools give back any slice
that was put into them, or none. A goroutine that is done has from each call the result that the call has by itself (`Matcher.match`: no pools, no other goroutines);
it panics only if one of its calls does so by itself. -/
theorem C92_results (work : ι → List (Matcher × Str)) (σ : State ι (List Bool)) (h : Steps (start fun i => calls (work i)) σ) (i : ι) :
    (∀ bs, σ.threads i = .ret bs → (work i).map (fun c => c.1.match c.2) = bs.map some) ∧
      (σ.threads i = .panic → ∃ c ∈ work i, c.1.match c.2 = none) := by
  obtain ⟨own, hi⟩ := Inv.steps h (inv_start (Q := fun i => CallsPost (work i)) fun i => calls_ok (work i) _)
  have := hi.safe i
  refine ⟨fun bs e => ?_, fun e => ?_⟩ <;> rw [e] at this <;> exact this

/-- Two goroutines are never both about to touch the same array unless both only read it. -/
theorem C92_no_race (work : ι → List (Matcher × Str)) (σ : State ι (List Bool)) (h : Steps (start fun i => calls (work i)) σ) (i j : ι) (hij : i ≠ j) (l : Loc)
    (w w' : Bool) (hi : accesses σ i = some (l, w)) (hj : accesses σ j = some (l, w')) : w = false ∧ w' = false := by
  obtain ⟨own, hinv⟩ := Inv.steps h (inv_start (Q := fun i => CallsPost (work i)) fun i => calls_ok (work i) _)
  exact no_race σ own hinv hij hi hj

/-- No goroutine waits for another: each can end from any state by its own steps, with the results of its calls if none of them panics by itself. -/
theorem C92_can_end (work : ι → List (Matcher × Str)) (σ : State ι (List Bool)) (h : Steps (start fun i => calls (work i)) σ) (i : ι)
    (hw : ∀ c ∈ work i, c.1.match c.2 ≠ none) : ∃ τ bs, Steps σ τ ∧ τ.threads i = .ret bs ∧ (work i).map (fun c => c.1.match c.2) = bs.map some := by
  obtain ⟨own, hinv⟩ := Inv.steps h (inv_start (Q := fun i => CallsPost (work i)) fun i => calls_ok (work i) _)
  obtain ⟨τ, hs, he⟩ := can_end i _ σ own hinv rfl
  have hτ := C92_results work τ (h.trans hs) i
  rcases he with ⟨bs, e⟩ | e
  · exact ⟨τ, bs, hs, e, hτ.1 bs e⟩
  · obtain ⟨c, hc, e'⟩ := hτ.2 e
    exact absurd e' (hw c hc)

/-- The shared slices never change: no buffer that was given out is one of them. -/
theorem C92_shared_unchanged (work : ι → List (Matcher × Str)) (σ : State ι (List Bool)) (h : Steps (start fun i => calls (work i)) σ) (t : Static) :
    σ.heap (.static t) = [t.value] := by
  obtain ⟨own, hinv⟩ := Inv.steps h (inv_start (Q := fun i => CallsPost (work i)) fun i => calls_ok (work i) _)
  exact hinv.static t
end

/-! ### A run -/

section
variable {ι α : Type} [DecidableEq ι]

/-- A step of goroutine `i`; it takes the first slice of the pools if it fits. -/
def next (σ : State ι α) (i : ι) : Option { τ : State ι α // Step σ τ } :=
  match e : σ.threads i with
  | .acquire c k =>
    if hc : c < 16 then some ⟨_, .acquireSmall σ i c k e hc⟩
    else match hp : σ.pool with
      | (t, l) :: bs => if ht : t = getTableIndex c then some ⟨_, .acquirePool σ i c k e (by omega) l [] bs (by rw [hp, ht]; rfl)⟩ else none
      | [] => match hp : pools (getTableIndex c) with
        | some cap => some ⟨_, .acquireNew σ i c k e (by omega) cap hp⟩
        | none => none
  | .release s k => if hc : (σ.heap s.loc).length < 16 then some ⟨_, .releaseSmall σ i s k e hc⟩ else some ⟨_, .releasePool σ i s k e (by omega)⟩
  | .push s x k => if hc : s.len < (σ.heap s.loc).length then some ⟨_, .pushHere σ i s x k e hc⟩ else none
  | .get s j k =>
    if hj : j < s.len then match hx : (σ.heap s.loc)[j]? with
      | some x => some ⟨_, .get σ i s j x k e hj hx⟩
      | none => none
    else none
  | _ => none

/-- Goroutine `i` goes on for at most `n` steps. -/
def runs (i : ι) : Nat → (σ : State ι α) → { τ : State ι α // Steps σ τ }
  | 0, σ => ⟨σ, .refl σ⟩
  | n + 1, σ => match next σ i with
    | none => ⟨σ, .refl σ⟩
    | some ⟨τ, h⟩ => ⟨(runs i n τ).1, (Steps.tail (.refl σ) h).trans (runs i n τ).2⟩

/-- The result, if there is one. -/
def result : Prog α → Option α
  | .ret a => some a
  | _ => none
end

/-- As `**a**` would be without the simplifications. -/
def sample : Matcher := .btree (.text [97]) (some .super) (some (.btree .super none none none none none)) none none none

/-- Two goroutines: `true` has one call, `false` has two. -/
def sampleStart := start fun (b : Bool) => calls (if b then [(sample, List.replicate 18 97)] else [(sample, List.replicate 20 97), (sample, 98 :: List.replicate 19 97)])


/-- `true` fills its buffer and stops, `false` gets a buffer for its first call, gives it back, gets it again for its second call and ends, and `true` goes on. -/
example : (runs true 10 sampleStart).1.next = 1 ∧ (runs false 25 (runs true 10 sampleStart).1).1.pool.length = 1 ∧
    (runs false 30 (runs true 10 sampleStart).1).1.next = 2 ∧ (runs false 30 (runs true 10 sampleStart).1).1.pool.length = 0 ∧
    result ((runs false 30 (runs true 10 sampleStart).1).1.threads false) = none ∧
    (runs false 100 (runs true 10 sampleStart).1).1.next = 2 ∧ result ((runs false 100 (runs true 10 sampleStart).1).1.threads false) = some [true, true] ∧
    result ((runs true 100 (runs false 100 (runs true 10 sampleStart).1).1).1.threads true) = some [true] := by decide +kernel

end Verif.Glob.Heap
