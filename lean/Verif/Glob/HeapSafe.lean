import Verif.Glob.Heap
/-
A program that only touches arrays it owns: `Safe`. Programs that are safe keep to themselves, whatever the others do.
-/
namespace Verif.Glob.Heap
open Segments

/-- The arrays that a goroutine owns. -/
abbrev Owned := Nat → Option (List Nat)

def upd (O : Owned) (n : Nat) (a : List Nat) : Owned := fun m => if m = n then some a else O m
def del (O : Owned) (n : Nat) : Owned := fun m => if m = n then none else O m

/-- Run from a state in which the goroutine owns `O`, the program touches only what it owns and shared slices (which it only reads), whatever arrays it is given;
if it ends, `Q` holds. -/
def Safe {α : Type} : Prog α → Owned → (Option α → Owned → Prop) → Prop
  | .ret a, O, Q => Q (some a) O
  | .panic, O, Q => Q none O
  | .acquire _ k, O, Q => ∀ n arr, O n = none → Safe (k ⟨.dyn n, 0⟩) (upd O n arr) Q
  | .release s k, O, Q => match s.loc with
    | .static _ => Safe k O Q
    | .dyn n => O n ≠ none ∧ Safe k (del O n) Q
  | .push s x k, O, Q => match s.loc with
    | .static _ => False
    | .dyn n => ∃ arr, O n = some arr ∧ s.len ≤ arr.length ∧ (s.len < arr.length → Safe (k ⟨.dyn n, s.len + 1⟩) (upd O n (arr.set s.len x)) Q) ∧
      (arr.length ≤ s.len → ∀ n' room, O n' = none → Safe (k ⟨.dyn n', s.len + 1⟩) (upd O n' (arr.take s.len ++ x :: room)) Q)
  | .get s i k, O, Q => match s.loc with
    | .static t => i = 0 ∧ s.len = 1 ∧ Safe (k t.value) O Q
    | .dyn n => ∃ arr x, O n = some arr ∧ i < s.len ∧ arr[i]? = some x ∧ Safe (k x) O Q
  | .set s i x k, O, Q => match s.loc with
    | .static _ => False
    | .dyn n => ∃ arr, O n = some arr ∧ i < s.len ∧ Safe k (upd O n (arr.set i x)) Q
  | .lit x k, O, Q => ∀ n, O n = none → Safe (k ⟨.dyn n, 1⟩) (upd O n [x]) Q

theorem Safe.mono {α : Type} {p : Prog α} {O : Owned} {Q R : Option α → Owned → Prop} (h : Safe p O Q) (hq : ∀ r O', Q r O' → R r O') : Safe p O R := by
  induction p generalizing O with
  | ret a => exact hq _ _ h
  | panic => exact hq _ _ h
  | acquire c k ih => exact fun n arr hn => ih _ (h n arr hn)
  | release s k ih =>
    obtain ⟨l, len⟩ := s
    cases l with
    | static t => exact ih h
    | dyn n => exact ⟨h.1, ih h.2⟩
  | push s x k ih =>
    obtain ⟨l, len⟩ := s
    cases l with
    | static t => exact h
    | dyn n =>
      obtain ⟨arr, h1, h2, h3, h4⟩ := h
      exact ⟨arr, h1, h2, fun hl => ih _ (h3 hl), fun hl n' room hn => ih _ (h4 hl n' room hn)⟩
  | get s i k ih =>
    obtain ⟨l, len⟩ := s
    cases l with
    | static t => exact ⟨h.1, h.2.1, ih _ h.2.2⟩
    | dyn n =>
      obtain ⟨arr, x, h1, h2, h3, h4⟩ := h
      exact ⟨arr, x, h1, h2, h3, ih _ h4⟩
  | set s i x k ih =>
    obtain ⟨l, len⟩ := s
    cases l with
    | static t => exact h
    | dyn n =>
      obtain ⟨arr, h1, h2, h3⟩ := h
      exact ⟨arr, h1, h2, ih h3⟩
  | lit x k ih => exact fun n hn => ih _ (h n hn)

theorem Safe.bind {α β : Type} {p : Prog α} {f : α → Prog β} {O : Owned} {Q : Option β → Owned → Prop}
    (h : Safe p O fun r O' => match r with
      | none => Q none O'
      | some a => Safe (f a) O' Q) : Safe (p >>= f) O Q := by
  show Safe (p.bind f) O Q
  induction p generalizing O with
  | ret a => exact h
  | panic => exact h
  | acquire c k ih => exact fun n arr hn => ih _ (h n arr hn)
  | release s k ih =>
    obtain ⟨l, len⟩ := s
    cases l with
    | static t => exact ih h
    | dyn n => exact ⟨h.1, ih h.2⟩
  | push s x k ih =>
    obtain ⟨l, len⟩ := s
    cases l with
    | static t => exact h
    | dyn n =>
      obtain ⟨arr, h1, h2, h3, h4⟩ := h
      exact ⟨arr, h1, h2, fun hl => ih _ (h3 hl), fun hl n' room hn => ih _ (h4 hl n' room hn)⟩
  | get s i k ih =>
    obtain ⟨l, len⟩ := s
    cases l with
    | static t => exact ⟨h.1, h.2.1, ih _ h.2.2⟩
    | dyn n =>
      obtain ⟨arr, x, h1, h2, h3, h4⟩ := h
      exact ⟨arr, x, h1, h2, h3, ih _ h4⟩
  | set s i x k ih =>
    obtain ⟨l, len⟩ := s
    cases l with
    | static t => exact h
    | dyn n =>
      obtain ⟨arr, h1, h2, h3⟩ := h
      exact ⟨arr, h1, h2, ih h3⟩
  | lit x k ih => exact fun n hn => ih _ (h n hn)

/-! ### Any interleaving -/

section
variable {ι α : Type} [DecidableEq ι]

/-- The goroutines own different arrays, none of them is in a pool, no array is in the pools twice, the shared slices are as they were. -/
structure Inv (Q : ι → Option α → Owned → Prop) (σ : State ι α) (own : ι → Owned) : Prop where
  heap : ∀ i n a, own i n = some a → σ.heap (.dyn n) = a ∧ n < σ.next
  apart : ∀ i j n, own i n ≠ none → own j n ≠ none → i = j
  pool : ∀ e ∈ σ.pool, ∃ n, e.2 = .dyn n ∧ n < σ.next ∧ ∀ i, own i n = none
  once : (σ.pool.map Prod.snd).Nodup
  static : ∀ t, σ.heap (.static t) = [t.value]
  safe : ∀ i, Safe (σ.threads i) (own i) (Q i)

theorem pools_some (c : Nat) (h : 16 ≤ c) : ∃ k, pools (getTableIndex c) = some k := by
  by_cases h' : 1024 < c
  · have : getTableIndex c = 1023 ∨ getTableIndex c = 15 := by
      by_cases hc : c < 2 ^ 63
      · exact table_large c h' hc
      · unfold getTableIndex
        simp only
        by_cases h1 : toPowerOfTwo c ≥ 1024
        · left; rw [if_pos h1]
        · right
          rw [if_neg h1, if_pos]
          unfold toPowerOfTwo at h1 ⊢
          simp only at h1 ⊢
          split
          · decide
          · rename_i hne
            exfalso
            rw [if_neg hne] at h1
            apply h1
            have h2 : c - 1 ≤ (c - 1) ||| ((c - 1) >>> 1) := Nat.left_le_or
            generalize (c - 1) ||| ((c - 1) >>> 1) = a at *
            have h3 : a ≤ a ||| (a >>> 2) := Nat.left_le_or
            generalize a ||| (a >>> 2) = b at *
            have h4 : b ≤ b ||| (b >>> 4) := Nat.left_le_or
            generalize b ||| (b >>> 4) = d at *
            have h5 : d ≤ d ||| (d >>> 8) := Nat.left_le_or
            generalize d ||| (d >>> 8) = e at *
            have h6 : e ≤ e ||| (e >>> 16) := Nat.left_le_or
            generalize e ||| (e >>> 16) = f at *
            exact Int.ofNat_le.2 (show 1024 ≤ f + 1 by omega)
    rcases this with e | e <;> rw [e]
    · exact ⟨1024, by decide +kernel⟩
    · exact ⟨16, by decide +kernel⟩
  · have := (table_small ⟨c, by omega⟩ h).2.2
    simp only at this
    cases hp : pools (getTableIndex c) with
    | none => rw [hp] at this; cases this
    | some k => exact ⟨k, rfl⟩

/-- What goroutine `i` owns changes. -/
def reown (own : ι → Owned) (i : ι) (O : Owned) : ι → Owned := fun j => if j = i then O else own j

theorem reown_same (own : ι → Owned) (i : ι) (O : Owned) : reown own i O i = O := if_pos rfl
theorem reown_other (own : ι → Owned) {i j : ι} (O : Owned) (h : j ≠ i) : reown own i O j = own j := if_neg h

variable {Q : ι → Option α → Owned → Prop} {σ : State ι α} {own : ι → Owned}

/-- A goroutine gets a new array. -/
theorem Inv.alloc (h : Inv Q σ own) (i : ι) (a : List Nat) (p : Prog α) (hp : own i σ.next = none → Safe p (upd (own i) σ.next a) (Q i)) :
    ∃ own', Inv Q (σ.alloc i a p) own' := by
  have fresh : ∀ j, own j σ.next = none := by
    intro j
    cases e : own j σ.next with
    | none => rfl
    | some b => exact absurd (h.heap j _ _ e).2 (Nat.lt_irrefl _)
  refine ⟨reown own i (upd (own i) σ.next a), ?_, ?_, ?_, h.once, ?_, ?_⟩
  · intro j n b e
    show (if Loc.dyn n = Loc.dyn σ.next then a else σ.heap (.dyn n)) = b ∧ n < σ.next + 1
    by_cases hj : j = i
    · subst hj
      rw [reown_same, upd] at e
      by_cases hn : n = σ.next
      · subst hn; simp only [if_true, Option.some.injEq] at e; exact ⟨by simp [e], by omega⟩
      · rw [if_neg hn] at e
        have := h.heap _ _ _ e
        exact ⟨by rw [if_neg (by simpa using hn)]; exact this.1, by omega⟩
    · rw [reown_other _ _ hj] at e
      have := h.heap _ _ _ e
      exact ⟨by rw [if_neg (by simp only [Loc.dyn.injEq]; omega)]; exact this.1, by omega⟩
  · intro j k n hj hk
    have key : ∀ x, reown own i (upd (own i) σ.next a) x n ≠ none → (n = σ.next ∧ x = i) ∨ own x n ≠ none := by
      intro x hx
      by_cases hxi : x = i
      · subst hxi
        rw [reown_same, upd] at hx
        by_cases hn : n = σ.next
        · exact Or.inl ⟨hn, rfl⟩
        · rw [if_neg hn] at hx; exact Or.inr hx
      · rw [reown_other _ _ hxi] at hx; exact Or.inr hx
    rcases key j hj with ⟨hn, rfl⟩ | h1
    · rcases key k hk with ⟨_, rfl⟩ | h2
      · rfl
      · subst hn; exact absurd (fresh k) h2
    · rcases key k hk with ⟨hn, rfl⟩ | h2
      · subst hn; exact absurd (fresh j) h1
      · exact h.apart j k n h1 h2
  · intro e he
    obtain ⟨n, h1, h2, h3⟩ := h.pool e he
    refine ⟨n, h1, Nat.lt_succ_of_lt h2, fun j => ?_⟩
    by_cases hj : j = i
    · subst hj; rw [reown_same, upd, if_neg (by omega)]; exact h3 j
    · rw [reown_other _ _ hj]; exact h3 j
  · intro t
    exact h.static t
  · intro j
    show Safe (if j = i then p else σ.threads j) _ _
    by_cases hj : j = i
    · subst hj; rw [if_pos rfl, reown_same]; exact hp (fresh j)
    · rw [if_neg hj, reown_other _ _ hj]; exact h.safe j

/-- A goroutine changes an array it owns. -/
theorem Inv.write (h : Inv Q σ own) (i : ι) (n : Nat) (a b : List Nat) (ha : own i n = some a) (p : Prog α) (hp : Safe p (upd (own i) n b) (Q i)) :
    ∃ own', Inv Q (State.go { σ with heap := putArr σ.heap (.dyn n) b } i p) own' := by
  refine ⟨reown own i (upd (own i) n b), ?_, ?_, ?_, h.once, ?_, ?_⟩
  · intro j m c e
    show (if Loc.dyn m = Loc.dyn n then b else σ.heap (.dyn m)) = c ∧ m < σ.next
    by_cases hj : j = i
    · subst hj
      rw [reown_same, upd] at e
      by_cases hn : m = n
      · subst hn; simp only [if_true, Option.some.injEq] at e; exact ⟨by simp [e], (h.heap _ _ _ ha).2⟩
      · rw [if_neg hn] at e
        rw [if_neg (by simpa using hn)]; exact h.heap _ _ _ e
    · rw [reown_other _ _ hj] at e
      have hn : m ≠ n := by
        rintro rfl
        exact hj (h.apart j i m (by rw [e]; nofun) (by rw [ha]; nofun))
      rw [if_neg (by simpa using hn)]; exact h.heap _ _ _ e
  · intro j k m hj hk
    have key : ∀ x, reown own i (upd (own i) n b) x m ≠ none → own x m ≠ none := by
      intro x hx
      by_cases hxi : x = i
      · subst hxi
        rw [reown_same, upd] at hx
        by_cases hn : m = n
        · subst hn; rw [ha]; nofun
        · rw [if_neg hn] at hx; exact hx
      · rw [reown_other _ _ hxi] at hx; exact hx
    exact h.apart j k m (key j hj) (key k hk)
  · intro e he
    obtain ⟨m, h1, h2, h3⟩ := h.pool e he
    refine ⟨m, h1, h2, fun j => ?_⟩
    by_cases hj : j = i
    · subst hj
      rw [reown_same, upd, if_neg]
      · exact h3 j
      · rintro rfl; rw [h3 j] at ha; cases ha
    · rw [reown_other _ _ hj]; exact h3 j
  · intro t; exact h.static t
  · intro j
    show Safe (if j = i then p else σ.threads j) _ _
    by_cases hj : j = i
    · subst hj; rw [if_pos rfl, reown_same]; exact hp
    · rw [if_neg hj, reown_other _ _ hj]; exact h.safe j

/-- A goroutine changes only its own program. -/
theorem Inv.go (h : Inv Q σ own) (i : ι) (p : Prog α) (hp : Safe p (own i) (Q i)) : Inv Q (σ.go i p) own where
  heap := h.heap
  apart := h.apart
  pool := h.pool
  once := h.once
  static := h.static
  safe j := by
    show Safe (if j = i then p else σ.threads j) _ _
    by_cases hj : j = i
    · subst hj; rw [if_pos rfl]; exact hp
    · rw [if_neg hj]; exact h.safe j

/-- A goroutine gives up an array. -/
theorem Inv.give (h : Inv Q σ own) (i : ι) (n : Nat) (p : Prog α) (hp : Safe p (del (own i) n) (Q i)) : Inv Q (σ.go i p) (reown own i (del (own i) n)) := by
  have key : ∀ x m, reown own i (del (own i) n) x m ≠ none → own x m ≠ none := by
    intro x m hx
    by_cases hxi : x = i
    · subst hxi
      rw [reown_same, del] at hx
      by_cases hn : m = n
      · rw [if_pos hn] at hx; exact absurd rfl hx
      · rw [if_neg hn] at hx; exact hx
    · rw [reown_other _ _ hxi] at hx; exact hx
  refine ⟨?_, fun j k m hj hk => h.apart j k m (key j m hj) (key k m hk), ?_, h.once, h.static, ?_⟩
  · intro j m c e
    refine h.heap j m c ?_
    by_cases hj : j = i
    · subst hj
      rw [reown_same, del] at e
      split at e
      · cases e
      · exact e
    · rw [reown_other _ _ hj] at e; exact e
  · intro e he
    obtain ⟨m, h1, h2, h3⟩ := h.pool e he
    refine ⟨m, h1, h2, fun j => ?_⟩
    by_contra hc
    exact key j m hc (h3 j)
  · intro j
    show Safe (if j = i then p else σ.threads j) _ _
    by_cases hj : j = i
    · subst hj; rw [if_pos rfl, reown_same]; exact hp
    · rw [if_neg hj, reown_other _ _ hj]; exact h.safe j

theorem Inv.step (h : Inv Q σ own) {τ : State ι α} (hs : Step σ τ) : ∃ own', Inv Q τ own' := by
  cases hs with
  | acquireSmall i c k e hc => exact h.alloc i _ _ fun hn => by have := h.safe i; rw [e] at this; exact this _ _ hn
  | acquireNew i c k e hc cap hp => exact h.alloc i _ _ fun hn => by have := h.safe i; rw [e] at this; exact this _ _ hn
  | acquireNil i c k e hc hp =>
    obtain ⟨x, hx⟩ := pools_some c hc
    rw [hx] at hp; cases hp
  | acquirePool i c k e hc l as bs hp =>
    obtain ⟨n, h1, h2, h3⟩ := h.pool (getTableIndex c, l) (by rw [hp]; simp)
    simp only at h1
    subst h1
    have hsafe := h.safe i
    rw [e] at hsafe
    have honce := h.once
    rw [hp, List.map_append, List.map_cons, List.nodup_append] at honce
    simp only [List.nodup_cons] at honce
    have hother : ∀ x ∈ as ++ bs, x.2 ≠ Loc.dyn n := by
      intro x hx he
      rcases List.mem_append.1 hx with hx | hx
      · exact honce.2.2 x.2 (List.mem_map_of_mem hx) (Loc.dyn n) (by simp) he
      · exact honce.2.1.1 (he ▸ List.mem_map_of_mem hx)
    refine ⟨reown own i (upd (own i) n (σ.heap (.dyn n))), ?_, ?_, ?_, ?_, h.static, ?_⟩
    · intro j m b hb
      by_cases hj : j = i
      · subst hj
        rw [reown_same, upd] at hb
        by_cases hm : m = n
        · subst hm; simp only [if_true, Option.some.injEq] at hb; exact ⟨hb, h2⟩
        · rw [if_neg hm] at hb; exact h.heap _ _ _ hb
      · rw [reown_other _ _ hj] at hb; exact h.heap _ _ _ hb
    · intro j k m hj hk
      have key : ∀ x, reown own i (upd (own i) n (σ.heap (.dyn n))) x m ≠ none → (m = n ∧ x = i) ∨ own x m ≠ none := by
        intro x hx
        by_cases hxi : x = i
        · subst hxi
          rw [reown_same, upd] at hx
          by_cases hn : m = n
          · exact Or.inl ⟨hn, rfl⟩
          · rw [if_neg hn] at hx; exact Or.inr hx
        · rw [reown_other _ _ hxi] at hx; exact Or.inr hx
      rcases key j hj with ⟨hn, rfl⟩ | h4
      · rcases key k hk with ⟨_, rfl⟩ | h5
        · rfl
        · subst hn; exact absurd (h3 k) h5
      · rcases key k hk with ⟨hn, rfl⟩ | h5
        · subst hn; exact absurd (h3 j) h4
        · exact h.apart j k m h4 h5
    · intro x hx
      have hx' : x ∈ as ++ bs := hx
      obtain ⟨m, g1, g2, g3⟩ := h.pool x (by
        rw [hp]
        rcases List.mem_append.1 hx' with hx | hx
        · exact List.mem_append_left _ hx
        · exact List.mem_append_right _ (List.mem_cons_of_mem _ hx))
      refine ⟨m, g1, g2, fun j => ?_⟩
      by_cases hj : j = i
      · subst hj
        rw [reown_same, upd, if_neg]
        · exact g3 j
        · rintro rfl; exact hother x hx' g1
      · rw [reown_other _ _ hj]; exact g3 j
    · show ((as ++ bs).map Prod.snd).Nodup
      rw [List.map_append, List.nodup_append]
      exact ⟨honce.1, honce.2.1.2, fun x hx y hy => honce.2.2 x hx y (List.mem_cons_of_mem _ hy)⟩
    · intro j
      show Safe (if j = i then k ⟨.dyn n, 0⟩ else σ.threads j) _ _
      by_cases hj : j = i
      · subst hj; rw [if_pos rfl, reown_same]; exact hsafe n _ (h3 j)
      · rw [if_neg hj, reown_other _ _ hj]; exact h.safe j
  | releaseSmall i s k e hc =>
    have hsafe := h.safe i
    rw [e] at hsafe
    obtain ⟨l, len⟩ := s
    cases l with
    | static t => exact ⟨own, h.go i k hsafe⟩
    | dyn n => exact ⟨_, h.give i n k hsafe.2⟩
  | releasePool i s k e hc =>
    have hsafe := h.safe i
    rw [e] at hsafe
    obtain ⟨l, len⟩ := s
    cases l with
    | static t => simp only [h.static t, List.length_singleton] at hc; omega
    | dyn n =>
      have hg := h.give i n k hsafe.2
      obtain ⟨a, ha⟩ : ∃ a, own i n = some a := by
        cases e : own i n with
        | none => exact absurd e hsafe.1
        | some a => exact ⟨a, rfl⟩
      refine ⟨_, hg.heap, hg.apart, ?_, ?_, hg.static, hg.safe⟩
      · intro x hx
        rcases List.mem_cons.1 hx with rfl | hx
        · refine ⟨n, rfl, (h.heap _ _ _ ha).2, fun j => ?_⟩
          by_cases hj : j = i
          · subst hj; rw [reown_same, del, if_pos rfl]
          · rw [reown_other _ _ hj]
            by_contra hc
            exact hj (h.apart j i n hc (by rw [ha]; nofun))
        · exact hg.pool x hx
      · show (Loc.dyn n :: σ.pool.map Prod.snd).Nodup
        refine List.nodup_cons.2 ⟨?_, h.once⟩
        intro hm
        obtain ⟨x, hx, hxe⟩ := List.mem_map.1 hm
        obtain ⟨m, g1, g2, g3⟩ := h.pool x hx
        rw [hxe] at g1
        cases g1
        rw [g3 i] at ha; cases ha
  | pushHere i s x k e hc =>
    have hsafe := h.safe i
    rw [e] at hsafe
    obtain ⟨l, len⟩ := s
    cases l with
    | static t => exact hsafe.elim
    | dyn n =>
      obtain ⟨arr, h1, h2, h3, _⟩ := hsafe
      have he := (h.heap _ _ _ h1).1
      simp only [he] at hc ⊢
      exact h.write i n arr _ h1 _ (h3 hc)
  | pushGrow i s x k e hc room =>
    have hsafe := h.safe i
    rw [e] at hsafe
    obtain ⟨l, len⟩ := s
    cases l with
    | static t => exact hsafe.elim
    | dyn n =>
      obtain ⟨arr, h1, h2, _, h4⟩ := hsafe
      have he := (h.heap _ _ _ h1).1
      simp only [he] at hc ⊢
      exact h.alloc i _ _ fun hn => h4 hc _ _ hn
  | get i s j x k e hj hx =>
    have hsafe := h.safe i
    rw [e] at hsafe
    obtain ⟨l, len⟩ := s
    cases l with
    | static t =>
      obtain ⟨rfl, _, h3⟩ := hsafe
      simp only [h.static t, List.getElem?_cons_zero, Option.some.injEq] at hx
      subst hx
      exact ⟨own, h.go i _ h3⟩
    | dyn n =>
      obtain ⟨arr, y, h1, h2, h3, h4⟩ := hsafe
      have he := (h.heap _ _ _ h1).1
      simp only [he] at hx
      rw [hx] at h3
      cases h3
      exact ⟨own, h.go i _ h4⟩
  | getPanic i s j k e hj =>
    have hsafe := h.safe i
    rw [e] at hsafe
    obtain ⟨l, len⟩ := s
    simp only at hj
    cases l with
    | static t =>
      obtain ⟨rfl, h2, _⟩ := hsafe
      simp only at h2; omega
    | dyn n =>
      obtain ⟨arr, y, _, h2, _⟩ := hsafe
      simp only at h2; omega
  | set i s j x k e hj =>
    have hsafe := h.safe i
    rw [e] at hsafe
    obtain ⟨l, len⟩ := s
    cases l with
    | static t => exact hsafe.elim
    | dyn n =>
      obtain ⟨arr, h1, h2, h3⟩ := hsafe
      have he := (h.heap _ _ _ h1).1
      simp only [he]
      exact h.write i n arr _ h1 _ h3
  | setPanic i s j x k e hj =>
    have hsafe := h.safe i
    rw [e] at hsafe
    obtain ⟨l, len⟩ := s
    simp only at hj
    cases l with
    | static t => exact hsafe.elim
    | dyn n =>
      obtain ⟨arr, _, h2, _⟩ := hsafe
      simp only at h2; omega
  | lit i x k e => exact h.alloc i _ _ fun hn => by have := h.safe i; rw [e] at this; exact this _ hn
  | drop l as bs hp =>
    refine ⟨own, h.heap, h.apart, ?_, ?_, h.static, h.safe⟩
    · intro x hx
      refine h.pool x ?_
      rw [hp]
      rcases List.mem_append.1 (show x ∈ as ++ bs from hx) with hx | hx
      · exact List.mem_append_left _ hx
      · exact List.mem_append_right _ (List.mem_cons_of_mem _ hx)
    · have honce := h.once
      rw [hp, List.map_append, List.map_cons, List.nodup_append] at honce
      simp only [List.nodup_cons] at honce
      show ((as ++ bs).map Prod.snd).Nodup
      rw [List.map_append, List.nodup_append]
      exact ⟨honce.1, honce.2.1.2, fun x hx y hy => honce.2.2 x hx y (List.mem_cons_of_mem _ hy)⟩

theorem Inv.steps {σ τ : State ι α} (hs : Steps σ τ) {own : ι → Owned} (h : Inv Q σ own) : ∃ own', Inv Q τ own' := by
  induction hs with
  | refl => exact ⟨own, h⟩
  | tail _ h' ih =>
    obtain ⟨own', ho⟩ := ih
    exact ho.step h'

theorem inv_start {threads : ι → Prog α} (h : ∀ i, Safe (threads i) (fun _ => none) (Q i)) : Inv Q (start threads) fun _ _ => none where
  heap := nofun
  apart := fun _ _ _ h => absurd rfl h
  pool := nofun
  once := List.nodup_nil
  static := fun _ => rfl
  safe := h

/-- The program that is left after one step. -/
inductive After : Prog α → Prog α → Prop where
  | acquire (c : Nat) (k : Slice → Prog α) (s : Slice) : After (k s) (.acquire c k)
  | release (s : Slice) (k : Prog α) : After k (.release s k)
  | push (s : Slice) (x : Nat) (k : Slice → Prog α) (s' : Slice) : After (k s') (.push s x k)
  | get (s : Slice) (i : Nat) (k : Nat → Prog α) (x : Nat) : After (k x) (.get s i k)
  | set (s : Slice) (i x : Nat) (k : Prog α) : After k (.set s i x k)
  | lit (x : Nat) (k : Slice → Prog α) (s : Slice) : After (k s) (.lit x k)

/-- A goroutine makes finitely many steps. -/
theorem after_wf : WellFounded (After (α := α)) := by
  refine ⟨fun p => ?_⟩
  induction p with
  | ret a => exact ⟨_, nofun⟩
  | panic => exact ⟨_, nofun⟩
  | acquire c k ih => exact ⟨_, fun q hq => by cases hq; exact ih _⟩
  | release s k ih => exact ⟨_, fun q hq => by cases hq; exact ih⟩
  | push s x k ih => exact ⟨_, fun q hq => by cases hq; exact ih _⟩
  | get s i k ih => exact ⟨_, fun q hq => by cases hq; exact ih _⟩
  | set s i x k ih => exact ⟨_, fun q hq => by cases hq; exact ih⟩
  | lit x k ih => exact ⟨_, fun q hq => by cases hq; exact ih _⟩

theorem go_self (σ : State ι α) (i : ι) (p : Prog α) : (σ.go i p).threads i = p := if_pos rfl

/-- A goroutine that has not ended can go on, whatever the others do. -/
theorem progress (σ : State ι α) (own : ι → Owned) (h : Inv Q σ own) (i : ι) :
    (∃ a, σ.threads i = .ret a) ∨ σ.threads i = .panic ∨ ∃ τ, Step σ τ ∧ After (τ.threads i) (σ.threads i) := by
  cases e : σ.threads i with
  | ret a => exact Or.inl ⟨a, rfl⟩
  | panic => exact Or.inr (Or.inl rfl)
  | acquire c k =>
    right; right
    by_cases hc : c < 16
    · exact ⟨_, .acquireSmall σ i c k e hc, by rw [State.alloc, go_self]; exact .acquire _ _ _⟩
    · obtain ⟨x, hx⟩ := pools_some c (by omega)
      exact ⟨_, .acquireNew σ i c k e (by omega) x hx, by rw [State.alloc, go_self]; exact .acquire _ _ _⟩
  | release s k =>
    right; right
    by_cases hc : (σ.heap s.loc).length < 16
    · exact ⟨_, .releaseSmall σ i s k e hc, by rw [go_self]; exact .release _ _⟩
    · exact ⟨_, .releasePool σ i s k e (by omega), by rw [go_self]; exact .release _ _⟩
  | push s x k =>
    right; right
    by_cases hc : s.len < (σ.heap s.loc).length
    · exact ⟨_, .pushHere σ i s x k e hc, by rw [go_self]; exact .push _ _ _ _⟩
    · exact ⟨_, .pushGrow σ i s x k e (by omega) [], by rw [State.alloc, go_self]; exact .push _ _ _ _⟩
  | get s j k =>
    right; right
    have hsafe := h.safe i
    rw [e] at hsafe
    obtain ⟨l, len⟩ := s
    cases l with
    | static t =>
      obtain ⟨rfl, h2, _⟩ := hsafe
      simp only at h2
      exact ⟨_, .get σ i _ _ t.value k e (by simp [h2]) (by simp [h.static t]), by rw [go_self]; exact .get _ _ _ _⟩
    | dyn n =>
      obtain ⟨arr, y, h1, h2, h3, _⟩ := hsafe
      exact ⟨_, .get σ i _ _ y k e h2 (by simp only [(h.heap _ _ _ h1).1]; exact h3), by rw [go_self]; exact .get _ _ _ _⟩
  | set s j x k =>
    right; right
    have hsafe := h.safe i
    rw [e] at hsafe
    obtain ⟨l, len⟩ := s
    cases l with
    | static t => exact hsafe.elim
    | dyn n =>
      obtain ⟨arr, _, h2, _⟩ := hsafe
      exact ⟨_, .set σ i _ j x k e h2, by rw [go_self]; exact .set _ _ _ _⟩
  | lit x k => exact Or.inr (Or.inr ⟨_, .lit σ i x k e, by rw [State.alloc, go_self]; exact .lit _ _ _⟩)

theorem Steps.trans {σ τ υ : State ι α} (h : Steps σ τ) (h' : Steps τ υ) : Steps σ υ := by
  induction h' with
  | refl => exact h
  | tail _ hs ih => exact .tail ih hs

/-- From any state a goroutine can end without help from the others. -/
theorem can_end (i : ι) : ∀ (p : Prog α) (σ : State ι α) (own : ι → Owned), Inv Q σ own → σ.threads i = p →
    ∃ τ, Steps σ τ ∧ ((∃ a, τ.threads i = .ret a) ∨ τ.threads i = .panic) := by
  intro p
  induction p using after_wf.induction with
  | _ p ih =>
    intro σ own h e
    rcases progress σ own h i with h1 | h1 | ⟨τ, hs, ha⟩
    · exact ⟨σ, .refl σ, Or.inl h1⟩
    · exact ⟨σ, .refl σ, Or.inr h1⟩
    · obtain ⟨own', h'⟩ := h.step hs
      rw [e] at ha
      obtain ⟨υ, hu, hr⟩ := ih _ ha τ own' h' rfl
      exact ⟨υ, (Steps.tail (.refl σ) hs).trans hu, hr⟩

/-- Two goroutines never touch the same array at the same time, unless both only read. -/
theorem no_race (σ : State ι α) (own : ι → Owned) (h : Inv Q σ own) {i j : ι} (hij : i ≠ j) {l : Loc} {w w' : Bool} (hi : accesses σ i = some (l, w))
    (hj : accesses σ j = some (l, w')) : w = false ∧ w' = false := by
  have key : ∀ x v, accesses σ x = some (l, v) → (∃ t, l = .static t ∧ v = false) ∨ ∃ n, l = .dyn n ∧ own x n ≠ none := by
    intro x v hx
    unfold accesses at hx
    have hsafe := h.safe x
    split at hx <;> try cases hx
    · rename_i s y k e
      rw [e] at hsafe
      obtain ⟨l, len⟩ := s
      cases l with
      | static t => exact hsafe.elim
      | dyn n =>
        obtain ⟨arr, h1, _⟩ := hsafe
        exact Or.inr ⟨n, rfl, by rw [h1]; nofun⟩
    · rename_i s y k e
      rw [e] at hsafe
      obtain ⟨l, len⟩ := s
      cases l with
      | static t => exact Or.inl ⟨t, rfl, rfl⟩
      | dyn n =>
        obtain ⟨arr, _, h1, _⟩ := hsafe
        exact Or.inr ⟨n, rfl, by rw [h1]; nofun⟩
    · rename_i s y z k e
      rw [e] at hsafe
      obtain ⟨l, len⟩ := s
      cases l with
      | static t => exact hsafe.elim
      | dyn n =>
        obtain ⟨arr, h1, _⟩ := hsafe
        exact Or.inr ⟨n, rfl, by rw [h1]; nofun⟩
  rcases key i w hi with ⟨t, rfl, h1⟩ | ⟨n, rfl, h1⟩
  · rcases key j w' hj with ⟨t', _, h2⟩ | ⟨n, h2, _⟩
    · exact ⟨h1, h2⟩
    · cases h2
  · rcases key j w' hj with ⟨t', h2, _⟩ | ⟨n', h2, h3⟩
    · cases h2
    · cases h2
      exact absurd (h.apart i j n h1 h3) hij
end

end Verif.Glob.Heap
