import Verif.Closest.HistoryProps
import Verif.Closest.Shared
/-
C95: searches and calls of `Add` at the same time.
-/
namespace Verif.Closest
open Spec

/-! ### One search -/

theorem Inv.any {cm cm' : CM} {n k : Nat} {t : Scores} {c : Conf} (h : Inv cm n k t c) : Inv cm' n k (Closest.total cm' c) c :=
  ⟨rfl, h.count, h.need, h.closed, h.open_, h.mux, h.exited, h.workers⟩

/-- The fragments a search has not computed yet. -/
def Worker.frag : Worker → List Str
  | .got f => [f]
  | .locked f => [f]
  | _ => []

def Worker.out : Worker → Scores
  | .computed m => m
  | _ => zeroS

def pendingList (c : Conf) : List Str := c.toSend ++ (c.jobs ++ c.ws.flatMap Worker.frag)

/-- What has been computed so far. -/
def sofar (c : Conf) : Scores := merge c.acc (merge (sumS c.results) (sumS (c.ws.map Worker.out)))

theorem outSum_split (l₁ : List Worker) (w) (l₂) : sumS ((l₁ ++ w :: l₂).map Worker.out) =
    merge (sumS (l₁.map Worker.out)) (merge w.out (sumS (l₂.map Worker.out))) := by
  rw [List.map_append, List.map_cons, sumS_append, sumS_cons]

theorem frag_split (l₁ : List Worker) (w) (l₂) : (l₁ ++ w :: l₂).flatMap Worker.frag = l₁.flatMap Worker.frag ++ (w.frag ++ l₂.flatMap Worker.frag) := by
  rw [List.flatMap_append, List.flatMap_cons]

/-- What a step does to the fragments not computed yet and to the sum: nothing, or one fragment is computed. -/
theorem step_effect {cm : CM} {cap : Nat} {c c' : Conf} (hs : Step cm cap c (some c')) :
    ((pendingList c').Perm (pendingList c) ∧ sofar c' = sofar c) ∨
    ∃ f l₁ l₂, c.ws = l₁ ++ .locked f :: l₂ ∧ (f :: pendingList c').Perm (pendingList c) ∧ sofar c' = merge (sofar c) (contrib cm f) := by
  unfold pendingList sofar
  cases hs with
  | send f r e hl =>
    left
    refine ⟨?_, rfl⟩
    rw [e]
    simp only [List.append_assoc, List.cons_append, List.nil_append]
    have : (r ++ (c.jobs ++ f :: c.ws.flatMap Worker.frag)).Perm (r ++ f :: (c.jobs ++ c.ws.flatMap Worker.frag)) :=
      List.perm_middle.append_left _
    exact this.trans List.perm_middle
  | close e hc => exact Or.inl ⟨List.Perm.refl _, rfl⟩
  | take f r l₁ l₂ e ew =>
    left
    rw [e, ew, frag_split, frag_split, outSum_split, outSum_split]
    simp only [Worker.frag, Worker.out, List.nil_append, List.cons_append]
    refine ⟨?_, trivial⟩
    apply List.Perm.append_left
    have h1 : (r ++ (l₁.flatMap Worker.frag ++ f :: l₂.flatMap Worker.frag)).Perm (r ++ f :: (l₁.flatMap Worker.frag ++ l₂.flatMap Worker.frag)) :=
      List.perm_middle.append_left _
    exact h1.trans List.perm_middle
  | exit l₁ l₂ e hc ew =>
    left
    rw [ew, frag_split, frag_split, outSum_split, outSum_split]
    exact ⟨List.Perm.refl _, rfl⟩
  | lock f l₁ l₂ hm ew =>
    left
    rw [ew, frag_split, frag_split, outSum_split, outSum_split]
    exact ⟨List.Perm.refl _, rfl⟩
  | compute f l₁ l₂ order m ew hp hl =>
    right
    have hm : m = contrib cm f := by
      classical
      rw [lookup_eq cm f order hp] at hl
      split at hl
      · cases hl
      · injection hl with hl; exact hl.symm
    refine ⟨f, l₁, l₂, ew, ?_, ?_⟩
    · rw [ew, frag_split, frag_split]
      simp only [Worker.frag, List.nil_append, List.cons_append]
      have h1 : (l₁.flatMap Worker.frag ++ f :: l₂.flatMap Worker.frag).Perm (f :: (l₁.flatMap Worker.frag ++ l₂.flatMap Worker.frag)) :=
        List.perm_middle
      have h2 := (h1.append_left c.jobs).append_left c.toSend
      refine List.Perm.trans ?_ h2.symm
      have h3 : (c.jobs ++ f :: (l₁.flatMap Worker.frag ++ l₂.flatMap Worker.frag)).Perm
        (f :: (c.jobs ++ (l₁.flatMap Worker.frag ++ l₂.flatMap Worker.frag))) := List.perm_middle
      exact ((h3.append_left c.toSend).trans List.perm_middle).symm
    · rw [ew, outSum_split, outSum_split, hm]
      simp only [Worker.out, zero_merge]
      ac_rfl
  | result m l₁ l₂ ew hl =>
    left
    rw [ew, frag_split, frag_split, outSum_split, outSum_split]
    refine ⟨List.Perm.refl _, ?_⟩
    simp only [Worker.out, zero_merge, sumS_append, sumS_cons]
    change merge _ (merge (merge _ (merge _ zeroS)) _) = _
    rw [merge_zero]; ac_rfl
  | receive m r n hc hn e =>
    left
    rw [e]
    refine ⟨List.Perm.refl _, ?_⟩
    simp only [sumS_cons]; ac_rfl

/-- The contribution of a fragment, from the abstract index. -/
noncomputable def idxContrib (x : Idx) (f : Str) : Scores := by
  classical exact fun k => if (∃ i ∈ x.holders f, x.word i = k) then
    (some (((x.holders f).filter fun i => x.word i = k).card * (1 + 1000 / k.length + 1000 / (x.holders f).card))) else none

theorem Holds.contrib_eq {sizes : List Nat} {x : Idx} {cm : CM} (h : Holds sizes x cm) (f : Str) : contrib cm f = idxContrib x f := by
  classical
  funext k
  rw [h.contrib_apply]
  unfold idxContrib
  split <;> rfl

/-- The invariant of a search. `past` has the fragments computed, each with the number of word lists entered at that time. -/
structure SearchInv (other : Str → Str) (sizes : List Nat) (lists : List (List Str)) (x : Search) : Prop where
  inv : ∃ cm t, Inv cm x.cap 8 t x.conf
  past : ∃ past : List (Str × Nat), (∃ fs, fs.Nodup ∧ fs.toFinset = frags sizes x.query ∧ (pendingList x.conf ++ past.map Prod.fst).Perm fs) ∧
    (∀ p ∈ past, x.since ≤ p.2 ∧ p.2 ≤ lists.length) ∧
    sofar x.conf = sumS (past.map fun p => idxContrib (history other sizes (lists.take p.2)) p.1)
  since : x.since ≤ lists.length

/-- The invariant of the whole. -/
structure SharedInv (other : Str → Str) (sizes : List Nat) (s : Shared) : Prop where
  szs : s.cm.sizes = sizes.map Int.ofNat
  index : s.adding = none → Holds sizes (history other sizes s.lists) s.cm
  adding : ∀ i ws, s.adding = some (i, ws) → ∃ before words, s.lists = before ++ [words] ∧ words.drop i = ws ∧
    ∃ cm₀, Holds sizes (history other sizes before) cm₀ ∧ addWords other 0 words cm₀ = addWords other i ws s.cm
  excl : s.adding.isSome → ∀ x ∈ s.searches, x.conf.mux = false
  one : s.searches.Pairwise fun x y => ¬ (x.conf.mux = true ∧ y.conf.mux = true)
  searches : ∀ x ∈ s.searches, SearchInv other sizes s.lists x

theorem SearchInv.step {other : Str → Str} {sizes : List Nat} {lists : List (List Str)} {x : Search} (h : SearchInv other sizes lists x) {cm : CM} {c : Conf}
    (hh : x.conf.mux = true → Holds sizes (history other sizes lists) cm) (hs : Step cm x.cap x.conf (some c)) : SearchInv other sizes lists { x with conf := c } := by
  obtain ⟨⟨cm', t, hi⟩, ⟨past, ⟨fs, h1, h2, h3⟩, h4, h5⟩, h6⟩ := h
  refine ⟨⟨cm, _, (hi.any (cm' := cm)).step hs⟩, ?_, h6⟩
  rcases step_effect hs with ⟨e1, e2⟩ | ⟨f, l₁, l₂, ew, e1, e2⟩
  · exact ⟨past, ⟨fs, h1, h2, (e1.append_right _).trans h3⟩, h4, by simp only; rw [e2, h5]⟩
  · have hmux : x.conf.mux = true := by
      have := hi.mux
      rw [ew, holdSum_split] at this
      cases hm : x.conf.mux with
      | true => rfl
      | false => rw [hm] at this; simp [Worker.holds] at this
    have hold := hh hmux
    refine ⟨(f, lists.length) :: past, ⟨fs, h1, h2, ?_⟩, ?_, ?_⟩
    · refine List.Perm.trans ?_ h3
      rw [List.map_cons]
      exact List.perm_middle.trans (e1.append_right (past.map Prod.fst))
    · intro p hp
      rcases List.mem_cons.1 hp with rfl | hp
      · exact ⟨h6, Nat.le_refl _⟩
      · exact h4 p hp
    · simp only
      rw [e2, h5, List.map_cons, sumS_cons, hold.contrib_eq, List.take_length, merge_comm]

theorem SearchInv.grow {other : Str → Str} {sizes : List Nat} {lists : List (List Str)} {x : Search} (h : SearchInv other sizes lists x) (words : List Str) :
    SearchInv other sizes (lists ++ [words]) x := by
  obtain ⟨hi, ⟨past, hp, h4, h5⟩, h6⟩ := h
  refine ⟨hi, ⟨past, hp, fun p hp => ?_, ?_⟩, ?_⟩
  · have := h4 p hp
    rw [List.length_append]
    omega
  · rw [h5]
    congr 1
    apply List.map_congr_left
    intro p hp
    rw [List.take_append_of_le_length (h4 p hp).2]
  · rw [List.length_append]; omega

theorem mux_set {cm : CM} {cap : Nat} {c c' : Conf} (_hs : Step cm cap c (some c')) : c'.mux = false ∨ c.mux = true ∨ (c.mux = false ∧ c'.mux = true) := by
  cases c.mux <;> cases c'.mux <;> simp

theorem SharedInv.step {other : Str → Str} {sizes : List Nat} {s s' : Shared} (h : SharedInv other sizes s) (hs : SStep other s (some s')) :
    SharedInv other sizes s' := by
  obtain ⟨h1, h2, h3, h4, h5, h6⟩ := h
  cases hs with
  | search l₁ x l₂ c e hst hl =>
    have hx : x ∈ s.searches := by rw [e]; simp
    have hnone : x.conf.mux = true → s.adding = none := by
      intro hm
      cases ha : s.adding with
      | none => rfl
      | some a => have := h4 (by rw [ha]; rfl) x hx; rw [hm] at this; cases this
    have others : c.mux = true → ∀ y, y ∈ l₁ ∨ y ∈ l₂ → y.conf.mux = false := by
      intro hc y hy
      rcases mux_set hst with hm | hm | ⟨hm, -⟩
      · rw [hc] at hm; cases hm
      · rw [e, List.pairwise_append, List.pairwise_cons] at h5
        obtain ⟨-, ⟨g1, -⟩, g2⟩ := h5
        cases hyy : y.conf.mux with
        | false => rfl
        | true =>
          rcases hy with hy | hy
          · exact absurd ⟨hyy, hm⟩ (g2 y hy x List.mem_cons_self)
          · exact absurd ⟨hm, hyy⟩ (g1 y hy)
      · refine (hl hm hc).2 y ?_
        rw [e]
        rcases hy with hy | hy <;> simp [hy]
    refine ⟨h1, h2, h3, ?_, ?_, ?_⟩
    · intro ha y hy
      simp only [List.mem_append, List.mem_cons] at hy
      rcases hy with hy | rfl | hy
      · exact h4 ha y (by rw [e]; simp [hy])
      · simp only
        cases hc : c.mux with
        | false => rfl
        | true =>
          exfalso
          rcases mux_set hst with hm | hm | ⟨hm, -⟩
          · rw [hc] at hm; cases hm
          · have := hnone hm
            simp only at ha
            rw [this] at ha; cases ha
          · have := (hl hm hc).1
            simp only at ha
            rw [this] at ha; cases ha
      · exact h4 ha y (by rw [e]; simp [hy])
    · rw [e] at h5
      simp only [List.pairwise_append, List.pairwise_cons, List.mem_cons] at h5 ⊢
      obtain ⟨g1, ⟨g2, g3⟩, g4⟩ := h5
      refine ⟨g1, ⟨?_, g3⟩, ?_⟩
      · rintro y hy ⟨a, b⟩
        rw [others a y (Or.inr hy)] at b; cases b
      · rintro y hy z (rfl | hz)
        · rintro ⟨a, b⟩
          rw [others b y (Or.inl hy)] at a; cases a
        · exact g4 y hy z (Or.inr hz)
    · intro y hy
      simp only [List.mem_append, List.mem_cons] at hy
      rcases hy with hy | rfl | hy
      · exact h6 y (by rw [e]; simp [hy])
      · exact (h6 x hx).step (fun hm => h2 (hnone hm)) hst
      · exact h6 y (by rw [e]; simp [hy])
  | word i w ws cm e ea =>
    obtain ⟨before, words, g1, g2, cm₀, g3, g4⟩ := h3 i _ e
    refine ⟨?_, nofun, ?_, fun _ => h4 (by rw [e]; rfl), h5, h6⟩
    · unfold Closest.addWord at ea
      cases hsp : splitWord s.cm.sizes (toLower other w) with
      | none => rw [hsp] at ea; cases ea
      | some fs =>
        rw [hsp] at ea
        injection ea with ea
        rw [← ea]; exact h1
    · intro j us hj
      simp only [Option.some.injEq, Prod.mk.injEq] at hj
      obtain ⟨rfl, rfl⟩ := hj
      refine ⟨before, words, g1, ?_, cm₀, g3, ?_⟩
      · rw [← List.drop_drop, g2]; rfl
      · rw [g4, Closest.addWords, ea]; rfl
  | unlock i e =>
    obtain ⟨before, words, g1, g2, cm₀, g3, g4⟩ := h3 i _ e
    obtain ⟨cm', k1, k2⟩ := g3.add words
    have : cm' = s.cm := by
      have k : addWords other 0 words cm₀ = some cm' := k1
      rw [g4] at k
      injection k with k; exact k.symm
    subst this
    refine ⟨h1, fun _ => ?_, nofun, nofun, h5, h6⟩
    simp only
    rw [g1]; exact k2

theorem SharedInv.begins {other : Str → Str} {sizes : List Nat} {s s' : Shared} (h : SharedInv other sizes s) (hs : SBegin s s') :
    SharedInv other sizes s' := by
  obtain ⟨h1, h2, h3, h4, h5, h6⟩ := h
  cases hs with
  | search q fs order e hp =>
    refine ⟨h1, h2, h3, ?_, ?_, ?_⟩
    · intro ha y hy
      rcases List.mem_append.1 hy with hy | hy
      · exact h4 ha y hy
      · rw [List.mem_singleton.1 hy]; rfl
    · rw [List.pairwise_append]
      refine ⟨h5, List.pairwise_singleton _ _, ?_⟩
      rintro y - z hz ⟨-, b⟩
      rw [List.mem_singleton.1 hz] at b; cases b
    · intro y hy
      rcases List.mem_append.1 hy with hy | hy
      · exact h6 y hy
      · rw [List.mem_singleton.1 hy]
        obtain ⟨fs', e', hn, hf⟩ := splitWord_eq sizes q
        rw [h1, e'] at e
        injection e with e
        subst e
        have hl : s.ended ≤ s.lists.length := by unfold Shared.ended; omega
        have hst := Inv.start s.cm 8 order
        rw [hp.length_eq] at hst
        refine ⟨⟨s.cm, _, hst⟩, ⟨[], ⟨fs', hn, hf, ?_⟩, nofun, ?_⟩, hl⟩
        · have : pendingList (start 8 order) = order := by
            simp [pendingList, start, Worker.frag]
          simp only [this, List.map_nil, List.append_nil]
          exact hp
        · have hv : ∀ k, sumS ((List.replicate k Worker.idle).map Worker.out) = zeroS := by
            intro k
            induction k with
            | zero => rfl
            | succ k ih => rw [List.replicate_succ, List.map_cons, sumS_cons, ih]; exact zero_merge _
          unfold sofar start
          simp only [hv]
          rfl
  | add words hfree =>
    refine ⟨h1, nofun, ?_, fun _ => hfree.2, h5, fun x hx => (h6 x hx).grow words⟩
    intro i ws e
    simp only [Option.some.injEq, Prod.mk.injEq] at e
    obtain ⟨rfl, rfl⟩ := e
    exact ⟨s.lists, words, rfl, rfl, s.cm, h2 hfree.1, rfl⟩

theorem SharedInv.reach {other : Str → Str} {sizes : List Nat} {s₀ s : Shared} (h : SharedInv other sizes s₀) (hr : SReach other s₀ s) :
    SharedInv other sizes s := by
  induction hr with
  | refl => exact h
  | step _ hs ih => exact ih.step hs
  | begins _ hs ih => exact ih.begins hs

theorem sharedInv0 {other : Str → Str} {sizes : List Nat} {words : List Str} {cm : CM} (hcm : new other words (sizes.map Int.ofNat) = some cm) :
    SharedInv other sizes (shared0 cm words) := by
  obtain ⟨cm', e, h⟩ := holds_history other sizes words []
  rw [hcm] at e
  have e' : cm = cm' := by simpa using e
  subst e'
  exact ⟨h.szs, fun _ => h, nofun, nofun, List.Pairwise.nil, nofun⟩

/-! ## C95 -/

/-- The workers that look into the index at the moment. -/
def lookers (s : Shared) : Nat := (s.searches.map fun x => holdSum x.conf.ws).sum

/-- **C95** While a call of `Add` changes the index, no worker of any search looks into it; and never do two workers at once. -/
theorem C95_exclusive (other : Str → Str) (sizes : List Nat) (words : List Str) (cm : CM) (hcm : new other words (sizes.map Int.ofNat) = some cm)
    (s : Shared) (hs : SReach other (shared0 cm words) s) : lookers s ≤ 1 ∧ (s.adding.isSome → lookers s = 0) := by
  obtain ⟨-, -, -, h4, h5, h6⟩ := (sharedInv0 hcm).reach hs
  unfold lookers
  have hm : ∀ x ∈ s.searches, holdSum x.conf.ws = x.conf.mux.toNat := fun x hx => by
    obtain ⟨cm, t, hi⟩ := (h6 x hx).inv; exact hi.mux
  rw [List.map_congr_left hm]
  constructor
  · clear hm h4 h6
    generalize s.searches = l at h5
    induction l with
    | nil => simp
    | cons x l ih =>
      rw [List.pairwise_cons] at h5
      rw [List.map_cons, List.sum_cons]
      cases hx : x.conf.mux with
      | false => simp only [Bool.toNat_false, Nat.zero_add]; exact ih h5.2
      | true =>
        have : (l.map fun x => x.conf.mux.toNat).sum = 0 := by
          rw [List.sum_eq_zero_iff]
          intro v hv
          obtain ⟨y, hy, rfl⟩ := List.mem_map.1 hv
          cases hyy : y.conf.mux with
          | false => rfl
          | true => exact absurd ⟨hx, hyy⟩ (h5.1 y hy)
        rw [this]; simp
  · intro ha
    rw [List.sum_eq_zero_iff]
    intro v hv
    obtain ⟨y, hy, rfl⟩ := List.mem_map.1 hv
    rw [h4 ha y hy]; rfl

/-- The score of a word when the fragment `f` is looked up at a time when the word lists `at_ f` have been entered. -/
def mixedScore (other : Str → Str) (sizes : List Nat) (at_ : Str → List (List Str)) (q k : Str) : Nat :=
  ∑ f ∈ frags sizes q, (((history other sizes (at_ f)).holders f).filter fun i => (history other sizes (at_ f)).word i = k).card *
    (1 + 1000 / k.length + 1000 / ((history other sizes (at_ f)).holders f).card)

/-- **C95** Any number of searches and calls of `Add`: when a search ends, there is for each fragment of its query a number of word lists,
not less than the number of those entered when the search began and not more than that of those entered (or begun) now, such that the score of
each word is the sum of its points for the fragments, each in the index of that many word lists. In particular no call of `Add` is ever seen
half. -/
theorem C95_result (other : Str → Str) (sizes : List Nat) (words : List Str) (cm : CM) (hcm : new other words (sizes.map Int.ofNat) = some cm)
    (s : Shared) (hs : SReach other (shared0 cm words) s) (x : Search) (hx : x ∈ s.searches) (hd : x.conf.done) :
    ∃ n : Str → Nat, (∀ f, x.since ≤ n f ∧ n f ≤ s.lists.length) ∧ ∀ k v, x.conf.acc k = some v ↔
      (∃ f ∈ frags sizes x.query, ∃ i ∈ (history other sizes (s.lists.take (n f))).holders f, (history other sizes (s.lists.take (n f))).word i = k) ∧
      mixedScore other sizes (fun f => s.lists.take (n f)) x.query k = v := by
  classical
  obtain ⟨⟨cm', t, hi⟩, ⟨past, ⟨fs, h1, h2, h3⟩, h4, h5⟩, h6⟩ := ((sharedInv0 hcm).reach hs).searches x hx
  have hcnt := hi.count
  rw [hd.2] at hcnt
  have hr : x.conf.results = [] := List.length_eq_zero_iff.1 (by omega)
  have hj : x.conf.jobs = [] := List.length_eq_zero_iff.1 (by omega)
  have hb : ∀ w ∈ x.conf.ws, w.busy = 0 := by
    intro w hw
    have h1 : busySum x.conf.ws = 0 := by omega
    unfold busySum at h1
    rw [List.sum_eq_zero_iff] at h1
    exact h1 _ (List.mem_map_of_mem hw)
  have hws : ∀ ws : List Worker, (∀ w ∈ ws, w.busy = 0) → ws.flatMap Worker.frag = [] ∧ sumS (ws.map Worker.out) = zeroS := by
    intro ws hws
    induction ws with
    | nil => exact ⟨rfl, rfl⟩
    | cons w ws ih =>
      obtain ⟨i1, i2⟩ := ih (fun v hv => hws v (List.mem_cons_of_mem _ hv))
      rw [List.flatMap_cons, i1, List.map_cons, sumS_cons, i2, merge_zero]
      have := hws w List.mem_cons_self
      cases w <;> simp [Worker.busy] at this <;> exact ⟨rfl, rfl⟩
  have hpend : pendingList x.conf = [] := by
    unfold pendingList; rw [hj, hi.closed hd.1, (hws _ hb).1]; rfl
  have hacc : sofar x.conf = x.conf.acc := by
    unfold sofar; rw [hr, (hws _ hb).2]; rfl
  rw [hpend, List.nil_append] at h3
  rw [hacc] at h5
  -- the function
  have hnd : (past.map Prod.fst).Nodup := h3.nodup_iff.2 h1
  let n : Str → Nat := fun f => if h : ∃ p ∈ past, p.1 = f then (Classical.choose h).2 else s.lists.length
  have hn : ∀ p ∈ past, n p.1 = p.2 := by
    intro p hp
    have hex : ∃ p' ∈ past, p'.1 = p.1 := ⟨p, hp, rfl⟩
    simp only [n, dif_pos hex]
    have hc := Classical.choose_spec hex
    have := List.inj_on_of_nodup_map hnd hc.1 hp hc.2
    rw [this]
  refine ⟨n, ?_, ?_⟩
  · intro f
    simp only [n]
    split
    · rename_i h
      exact h4 _ (Classical.choose_spec h).1
    · exact ⟨h6, Nat.le_refl _⟩
  · intro k v
    have hl : past.map (fun p => idxContrib (history other sizes (s.lists.take p.2)) p.1) =
        (past.map Prod.fst).map fun f => idxContrib (history other sizes (s.lists.take (n f))) f := by
      rw [List.map_map]
      apply List.map_congr_left
      intro p hp
      simp only [Function.comp]
      rw [hn p hp]
    rw [h5, hl, sumS_perm (h3.map _), sumS_apply]
    have hmem : ∀ f, f ∈ fs ↔ f ∈ frags sizes x.query := by intro f; rw [← h2, List.mem_toFinset]
    have hcond : (∃ m ∈ fs.map (fun f => idxContrib (history other sizes (s.lists.take (n f))) f), (m k).isSome) ↔
        ∃ f ∈ frags sizes x.query, ∃ i ∈ (history other sizes (s.lists.take (n f))).holders f, (history other sizes (s.lists.take (n f))).word i = k := by
      constructor
      · rintro ⟨m, hm, hk⟩
        obtain ⟨f, hf, rfl⟩ := List.mem_map.1 hm
        refine ⟨f, (hmem f).1 hf, ?_⟩
        unfold idxContrib at hk
        by_contra hc
        rw [if_neg hc] at hk
        cases hk
      · rintro ⟨f, hf, hc⟩
        refine ⟨_, List.mem_map.2 ⟨f, (hmem f).2 hf, rfl⟩, ?_⟩
        unfold idxContrib
        rw [if_pos hc]; rfl
    have hsum : (List.map (fun m : Scores => (m k).getD 0) (fs.map fun f => idxContrib (history other sizes (s.lists.take (n f))) f)).sum =
        mixedScore other sizes (fun f => s.lists.take (n f)) x.query k := by
      unfold mixedScore
      rw [← h2, List.sum_toFinset _ h1, List.map_map]
      congr 1
      apply List.map_congr_left
      intro f _
      simp only [Function.comp]
      unfold idxContrib
      split
      · rfl
      · rename_i hno
        have : (((history other sizes (s.lists.take (n f))).holders f).filter fun i => (history other sizes (s.lists.take (n f))).word i = k) = ∅ := by
          rw [Finset.filter_eq_empty_iff]
          intro i hi he
          exact hno ⟨i, hi, he⟩
        rw [this]
        simp
    rw [hsum]
    by_cases hc : ∃ f ∈ frags sizes x.query, ∃ i ∈ (history other sizes (s.lists.take (n f))).holders f, (history other sizes (s.lists.take (n f))).word i = k
    · rw [if_pos (hcond.2 hc)]
      constructor
      · intro e; injection e with e; exact ⟨hc, e⟩
      · rintro ⟨-, rfl⟩; rfl
    · rw [if_neg (fun e => hc (hcond.1 e))]
      constructor
      · intro e; cases e
      · rintro ⟨h, -⟩; exact absurd h hc

/-- **C95** A search that begins has as its lower bound all the word lists entered, except the one that is being entered, if there is one. -/
theorem C95_since (other : Str → Str) (sizes : List Nat) (words : List Str) (cm : CM) (hcm : new other words (sizes.map Int.ofNat) = some cm)
    (s : Shared) (hs : SReach other (shared0 cm words) s) (s' : Shared) (hb : SBegin s s') (x : Search) (hx : s'.searches = s.searches ++ [x]) :
    (s.adding = none → x.since = s.lists.length) ∧ (s.adding ≠ none → x.since + 1 = s.lists.length) := by
  have h := (sharedInv0 hcm).reach hs
  cases hb with
  | search q fs order e hp =>
    have : x = ⟨q, s.ended, fs.length, start 8 order⟩ := by simpa using hx.symm
    subst this
    unfold Shared.ended
    refine ⟨fun ha => by simp [ha], fun ha => ?_⟩
    obtain ⟨⟨i, ws⟩, ha⟩ := Option.ne_none_iff_exists'.1 ha
    obtain ⟨before, words', g, -⟩ := h.adding i ws ha
    simp only [ha, Option.isSome_some, if_true, g, List.length_append, List.length_singleton]
    omega
  | add ws hfree => exact absurd hx (by simp)

/-- **C95** If no `Add` is called while a search runs, the search gives the scores of the index at that time, whatever other searches do. -/
theorem C95_undisturbed (other : Str → Str) (sizes : List Nat) (words : List Str) (cm : CM) (hcm : new other words (sizes.map Int.ofNat) = some cm)
    (s : Shared) (hs : SReach other (shared0 cm words) s) (x : Search) (hx : x ∈ s.searches) (hd : x.conf.done) (hq : x.since = s.lists.length) (k : Str) (v : Nat) :
    x.conf.acc k = some v ↔ (history other sizes s.lists).Found sizes x.query k ∧ (history other sizes s.lists).score sizes x.query k = v := by
  obtain ⟨n, h1, h2⟩ := C95_result other sizes words cm hcm s hs x hx hd
  have hn : ∀ f, s.lists.take (n f) = s.lists := by
    intro f
    have := h1 f
    rw [show n f = s.lists.length by omega, List.take_length]
  rw [h2]
  simp only [hn]
  rfl

/-- **C95** No deadlock: if no goroutine can take a step, no call of `Add` is under way, and all searches have ended with all their workers. -/
theorem C95_no_deadlock (other : Str → Str) (sizes : List Nat) (words : List Str) (cm : CM) (hcm : new other words (sizes.map Int.ofNat) = some cm)
    (s : Shared) (hs : SReach other (shared0 cm words) s) (hstuck : ∀ o, ¬ SStep other s o) :
    s.adding = none ∧ ∀ x ∈ s.searches, x.conf.done ∧ ∀ w ∈ x.conf.ws, w = .exited := by
  obtain ⟨h1, h2, h3, h4, h5, h6⟩ := (sharedInv0 hcm).reach hs
  have ha : s.adding = none := by
    cases ha : s.adding with
    | none => rfl
    | some p =>
      obtain ⟨i, ws⟩ := p
      cases ws with
      | nil => exact absurd (SStep.unlock s i ha) (hstuck _)
      | cons w ws =>
        cases hw : addWord other s.cm i w with
        | none => exact absurd (SStep.wordCrash s i w ws ha hw) (hstuck _)
        | some cm' => exact absurd (SStep.word s i w ws cm' ha hw) (hstuck _)
  have hfree : ∀ x ∈ s.searches, x.conf.mux = false := by
    intro x hx
    cases hm : x.conf.mux with
    | false => rfl
    | true =>
      exfalso
      obtain ⟨cm', t, hi⟩ := (h6 x hx).inv
      have hh : 0 < holdSum x.conf.ws := by rw [hi.mux, hm]; decide
      obtain ⟨l₁, w, l₂, e, hw⟩ := exists_of_sum hh
      obtain ⟨k₁, k₂, ek⟩ := List.append_of_mem hx
      cases w with
      | locked f =>
        cases hl : lookup s.cm f ((s.cm.sub f).getD []) with
        | none => exact hstuck _ (.crash s k₁ x k₂ ek (.crash _ f l₁ l₂ _ e (List.Perm.refl _) hl))
        | some m => exact hstuck _ (.search s k₁ x k₂ _ ek (.compute _ f l₁ l₂ _ m e (List.Perm.refl _) hl) (by intro h; rw [hm] at h; cases h))
      | _ => simp [Worker.holds] at hw
  refine ⟨ha, fun x hx => ?_⟩
  by_contra hc
  obtain ⟨cm', t, hi⟩ := (h6 x hx).inv
  obtain ⟨k₁, k₂, ek⟩ := List.append_of_mem hx
  obtain ⟨o, ho⟩ := (hi.any (cm' := s.cm)).progress (by omega) hc
  cases o with
  | none => exact hstuck _ (.crash s k₁ x k₂ ek ho)
  | some c => exact hstuck _ (.search s k₁ x k₂ c ek ho (fun _ _ => ⟨ha, hfree⟩))

/-- A number that falls with every step of a call that has begun. -/
def sharedMeasure (s : Shared) : Nat :=
  (s.searches.map fun x => measure x.conf).sum + (match s.adding with | none => 0 | some (_, ws) => ws.length + 1)

/-- **C95** Only finitely many steps can be taken until another call begins. -/
theorem C95_terminates (other : Str → Str) (s : Nat → Shared) : ¬ ∀ i, SStep other (s i) (some (s (i + 1))) := by
  have hstep : ∀ a b, SStep other a (some b) → sharedMeasure b < sharedMeasure a := by
    intro a b h
    unfold sharedMeasure
    cases h with
    | search l₁ x l₂ c e hst hl =>
      have := measure_step hst
      rw [e]
      simp only [List.map_append, List.map_cons, List.sum_append, List.sum_cons]
      omega
    | word i w ws cm e ea => simp only [e, List.length_cons]; omega
    | unlock i e => simp only [e, List.length_nil]; omega
  intro h
  have : ∀ i, sharedMeasure (s i) + i ≤ sharedMeasure (s 0) := by
    intro i
    induction i with
    | zero => omega
    | succ i ih => have := hstep _ _ (h i); omega
  have := this (sharedMeasure (s 0) + 1)
  omega

/-- Such a history: `New(["ab"])`, a search for "ab" begins, `Add(["xy"])` takes place before the worker of the search gets the mutex, and the
search ends: it finds "xy". -/
example : ∃ cm s x, new id [lit "ab"] [2] = some cm ∧ SReach id (shared0 cm [lit "ab"]) s ∧ x ∈ s.searches ∧ x.conf.done ∧ x.query = lit "ab" ∧
    x.since = 1 ∧ s.lists = [[lit "ab"], [lit "xy"]] ∧ x.conf.acc (lit "xy") = some 1501 := by
  obtain ⟨cm, hcm, -⟩ := new_indexed id [lit "ab"] [2]
  have hcm' : new id [lit "ab"] [2] = some cm := hcm
  have hc : cm = ⟨[2], addId 0 (fun _ => none) (lit "ab"), fun k => if k = 0 then some ⟨lit "ab", 1⟩ else none⟩ := by
    have : new id [lit "ab"] [2] = some ⟨[2], addId 0 (fun _ => none) (lit "ab"), fun k => if k = 0 then some ⟨lit "ab", 1⟩ else none⟩ := rfl
    rw [hcm'] at this
    injection this
  subst hc
  have r1 := (SReach.refl (other := id) (s₀ := shared0 ⟨[2], addId 0 (fun _ => none) (lit "ab"), fun k => if k = 0 then some ⟨lit "ab", 1⟩ else none⟩ [lit "ab"])).begins
    (.search _ (lit "ab") [lit "ab"] [lit "ab"] rfl (List.Perm.refl _))
  have r2 := r1.begins (.add _ [lit "xy"] ⟨rfl, by simp [start, shared0]⟩)
  have r3 := r2.step (.word _ 0 (lit "xy") [] _ rfl rfl)
  have r4 := r3.step (.unlock _ 1 rfl)
  have r5 := r4.step (.search _ [] _ [] _ rfl (.send _ (lit "ab") [] rfl (by decide)) (by intro _ h; cases h))
  have r6 := r5.step (.search _ [] _ [] _ rfl (.take _ (lit "ab") [] [] _ rfl rfl) (by intro _ h; cases h))
  have r7 := r6.step (.search _ [] _ [] _ rfl (.lock _ (lit "ab") [] _ rfl rfl) (by intro _ _; exact ⟨rfl, by simp [start, shared0]⟩))
  have r8 := r7.step (.search _ [] _ [] _ rfl (.compute _ (lit "ab") [] _ [0] _ rfl (List.Perm.refl _) rfl) (by intro h; cases h))
  have r9 := r8.step (.search _ [] _ [] _ rfl (.result _ _ [] _ rfl (by decide)) (by intro _ h; cases h))
  have r10 := r9.step (.search _ [] _ [] _ rfl (.close _ rfl rfl) (by intro _ h; cases h))
  have r11 := r10.step (.search _ [] _ [] _ rfl (.receive _ _ [] 0 rfl rfl rfl) (by intro _ h; cases h))
  exact ⟨_, _, _, hcm', r11, List.mem_singleton.2 rfl, ⟨rfl, rfl⟩, rfl, rfl, rfl, rfl⟩

end Verif.Closest
