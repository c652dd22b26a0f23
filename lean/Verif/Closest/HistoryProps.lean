import Verif.Closest.Props
import Verif.Closest.HistorySpec
/-
C94: what a search finds, and when it crashes, after any history of `New` and `Add`.
-/
namespace Verif.Closest
open Spec

/-- The index `cm` is the abstract index `x`. -/
structure Holds (sizes : List Nat) (x : Idx) (cm : CM) : Prop where
  szs : cm.sizes = sizes.map Int.ofNat
  key : ∀ i, cm.key i = x.word i
  sub : ∀ f, (cm.sub f = none ∧ x.holders f = ∅) ∨ ∃ ids, cm.sub f = some ids ∧ ids.Nodup ∧ ids ≠ [] ∧ ids.toFinset = x.holders f

/-! ### Scores -/

theorem Holds.contrib_apply {sizes : List Nat} {x : Idx} {cm : CM} (h : Holds sizes x cm) (f k : Str) :
    contrib cm f k = if ∃ i ∈ x.holders f, x.word i = k then
      some (((x.holders f).filter fun i => x.word i = k).card * (1 + 1000 / k.length + 1000 / (x.holders f).card)) else none := by
  unfold contrib
  rcases h.sub f with ⟨e1, e2⟩ | ⟨ids, e1, hn, hne, hs⟩
  · rw [e1]
    simp only [e2, Finset.notMem_empty, false_and, exists_false, if_false]
    rfl
  · rw [e1]
    simp only [h.key]
    rw [sumS_apply]
    have hmem : ∀ i, i ∈ ids ↔ i ∈ x.holders f := by intro i; rw [← hs, List.mem_toFinset]
    have hcond : (∃ m ∈ ids.map fun i => single (x.word i) (1 + 1000 / (x.word i).length + 1000 / ids.length), (m k).isSome) ↔
        ∃ i ∈ x.holders f, x.word i = k := by
      constructor
      · rintro ⟨m, hm, hk⟩
        obtain ⟨i, hi, rfl⟩ := List.mem_map.1 hm
        refine ⟨i, (hmem i).1 hi, ?_⟩
        unfold single at hk
        by_contra hc
        rw [if_neg (fun e => hc e.symm)] at hk
        cases hk
      · rintro ⟨i, hi, hk⟩
        refine ⟨_, List.mem_map.2 ⟨i, (hmem i).2 hi, rfl⟩, ?_⟩
        unfold single
        rw [if_pos hk.symm]
        rfl
    by_cases hc : ∃ i ∈ x.holders f, x.word i = k
    · rw [if_pos hc, if_pos (hcond.2 hc)]
      congr 1
      have hcard : (x.holders f).card = ids.length := by rw [← hs]; exact List.toFinset_card_of_nodup hn
      rw [hcard]
      have hf : ((x.holders f).filter fun i => x.word i = k) = (ids.filter fun i => x.word i = k).toFinset := by
        rw [← hs]; ext i; simp
      rw [hf, List.toFinset_card_of_nodup (hn.filter _)]
      clear hf hcard hcond hc hmem hs hne hn e1
      generalize ids.length = n
      induction ids with
      | nil => simp
      | cons i ids ih =>
        rw [List.map_cons, List.map_cons, List.sum_cons, ih, List.filter_cons]
        unfold single
        by_cases e : x.word i = k
        · rw [if_pos e.symm, if_pos (by simpa using e), List.length_cons, e]
          simp only [Option.getD_some]
          ring
        · rw [if_neg (fun h => e h.symm), if_neg (by simpa using e)]
          simp
    · rw [if_neg hc, if_neg (fun e => hc (hcond.1 e))]

open Classical in
theorem Holds.sum_contrib {sizes : List Nat} {x : Idx} {cm : CM} (h : Holds sizes x cm) (q k : Str) (fs : List Str)
    (hn : fs.Nodup) (hf : fs.toFinset = frags sizes q) :
    sumS (fs.map (contrib cm)) k = if x.Found sizes q k then some (x.score sizes q k) else none := by
  rw [sumS_apply]
  have hmem : ∀ f, f ∈ fs ↔ f ∈ frags sizes q := by intro f; rw [← hf, List.mem_toFinset]
  have hcond : (∃ m ∈ fs.map (contrib cm), (m k).isSome) ↔ x.Found sizes q k := by
    constructor
    · rintro ⟨m, hm, hk⟩
      obtain ⟨f, hf, rfl⟩ := List.mem_map.1 hm
      refine ⟨f, (hmem f).1 hf, ?_⟩
      rw [h.contrib_apply] at hk
      by_contra hc
      rw [if_neg hc] at hk
      cases hk
    · rintro ⟨f, hf, hc⟩
      refine ⟨_, List.mem_map.2 ⟨f, (hmem f).2 hf, rfl⟩, ?_⟩
      rw [h.contrib_apply, if_pos hc]; rfl
  by_cases hc : x.Found sizes q k
  · rw [if_pos hc, if_pos (hcond.2 hc)]
    congr 1
    unfold Idx.score
    rw [← hf, List.sum_toFinset _ hn, List.map_map]
    congr 1
    apply List.map_congr_left
    intro f _
    simp only [Function.comp]
    rw [h.contrib_apply]
    split
    · rfl
    · rename_i hno
      have : ((x.holders f).filter fun i => x.word i = k) = ∅ := by
        rw [Finset.filter_eq_empty_iff]
        intro i hi he
        exact hno ⟨i, hi, he⟩
      rw [this]
      simp
  · rw [if_neg hc, if_neg (fun e => hc (hcond.1 e))]

/-- The score map a search must compute. -/
noncomputable def idxScores (x : Idx) (sizes : List Nat) (q : Str) : Scores := by
  classical exact fun k => if x.Found sizes q k then some (x.score sizes q k) else none

theorem idxScores_iff (x : Idx) (sizes : List Nat) (q k : Str) (v : Nat) :
    idxScores x sizes q k = some v ↔ x.Found sizes q k ∧ x.score sizes q k = v := by
  unfold idxScores; split <;> simp [*]

theorem Holds.match_unique {sizes : List Nat} {x : Idx} {cm : CM} (h : Holds sizes x cm) {q : Str} {m : Scores} (hm : Match cm q m) :
    m = idxScores x sizes q := by
  classical
  obtain ⟨fs, e, rfl⟩ := match_sum hm
  obtain ⟨fs', e', hn, hf⟩ := splitWord_eq sizes q
  rw [h.szs, e'] at e
  injection e with e
  subst e
  funext k
  rw [h.sum_contrib q k fs' hn hf]
  unfold idxScores
  rfl

/-! ### Crashes -/

theorem Holds.bad_iff {sizes : List Nat} {x : Idx} {cm : CM} (h : Holds sizes x cm) (f : Str) : bad cm f ↔ ∃ i ∈ x.holders f, x.word i = [] := by
  unfold bad
  simp only [h.key]
  rcases h.sub f with ⟨e1, e2⟩ | ⟨ids, e1, hn, hne, hs⟩
  · rw [e1, e2]; simp
  · rw [e1, ← hs]
    simp only [Option.some.injEq, exists_eq_left', List.mem_toFinset]
    constructor
    · rintro (h | h)
      · exact absurd h hne
      · exact h
    · exact Or.inr

/-- Where the fragment `f` is as long as it is not computed. -/
def pending (f : Str) (c : Conf) : Prop := f ∈ c.toSend ∨ f ∈ c.jobs ∨ .got f ∈ c.ws ∨ .locked f ∈ c.ws

theorem mem_split {l₁ l₂ : List Worker} {w w' v : Worker} (h : v ∈ l₁ ++ w :: l₂) (hne : v ≠ w) : v ∈ l₁ ++ w' :: l₂ := by
  rw [List.mem_append, List.mem_cons] at h ⊢
  rcases h with h | h | h
  · exact Or.inl h
  · exact absurd h hne
  · exact Or.inr (Or.inr h)

theorem mem_new {l₁ l₂ : List Worker} {w : Worker} : w ∈ l₁ ++ w :: l₂ := by simp

theorem pending_step {cm : CM} {cap : Nat} {f : Str} (hb : bad cm f) {c c' : Conf} (hs : Step cm cap c (some c')) (hp : pending f c) : pending f c' := by
  unfold pending at *
  cases hs with
  | send g r e hl =>
    simp only
    rw [e, List.mem_cons] at hp
    rcases hp with (rfl | hp) | hp | hp | hp
    · right; left; simp
    · exact Or.inl hp
    · right; left; simp [hp]
    · exact Or.inr (Or.inr (Or.inl hp))
    · exact Or.inr (Or.inr (Or.inr hp))
  | close e hc => exact hp
  | take g r l₁ l₂ e ew =>
    simp only
    rw [e, ew, List.mem_cons] at hp
    rcases hp with hp | (rfl | hp) | hp | hp
    · exact Or.inl hp
    · exact Or.inr (Or.inr (Or.inl mem_new))
    · exact Or.inr (Or.inl hp)
    · exact Or.inr (Or.inr (Or.inl (mem_split hp (by simp))))
    · exact Or.inr (Or.inr (Or.inr (mem_split hp (by simp))))
  | exit l₁ l₂ e hc ew =>
    simp only
    rw [ew] at hp
    rcases hp with hp | hp | hp | hp
    · exact Or.inl hp
    · exact Or.inr (Or.inl hp)
    · exact Or.inr (Or.inr (Or.inl (mem_split hp (by simp))))
    · exact Or.inr (Or.inr (Or.inr (mem_split hp (by simp))))
  | lock g l₁ l₂ hm ew =>
    simp only
    rw [ew] at hp
    rcases hp with hp | hp | hp | hp
    · exact Or.inl hp
    · exact Or.inr (Or.inl hp)
    · by_cases e : f = g
      · subst e; exact Or.inr (Or.inr (Or.inr mem_new))
      · exact Or.inr (Or.inr (Or.inl (mem_split hp (by simpa using e))))
    · exact Or.inr (Or.inr (Or.inr (mem_split hp (by simp))))
  | compute g l₁ l₂ order m ew hpm hl =>
    simp only
    rw [ew] at hp
    rcases hp with hp | hp | hp | hp
    · exact Or.inl hp
    · exact Or.inr (Or.inl hp)
    · exact Or.inr (Or.inr (Or.inl (mem_split hp (by simp))))
    · by_cases e : f = g
      · subst e
        classical
        rw [lookup_eq cm f _ hpm, if_pos hb] at hl
        cases hl
      · exact Or.inr (Or.inr (Or.inr (mem_split hp (by simpa using e))))
  | result m l₁ l₂ ew hl =>
    simp only
    rw [ew] at hp
    rcases hp with hp | hp | hp | hp
    · exact Or.inl hp
    · exact Or.inr (Or.inl hp)
    · exact Or.inr (Or.inr (Or.inl (mem_split hp (by simp))))
    · exact Or.inr (Or.inr (Or.inr (mem_split hp (by simp))))
  | receive m r n hc hn e => exact hp

theorem pending_steps {cm : CM} {cap : Nat} {f : Str} (hb : bad cm f) {c : Conf} {o : Option Conf} (hs : Steps cm cap c o) (hp : pending f c) :
    ∀ c', o = some c' → pending f c' := by
  induction hs with
  | refl => intro c' e; injection e with e; exact e ▸ hp
  | step h1 h2 ih =>
    intro c' e
    subst e
    exact pending_step hb h2 (ih _ rfl)

/-- A search with a fragment whose lookup crashes never returns. -/
theorem bad_no_match {cm : CM} {q f : Str} {fs : List Str} (e : splitWord cm.sizes q = some fs) (hf : f ∈ fs) (hb : bad cm f) (m : Scores) : ¬ Match cm q m := by
  rintro ⟨fs', order, c, e', hp, hs, hd, -⟩
  rw [e] at e'
  injection e' with e'
  subst e'
  have hpend := pending_steps hb hs (Or.inl (hp.mem_iff.2 hf)) c rfl
  have hinv := (Inv.start cm 8 order).steps hs c rfl
  have hc := hinv.count
  rw [hd.2] at hc
  have hbusy : ∀ w ∈ c.ws, w.busy = 0 := by
    intro w hw
    have h1 : busySum c.ws = 0 := by omega
    unfold busySum at h1
    rw [List.sum_eq_zero_iff] at h1
    exact h1 _ (List.mem_map_of_mem hw)
  rcases hpend with h | h | h | h
  · rw [hinv.closed hd.1] at h; cases h
  · have hj : c.jobs = [] := List.length_eq_zero_iff.1 (by omega)
    rw [hj] at h; cases h
  · have := hbusy _ h; simp [Worker.busy] at this
  · have := hbusy _ h; simp [Worker.busy] at this

/-- A search with such a fragment may crash. -/
theorem bad_panics {cm : CM} {q f : Str} {fs : List Str} (e : splitWord cm.sizes q = some fs) (hf : f ∈ fs) (hb : bad cm f) : MatchPanics cm q := by
  classical
  right
  have hp : (f :: fs.erase f).Perm fs := (List.perm_cons_erase hf).symm
  have hlen : 0 < fs.length := List.length_pos_of_mem hf
  refine ⟨fs, f :: fs.erase f, e, hp, ?_⟩
  refine .step (.step (.step (.step (.refl _) (.send _ f (fs.erase f) rfl hlen)) (.take _ f [] [] _ rfl rfl)) (.lock _ f [] _ rfl rfl))
    (.crash _ f [] _ ((cm.sub f).getD []) rfl (List.Perm.refl _) ?_)
  rw [lookup_eq cm f _ (List.Perm.refl _), if_pos hb]

/-- The fragments in flight are fragments of the query. -/
theorem jobs_within {cm : CM} {cap k : Nat} {order : List Str} {o : Option Conf} (hs : Steps cm cap (start k order) o) :
    ∀ c, o = some c → (∀ f ∈ c.toSend, f ∈ order) ∧ (∀ f ∈ c.jobs, f ∈ order) ∧ ∀ f, (.got f ∈ c.ws ∨ .locked f ∈ c.ws) → f ∈ order := by
  induction hs with
  | refl =>
    intro c e
    injection e with e
    subst e
    refine ⟨fun f h => h, by simp [start], ?_⟩
    intro f h
    simp [start, List.mem_replicate] at h
  | @step c1 o h1 h2 ih =>
    intro c e
    subst e
    obtain ⟨i1, i2, i3⟩ := ih c1 rfl
    have upd : ∀ {l₁ l₂ : List Worker} {w w' : Worker}, c1.ws = l₁ ++ w :: l₂ → (∀ f, (w' = .got f ∨ w' = .locked f) → f ∈ order) →
        ∀ f, (.got f ∈ l₁ ++ w' :: l₂ ∨ .locked f ∈ l₁ ++ w' :: l₂) → f ∈ order := by
      intro l₁ l₂ w w' ew hw f hf
      have g : ∀ v, v ∈ l₁ ++ w' :: l₂ → v = w' ∨ v ∈ c1.ws := by
        intro v hv
        rw [ew]
        simp only [List.mem_append, List.mem_cons] at hv ⊢
        tauto
      rcases hf with hf | hf
      · rcases g _ hf with h | h
        · exact hw f (Or.inl h.symm)
        · exact i3 f (Or.inl h)
      · rcases g _ hf with h | h
        · exact hw f (Or.inr h.symm)
        · exact i3 f (Or.inr h)
    cases h2 with
    | send g r e hl =>
      rw [e] at i1
      refine ⟨fun f hf => i1 f (List.mem_cons_of_mem _ hf), ?_, i3⟩
      intro f hf
      rcases List.mem_append.1 hf with hf | hf
      · exact i2 f hf
      · rw [List.mem_singleton] at hf; rw [hf]; exact i1 g List.mem_cons_self
    | close e hc => exact ⟨i1, i2, i3⟩
    | take g r l₁ l₂ e ew =>
      rw [e] at i2
      refine ⟨i1, fun f hf => i2 f (List.mem_cons_of_mem _ hf), upd ew ?_⟩
      rintro f (h | h)
      · injection h with h; rw [← h]; exact i2 g List.mem_cons_self
      · cases h
    | exit l₁ l₂ e hc ew => exact ⟨i1, i2, upd ew (by rintro f (h | h) <;> cases h)⟩
    | lock g l₁ l₂ hm ew =>
      refine ⟨i1, i2, upd ew ?_⟩
      rintro f (h | h)
      · cases h
      · injection h with h; rw [← h]; exact i3 g (Or.inl (by rw [ew]; exact mem_new))
    | compute g l₁ l₂ order' m ew hp hl => exact ⟨i1, i2, upd ew (by rintro f (h | h) <;> cases h)⟩
    | result m l₁ l₂ ew hl => exact ⟨i1, i2, upd ew (by rintro f (h | h) <;> cases h)⟩
    | receive m r n hc hn e => exact ⟨i1, i2, i3⟩

theorem good_no_crash {cm : CM} {cap k : Nat} {order : List Str} (hg : ∀ f ∈ order, ¬ bad cm f) {c : Conf}
    (hs : Steps cm cap (start k order) (some c)) : ¬ Step cm cap c none := by
  intro h
  cases h with
  | crash f l₁ l₂ ord ew hp hl =>
    classical
    have := (jobs_within hs c rfl).2.2 f (Or.inr (by rw [ew]; exact mem_new))
    rw [lookup_eq cm f _ hp, if_neg (hg f this)] at hl
    cases hl

theorem good_returns {cm : CM} {n k : Nat} {t : Scores} {order : List Str} (hk : 1 ≤ k) (hg : ∀ f ∈ order, ¬ bad cm f) : ∀ (b : Nat) (c : Conf), measure c ≤ b →
    Steps cm n (start k order) (some c) → Inv cm n k t c → ∃ c', Steps cm n (start k order) (some c') ∧ c'.done := by
  intro b
  induction b with
  | zero =>
    intro c hb hs hi
    by_cases hd : c.done ∧ ∀ w ∈ c.ws, w = .exited
    · exact ⟨c, hs, hd.1⟩
    · obtain ⟨o, ho⟩ := hi.progress hk hd
      cases o with
      | none => exact absurd ho (good_no_crash hg hs)
      | some c' => have := measure_step ho; omega
  | succ b ih =>
    intro c hb hs hi
    by_cases hd : c.done ∧ ∀ w ∈ c.ws, w = .exited
    · exact ⟨c, hs, hd.1⟩
    · obtain ⟨o, ho⟩ := hi.progress hk hd
      cases o with
      | none => exact absurd ho (good_no_crash hg hs)
      | some c' => exact ih c' (by have := measure_step ho; omega) (.step hs ho) (hi.step ho)

theorem Holds.match_iff {sizes : List Nat} {x : Idx} {cm : CM} (h : Holds sizes x cm) (q : Str) (m : Scores) :
    Match cm q m ↔ ¬ x.Found sizes q [] ∧ m = idxScores x sizes q := by
  obtain ⟨fs, e, hn, hf⟩ := splitWord_eq sizes q
  rw [← h.szs] at e
  have hbad : (∃ f ∈ fs, bad cm f) ↔ x.Found sizes q [] := by
    unfold Idx.Found
    rw [← hf]
    simp only [List.mem_toFinset, h.bad_iff]
  constructor
  · intro hm
    refine ⟨fun hc => ?_, h.match_unique hm⟩
    obtain ⟨f, hfs, hb⟩ := hbad.2 hc
    exact bad_no_match e hfs hb m hm
  · rintro ⟨hc, rfl⟩
    have hg : ∀ f ∈ fs, ¬ bad cm f := fun f hf hb => hc (hbad.1 ⟨f, hf, hb⟩)
    obtain ⟨c, h1, h2⟩ := good_returns (n := fs.length) (k := 8) (by omega) hg _ (start 8 fs) (Nat.le_refl _) (.refl _) (Inv.start cm 8 fs)
    have hm : Match cm q c.acc := ⟨fs, fs, c, e, List.Perm.refl _, h1, h2, rfl⟩
    rw [← h.match_unique hm]
    exact hm

theorem Holds.panics_iff {sizes : List Nat} {x : Idx} {cm : CM} (h : Holds sizes x cm) (q : Str) : MatchPanics cm q ↔ x.Found sizes q [] := by
  obtain ⟨fs, e, hn, hf⟩ := splitWord_eq sizes q
  rw [← h.szs] at e
  have hbad : (∃ f ∈ fs, bad cm f) ↔ x.Found sizes q [] := by
    unfold Idx.Found
    rw [← hf]
    simp only [List.mem_toFinset, h.bad_iff]
  constructor
  · rintro (h' | ⟨fs', order, e', hp, hs⟩)
    · rw [e] at h'; cases h'
    · rw [e] at e'
      injection e' with e'
      subst e'
      by_contra hc
      cases hs with
      | step h1 h2 => exact good_no_crash (fun f hf hb => hc (hbad.1 ⟨f, hp.mem_iff.1 hf, hb⟩)) h1 h2
  · intro hc
    obtain ⟨f, hfs, hb⟩ := hbad.2 hc
    exact bad_panics e hfs hb

/-! ### Results -/

/-- `all` lists the words found, each once, the best first. -/
structure Ranking (x : Idx) (sizes : List Nat) (q : Str) (all : List Str) : Prop where
  nodup : all.Nodup
  mem : ∀ k, k ∈ all ↔ x.Found sizes q k
  sorted : all.Pairwise fun a b => x.score sizes q b ≤ x.score sizes q a

theorem ranked_iff (x : Idx) (sizes : List Nat) (q : Str) (all : List Str) :
    (∃ pl, Ranked (idxScores x sizes q) pl ∧ pl.map Prod.fst = all) ↔ Ranking x sizes q all := by
  constructor
  · rintro ⟨pl, ⟨h1, h2, h3⟩, rfl⟩
    refine ⟨h1, ?_, ?_⟩
    · intro k
      rw [List.mem_map]
      constructor
      · rintro ⟨⟨k', v⟩, hp, rfl⟩
        exact ((idxScores_iff x sizes q k' v).1 ((h2 k' v).1 hp)).1
      · intro hk
        exact ⟨(k, _), (h2 k _).2 ((idxScores_iff x sizes q k _).2 ⟨hk, rfl⟩), rfl⟩
    · rw [List.pairwise_map]
      refine List.Pairwise.imp_of_mem ?_ h3
      rintro ⟨a, va⟩ ⟨b, vb⟩ ha hb hab
      rw [((idxScores_iff x sizes q a va).1 ((h2 a va).1 ha)).2, ((idxScores_iff x sizes q b vb).1 ((h2 b vb).1 hb)).2]
      exact hab
  · rintro ⟨h1, h2, h3⟩
    have e : (all.map fun k => (k, x.score sizes q k)).map Prod.fst = all := by
      rw [List.map_map]
      conv_rhs => rw [← List.map_id all]
      rfl
    refine ⟨all.map fun k => (k, x.score sizes q k), ⟨by rw [e]; exact h1, ?_, ?_⟩, e⟩
    · intro k v
      rw [idxScores_iff, ← h2, List.mem_map]
      constructor
      · rintro ⟨k', hk', e⟩
        injection e with e1 e2
        subst e1
        exact ⟨hk', e2⟩
      · rintro ⟨hk, rfl⟩
        exact ⟨k, hk, rfl⟩
    · rw [List.pairwise_map]
      exact h3

theorem Holds.closestN_iff {sizes : List Nat} {x : Idx} {cm : CM} (h : Holds sizes x cm) (q : Str) (n : Int) (out : List Str) :
    ClosestN cm q n out ↔ CanMake n ∧ ¬ x.Found sizes q [] ∧ ∃ all, Ranking x sizes q all ∧ out = all.take n.toNat := by
  unfold ClosestN
  constructor
  · rintro ⟨h0, m, pl, hm, hr, rfl⟩
    obtain ⟨h1, rfl⟩ := (h.match_iff q m).1 hm
    exact ⟨h0, h1, _, (ranked_iff x sizes q _).1 ⟨pl, hr, rfl⟩, by rw [takeLoop_eq]; simp⟩
  · rintro ⟨h0, h1, all, hr, rfl⟩
    obtain ⟨pl, h2, rfl⟩ := (ranked_iff x sizes q all).2 hr
    exact ⟨h0, _, pl, (h.match_iff q _).2 ⟨h1, rfl⟩, h2, by rw [takeLoop_eq]; simp⟩

theorem Holds.closest_iff {sizes : List Nat} {x : Idx} {cm : CM} (h : Holds sizes x cm) (q out : Str) :
    Closest cm q out ↔ ¬ x.Found sizes q [] ∧ ∃ all, Ranking x sizes q all ∧ out = all.headD [] := by
  unfold Closest
  constructor
  · rintro ⟨m, pl, hm, hr, rfl⟩
    obtain ⟨h1, rfl⟩ := (h.match_iff q m).1 hm
    exact ⟨h1, _, (ranked_iff x sizes q _).1 ⟨pl, hr, rfl⟩, rfl⟩
  · rintro ⟨h1, all, hr, rfl⟩
    obtain ⟨pl, h2, rfl⟩ := (ranked_iff x sizes q all).2 hr
    exact ⟨_, pl, (h.match_iff q _).2 ⟨h1, rfl⟩, h2, rfl⟩

/-- Any best word can be put first. -/
theorem ranking_first (x : Idx) (sizes : List Nat) (q : Str) (best : Str) (hb : x.Found sizes q best)
    (hm : ∀ k, x.Found sizes q k → x.score sizes q k ≤ x.score sizes q best) : ∃ rest, Ranking x sizes q (best :: rest) := by
  classical
  let S : Finset Str := ((frags sizes q).biUnion x.holders).image x.word
  have hS : ∀ k, k ∈ S ↔ x.Found sizes q k := by
    intro k
    simp only [S, Finset.mem_image, Finset.mem_biUnion]
    unfold Idx.Found
    constructor
    · rintro ⟨i, ⟨f, hf, hi⟩, e⟩; exact ⟨f, hf, i, hi, e⟩
    · rintro ⟨f, hf, i, hi, e⟩; exact ⟨i, ⟨f, hf, hi⟩, e⟩
  let rest := (S.toList.erase best).mergeSort fun a b => decide (x.score sizes q b ≤ x.score sizes q a)
  have hperm : rest.Perm (S.toList.erase best) := List.mergeSort_perm _ _
  have hnd : S.toList.Nodup := S.nodup_toList
  have hin : best ∈ S.toList := Finset.mem_toList.2 ((hS best).2 hb)
  have hall : (best :: rest).Perm S.toList := (hperm.cons best).trans (List.perm_cons_erase hin).symm
  have hmem : ∀ k, k ∈ best :: rest ↔ x.Found sizes q k := by
    intro k; rw [hall.mem_iff, Finset.mem_toList, hS]
  refine ⟨rest, hall.nodup_iff.2 hnd, hmem, List.pairwise_cons.2 ⟨?_, ?_⟩⟩
  · intro k hk
    exact hm k ((hmem k).1 (List.mem_cons_of_mem _ hk))
  · have := List.pairwise_mergeSort (le := fun a b : Str => decide (x.score sizes q b ≤ x.score sizes q a)) (by intro a b c; simp; omega)
      (by intro a b; simp; omega) (S.toList.erase best)
    exact this.imp (fun h => by simpa using h)

theorem ranking_exists (x : Idx) (sizes : List Nat) (q : Str) : ∃ all, Ranking x sizes q all := by
  classical
  by_cases h : ∃ k, x.Found sizes q k
  · let S : Finset Str := ((frags sizes q).biUnion x.holders).image x.word
    have hS : ∀ k, k ∈ S ↔ x.Found sizes q k := by
      intro k
      simp only [S, Finset.mem_image, Finset.mem_biUnion]
      unfold Idx.Found
      constructor
      · rintro ⟨i, ⟨f, hf, hi⟩, e⟩; exact ⟨f, hf, i, hi, e⟩
      · rintro ⟨f, hf, i, hi, e⟩; exact ⟨i, ⟨f, hf, hi⟩, e⟩
    obtain ⟨k, hk⟩ := h
    obtain ⟨best, hb, hm⟩ := S.exists_max_image (x.score sizes q) ⟨k, (hS k).2 hk⟩
    obtain ⟨rest, hr⟩ := ranking_first x sizes q best ((hS best).1 hb) (fun k hk => hm k ((hS k).2 hk))
    exact ⟨_, hr⟩
  · exact ⟨[], List.nodup_nil, fun k => ⟨nofun, fun hk => absurd ⟨k, hk⟩ h⟩, List.Pairwise.nil⟩

theorem Holds.closest_best {sizes : List Nat} {x : Idx} {cm : CM} (h : Holds sizes x cm) (q out : Str) :
    Closest cm q out ↔ ¬ x.Found sizes q [] ∧
      ((x.Found sizes q out ∧ ∀ k, x.Found sizes q k → x.score sizes q k ≤ x.score sizes q out) ∨ (out = [] ∧ ∀ k, ¬ x.Found sizes q k)) := by
  rw [h.closest_iff]
  constructor
  · rintro ⟨h1, all, hr, rfl⟩
    refine ⟨h1, ?_⟩
    cases all with
    | nil => right; exact ⟨rfl, fun k hk => by have := (hr.mem k).2 hk; cases this⟩
    | cons b rest =>
      left
      refine ⟨(hr.mem b).1 List.mem_cons_self, fun k hk => ?_⟩
      change x.score sizes q k ≤ x.score sizes q b
      have := (hr.mem k).2 hk
      rw [List.mem_cons] at this
      rcases this with rfl | hk'
      · exact Nat.le_refl _
      · exact List.rel_of_pairwise_cons hr.sorted hk'
  · rintro ⟨h1, ⟨hf, hm⟩ | ⟨rfl, hn⟩⟩
    · obtain ⟨rest, hr⟩ := ranking_first x sizes q out hf hm
      exact ⟨h1, _, hr, rfl⟩
    · exact ⟨h1, [], ⟨List.nodup_nil, fun k => ⟨nofun, fun hk => absurd hk (hn k)⟩, List.Pairwise.nil⟩, rfl⟩

/-! ### The index after a history -/

theorem Holds.addWord {other : Str → Str} {sizes : List Nat} {x : Idx} {cm : CM} (h : Holds sizes x cm) (i : Nat) (s : Str) :
    ∃ cm', addWord other cm i s = some cm' ∧
      Holds sizes ⟨fun f => if f ∈ frags sizes (toLower other s) then insert i (x.holders f) else x.holders f, fun j => if j = i then s else x.word j⟩ cm' := by
  obtain ⟨fs, e, hn, hf⟩ := splitWord_eq sizes (toLower other s)
  unfold Closest.addWord
  rw [h.szs, e]
  refine ⟨_, rfl, rfl, ?_, ?_⟩
  · intro j
    simp only [CM.key]
    by_cases hj : j = i
    · rw [if_pos hj, if_pos hj]; rfl
    · rw [if_neg hj, if_neg hj, ← h.key j]; rfl
  · intro f
    simp only [foldl_addId _ fs cm.sub f hn]
    have hmem : f ∈ frags sizes (toLower other s) ↔ f ∈ fs := by rw [← hf, List.mem_toFinset]
    by_cases hfs : f ∈ fs
    · rw [if_pos hfs, if_pos (hmem.2 hfs)]
      right
      refine ⟨_, rfl, ?_, ?_, ?_⟩
      · apply List.Nodup.insert
        rcases h.sub f with ⟨e1, -⟩ | ⟨ids, e1, h2, -⟩
        · rw [e1]; exact List.nodup_nil
        · rw [e1]; exact h2
      · intro he
        have := List.mem_insert_self (a := i) (l := (cm.sub f).getD [])
        rw [he] at this; cases this
      · have hti : ∀ (l : List Nat) (x : Nat), (l.insert x).toFinset = insert x l.toFinset := by intro l x; ext; simp
        rw [hti]
        congr 1
        rcases h.sub f with ⟨e1, e2⟩ | ⟨ids, e1, -, -, h2⟩
        · rw [e1, e2]; rfl
        · rw [e1]; exact h2
    · rw [if_neg hfs, if_neg (fun e => hfs (hmem.1 e))]
      exact h.sub f

theorem Holds.addWords {other : Str → Str} {sizes : List Nat} : ∀ (ss : List Str) (i : Nat) (x : Idx) (cm : CM), Holds sizes x cm →
    ∃ cm' x', addWords other i ss cm = some cm' ∧ Holds sizes x' cm' ∧
      (∀ f j, j ∈ x'.holders f ↔ j ∈ x.holders f ∨ (i ≤ j ∧ j < i + ss.length ∧ f ∈ frags sizes (toLower other (ss.getD (j - i) [])))) ∧
      ∀ j, x'.word j = if i ≤ j ∧ j < i + ss.length then ss.getD (j - i) [] else x.word j
  | [], i, x, cm, h => ⟨cm, x, rfl, h, fun f j => by simp; omega, fun j => by rw [if_neg]; simp⟩
  | s :: ss, i, x, cm, h => by
    obtain ⟨cm1, e1, h1⟩ := h.addWord (other := other) i s
    obtain ⟨cm2, x2, e2, h2, g1, g2⟩ := Holds.addWords (other := other) ss (i + 1) _ cm1 h1
    refine ⟨cm2, x2, by rw [Closest.addWords, e1]; exact e2, h2, ?_, ?_⟩
    · intro f j
      rw [g1]
      simp only [List.length_cons]
      have hj : ∀ {P : Prop}, (i + 1 ≤ j → P) → (i ≤ j ∧ j ≠ i → P) := by
        intro P hP ⟨a, b⟩; exact hP (by omega)
      by_cases hji : j = i
      · subst hji
        have a1 : ¬ (j + 1 ≤ j) := by omega
        simp only [a1, false_and, or_false, Nat.sub_self, List.getD_cons_zero, Nat.le_refl, true_and]
        have a2 : j < j + (ss.length + 1) := by omega
        simp only [a2, true_and]
        split
        · rename_i hf; simp [hf]
        · rename_i hf; simp [hf]
      · have hb : (j ∈ if f ∈ frags sizes (toLower other s) then insert i (x.holders f) else x.holders f) ↔ j ∈ x.holders f := by
          split
          · simp [hji]
          · rfl
        rw [hb]
        apply or_congr_right
        constructor
        · rintro ⟨a, b, c⟩
          refine ⟨by omega, by omega, ?_⟩
          rw [show j - i = (j - (i + 1)) + 1 by omega, List.getD_cons_succ]
          exact c
        · rintro ⟨a, b, c⟩
          refine ⟨by omega, by omega, ?_⟩
          rw [show j - i = (j - (i + 1)) + 1 by omega, List.getD_cons_succ] at c
          exact c
    · intro j
      rw [g2]
      simp only [List.length_cons]
      by_cases hji : j = i
      · subst hji
        rw [if_neg (by omega), if_pos rfl, if_pos (by omega), Nat.sub_self]; rfl
      · rw [if_neg hji]
        by_cases hc : i ≤ j ∧ j < i + (ss.length + 1)
        · rw [if_pos hc, if_pos (by omega), show j - i = (j - (i + 1)) + 1 by omega, List.getD_cons_succ]
        · rw [if_neg hc, if_neg (by omega)]

theorem idx_ext {x y : Idx} (h1 : ∀ f j, j ∈ x.holders f ↔ j ∈ y.holders f) (h2 : ∀ j, x.word j = y.word j) : x = y := by
  obtain ⟨a, b⟩ := x
  obtain ⟨c, d⟩ := y
  congr 1
  · funext f; ext j; exact h1 f j
  · funext j; exact h2 j

theorem Holds.add {other : Str → Str} {sizes : List Nat} {lists : List (List Str)} {cm : CM} (h : Holds sizes (history other sizes lists) cm) (words : List Str) :
    ∃ cm', cm.add other words = some cm' ∧ Holds sizes (history other sizes (lists ++ [words])) cm' := by
  obtain ⟨cm', x', e, h', g1, g2⟩ := Holds.addWords (other := other) words 0 _ cm h
  refine ⟨cm', e, ?_⟩
  have : x' = history other sizes (lists ++ [words]) := by
    apply idx_ext
    · intro f j
      rw [g1]
      unfold history
      simp only [Finset.mem_biUnion, List.mem_toFinset, List.mem_append, List.mem_singleton]
      have hh : j ∈ holders other sizes words f ↔ j < words.length ∧ f ∈ frags sizes (toLower other (words.getD j [])) := by
        unfold holders; rw [Finset.mem_filter, Finset.mem_range]
      constructor
      · rintro (⟨W, h1, h2⟩ | ⟨-, h1, h2⟩)
        · exact ⟨W, Or.inl h1, h2⟩
        · exact ⟨words, Or.inr rfl, hh.2 ⟨by omega, h2⟩⟩
      · rintro ⟨W, h1 | rfl, h2⟩
        · exact Or.inl ⟨W, h1, h2⟩
        · exact Or.inr ⟨Nat.zero_le _, by have := (hh.1 h2).1; omega, (hh.1 h2).2⟩
    · intro j
      rw [g2]
      unfold history
      simp only [List.filter_append, Nat.zero_le, true_and, Nat.zero_add, Nat.sub_zero]
      by_cases hj : j < words.length
      · rw [if_pos hj, List.filter_cons, if_pos (by simpa using hj), List.filter_nil]
        simp
      · rw [if_neg hj, List.filter_cons, if_neg (by simpa using hj), List.filter_nil, List.append_nil]
  exact this ▸ h'

theorem Holds.adds {other : Str → Str} {sizes : List Nat} : ∀ (more lists : List (List Str)) (cm : CM), Holds sizes (history other sizes lists) cm →
    ∃ cm', more.foldlM (CM.add other) cm = some cm' ∧ Holds sizes (history other sizes (lists ++ more)) cm'
  | [], lists, cm, h => ⟨cm, rfl, by rwa [List.append_nil]⟩
  | words :: more, lists, cm, h => by
    obtain ⟨cm1, e1, h1⟩ := h.add words
    obtain ⟨cm2, e2, h2⟩ := Holds.adds more (lists ++ [words]) cm1 h1
    refine ⟨cm2, ?_, by rwa [List.append_assoc] at h2⟩
    rw [List.foldlM_cons, e1]
    exact e2

theorem holds_history (other : Str → Str) (sizes : List Nat) (words : List Str) (more : List (List Str)) :
    ∃ cm, ((new other words (sizes.map Int.ofNat)).bind fun cm => more.foldlM (CM.add other) cm) = some cm ∧
      Holds sizes (history other sizes (words :: more)) cm := by
  have h0 : Holds sizes (history other sizes []) ⟨sizes.map Int.ofNat, fun _ => none, fun _ => none⟩ :=
    ⟨rfl, fun i => by simp [history, CM.key], fun f => Or.inl ⟨rfl, rfl⟩⟩
  obtain ⟨cm1, e1, h1⟩ := h0.add words
  obtain ⟨cm2, e2, h2⟩ := Holds.adds more [words] cm1 h1
  refine ⟨cm2, ?_, h2⟩
  have : new other words (sizes.map Int.ofNat) = some cm1 := e1
  rw [this]
  exact e2

/-! ## C94 -/

/-- **C94** After `New` and any number of calls of `Add`, with fragment sizes that are not negative: neither panics. A search crashes exactly
if a number under a fragment of the query stands for the empty word, and then no execution of it returns. Otherwise the possible results of
`Closest` are exactly the words found with the highest score (the empty string if none is found), and those of `ClosestN` exactly the
beginnings, of the given length, of the lists of all words found sorted by falling score; `ClosestN` has no result (it panics) for a negative length and for one of more than 2^44. -/
theorem C94_search (other : Str → Str) (sizes : List Nat) (words : List Str) (more : List (List Str)) :
    ∃ cm, ((new other words (sizes.map Int.ofNat)).bind fun cm => more.foldlM (CM.add other) cm) = some cm ∧ ∀ q,
      let x := history other sizes (words :: more)
      (MatchPanics cm q ↔ x.Found sizes q []) ∧
      (x.Found sizes q [] → ∀ m, ¬ Match cm q m) ∧
      (∀ out, Closest cm q out ↔ ¬ x.Found sizes q [] ∧
        ((x.Found sizes q out ∧ ∀ k, x.Found sizes q k → x.score sizes q k ≤ x.score sizes q out) ∨ (out = [] ∧ ∀ k, ¬ x.Found sizes q k))) ∧
      (∀ n out, ClosestN cm q n out ↔ (0 ≤ n ∧ n ≤ 2 ^ 44) ∧ ¬ x.Found sizes q [] ∧ ∃ all : List Str, (all.Nodup ∧ (∀ k, k ∈ all ↔ x.Found sizes q k) ∧
        all.Pairwise fun a b => x.score sizes q b ≤ x.score sizes q a) ∧ out = all.take n.toNat) ∧
      (¬ x.Found sizes q [] → (∃ out, Closest cm q out) ∧ ∀ n : Nat, n ≤ 2 ^ 44 → ∃ out, ClosestN cm q n out) := by
  obtain ⟨cm, e, h⟩ := holds_history other sizes words more
  refine ⟨cm, e, fun q => ?_⟩
  refine ⟨h.panics_iff q, fun hf m hm => ((h.match_iff q m).1 hm).1 hf, h.closest_best q, ?_, ?_⟩
  · intro n out
    rw [h.closestN_iff]
    constructor
    · rintro ⟨a, b, all, ⟨c, d, e⟩, f⟩; exact ⟨a, b, all, ⟨c, d, e⟩, f⟩
    · rintro ⟨a, b, all, ⟨c, d, e⟩, f⟩; exact ⟨a, b, all, ⟨c, d, e⟩, f⟩
  · intro hf
    obtain ⟨all, hr⟩ := ranking_exists (history other sizes (words :: more)) sizes q
    exact ⟨⟨_, (h.closest_iff q _).2 ⟨hf, all, hr, rfl⟩⟩, fun n hn => ⟨_, (h.closestN_iff q n _).2 ⟨⟨by omega, by omega⟩, hf, all, hr, rfl⟩⟩⟩

/-- After `New(["abc", "mail"])` and `Add(["xyz"])`: the query "abc" finds "xyz", because the number 0 is still entered under the fragments of
"abc" but now stands for "xyz"; it does not find "abc". The query "mail" finds "mail". -/
example : let x := history id [2] [[lit "abc", lit "mail"], [lit "xyz"]]
    x.Found [2] (lit "abc") (lit "xyz") ∧ ¬ x.Found [2] (lit "abc") (lit "abc") ∧ x.Found [2] (lit "mail") (lit "mail") ∧
    ¬ x.Found [2] (lit "abc") [] ∧ x.score [2] (lit "abc") (lit "xyz") = 2668 := by
  simp only [Idx.Found]
  decide +kernel

/-- A search may crash although no query is empty: after `New(["abc"])` and `Add([""])` the query "abc" crashes. -/
example : (history id [2] [[lit "abc"], [[]]]).Found [2] (lit "abc") [] := by
  simp only [Idx.Found]
  decide +kernel

/-- With `New` alone a search crashes exactly if the query is empty and so is one of the words. -/
theorem C94_new_crashes_iff (other : Str → Str) (sizes : List Nat) (words : List Str) (cm : CM)
    (hcm : new other words (sizes.map Int.ofNat) = some cm) (q : Str) : MatchPanics cm q ↔ q = [] ∧ [] ∈ words := by
  obtain ⟨cm', e, h⟩ := holds_history other sizes words []
  rw [hcm] at e
  have e' : cm = cm' := by simpa using e
  subst e'
  rw [h.panics_iff]
  have hfr0 : ∀ f, f ∈ frags sizes [] → f = [] := by
    intro f hf
    unfold frags at hf
    dsimp only at hf
    split at hf
    · exact Finset.mem_singleton.1 hf
    · rw [Finset.mem_filter, Finset.mem_biUnion] at hf
      obtain ⟨⟨j, -, hj⟩, -⟩ := hf
      unfold windows at hj
      rw [Finset.mem_image] at hj
      obtain ⟨i, -, rfl⟩ := hj
      simp
  have hmem0 : [] ∈ frags sizes [] := by
    by_contra hc
    have hne : frags sizes [] ≠ ∅ := by
      unfold frags
      dsimp only
      split
      · simp
      · assumption
    obtain ⟨f, hf⟩ := Finset.nonempty_iff_ne_empty.2 hne
    rw [hfr0 f hf] at hf
    exact hc hf
  have hq0 : [] ∈ frags sizes q → q = [] := by
    intro hf
    unfold frags at hf
    dsimp only at hf
    split at hf
    · exact (Finset.mem_singleton.1 hf).symm
    · rw [Finset.mem_filter] at hf
      have := hf.2
      simp [blank, runesOf, runesAux] at this
  unfold Idx.Found history
  simp only [List.toFinset_cons, List.toFinset_nil, insert_empty_eq, Finset.singleton_biUnion]
  constructor
  · rintro ⟨f, hf, i, hi, hw⟩
    unfold holders at hi
    rw [Finset.mem_filter, Finset.mem_range] at hi
    have hwi : words.getD i [] = [] := by
      rw [List.filter_cons, if_pos (by simpa using hi.1)] at hw
      simpa using hw
    rw [hwi] at hi
    have hl : toLower other [] = [] := by simp [toLower]
    rw [hl] at hi
    rw [hfr0 f hi.2] at hf
    refine ⟨hq0 hf, ?_⟩
    rw [List.getD_eq_getElem _ _ hi.1] at hwi
    exact hwi ▸ List.getElem_mem hi.1
  · rintro ⟨rfl, hw⟩
    obtain ⟨i, hil, hie⟩ := List.getElem_of_mem hw
    have hl : toLower other [] = [] := by simp [toLower]
    refine ⟨[], hmem0, i, ?_, ?_⟩
    · unfold holders
      rw [Finset.mem_filter, Finset.mem_range, List.getD_eq_getElem _ _ hil, hie, hl]
      exact ⟨hil, hmem0⟩
    · rw [List.filter_cons, if_pos (by simpa using hil)]
      simp [List.getElem?_eq_getElem hil, hie]

end Verif.Closest
