import Verif.Closest.SaveRace
import Verif.Closest.SaveProps
import Verif.Closest.HistoryProps
/-
C144: what `Save` writes while `Add` runs.
-/
namespace Verif.Closest
open Spec

/-! ### The writes of `Add` are `Add` -/

theorem writes_sub (i : Nat) : ∀ (order : List Str) (cm : CM),
    (order.flatMap fun f => [Write.mk f, .ins i f]).foldl Write.apply cm = { cm with sub := order.foldl (addId i) cm.sub }
  | [], _ => rfl
  | f :: order, cm => by
    rw [List.flatMap_cons, List.foldl_append, writes_sub i order]
    have : (addId i cm.sub f) = (([Write.mk f, Write.ins i f].foldl Write.apply cm).sub) := by
      funext g
      simp only [List.foldl_cons, List.foldl_nil, Write.apply, addId]
      by_cases h : g = f
      · simp [h]
      · simp [h]
    simp only [List.foldl_cons (f := addId i), this]
    rfl

theorem wordWrites_eq {other : Str → Str} {cm : CM} {i : Nat} {s : Str} {fs order : List Str} (e : splitWord cm.sizes (toLower other s) = some fs)
    (hn : fs.Nodup) (hp : order.Perm fs) : addWord other cm i s = some ((wordWrites i s order).foldl Write.apply cm) := by
  unfold addWord wordWrites
  rw [e, List.foldl_cons, writes_sub, Option.map_some, hp.length_eq]
  simp only [Write.apply]
  have : fs.foldl (addId i) cm.sub = order.foldl (addId i) cm.sub := by
    funext f
    rw [foldl_addId i fs _ f hn, foldl_addId i order _ f (hp.nodup_iff.2 hn)]
    simp only [hp.mem_iff]
  rw [this]

theorem splitWord_nodup {sizes : List Int} {w : Str} {fs : List Str} (e : splitWord sizes w = some fs) : fs.Nodup := by
  unfold splitWord at e
  split at e
  · cases e
  · injection e with e
    subst e
    split
    · exact List.nodup_singleton _
    · exact List.nodup_dedup _

theorem apply_sizes (cm : CM) (w : Write) : (w.apply cm).sizes = cm.sizes := by cases w <;> rfl

theorem foldl_sizes : ∀ (ws : List Write) (cm : CM), (ws.foldl Write.apply cm).sizes = cm.sizes
  | [], _ => rfl
  | w :: ws, cm => by rw [List.foldl_cons, foldl_sizes ws, apply_sizes]

theorem AddWrites.eq {other : Str → Str} {sizes : List Int} {i : Nat} {ss : List Str} {ws : List Write} (h : AddWrites other sizes i ss ws) :
    ∀ cm : CM, cm.sizes = sizes → addWords other i ss cm = some (ws.foldl Write.apply cm) := by
  induction h with
  | nil i => intro cm _; rfl
  | cons i s ss fs order ws e hp h ih =>
    intro cm hc
    rw [addWords, wordWrites_eq (hc ▸ e) (splitWord_nodup e) hp, List.foldl_append]
    exact ih _ (by rw [foldl_sizes, hc])

/-- **C144** All the writes of calls of `Add` together give the index that these calls give. -/
theorem C144_writes {other : Str → Str} {sizes : List Int} {more : List (List Str)} {ws : List Write} (h : AddsWrites other sizes more ws) :
    ∀ cm : CM, cm.sizes = sizes → more.foldlM (CM.add other) cm = some (ws.foldl Write.apply cm) := by
  induction h with
  | nil => intro cm _; rfl
  | cons words more w ws h1 h2 ih =>
    intro cm hc
    rw [List.foldlM_cons]
    have := h1.eq cm hc
    unfold CM.add
    rw [this, List.foldl_append]
    exact ih _ (by rw [foldl_sizes, hc])

/-! ### What only grows -/

theorem apply_grows (cm : CM) (w : Write) (f : Str) :
    ((cm.sub f).isSome → ((w.apply cm).sub f).isSome) ∧ ∀ i ∈ (cm.sub f).getD [], i ∈ ((w.apply cm).sub f).getD [] := by
  cases w with
  | id => exact ⟨id, fun _ h => h⟩
  | mk g =>
    simp only [Write.apply]
    by_cases h : f = g
    · subst h; simp
    · simp [h]
  | ins j g =>
    simp only [Write.apply]
    by_cases h : f = g
    · subst h
      simp only [if_true, Option.isSome_some, implies_true, Option.getD_some, true_and]
      intro i hi; exact List.mem_insert_of_mem hi
    · simp [h]

theorem foldl_grows : ∀ (ws : List Write) (cm : CM) (f : Str),
    ((cm.sub f).isSome → ((ws.foldl Write.apply cm).sub f).isSome) ∧ ∀ i ∈ (cm.sub f).getD [], i ∈ ((ws.foldl Write.apply cm).sub f).getD []
  | [], _, _ => ⟨id, fun _ h => h⟩
  | w :: ws, cm, f => by
    have a := apply_grows cm w f
    have b := foldl_grows ws (w.apply cm) f
    exact ⟨fun h => b.1 (a.1 h), fun i h => b.2 i (a.2 i h)⟩

theorem during_le (cm : CM) (ws : List Write) {s t : Nat} (h : s ≤ t) : ∃ l : List Write, during cm ws t = l.foldl Write.apply (during cm ws s) := by
  refine ⟨(ws.take t).drop s, ?_⟩
  unfold during
  rw [← List.foldl_append]
  congr 1
  conv_lhs => rw [← List.take_append_drop s (ws.take t)]
  rw [List.take_take, Nat.min_eq_left h]

theorem during_grows (cm : CM) (ws : List Write) {s t : Nat} (h : s ≤ t) (f : Str) :
    (((during cm ws s).sub f).isSome → ((during cm ws t).sub f).isSome) ∧
      ∀ i ∈ ((during cm ws s).sub f).getD [], i ∈ ((during cm ws t).sub f).getD [] := by
  obtain ⟨l, e⟩ := during_le cm ws h
  rw [e]; exact foldl_grows l _ f

theorem during_zero (cm : CM) (ws : List Write) : during cm ws 0 = cm := rfl

theorem during_end (cm : CM) (ws : List Write) {t : Nat} (h : ws.length ≤ t) : during cm ws t = ws.foldl Write.apply cm := by
  unfold during; rw [List.take_of_length_le h]

theorem during_to_end (cm : CM) (ws : List Write) (t : Nat) (f : Str) :
    (((during cm ws t).sub f).isSome → ((ws.foldl Write.apply cm).sub f).isSome) ∧
      ∀ i ∈ ((during cm ws t).sub f).getD [], i ∈ ((ws.foldl Write.apply cm).sub f).getD [] := by
  have := during_grows cm ws (Nat.le_max_left t ws.length) f
  rwa [during_end cm ws (Nat.le_max_right t ws.length)] at this

/-! ### Every number has a word -/

/-- Every number under a fragment has an entry. -/
def Named (cm : CM) : Prop := ∀ f, ∀ i ∈ (cm.sub f).getD [], cm.id i ≠ none

theorem ins_named {cm : CM} {i : Nat} (f : Str) (h : Named cm) (hi : cm.id i ≠ none) : Named ((Write.ins i f).apply cm) := by
  intro g j hj
  simp only [Write.apply] at hj ⊢
  by_cases e : g = f
  · subst e
    rw [if_pos rfl, Option.getD_some, List.mem_insert_iff] at hj
    rcases hj with rfl | hj
    · exact hi
    · exact h g j hj
  · rw [if_neg e] at hj; exact h g j hj

theorem mk_named {cm : CM} (f : Str) (h : Named cm) : Named ((Write.mk f).apply cm) := by
  intro g j hj
  simp only [Write.apply] at hj ⊢
  by_cases e : g = f
  · subst e; rw [if_pos rfl, Option.getD_some] at hj; exact h g j hj
  · rw [if_neg e] at hj; exact h g j hj

theorem id_named {cm : CM} (i : Nat) (inf : IDInfo) (h : Named cm) : Named ((Write.id i inf).apply cm) := by
  intro g j hj
  simp only [Write.apply] at hj ⊢
  by_cases e : j = i
  · rw [if_pos e]; simp
  · rw [if_neg e]; exact h g j hj

/-- Writes other than of entries, for a number that has an entry. -/
theorem rest_named {i : Nat} : ∀ (l : List Write) (cm : CM), (∀ w ∈ l, (∃ f, w = .mk f) ∨ ∃ f, w = .ins i f) → Named cm → cm.id i ≠ none →
    Named (l.foldl Write.apply cm) ∧ (l.foldl Write.apply cm).id = cm.id
  | [], _, _, h, _ => ⟨h, rfl⟩
  | w :: l, cm, hl, h, hi => by
    rw [List.foldl_cons]
    have hl' : ∀ w ∈ l, (∃ f, w = .mk f) ∨ ∃ f, w = .ins i f := fun v hv => hl v (List.mem_cons_of_mem _ hv)
    rcases hl w List.mem_cons_self with ⟨f, rfl⟩ | ⟨f, rfl⟩
    · exact rest_named l _ hl' (mk_named f h) hi
    · exact rest_named l _ hl' (ins_named f h hi) hi

theorem rest_shape {i : Nat} (order : List Str) : ∀ w ∈ order.flatMap fun f => [Write.mk f, .ins i f], (∃ f, w = .mk f) ∨ ∃ f, w = .ins i f := by
  intro w hw
  obtain ⟨f, -, hf⟩ := List.mem_flatMap.1 hw
  simp only [List.mem_cons, List.not_mem_nil, or_false] at hf
  rcases hf with rfl | rfl
  · exact Or.inl ⟨f, rfl⟩
  · exact Or.inr ⟨f, rfl⟩

/-- After a beginning of the writes for a word. -/
theorem word_prefix {i : Nat} {s : Str} {order : List Str} {l : List Write} (hl : l <+: wordWrites i s order) {cm : CM} (h : Named cm) :
    Named (l.foldl Write.apply cm) ∧ ((l.foldl Write.apply cm).id = cm.id ∨
      (l.foldl Write.apply cm).id = fun k => if k = i then some ⟨s, order.length⟩ else cm.id k) := by
  unfold wordWrites at hl
  rcases l with _ | ⟨w, l⟩
  · exact ⟨h, Or.inl rfl⟩
  · rw [List.cons_prefix_cons] at hl
    obtain ⟨rfl, hl⟩ := hl
    obtain ⟨a, b⟩ := rest_named l ((Write.id i ⟨s, order.length⟩).apply cm) (fun w hw => rest_shape order w (hl.subset hw)) (id_named i _ h)
      (by simp [Write.apply])
    exact ⟨a, Or.inr b⟩

theorem word_all {i : Nat} {s : Str} {order : List Str} {cm : CM} (h : Named cm) :
    Named ((wordWrites i s order).foldl Write.apply cm) ∧
      ((wordWrites i s order).foldl Write.apply cm).id = fun k => if k = i then some ⟨s, order.length⟩ else cm.id k := by
  obtain ⟨a, b⟩ := rest_named (order.flatMap fun f => [Write.mk f, .ins i f]) ((Write.id i ⟨s, order.length⟩).apply cm) (rest_shape order) (id_named i _ h)
    (by simp [Write.apply])
  exact ⟨a, b⟩

/-- A beginning of an append. -/
theorem prefix_append {α : Type} {l a b : List α} (h : l <+: a ++ b) : l <+: a ∨ ∃ m, l = a ++ m ∧ m <+: b := by
  obtain ⟨t, ht⟩ := h
  rcases List.append_eq_append_iff.1 ht with ⟨c, hc, -⟩ | ⟨c, hc, hb⟩
  · exact Or.inl ⟨c, hc.symm⟩
  · exact Or.inr ⟨c, hc, t, hb.symm⟩

/-- Within a call of `Add` an entry is the old one or the final one; entries of smaller numbers stay. -/
theorem AddWrites.between {other : Str → Str} {sizes : List Int} {i : Nat} {ss : List Str} {ws : List Write} (h : AddWrites other sizes i ss ws) :
    ∀ (cm : CM), Named cm →
      (∀ j < i, (ws.foldl Write.apply cm).id j = cm.id j) ∧
      ∀ l, l <+: ws → Named (l.foldl Write.apply cm) ∧ ∀ j, (l.foldl Write.apply cm).id j = cm.id j ∨ (l.foldl Write.apply cm).id j = (ws.foldl Write.apply cm).id j := by
  induction h with
  | nil i =>
    intro cm hc
    refine ⟨fun _ _ => rfl, fun l hl => ?_⟩
    rw [List.prefix_nil.1 hl]
    exact ⟨hc, fun _ => Or.inl rfl⟩
  | cons i s ss fs order ws e hp h ih =>
    intro cm hc
    obtain ⟨n1, e1⟩ := word_all (i := i) (s := s) (order := order) hc
    obtain ⟨a, b⟩ := ih _ n1
    rw [List.foldl_append]
    refine ⟨fun j hj => ?_, fun l hl => ?_⟩
    · rw [a j (by omega), e1]; simp only; rw [if_neg (by omega)]
    · rcases prefix_append hl with hl | ⟨m, rfl, hm⟩
      · obtain ⟨c, d⟩ := word_prefix hl hc
        refine ⟨c, fun j => ?_⟩
        rcases d with d | d
        · exact Or.inl (by rw [d])
        · rw [d]
          by_cases hj : j = i
          · right; rw [a j (by omega), e1]
          · left; simp only; rw [if_neg hj]
      · rw [List.foldl_append]
        obtain ⟨c, d⟩ := b m hm
        refine ⟨c, fun j => ?_⟩
        rcases d j with d | d
        · rw [d, e1]
          by_cases hj : j = i
          · right; rw [a j (by omega), e1]
          · left; simp only; rw [if_neg hj]
        · exact Or.inr d

theorem AddsWrites.between {other : Str → Str} {sizes : List Nat} {more : List (List Str)} {ws : List Write}
    (h : AddsWrites other (sizes.map Int.ofNat) more ws) : ∀ (lists : List (List Str)) (cm : CM), Holds sizes (history other sizes lists) cm → Named cm →
      ∀ l, l <+: ws → Named (l.foldl Write.apply cm) ∧ ∀ j, ∃ k ≤ more.length, (l.foldl Write.apply cm).key j = (history other sizes (lists ++ more.take k)).word j := by
  induction h with
  | nil =>
    intro lists cm hh hc l hl
    rw [List.prefix_nil.1 hl]
    exact ⟨hc, fun j => ⟨0, Nat.zero_le _, by rw [List.take_nil, List.append_nil]; exact hh.key j⟩⟩
  | cons words more w ws h1 h2 ih =>
    intro lists cm hh hc l hl
    obtain ⟨a, b⟩ := h1.between cm hc
    obtain ⟨cm1, e1, hh1⟩ := hh.add (other := other) words
    have e2 : w.foldl Write.apply cm = cm1 := by
      have := h1.eq cm hh.szs
      unfold CM.add at e1
      rw [this] at e1
      exact Option.some.inj e1
    rcases prefix_append hl with hl | ⟨m, rfl, hm⟩
    · obtain ⟨c, d⟩ := b l hl
      refine ⟨c, fun j => ?_⟩
      rcases d j with d | d
      · exact ⟨0, Nat.zero_le _, by rw [List.take_zero, List.append_nil, ← hh.key j]; unfold CM.key; rw [d]⟩
      · exact ⟨1, by simp, by rw [List.take_succ_cons, List.take_zero, ← hh1.key j, ← e2]; unfold CM.key; rw [d]⟩
    · rw [List.foldl_append, e2]
      have hn : Named cm1 := by rw [← e2]; exact (b w (List.prefix_refl _)).1
      obtain ⟨c, d⟩ := ih _ _ hh1 hn m hm
      refine ⟨c, fun j => ?_⟩
      obtain ⟨k, hk, e⟩ := d j
      exact ⟨k + 1, by simpa using hk, by rw [e, List.take_succ_cons, List.append_assoc]; rfl⟩

theorem named_history (other : Str → Str) (sizes : List Nat) (words : List Str) (more : List (List Str)) :
    ∀ cm, ((new other words (sizes.map Int.ofNat)).bind fun cm => more.foldlM (CM.add other) cm) = some cm → Named cm := by
  have ex : ∀ (ss : List Str) (i : Nat), ∃ ws, AddWrites other (sizes.map Int.ofNat) i ss ws := by
    intro ss
    induction ss with
    | nil => intro i; exact ⟨_, .nil i⟩
    | cons s ss ih =>
      intro i
      obtain ⟨fs, e, -⟩ := splitWord_eq sizes (toLower other s)
      obtain ⟨ws, h⟩ := ih (i + 1)
      exact ⟨_, .cons i s ss fs fs ws e (List.Perm.refl _) h⟩
  have step : ∀ (cm : CM), cm.sizes = sizes.map Int.ofNat → Named cm → ∀ (ss : List Str) (cm' : CM), addWords other 0 ss cm = some cm' →
      Named cm' ∧ cm'.sizes = sizes.map Int.ofNat := by
    intro cm hc hn ss cm' e
    obtain ⟨ws, h⟩ := ex ss 0
    rw [h.eq cm hc] at e
    injection e with e
    subst e
    exact ⟨((h.between cm hn).2 ws (List.prefix_refl _)).1, by rw [foldl_sizes, hc]⟩
  have all : ∀ (more : List (List Str)) (cm cm' : CM), cm.sizes = sizes.map Int.ofNat → Named cm → more.foldlM (CM.add other) cm = some cm' → Named cm' := by
    intro more
    induction more with
    | nil => intro cm cm' _ hn e; rw [List.foldlM_nil] at e; injection e with e; exact e ▸ hn
    | cons w more ih =>
      intro cm cm' hc hn e
      rw [List.foldlM_cons] at e
      cases e1 : CM.add other cm w with
      | none => rw [e1] at e; cases e
      | some cm1 =>
        rw [e1] at e
        obtain ⟨a, b⟩ := step cm hc hn w cm1 e1
        exact ih cm1 cm' b a e
  intro cm e
  cases e0 : new other words (sizes.map Int.ofNat) with
  | none => rw [e0] at e; cases e
  | some cm1 =>
    rw [e0, Option.bind_some] at e
    obtain ⟨a, b⟩ := step ⟨sizes.map Int.ofNat, fun _ => none, fun _ => none⟩ rfl (fun f i hi => by simp at hi) words cm1 e0
    exact all more cm1 cm b a e

/-! ### The theorems -/

/-- A search in any index with sizes that are not negative. -/
theorem any_panics_iff {sizes : List Nat} {cm : CM} (hs : cm.sizes = sizes.map Int.ofNat) (q : Str) :
    (MatchPanics cm q ↔ ∃ f ∈ frags sizes q, cm.sub f = some [] ∨ ∃ i ∈ (cm.sub f).getD [], cm.key i = []) ∧
    (MatchPanics cm q → ∀ m, ¬ Match cm q m) := by
  obtain ⟨fs, e, hn, hf⟩ := splitWord_eq sizes q
  rw [← hs] at e
  have hb : ∀ f, bad cm f ↔ (cm.sub f = some [] ∨ ∃ i ∈ (cm.sub f).getD [], cm.key i = []) := by
    intro f
    unfold bad
    cases hc : cm.sub f with
    | none => simp
    | some ids => simp
  have hx : MatchPanics cm q ↔ ∃ f ∈ fs, bad cm f := by
    constructor
    · rintro (h' | ⟨fs', order, e', hp, hs'⟩)
      · rw [e] at h'; cases h'
      · rw [e] at e'
        injection e' with e'
        subst e'
        by_contra hc
        cases hs' with
        | step h1 h2 => exact good_no_crash (fun f hf hb => hc ⟨f, hp.mem_iff.1 hf, hb⟩) h1 h2
    · rintro ⟨f, hf, hb⟩
      exact bad_panics e hf hb
  refine ⟨?_, ?_⟩
  · rw [hx, ← hf]
    simp only [hb, List.mem_toFinset]
  · intro hp m
    obtain ⟨f, hf, hb⟩ := hx.1 hp
    exact bad_no_match e hf hb m

/-- **C144** `New(words)` and the calls of `Add` with the lists `more` have ended when `Save` begins; calls of `Add` with the lists `now` run while
it runs. Then, whatever the order of the writes and reads: the file has every number that was entered under a fragment when `Save` began, and
only numbers that are entered under the fragment when the running calls have ended. Every number in the file has an entry, and its word is the
word it stands for after some of the running calls. -/
theorem C144_between (other : Str → Str) (sizes : List Nat) (words : List Str) (more now : List (List Str)) (cm₀ cm : CM) (ws : List Write)
    (h0 : ((new other words (sizes.map Int.ofNat)).bind fun cm => more.foldlM (CM.add other) cm) = some cm₀)
    (hw : AddsWrites other cm₀.sizes now ws) (hs : SavedWhile (during cm₀ ws) cm) :
    (∀ f i, i ∈ (history other sizes (words :: more)).holders f → i ∈ (cm.sub f).getD []) ∧
    (∀ f i, i ∈ (cm.sub f).getD [] → i ∈ (history other sizes (words :: more ++ now)).holders f) ∧
    (∀ f, (cm.sub f).isSome → ((history other sizes (words :: more ++ now)).holders f).Nonempty) ∧
    (∀ f i, i ∈ (cm.sub f).getD [] → cm.id i ≠ none) ∧
    ∀ i, ∃ k ≤ now.length, ((cm.id i).map IDInfo.key).getD [] = (history other sizes (words :: more ++ now.take k)).word i := by
  obtain ⟨cm1, e1, hh⟩ := holds_history other sizes words more
  rw [h0] at e1
  have e1' := Option.some.inj e1
  subst e1'
  have hn := named_history other sizes words more cm₀ h0
  rw [hh.szs] at hw
  obtain ⟨cm2, e2, hh2⟩ := Holds.adds (other := other) (sizes := sizes) now (words :: more) cm₀ hh
  rw [C144_writes hw cm₀ hh.szs] at e2
  have e2 := Option.some.inj e2
  have hbet := hw.between (words :: more) cm₀ hh hn
  obtain ⟨p, r, σ, τ, ρ, hσ, hτ, hρ, -, hk, hm, hid⟩ := hs
  have hold : ∀ {x : Idx} {c : CM}, Holds sizes x c → ∀ f i, i ∈ x.holders f ↔ i ∈ (c.sub f).getD [] := by
    intro x c h f i
    rcases h.sub f with ⟨a, b⟩ | ⟨ids, a, -, -, b⟩
    · rw [a, b]; simp
    · rw [a, ← b, List.mem_toFinset]; rfl
  have hin : ∀ f i, i ∈ (cm.sub f).getD [] → i ∈ ((during cm₀ ws (τ f i)).sub f).getD [] := by
    intro f i hi
    cases hc : cm.sub f with
    | none => rw [hc] at hi; simp at hi
    | some ids => rw [hc] at hi; exact ((hm f ids hc).2 i).1 hi
  refine ⟨?_, ?_, ?_, ?_, ?_⟩
  · intro f i hi
    rw [hold hh] at hi
    have hsome : (cm₀.sub f).isSome := by
      cases hc : cm₀.sub f with
      | none => rw [hc] at hi; simp at hi
      | some _ => rfl
    obtain ⟨ids, e⟩ := Option.isSome_iff_exists.1 ((hk f).2 ((during_grows cm₀ ws (Nat.zero_le (σ f)) f).1 hsome))
    rw [e]
    exact ((hm f ids e).2 i).2 ((during_grows cm₀ ws (Nat.zero_le _) f).2 i hi)
  · intro f i hi
    rw [hold hh2, ← e2]
    exact (during_to_end cm₀ ws _ f).2 i (hin f i hi)
  · intro f hf
    have := (during_to_end cm₀ ws _ f).1 ((hk f).1 hf)
    rw [e2] at this
    rcases hh2.sub f with ⟨a, b⟩ | ⟨ids, a, -, hne, b⟩
    · rw [a] at this; cases this
    · obtain ⟨i, hi⟩ := List.exists_mem_of_ne_nil _ hne
      exact ⟨i, by rw [← b, List.mem_toFinset]; exact hi⟩
  · intro f i hi
    have h1 := hin f i hi
    have h2 := (during_grows cm₀ ws (Nat.le_trans (hτ f i).2 (hρ i)) f).2 i h1
    rw [hid i]
    exact (hbet (ws.take (ρ i)) (List.take_prefix _ _)).1 f i h2
  · intro i
    obtain ⟨k, hk, e⟩ := (hbet (ws.take (ρ i)) (List.take_prefix _ _)).2 i
    refine ⟨k, hk, ?_⟩
    rw [hid i]
    show _ = _
    rw [← e]
    unfold CM.key during
    cases ((ws.take (ρ i)).foldl Write.apply cm₀).id i <;> rfl

/-- **C144** A search in the saved index crashes exactly if a fragment of the query was saved with the empty set or with a number of the empty
word; and then no execution of it returns. A fragment saved with the empty set was in no word when `Save` began, and is in a word of the running
calls. -/
theorem C144_crash (other : Str → Str) (sizes : List Nat) (words : List Str) (more now : List (List Str)) (cm₀ cm : CM) (ws : List Write)
    (h0 : ((new other words (sizes.map Int.ofNat)).bind fun cm => more.foldlM (CM.add other) cm) = some cm₀)
    (hw : AddsWrites other cm₀.sizes now ws) (hs : SavedWhile (during cm₀ ws) cm) (q : Str) :
    (MatchPanics cm q ↔ ∃ f ∈ frags sizes q, cm.sub f = some [] ∨ ∃ i ∈ (cm.sub f).getD [], ((cm.id i).map IDInfo.key).getD [] = []) ∧
    (MatchPanics cm q → ∀ m, ¬ Match cm q m) ∧
    ∀ f, cm.sub f = some [] → (history other sizes (words :: more)).holders f = ∅ ∧ ∃ w ∈ now.flatten, f ∈ frags sizes (toLower other w) := by
  obtain ⟨b1, b2, b3, -, -⟩ := C144_between other sizes words more now cm₀ cm ws h0 hw hs
  have hsz : cm.sizes = sizes.map Int.ofNat := by
    obtain ⟨p, r, σ, τ, ρ, -, -, -, e, -⟩ := hs
    obtain ⟨cm1, e1, hh⟩ := holds_history other sizes words more
    rw [h0] at e1
    rw [e]
    show cm₀.sizes = _
    rw [Option.some.inj e1]
    exact hh.szs
  have hkey : ∀ i, cm.key i = ((cm.id i).map IDInfo.key).getD [] := by
    intro i; unfold CM.key; cases cm.id i <;> rfl
  obtain ⟨a, b⟩ := any_panics_iff hsz q
  refine ⟨?_, b, ?_⟩
  · rw [a]; simp only [hkey]
  · intro f hf
    have he : (history other sizes (words :: more)).holders f = ∅ := by
      rw [Finset.eq_empty_iff_forall_notMem]
      intro i hi
      have := b1 f i hi
      rw [hf] at this; simp at this
    refine ⟨he, ?_⟩
    obtain ⟨i, hi⟩ := b3 f (by rw [hf]; rfl)
    unfold history at hi he
    simp only [Finset.mem_biUnion, List.mem_toFinset] at hi
    obtain ⟨W, hW, hi⟩ := hi
    rcases List.mem_append.1 hW with hW | hW
    · exfalso
      have : i ∈ (words :: more).toFinset.biUnion fun words => holders other sizes words f :=
        Finset.mem_biUnion.2 ⟨W, List.mem_toFinset.2 hW, hi⟩
      have he' : ((words :: more).toFinset.biUnion fun words => holders other sizes words f) = ∅ := he
      rw [he'] at this; simp at this
    · unfold holders at hi
      rw [Finset.mem_filter, Finset.mem_range] at hi
      refine ⟨W.getD i [], List.mem_flatten.2 ⟨W, hW, ?_⟩, hi.2⟩
      rw [List.getD_eq_getElem _ _ hi.1]
      exact List.getElem_mem hi.1

/-- **C144** If no call of `Add` runs, the file has the index itself. -/
theorem C144_quiet (cm₀ cm : CM) (hs : SavedWhile (during cm₀ []) cm) :
    cm.sizes = cm₀.sizes ∧ cm.id = cm₀.id ∧ ∀ f, (cm.sub f).map List.toFinset = (cm₀.sub f).map List.toFinset := by
  obtain ⟨p, r, σ, τ, ρ, -, -, -, e, hk, hm, hid⟩ := hs
  have hd : ∀ t, during cm₀ [] t = cm₀ := fun t => by unfold during; rw [List.take_nil]; rfl
  simp only [hd] at e hk hm hid
  refine ⟨e, funext hid, fun f => ?_⟩
  cases h1 : cm.sub f with
  | none =>
    cases h2 : cm₀.sub f with
    | none => rfl
    | some ids => have := (hk f).2 (by rw [h2]; rfl); rw [h1] at this; cases this
  | some ids =>
    obtain ⟨ids', h2⟩ := Option.isSome_iff_exists.1 ((hk f).1 (by rw [h1]; rfl))
    rw [h2, Option.map_some, Option.map_some]
    congr 1
    ext i
    rw [List.mem_toFinset, List.mem_toFinset, (hm f ids h1).2 i, h2]; rfl

theorem foldl_nodup : ∀ (ws : List Write) (cm : CM), (∀ f, ((cm.sub f).getD []).Nodup) → ∀ f, (((ws.foldl Write.apply cm).sub f).getD []).Nodup
  | [], _, h => h
  | w :: ws, cm, h => by
    rw [List.foldl_cons]
    apply foldl_nodup ws
    intro f
    cases w with
    | id i inf => exact h f
    | mk g =>
      simp only [Write.apply]
      split
      · rename_i e; exact h g
      · exact h f
    | ins i g =>
      simp only [Write.apply]
      split
      · rename_i e; exact (h g).insert
      · exact h f

/-- A `Save` that is so fast that nothing is written while it runs saves the index as it is at that moment. -/
theorem C144_at_once (cm₀ : CM) (hn : ∀ f, ((cm₀.sub f).getD []).Nodup) (ws : List Write) (t : Nat) : SavedWhile (during cm₀ ws) (during cm₀ ws t) := by
  refine ⟨t, t, fun _ => t, fun _ _ => t, fun _ => t, by simp, by simp, by simp, ?_, by simp, ?_, by simp⟩
  · unfold during; rw [foldl_sizes, foldl_sizes]
  · intro f ids e
    have := foldl_nodup (ws.take t) cm₀ hn f
    unfold during at e ⊢
    rw [e] at this
    exact ⟨this, fun i => by dsimp only; rw [e]; rfl⟩

theorem ab_cd_writes : AddsWrites id [2] [[lit "cd"]] [.id 0 ⟨lit "cd", 1⟩, .mk (lit "cd"), .ins 0 (lit "cd")] := by
  have h : AddWrites id [2] 0 [lit "cd"] (wordWrites 0 (lit "cd") [lit "cd"] ++ []) :=
    .cons 0 (lit "cd") [] [lit "cd"] [lit "cd"] [] (by decide) (List.Perm.refl _) (.nil 1)
  exact .cons [lit "cd"] [] _ [] h .nil

/-- **C144** The saved index may be one in which a search crashes, although no search crashes in the index before the call of `Add` nor after it:
`New(["ab"])` and then `Add(["cd"])`, with fragments of two bytes, and `Save` between the moment at which "cd" gets an empty set and the moment
at which the number 0 is entered in it. -/
theorem C144_never_crashes_false : ∃ cm₀ ws cm₁ cm, new id [lit "ab"] [2] = some cm₀ ∧ AddsWrites id cm₀.sizes [[lit "cd"]] ws ∧
    CM.add id cm₀ [lit "cd"] = some cm₁ ∧ SavedWhile (during cm₀ ws) cm ∧
    (∀ q, ¬ MatchPanics cm₀ q) ∧ (∀ q, ¬ MatchPanics cm₁ q) ∧ MatchPanics cm (lit "cd") := by
  obtain ⟨cm₀, e0, h0⟩ := C94_search id [2] [lit "ab"] []
  have e0' : new id [lit "ab"] [2] = some cm₀ := by simpa using e0
  obtain ⟨cm₁, e1, h1⟩ := C94_search id [2] [lit "ab"] [[lit "cd"]]
  have e1' : CM.add id cm₀ [lit "cd"] = some cm₁ := by
    rw [show [2].map Int.ofNat = [(2 : Int)] from rfl, e0', Option.bind_some, List.foldlM_cons] at e1
    cases h : CM.add id cm₀ [lit "cd"] with
    | none => rw [h] at e1; cases e1
    | some c => rw [h] at e1; exact e1
  have hsz : cm₀.sizes = [2] := by
    obtain ⟨c, e, hh⟩ := holds_history id [2] [lit "ab"] []
    rw [e0] at e
    rw [Option.some.inj e]; exact hh.szs
  have hsub : cm₀.sub (lit "cd") = none ∧ ∀ f, ((cm₀.sub f).getD []).Nodup := by
    obtain ⟨c, e, hh⟩ := holds_history id [2] [lit "ab"] []
    rw [e0] at e
    rw [Option.some.inj e]
    constructor
    · rcases hh.sub (lit "cd") with h | ⟨ids, h1, -, h3, h4⟩
      · exact h.1
      · exfalso
        have : (history id [2] [[lit "ab"]]).holders (lit "cd") = ∅ := by decide +kernel
        rw [this, List.toFinset_eq_empty_iff] at h4
        exact h3 h4
    · intro f
      rcases hh.sub f with h | ⟨ids, h1, h2, -⟩
      · rw [h.1]; exact List.nodup_nil
      · rw [h1]; exact h2
  have hw := ab_cd_writes
  rw [← hsz] at hw
  refine ⟨cm₀, _, cm₁, _, e0', hw, e1', C144_at_once cm₀ hsub.2 _ 2, ?_, ?_, ?_⟩
  · intro q hq
    rw [(h0 q).1] at hq
    obtain ⟨f, -, i, hi, hwd⟩ := hq
    obtain rfl : i = 0 := by
      unfold history holders at hi
      simp at hi
      omega
    revert hwd; decide
  · intro q hq
    rw [(h1 q).1] at hq
    obtain ⟨f, -, i, hi, hwd⟩ := hq
    obtain rfl : i = 0 := by
      unfold history holders at hi
      simp at hi
      omega
    revert hwd; decide
  · have hs2 : (during cm₀ [.id 0 ⟨lit "cd", 1⟩, .mk (lit "cd"), .ins 0 (lit "cd")] 2).sizes = [2].map Int.ofNat := by
      unfold during; rw [foldl_sizes, hsz]; rfl
    refine ((any_panics_iff hs2 (lit "cd")).1).2 ⟨lit "cd", by decide +kernel, Or.inl ?_⟩
    show (some ((cm₀.sub (lit "cd")).getD [])) = _
    rw [hsub.1]; rfl

/-- A file may even hold an index that the memory never held: `New([])`, then `Add(["ab", "cd"])`; "ab" is read before it is entered, "cd" after. -/
theorem C144_moment_false : ∃ cm₀ ws cm, new id [] [2] = some cm₀ ∧ AddsWrites id cm₀.sizes [[lit "ab", lit "cd"]] ws ∧
    SavedWhile (during cm₀ ws) cm ∧ ∀ t, (cm.sub (lit "cd")).isSome ∧ (cm.sub (lit "ab")).isSome = false ∧
      (((during cm₀ ws t).sub (lit "cd")).isSome → ((during cm₀ ws t).sub (lit "ab")).isSome) := by
  have h2 : AddWrites id [2] 1 [lit "cd"] (wordWrites 1 (lit "cd") [lit "cd"] ++ []) :=
    .cons 1 (lit "cd") [] [lit "cd"] [lit "cd"] [] (by decide) (List.Perm.refl _) (.nil 2)
  have h1 : AddWrites id [2] 0 [lit "ab", lit "cd"] (wordWrites 0 (lit "ab") [lit "ab"] ++ (wordWrites 1 (lit "cd") [lit "cd"] ++ [])) :=
    .cons 0 (lit "ab") _ [lit "ab"] [lit "ab"] _ (by decide) (List.Perm.refl _) h2
  let cm₀ : CM := ⟨[2], fun _ => none, fun _ => none⟩
  let ws : List Write := [.id 0 ⟨lit "ab", 1⟩, .mk (lit "ab"), .ins 0 (lit "ab"), .id 1 ⟨lit "cd", 1⟩, .mk (lit "cd"), .ins 1 (lit "cd")]
  let E : CM := during cm₀ ws 6
  have hw : AddsWrites id [2] [[lit "ab", lit "cd"]] ws := .cons _ [] _ [] h1 .nil
  refine ⟨cm₀, ws, ⟨[2], fun f => if f = lit "ab" then none else E.sub f, E.id⟩, rfl, hw,
    ⟨6, 6, fun f => if f = lit "ab" then 0 else 6, fun _ _ => 6, fun _ => 6, ?_, by simp, by simp, rfl, ?_, ?_, fun _ => rfl⟩, ?_⟩
  · intro f; dsimp only; split <;> omega
  · intro f
    dsimp only
    by_cases h : f = lit "ab"
    · rw [if_pos h, if_pos h]; simp [during, cm₀]
    · rw [if_neg h, if_neg h]
  · intro f ids e
    dsimp only at e
    by_cases h : f = lit "ab"
    · rw [if_pos h] at e; cases e
    · rw [if_neg h] at e
      have hn := foldl_nodup (ws.take 6) cm₀ (fun f => List.nodup_nil) f
      change (((during cm₀ ws 6).sub f).getD []).Nodup at hn
      change (during cm₀ ws 6).sub f = some ids at e
      rw [e] at hn
      exact ⟨hn, fun i => by rw [e]; rfl⟩
  · intro t
    refine ⟨by decide, by decide, ?_⟩
    rcases Nat.lt_or_ge t 6 with ht | ht
    · obtain rfl | rfl | rfl | rfl | rfl | rfl : t = 0 ∨ t = 1 ∨ t = 2 ∨ t = 3 ∨ t = 4 ∨ t = 5 := by omega
      all_goals decide
    · rw [during_end cm₀ ws ht]; decide

end Verif.Closest
