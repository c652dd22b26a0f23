import Verif.Glob.FlatRune
/-
A sequence of elements is compiled to a matcher that passes the check of `Verif.Glob.Good`.
-/
namespace Verif.Glob

/-! ### Compiling -/

theorem NoGlue.part {as ss cs : List Matcher} (h : NoGlue (as ++ ss ++ cs)) : NoGlue ss := by
  intro as' ss' cs' e
  refine h (as ++ as') ss' (cs' ++ cs) ?_
  rw [e]; simp

theorem glue_two {a b : Matcher} (h : glueMatchers [a, b] = none) : a.len = none ∨ b.len = none := by
  unfold glueMatchers at h
  split at h
  · cases h
  · cases ha : a.len with
    | none => exact Or.inl rfl
    | some k => cases hb : b.len with
      | none => exact Or.inr rfl
      | some j => simp [glueMatchersAsRow, lens, ha, hb, sumLens] at h

theorem chooseValue_none : ∀ (ms : List Matcher) (i : Nat) (best : Option (Nat × Nat)), chooseValue ms i best = none → best = none ∧ ∀ m ∈ ms, m.len = none
  | [], i, best, h => by simpa [chooseValue] using h
  | m :: ms, i, best, h => by
    rw [chooseValue] at h
    split at h
    · rename_i hm
      obtain ⟨h1, h2⟩ := chooseValue_none ms _ _ h
      exact ⟨h1, by simpa [hm] using h2⟩
    · split at h
      · have := (chooseValue_none ms _ _ h).1; cases this
      · have := (chooseValue_none ms _ _ h).1
        split at this <;> cases this

theorem chooseValue_len : ∀ (ms : List Matcher) (i : Nat) (best : Option (Nat × Nat)) (j l : Nat), chooseValue ms i best = some (j, l) →
    best = some (j, l) ∨ ∃ m, i ≤ j ∧ ms[j - i]? = some m ∧ m.len = some l
  | [], i, best, j, l, h => by left; simpa [chooseValue] using h
  | m :: ms, i, best, j, l, h => by
    have fin : ∀ best', chooseValue ms (i + 1) best' = some (j, l) → best' = some (j, l) ∨ ∃ m', i ≤ j ∧ (m :: ms)[j - i]? = some m' ∧ m'.len = some l := by
      intro best' h'
      rcases chooseValue_len ms (i + 1) best' j l h' with h | ⟨m', h1, h2, h3⟩
      · exact Or.inl h
      · refine Or.inr ⟨m', by omega, ?_, h3⟩
        rw [show j - i = (j - (i + 1)) + 1 by omega, List.getElem?_cons_succ]; exact h2
    rw [chooseValue] at h
    split at h
    · exact fin _ h
    · rename_i l0 hm
      have here : some (i, l0) = some (j, l) → ∃ m', i ≤ j ∧ (m :: ms)[j - i]? = some m' ∧ m'.len = some l := by
        intro e
        simp only [Option.some.injEq, Prod.mk.injEq] at e
        obtain ⟨rfl, rfl⟩ := e
        exact ⟨m, by omega, by simp, hm⟩
      split at h
      · rcases fin _ h with e | e
        · exact Or.inr (here e)
        · exact Or.inr e
      · rcases fin _ h with e | e
        · split at e
          · exact Or.inr (here e)
          · exact Or.inl e
        · exact Or.inr e

/-- `NewBTree` of a tree with a side without a length. -/
theorem newBTree_eq {v : Matcher} {l r : Option Matcher} (h : lenOpt l = none ∨ lenOpt r = none) : newBTree v l r = .btree v l r (lenOpt l) (lenOpt r) none := by
  cases l with
  | none => cases r with
    | none => simp [lenOpt] at h
    | some r =>
      simp only [lenOpt, reduceCtorEq, false_or] at h
      simp only [newBTree, lenOpt, h]
      cases v.len <;> rfl
  | some l => cases r with
    | none =>
      simp only [lenOpt, reduceCtorEq, or_false] at h
      simp only [newBTree, lenOpt, h]
    | some r =>
      simp only [lenOpt] at h
      rcases h with h | h
      · simp only [newBTree, lenOpt, h]
      · simp only [newBTree, lenOpt, h]
        cases l.len <;> cases v.len <;> rfl

/-- What is known of a side of a tree. -/
def SideOk (part : List Matcher) (o : Option Matcher) : Prop :=
  (part = [] ∧ o = none) ∨ ∃ l, o = some l ∧ part ≠ [] ∧ l.len = none ∧ ((∀ x ∈ part, elemU x = true) → goodW (optimizeMatcher l) = true) ∧
    good (optimizeMatcher l) = true ∧ goodE (optimizeMatcher l) = true ∧
    (∀ s, optimizeMatcher l = .suffix s → part = [.super, .text s]) ∧ (∀ p, optimizeMatcher l = .prefix p → part = [.text p, .super]) ∧
    (optimizeMatcher l = .super → part = [.super])

theorem SideOk.facts {part : List Matcher} {o : Option Matcher} (h : SideOk part o) :
    ((lenOpt o).isNone || (lenOpt o == lenOpt (optimizeOpt o) && lenGoodOpt (optimizeOpt o))) = true ∧ goodOpt (optimizeOpt o) = true ∧ goodEOpt (optimizeOpt o) = true ∧
      ((∀ x ∈ part, elemU x = true) → goodWOpt (optimizeOpt o) = true) ∧ (lenOpt o).getD 0 = 0 := by
  rcases h with ⟨_, rfl⟩ | ⟨l, rfl, _, h1, hu, h2, h3, _⟩
  · exact ⟨rfl, rfl, rfl, fun _ => rfl, rfl⟩
  · exact ⟨by simp [lenOpt, h1], h2, h3, hu, by simp [lenOpt, h1]⟩

/-- The result of compiling a sequence. -/
structure Compiled (ms : List Matcher) (m : Matcher) : Prop where
  len : m.len = none
  utf8 : (∀ x ∈ ms, elemU x = true) → goodW (optimizeMatcher m) = true ∨ ∃ p q, ms = [.text p, .super, .text q] ∧ optimizeMatcher m = .prefixSuffix p q
  ok : (good (optimizeMatcher m) = true ∧ goodE (optimizeMatcher m) = true) ∨ ∃ p q, ms = [.text p, .super, .text q] ∧ optimizeMatcher m = .prefixSuffix p q
  suf : ∀ s, optimizeMatcher m = .suffix s → ms = [.super, .text s]
  pre : ∀ p, optimizeMatcher m = .prefix p → ms = [.text p, .super]
  sup : optimizeMatcher m ≠ .super
  tree : (∀ x ∈ ms, x.len = none) → (optimizeMatcher m).match [] = some false

theorem compile_spec : ∀ (n : Nat) (ms : List Matcher) (m : Matcher), compileMatchers n ms = .ok m → (∀ m ∈ ms, elem m = true) → ms.IsChain Fine → NoGlue ms →
    ms = [m] ∨ (2 ≤ ms.length ∧ Compiled ms m)
  | 0, ms, m, h, _, _, _ => by cases h
  | n + 1, ms, m, h, hel, hch, hng => by
    unfold compileMatchers at h
    split at h
    · cases h
    · simp only [Res.ok.injEq] at h
      subst h; exact Or.inl rfl
    · rename_i m0 rest hne
      right
      obtain ⟨m1, rest', rfl⟩ : ∃ m1 r, rest = m1 :: r := by
        cases rest with
        | nil => exact absurd rfl hne
        | cons a b => exact ⟨a, b, rfl⟩
      rw [hng [] _ [] (by simp)] at h
      simp only at h
      refine ⟨by simp, ?_⟩
      split at h
      · -- no matcher has a length
        rename_i hcv
        have hopen := (chooseValue_none _ _ _ hcv).2
        split at h
        · rename_i r hr
          simp only [Res.ok.injEq] at h
          subst h
          have hfine := (List.isChain_cons_cons.1 hch).1
          have ih := compile_spec n (m1 :: rest') r hr (fun m hm => hel m (List.mem_cons_of_mem _ hm)) (List.isChain_cons_cons.1 hch).2
            (NoGlue.part (as := [m0]) (cs := []) (by simpa using hng))
          have h0 := elem_open (hel m0 (by simp)) (hopen m0 (by simp))
          have h0b : badIdx m0 = false := by
            by_contra hc
            exact hfine (Or.inr (Or.inr ⟨hopen m0 (by simp), by simpa using hc, Or.inr (hopen m1 (by simp))⟩))
          have h0i := h0.2.2 h0b
          -- the right side
          have hR : r.len = none ∧ ((∀ x ∈ m1 :: rest', elemU x = true) → goodW (optimizeMatcher r) = true) ∧ good (optimizeMatcher r) = true ∧ goodE (optimizeMatcher r) = true ∧ (m0.match [] = some true → (optimizeMatcher r).match [] ≠ some true) := by
            rcases ih with e | ⟨_, c⟩
            · simp only [List.cons.injEq] at e
              obtain ⟨rfl, rfl⟩ := e
              have h1 := elem_open (hel m1 (by simp)) (hopen m1 (by simp))
              rw [elem_opt (hel m1 (by simp))]
              refine ⟨hopen m1 (by simp), fun h => (elemU_open (hel m1 (by simp)) (h m1 (by simp)) (hopen m1 (by simp))).1, h1.1, h1.2.1, ?_⟩
              intro e1 e2
              exact hfine (Or.inr (Or.inl ⟨hopen m0 (by simp), hopen m1 (by simp), e1, e2, hng [] _ [] (by simp)⟩))
            · have ht := c.tree fun x hx => hopen x (List.mem_cons_of_mem _ hx)
              rcases c.ok with ⟨c1, c2⟩ | ⟨p, q, e, _⟩
              · refine ⟨c.len, fun h => (c.utf8 h).resolve_right ?_, c1, c2, fun _ => by rw [ht]; simp⟩
                rintro ⟨p, q, e, _⟩
                have := hopen (.text p) (by rw [e]; simp)
                simp [Matcher.len] at this
              · have := hopen (.text p) (by rw [e]; simp)
                simp [Matcher.len] at this
          obtain ⟨r1, ru, r2, r3, r4⟩ := hR
          have hnt : ∀ t, m0 ≠ .text t := by
            rintro t rfl
            have := hopen (.text t) (by simp)
            simp [Matcher.len] at this
          have hopt : optimizeMatcher (.btree m0 none (some r) (some 0) none none) = .btree m0 none (some (optimizeMatcher r)) (some 0) none none := by
            rw [optimizeMatcher, optimizeOpt, optimizeOpt, optimizeBTree]
            exact fun t ht => hnt t ht
          have hnb : newBTree m0 none (some r) = .btree m0 none (some r) (some 0) none none := by
            rw [newBTree_eq (Or.inr (by simpa [lenOpt] using r1))]; simp [lenOpt, r1]
          rw [hnb]
          refine ⟨rfl, fun hU => Or.inl ?_, Or.inl ?_, ?_, ?_, ?_, ?_⟩ <;> rw [hopt]
          · have hu := (elemU_open (hel m0 (by simp)) (hU m0 (by simp)) (hopen m0 (by simp))).2 h0b
            have hr := ru fun x hx => hU x (List.mem_cons_of_mem _ hx)
            simp only [goodW, lenGood, hu, hr, r3, goodWOpt, goodEOpt, lenOpt, lenGoodOpt]; simp
          · constructor
            · simp only [good, lenGood, h0i, r2, r3, goodOpt, goodEOpt, lenOpt, lenGoodOpt]; simp
            · simp only [goodE, h0.2.1, r3, goodEOpt, matchOpt]
              rw [Bool.or_eq_true]
              right
              simp only [List.isEmpty_nil, BEq.rfl, Bool.and_true, Bool.true_and, Bool.not_eq_true', Bool.and_eq_false_iff, beq_eq_false_iff_ne, ne_eq]
              by_cases he : m0.match [] = some true
              · right; exact r4 he
              · left; exact he
          · intro s e; cases e
          · intro s e; cases e
          · intro e; cases e
          · intro _; rw [Matcher.match]; exact btree_nil _ _ _ _ _ _
        · rename_i hno; exact absurd h (hno m)
      · -- a matcher with a length
        rename_i idx len hidx
        obtain ⟨val', _, hval', hlen⟩ := (chooseValue_len _ _ _ _ _ hidx).resolve_left (by simp)
        rw [Nat.sub_zero] at hval'
        rw [hval'] at h
        simp only at h
        have hsplit : m0 :: m1 :: rest' = (m0 :: m1 :: rest').take idx ++ [val'] ++ (m0 :: m1 :: rest').drop (idx + 1) := by
          have hlt : idx < (m0 :: m1 :: rest').length := by
            by_contra hc
            rw [List.getElem?_eq_none (by omega)] at hval'; cases hval'
          rw [List.getElem?_eq_getElem hlt, Option.some.injEq] at hval'
          rw [← hval', List.append_assoc, List.singleton_append, List.getElem_cons_drop, List.take_append_drop]
        have hlen2 : 2 ≤ (m0 :: m1 :: rest').length := by simp
        generalize m0 :: m1 :: rest' = ms at *
        generalize hL : ms.take idx = L at *
        generalize hR : ms.drop (idx + 1) = R at *
        clear hidx hval' hL hR
        subst hsplit
        have side : ∀ (part : List Matcher) (o : Option Matcher), (if part.isEmpty then Res.ok none else match compileMatchers n part with
              | .ok l => .ok (some l)
              | .err e => .err e
              | .panic => .panic
              | .steps => .steps) = Res.ok o → (∀ m ∈ part, elem m = true) → part.IsChain Fine → NoGlue part →
              (∀ z, part.head? = some z → z.len = none) ∨ (∀ z, part.getLast? = some z → z.len = none) → SideOk part o := by
          intro part o ho p1 p2 p3 p4
          split at ho
          · rename_i he
            rw [List.isEmpty_iff] at he
            simp only [Res.ok.injEq] at ho
            exact Or.inl ⟨he, ho.symm⟩
          · rename_i he
            rw [List.isEmpty_iff] at he
            split at ho <;> simp only [Res.ok.injEq, reduceCtorEq] at ho
            rename_i l' hl'
            refine Or.inr ⟨l', ho.symm, he, ?_⟩
            rcases compile_spec n part l' hl' p1 p2 p3 with rfl | ⟨_, c⟩
            · have hl0 : l'.len = none := by rcases p4 with p4 | p4 <;> exact p4 l' rfl
              have := elem_open (p1 l' (by simp)) hl0
              have ho := elem_opt (p1 l' (by simp))
              refine ⟨hl0, fun h => by rw [ho]; exact (elemU_open (p1 l' (by simp)) (h l' (by simp)) hl0).1, by rw [ho]; exact this.1, by rw [ho]; exact this.2.1, ?_, ?_, ?_⟩
              · intro s e; rw [ho] at e; subst e; have := p1 (.suffix s) (by simp); cases this
              · intro s e; rw [ho] at e; subst e; have := p1 (.prefix s) (by simp); cases this
              · intro e; rw [ho] at e; rw [e]
            · rcases c.ok with ⟨c1, c2⟩ | ⟨p, q, rfl, _⟩
              · refine ⟨c.len, fun h => (c.utf8 h).resolve_right ?_, c1, c2, c.suf, c.pre, fun e => absurd e c.sup⟩
                rintro ⟨p, q, rfl, _⟩
                rcases p4 with p4 | p4
                · have := p4 (.text p) rfl; simp [Matcher.len] at this
                · have := p4 (.text q) rfl; simp [Matcher.len] at this
              · rcases p4 with p4 | p4
                · have := p4 (.text p) rfl; simp [Matcher.len] at this
                · have := p4 (.text q) rfl; simp [Matcher.len] at this
        split at h <;> try cases h
        rename_i lo hlo
        split at h <;> try cases h
        rename_i ro hro
        -- neighbours of the value have no length
        have adjL : ∀ z, L.getLast? = some z → z.len = none := by
          intro z hz
          obtain ⟨L', rfl⟩ := List.getLast?_eq_some_iff.1 hz
          have := hng L' [z, val'] R (by simp)
          rcases glue_two this with h | h
          · exact h
          · rw [hlen] at h; cases h
        have adjR : ∀ z, R.head? = some z → z.len = none := by
          intro z hz
          obtain ⟨R', rfl⟩ := List.head?_eq_some_iff.1 hz
          have := hng L [val', z] R' (by simp)
          rcases glue_two this with h | h
          · rw [hlen] at h; cases h
          · exact h
        have hchL : L.IsChain Fine := by rw [List.isChain_append, List.isChain_append] at hch; exact hch.1.1
        have hchR : R.IsChain Fine := by rw [List.isChain_append] at hch; exact hch.2.1
        have sL := side L lo hlo (fun m hm => hel m (by simp [hm])) hchL (NoGlue.part (as := []) (cs := [val'] ++ R) (by simpa using hng)) (Or.inr adjL)
        have sR := side R ro hro (fun m hm => hel m (by simp [hm])) hchR (NoGlue.part (as := L ++ [val']) (cs := []) (by simpa using hng)) (Or.inl adjR)
        have hv := elem_fixed (hel val' (by simp)) hlen
        have hvl := elem_lenGood (hel val' (by simp))
        have hvp : posLen val'.len = true := by rw [hlen]; simpa [posLen] using hv.1
        have hopenside : lenOpt lo = none ∨ lenOpt ro = none := by
          rcases sL with ⟨rfl, rfl⟩ | ⟨l, rfl, _, h1, _⟩
          · rcases sR with ⟨rfl, rfl⟩ | ⟨l, rfl, _, h1, _⟩
            · simp at hlen2
            · exact Or.inr h1
          · exact Or.inl h1
        rw [newBTree_eq hopenside]
        obtain ⟨l1, l2, l3, lu, l0⟩ := sL.facts
        obtain ⟨r1, r2, r3, ru, r0⟩ := sR.facts
        have hdef : good (.btree val' (optimizeOpt lo) (optimizeOpt ro) (lenOpt lo) (lenOpt ro) none) = true ∧
            goodE (.btree val' (optimizeOpt lo) (optimizeOpt ro) (lenOpt lo) (lenOpt ro) none) = true := by
          constructor
          · simp only [good, lenGood, l1, l2, l3, r1, r2, r3, hv.2.1, hvl, hvp]; simp
          · simp only [goodE, hvp, hvl]; simp
        have hdefU : (∀ x ∈ L ++ [val'] ++ R, elemU x = true) → goodW (.btree val' (optimizeOpt lo) (optimizeOpt ro) (lenOpt lo) (lenOpt ro) none) = true := by
          intro hU
          have hvu := (elemU_fixed (hel val' (by simp)) (hU val' (by simp)) hlen).1
          have hlu := lu fun x hx => hU x (by simp [hx])
          have hru := ru fun x hx => hU x (by simp [hx])
          simp only [goodW, lenGood, l1, hlu, l3, r1, hru, r3, hvu, l0, r0]; simp
        have htree : (∀ x ∈ L ++ [val'] ++ R, x.len = none) → ∀ P : Prop, P := fun h P => by
          have := h val' (by simp); rw [hlen] at this; cases this
        have hopt : optimizeMatcher (.btree val' lo ro (lenOpt lo) (lenOpt ro) none) = optimizeBTree val' (optimizeOpt lo) (optimizeOpt ro) (lenOpt lo) (lenOpt ro) none := by
          rw [optimizeMatcher]
        have fromL : ∀ x, optimizeOpt lo = some x → ∃ l, lo = some l ∧ optimizeMatcher l = x := by
          intro x hx; cases lo with
          | none => cases hx
          | some l => simp only [optimizeOpt, Option.some.injEq] at hx; exact ⟨l, rfl, hx⟩
        have fromR : ∀ x, optimizeOpt ro = some x → ∃ l, ro = some l ∧ optimizeMatcher l = x := by
          intro x hx; cases ro with
          | none => cases hx
          | some l => simp only [optimizeOpt, Option.some.injEq] at hx; exact ⟨l, rfl, hx⟩
        have noneL : optimizeOpt lo = none → L = [] := by
          intro h
          rcases sL with ⟨e, _⟩ | ⟨l, rfl, _⟩
          · exact e
          · cases h
        have noneR : optimizeOpt ro = none → R = [] := by
          intro h
          rcases sR with ⟨e, _⟩ | ⟨l, rfl, _⟩
          · exact e
          · cases h
        have L3 : ∀ x, optimizeOpt lo = some x → (∀ s, x = .suffix s → L = [.super, .text s]) ∧ (∀ p, x = .prefix p → L = [.text p, .super]) ∧ (x = .super → L = [.super]) := by
          intro x hx
          obtain ⟨l, rfl, rfl⟩ := fromL x hx
          rcases sL with ⟨_, e⟩ | ⟨l', e, _, _, _, _, _, q⟩
          · cases e
          · cases e; exact q
        have R3 : ∀ x, optimizeOpt ro = some x → (∀ s, x = .suffix s → R = [.super, .text s]) ∧ (∀ p, x = .prefix p → R = [.text p, .super]) ∧ (x = .super → R = [.super]) := by
          intro x hx
          obtain ⟨l, rfl, rfl⟩ := fromR x hx
          rcases sR with ⟨_, e⟩ | ⟨l', e, _, _, _, _, _, q⟩
          · cases e
          · cases e; exact q
        -- the cases of the optimiser
        have fin : ∀ m', m' = optimizeBTree val' (optimizeOpt lo) (optimizeOpt ro) (lenOpt lo) (lenOpt ro) none →
            ((good m' = true ∧ goodE m' = true) ∨ ∃ p q, L ++ [val'] ++ R = [.text p, .super, .text q] ∧ m' = .prefixSuffix p q) ∧
            (∀ s, m' = .suffix s → L ++ [val'] ++ R = [.super, .text s]) ∧ (∀ p, m' = .prefix p → L ++ [val'] ++ R = [.text p, .super]) ∧ m' ≠ .super ∧
            ((∀ x ∈ L ++ [val'] ++ R, elemU x = true) → goodW m' = true ∨ ∃ p q, L ++ [val'] ++ R = [.text p, .super, .text q] ∧ m' = .prefixSuffix p q) := by
          intro m' e
          generalize optimizeOpt lo = lo' at *
          generalize optimizeOpt ro = ro' at *
          unfold optimizeBTree at e
          simp only at e
          split at e
          · rename_i txt
            have hT : (∀ x ∈ L ++ [Matcher.text txt] ++ R, elemU x = true) → validText txt = true := fun h => h (.text txt) (by simp)
            have hl : ∀ x, lo' = some x → (∀ x ∈ L ++ [Matcher.text txt] ++ R, elemU x = true) → goodW x = true := fun x e h => by
              subst e; exact lu fun x hx => h x (by simp [hx])
            have hr : ∀ x, ro' = some x → (∀ x ∈ L ++ [Matcher.text txt] ++ R, elemU x = true) → goodW x = true := fun x e h => by
              subst e; exact ru fun x hx => h x (by simp [hx])
            split at e
            · subst e; exact ⟨Or.inl ⟨rfl, rfl⟩, nofun, nofun, nofun, fun h => Or.inl (hT h)⟩
            · subst e
              refine ⟨Or.inl ⟨rfl, rfl⟩, nofun, nofun, nofun, fun h => Or.inl ?_⟩
              have := hT h
              simp [goodW, needleW, this]
            · subst e
              refine ⟨Or.inl ⟨rfl, rfl⟩, ?_, nofun, nofun, fun h => Or.inl (hT h)⟩
              intro s e
              cases e
              rw [(L3 _ rfl).2.2 rfl, noneR rfl]; rfl
            · subst e
              refine ⟨Or.inl ⟨rfl, rfl⟩, nofun, ?_, nofun, fun h => Or.inl (hT h)⟩
              intro s e
              cases e
              rw [(R3 _ rfl).2.2 rfl, noneL rfl]; rfl
            · subst e
              have hR2 := (R3 _ rfl).1 _ rfl
              have hL2 := noneL rfl
              exact ⟨Or.inr ⟨_, _, by rw [hR2, hL2]; rfl, rfl⟩, nofun, nofun, nofun, fun _ => Or.inr ⟨_, _, by rw [hR2, hL2]; rfl, rfl⟩⟩
            · subst e
              have hL2 := (L3 _ rfl).2.1 _ rfl
              have hR2 := noneR rfl
              exact ⟨Or.inr ⟨_, _, by rw [hR2, hL2]; rfl, rfl⟩, nofun, nofun, nofun, fun _ => Or.inr ⟨_, _, by rw [hR2, hL2]; rfl, rfl⟩⟩
            · subst e
              refine ⟨Or.inl ⟨rfl, rfl⟩, nofun, nofun, nofun, fun h => Or.inl ?_⟩
              have h1 := hT h
              have h2 := hl _ rfl h
              simp only [goodW] at h2 ⊢
              rw [h1, h2]; rfl
            · subst e
              refine ⟨Or.inl ⟨rfl, rfl⟩, nofun, nofun, nofun, fun h => Or.inl ?_⟩
              have h1 := hT h
              have h2 := hr _ rfl h
              simp only [goodW] at h2 ⊢
              rw [h1, h2]; rfl
            · subst e; exact ⟨Or.inl hdef, nofun, nofun, nofun, fun h => Or.inl (hdefU h)⟩
          · subst e; exact ⟨Or.inl hdef, nofun, nofun, nofun, fun h => Or.inl (hdefU h)⟩
        obtain ⟨f1, f2, f3, f4, f5⟩ := fin _ rfl
        refine ⟨rfl, ?_, ?_, ?_, ?_, ?_, fun h => htree h _⟩ <;> rw [hopt]
        · exact f5
        · exact f1
        · exact f2
        · exact f3
        · exact f4

/-- A sequence of elements with fine neighbours is compiled to a matcher that passes the check, unless it is one matcher that is wrong on the empty string, or a text,
`**` and a text that overlap. -/
theorem sequence_good {ms ns : List Matcher} {m : Matcher} {k k' : Nat} (hel : ∀ m ∈ ms, elem m = true) (hch : ms.IsChain Fine) (hmin : minimizeMatchers k ms = some ns)
    (hc : compileMatchers k' ns = .ok m) (hps : ∀ p q, PrefSuf ms p q → noOverlap p q = true) :
    good (optimizeMatcher m) = true ∧ ((∀ e, ms = [e] → goodE e = true) → goodE (optimizeMatcher m) = true) := by
  obtain ⟨h1, h2, h3, h4, h5⟩ := minimize_spec k ms ns hmin hel hch
  rcases compile_spec k' ns m hc h1 h2 h3 with rfl | ⟨_, c⟩
  · have he := h1 m (by simp)
    rw [elem_opt he]
    cases hl : m.len with
    | none => exact ⟨(elem_open he hl).1, fun _ => (elem_open he hl).2.1⟩
    | some j =>
      refine ⟨(elem_fixed he hl).2.2, fun h => ?_⟩
      cases hg : isGlued m with
      | false => exact h m (h5 m rfl hg)
      | true =>
        cases m <;> simp only [isGlued, Bool.false_eq_true] at hg <;> simp only [Matcher.len, reduceCtorEq] at hl
        · split at hl
          · rename_i hms
            simp only [elem, Bool.and_eq_true] at he
            rw [List.isEmpty_iff] at hms
            rw [hms] at he; simp [startsMin] at he
          · cases hl
        · simp only [elem, Bool.and_eq_true, decide_eq_true_eq] at he
          simp only [goodE, Bool.and_eq_true, decide_eq_true_eq]
          exact ⟨he.1.1.2, he.1.2⟩
  · rcases c.ok with ⟨c1, c2⟩ | ⟨p, q, rfl, e⟩
    · exact ⟨c1, fun _ => c2⟩
    · have := hps p q (h4 p q ⟨[.super], rfl, by simp, by simp⟩)
      rw [e]
      exact ⟨this, fun _ => this⟩

/-- The same for the check of `Verif.Glob.RuneGood`. -/
theorem sequence_goodW {ms ns : List Matcher} {m : Matcher} {k k' : Nat} (hel : ∀ m ∈ ms, elem m = true) (hU : ∀ m ∈ ms, elemU m = true) (hch : ms.IsChain Fine)
    (hcu : ms.IsChain FineU) (hmin : minimizeMatchers k ms = some ns) (hc : compileMatchers k' ns = .ok m) (hps : ∀ p q, PrefSuf ms p q → noOverlap p q = true) :
    goodW (optimizeMatcher m) = true := by
  obtain ⟨h1, h2, h3, h4, h5⟩ := minimize_spec k ms ns hmin hel hch
  have hu := minimizeU k ms ns hmin hel hU hch hcu
  rcases compile_spec k' ns m hc h1 h2 h3 with rfl | ⟨_, c⟩
  · have he := h1 m (by simp)
    rw [elem_opt he]
    cases hl : m.len with
    | none => exact (elemU_open he (hu m (by simp)) hl).1
    | some j => exact (elemU_fixed he (hu m (by simp)) hl).2
  · rcases c.utf8 hu with c1 | ⟨p, q, rfl, e⟩
    · exact c1
    · have := hps p q (h4 p q ⟨[.super], rfl, by simp, by simp⟩)
      have hp := hu (.text p) (by simp)
      have hq := hu (.text q) (by simp)
      rw [elemU] at hp hq
      rw [e, goodW, hp, hq, this]; rfl

end Verif.Glob
