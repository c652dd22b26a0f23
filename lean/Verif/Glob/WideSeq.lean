import Verif.Glob.FlatCompile
/-
What the compiler makes of a sequence of matchers: its length, and which kind of matcher it is.
-/
namespace Verif.Glob

/-! ### Gluing -/

theorem every_open {S : List Matcher} {g : Matcher} (h : glueMatchersAsEvery S = some g) (he : elem g = true) : g.len = none := by
  unfold glueMatchersAsEvery at h
  split at h <;> try cases h
  split at h <;> try cases h
  split at h <;> try cases h
  split at h
  · cases h; rfl
  · split at h
    · cases h; rfl
    · split at h
      · cases h; rfl
      · simp only [Option.some.injEq] at h
        subst h
        rw [elem, Bool.and_eq_true] at he
        rw [Matcher.len, if_neg]
        intro hc
        rw [List.isEmpty_iff] at hc
        rw [hc] at he; simp [startsMin] at he

theorem every_gluable {S : List Matcher} {g : Matcher} (h : glueMatchersAsEvery S = some g) : ∀ x ∈ S, gluable x ≠ none := by
  unfold glueMatchersAsEvery at h
  split at h <;> try cases h
  split at h <;> try cases h
  split at h <;> try cases h
  rename_i hl
  obtain ⟨-, -, -, -, -, -, -, h6⟩ := glueLoop_all _ _ _ _ _ _ _ _ _ _ hl
  intro x hx
  obtain ⟨k, e, _⟩ := h6 x hx
  rw [e]; simp

/-- What is glued with a matcher of no length has no length. -/
theorem glue_open {S : List Matcher} {g : Matcher} (h : glueMatchers S = some g) (he : elem g = true) (ho : ∃ x ∈ S, x.len = none) : g.len = none := by
  unfold glueMatchers at h
  split at h
  · rename_i h'
    cases h; exact every_open h' he
  · exfalso
    unfold glueMatchersAsRow at h
    split at h
    · cases h
    · rw [Option.map_eq_some_iff] at h
      obtain ⟨l, hl, _⟩ := h
      obtain ⟨x, hx, hn⟩ := ho
      exact sumLens_some hl x.len (by rw [lens_eq]; exact List.mem_map_of_mem hx) hn

/-- A property of sequences that gluing keeps is one of the minimised sequence. -/
theorem minimize_inv {P : List Matcher → Prop} (hP : ∀ as ss cs g, glueMatchers ss = some g → (∀ m ∈ as ++ ss ++ cs, elem m = true) → elem g = true →
    P (as ++ ss ++ cs) → P (as ++ [g] ++ cs)) : ∀ (n : Nat) (ms ns : List Matcher), minimizeMatchers n ms = some ns → (∀ m ∈ ms, elem m = true) → ms.IsChain Fine → P ms → P ns
  | 0, _, _, h, _, _, _ => by cases h
  | n + 1, ms, ns, h, hel, hch, hp => by
    unfold minimizeMatchers at h
    split at h
    · simp only [Option.some.injEq] at h
      subst h
      exact hp
    · rename_i d hd
      obtain ⟨h1, h2, h3⟩ := minimizeLoops_glued hd
      have hms : ms = ms.take d.left ++ (ms.take d.right).drop d.left ++ ms.drop d.right := by
        have : ms.take d.left = (ms.take d.right).take d.left := by rw [List.take_take]; congr 1; omega
        rw [this, List.take_append_drop, List.take_append_drop]
      generalize has : ms.take d.left = as at h hms
      generalize hss : (ms.take d.right).drop d.left = ss at hms h1
      generalize hcs : ms.drop d.right = cs at h hms
      rw [hms] at hel hch hp
      have hch' := hch
      rw [List.isChain_append, List.isChain_append] at hch'
      obtain ⟨g1, g2, g3, g4⟩ := glue_spec h1 (fun m hm => hel m (by simp [hm])) hch'.1.2.1
      have hne : ss ≠ [] := by rintro rfl; simp at g3
      have c1 : ∀ m ∈ as ++ [d.m] ++ cs, elem m = true := by
        intro m hm
        simp only [List.mem_append, List.mem_singleton] at hm
        rcases hm with (hm | rfl) | hm
        · exact hel m (by simp [hm])
        · exact g1
        · exact hel m (by simp [hm])
      have hp' := hP as ss cs d.m h1 hel g1 hp
      simp only at h
      split at h
      · simp only [Option.some.injEq] at h
        subst h; exact hp'
      · exact minimize_inv hP n _ ns h c1 (chain_glued hch g4 h1 hne) hp'

/-- A sequence with a matcher of no length still has one. -/
theorem minimize_open {n : Nat} {ms ns : List Matcher} (h : minimizeMatchers n ms = some ns) (hel : ∀ m ∈ ms, elem m = true) (hch : ms.IsChain Fine)
    (ho : ∃ x ∈ ms, x.len = none) : ∃ x ∈ ns, x.len = none := by
  refine minimize_inv (P := fun ms => ∃ x ∈ ms, x.len = none) ?_ n ms ns h hel hch ho
  rintro as ss cs g hg _ he ⟨x, hx, hn⟩
  simp only [List.mem_append] at hx
  rcases hx with (hx | hx) | hx
  · exact ⟨x, by simp [hx], hn⟩
  · exact ⟨g, by simp, glue_open hg he ⟨x, hx, hn⟩⟩
  · exact ⟨x, by simp [hx], hn⟩

/-- A text, `**` or `*`. -/
def simple : Matcher → Bool
  | .text _ => true
  | .super => true
  | .any _ => true
  | _ => false

/-- A row, braces or a tree. -/
def compound : Matcher → Bool
  | .row _ _ => true
  | .anyOf _ => true
  | .btree _ _ _ _ _ _ => true
  | _ => false

theorem compound_facts {x : Matcher} (h : compound x = true) : simple x = false ∧ gluable x = none := by
  cases x <;> simp only [compound, Bool.false_eq_true] at h <;> exact ⟨rfl, rfl⟩

/-- These do not disappear. -/
theorem minimize_kind {n : Nat} {ms ns : List Matcher} (h : minimizeMatchers n ms = some ns) (hel : ∀ m ∈ ms, elem m = true) (hch : ms.IsChain Fine)
    (ho : ∃ x ∈ ms, compound x = true) : ∃ x ∈ ns, compound x = true := by
  refine minimize_inv (P := fun ms => ∃ x ∈ ms, compound x = true) ?_ n ms ns h hel hch ho
  rintro as ss cs g hg _ he ⟨x, hx, hn⟩
  simp only [List.mem_append] at hx
  rcases hx with (hx | hx) | hx
  · exact ⟨x, by simp [hx], hn⟩
  · refine ⟨g, by simp, ?_⟩
    unfold glueMatchers at hg
    split at hg
    · rename_i h'
      exact absurd (compound_facts hn).2 (every_gluable h' x hx)
    · unfold glueMatchersAsRow at hg
      split at hg
      · cases hg
      · rw [Option.map_eq_some_iff] at hg
        obtain ⟨l, hl, rfl⟩ := hg
        rfl
  · exact ⟨x, by simp [hx], hn⟩

/-! ### Compiling -/

/-- A tree. -/
def isTree : Matcher → Bool
  | .btree _ _ _ _ _ _ => true
  | _ => false

theorem optimizeBTree_kind {v : Matcher} {l r : Option Matcher} {ll rl : Option Nat} (hne : l ≠ none ∨ r ≠ none) {L R : List Matcher}
    (hL : ∀ x, l = some x → x = .super ∨ (∃ s, x = .any s) ∨ (∃ s, x = .prefix s) → ∀ y ∈ L, simple y = true)
    (hR : ∀ x, r = some x → x = .super ∨ (∃ s, x = .any s) ∨ (∃ s, x = .suffix s) → ∀ y ∈ R, simple y = true)
    (hL0 : l = none → L = []) (hR0 : r = none → R = []) :
    (optimizeBTree v l r ll rl none).len = none ∧ (isTree (optimizeBTree v l r ll rl none) = true ∨ ∀ y ∈ L ++ [v] ++ R, simple y = true) := by
  have fin : ∀ {t}, v = .text t → (∀ y ∈ L, simple y = true) → (∀ y ∈ R, simple y = true) → ∀ y ∈ L ++ [v] ++ R, simple y = true := by
    rintro t rfl h1 h2 y hy
    simp only [List.mem_append, List.mem_singleton] at hy
    rcases hy with (hy | rfl) | hy
    · exact h1 y hy
    · rfl
    · exact h2 y hy
  unfold optimizeBTree
  simp only
  split
  · split
    · simp at hne
    · exact ⟨rfl, Or.inr (fin rfl (hL _ rfl (Or.inl rfl)) (hR _ rfl (Or.inl rfl)))⟩
    · exact ⟨rfl, Or.inr (fin rfl (hL _ rfl (Or.inl rfl)) (by rw [hR0 rfl]; simp))⟩
    · exact ⟨rfl, Or.inr (fin rfl (by rw [hL0 rfl]; simp) (hR _ rfl (Or.inl rfl)))⟩
    · exact ⟨rfl, Or.inr (fin rfl (by rw [hL0 rfl]; simp) (hR _ rfl (Or.inr (Or.inr ⟨_, rfl⟩))))⟩
    · exact ⟨rfl, Or.inr (fin rfl (hL _ rfl (Or.inr (Or.inr ⟨_, rfl⟩))) (by rw [hR0 rfl]; simp))⟩
    · exact ⟨rfl, Or.inr (fin rfl (hL _ rfl (Or.inr (Or.inl ⟨_, rfl⟩))) (by rw [hR0 rfl]; simp))⟩
    · exact ⟨rfl, Or.inr (fin rfl (by rw [hL0 rfl]; simp) (hR _ rfl (Or.inr (Or.inl ⟨_, rfl⟩))))⟩
    · exact ⟨rfl, Or.inl rfl⟩
  · exact ⟨rfl, Or.inl rfl⟩

/-- A sequence of at least two matchers gives a matcher without a length, a tree unless all are texts and stars. -/
theorem compile_kind : ∀ (n : Nat) (ms : List Matcher) (m : Matcher), compileMatchers n ms = .ok m → (∀ m ∈ ms, elem m = true) → ms.IsChain Fine → NoGlue ms →
    ms = [m] ∨ ((optimizeMatcher m).len = none ∧ (isTree (optimizeMatcher m) = true ∨ ∀ x ∈ ms, simple x = true))
  | 0, ms, m, h, _, _, _ => by cases h
  | n + 1, ms, m, h, hel, hch, hng => by
    have hspec := compile_spec (n + 1) ms m h hel hch hng
    rcases hspec with e | ⟨hlen2, hC⟩
    · exact Or.inl e
    right
    have side : ∀ (part : List Matcher) (o : Option Matcher), (if part.isEmpty then Res.ok none else match compileMatchers n part with
          | .ok l => .ok (some l)
          | .err e => .err e
          | .panic => .panic
          | .steps => .steps) = Res.ok o → (∀ m ∈ part, elem m = true) → part.IsChain Fine → NoGlue part →
          (optimizeOpt o = none ↔ part = []) ∧ ∀ x, optimizeOpt o = some x → x = .super ∨ (∃ s, x = .any s) ∨ (∃ s, x = .prefix s) ∨ (∃ s, x = .suffix s) → ∀ y ∈ part, simple y = true := by
      intro part o ho p1 p2 p3
      split at ho
      · rename_i he
        rw [List.isEmpty_iff] at he
        simp only [Res.ok.injEq] at ho
        subst ho; subst he
        exact ⟨by simp [optimizeOpt], nofun⟩
      · rename_i he
        rw [List.isEmpty_iff] at he
        split at ho <;> simp only [Res.ok.injEq, reduceCtorEq] at ho
        rename_i l' hl'
        subst ho
        refine ⟨by simp [optimizeOpt, he], fun x hx hk => ?_⟩
        simp only [optimizeOpt, Option.some.injEq] at hx
        subst hx
        rcases compile_kind n part l' hl' p1 p2 p3 with rfl | ⟨_, c | c⟩
        · have he' := p1 l' (by simp)
          rw [elem_opt he'] at hk
          intro y hy
          rw [List.mem_singleton] at hy
          subst hy
          rcases hk with rfl | ⟨s, rfl⟩ | ⟨s, rfl⟩ | ⟨s, rfl⟩ <;> first | rfl | cases he'
        · rcases hk with e | ⟨s, e⟩ | ⟨s, e⟩ | ⟨s, e⟩ <;> rw [e] at c <;> cases c
        · exact c
    have hlen := hC.len
    clear hC
    unfold compileMatchers at h
    split at h
    · cases h
    · simp at hlen2
    · rename_i m0 rest hne
      rw [hng [] _ [] (by simp)] at h
      simp only at h
      split at h
      · rename_i hcv
        have hopen := (chooseValue_none _ _ _ hcv).2
        split at h
        · rename_i r hr
          simp only [Res.ok.injEq] at h
          subst h
          have hnt : ∀ t, m0 ≠ .text t := by
            rintro t rfl
            have := hopen (.text t) (by simp)
            simp [Matcher.len] at this
          simp only [newBTree] at hlen ⊢
          rw [optimizeMatcher, optimizeBTree]
          · rw [Matcher.len] at hlen ⊢
            exact ⟨hlen, Or.inl rfl⟩
          · exact fun t ht => hnt t ht
        · rename_i hno; exact absurd h (hno m)
      · rename_i idx len hidx
        split at h
        · cases h
        · rename_i val hval
          have hsplit : m0 :: rest = (m0 :: rest).take idx ++ [val] ++ (m0 :: rest).drop (idx + 1) := by
            have hlt : idx < (m0 :: rest).length := by
              by_contra hc
              rw [List.getElem?_eq_none (by omega)] at hval; cases hval
            rw [List.getElem?_eq_getElem hlt, Option.some.injEq] at hval
            rw [← hval, List.append_assoc, List.singleton_append, List.getElem_cons_drop, List.take_append_drop]
          generalize m0 :: rest = ms at *
          generalize hL : ms.take idx = L at *
          generalize hR : ms.drop (idx + 1) = R at *
          clear hidx hval hL hR
          subst hsplit
          split at h <;> try cases h
          rename_i lo hlo
          split at h <;> try cases h
          rename_i ro hro
          have hchL : L.IsChain Fine := by rw [List.isChain_append, List.isChain_append] at hch; exact hch.1.1
          have hchR : R.IsChain Fine := by rw [List.isChain_append] at hch; exact hch.2.1
          have sL := side L lo hlo (fun m hm => hel m (by simp [hm])) hchL (NoGlue.part (as := []) (cs := [val] ++ R) (by simpa using hng))
          have sR := side R ro hro (fun m hm => hel m (by simp [hm])) hchR (NoGlue.part (as := L ++ [val]) (cs := []) (by simpa using hng))
          simp only [newBTree] at hlen ⊢
          rw [Matcher.len] at hlen
          rw [optimizeMatcher, hlen]
          refine optimizeBTree_kind ?_ (fun x hx hk => sL.2 x hx ?_) (fun x hx hk => sR.2 x hx ?_) sL.1.1 sR.1.1
          · by_contra hc
            simp only [not_or, ne_eq, Decidable.not_not] at hc
            rw [sL.1.1 hc.1, sR.1.1 hc.2] at hlen2
            simp at hlen2
          · tauto
          · tauto

/-- A sequence with a matcher that has no length gives one that has no length. -/
theorem sequence_open {ms ns : List Matcher} {m : Matcher} {k k' : Nat} (hel : ∀ m ∈ ms, elem m = true) (hch : ms.IsChain Fine) (hmin : minimizeMatchers k ms = some ns)
    (hc : compileMatchers k' ns = .ok m) (ho : ∃ x ∈ ms, x.len = none) : (optimizeMatcher m).len = none := by
  obtain ⟨h1, h2, h3, _⟩ := minimize_spec k ms ns hmin hel hch
  rcases compile_kind k' ns m hc h1 h2 h3 with rfl | ⟨c, _⟩
  · obtain ⟨x, hx, hn⟩ := minimize_open hmin hel hch ho
    rw [List.mem_singleton] at hx
    subst hx
    rw [elem_opt (h1 x (by simp))]; exact hn
  · exact c

/-- And with a row, braces or a tree, it gives braces or a tree that is an element again. -/
theorem sequence_elem {ms ns : List Matcher} {m : Matcher} {k k' : Nat} (hel : ∀ m ∈ ms, elem m = true) (hch : ms.IsChain Fine) (hmin : minimizeMatchers k ms = some ns)
    (hc : compileMatchers k' ns = .ok m) (ho : ∃ x ∈ ms, x.len = none) (hk : ∃ x ∈ ms, compound x = true)
    (hg : good (optimizeMatcher m) = true) (he : goodE (optimizeMatcher m) = true) (hf : optimizeMatcher (optimizeMatcher m) = optimizeMatcher m) :
    elem (optimizeMatcher m) = true ∧ (goodW (optimizeMatcher m) = true → elemU (optimizeMatcher m) = true) ∧ compound (optimizeMatcher m) = true := by
  have hopen := sequence_open hel hch hmin hc ho
  obtain ⟨h1, h2, h3, _⟩ := minimize_spec k ms ns hmin hel hch
  obtain ⟨x, hx, hs⟩ := minimize_kind hmin hel hch hk
  rcases compile_kind k' ns m hc h1 h2 h3 with rfl | ⟨c, c' | c'⟩
  · rw [List.mem_singleton] at hx
    subst hx
    have hx := h1 x (by simp)
    rw [elem_opt hx] at hopen hg he ⊢
    refine ⟨hx, fun hw => ?_, hs⟩
    cases x <;> simp only [compound, Bool.false_eq_true] at hs <;> simp only [Matcher.len, reduceCtorEq] at hopen
    · simp only [elemU, goodW] at hw ⊢
      rw [hopen]; simpa using hw
    · simp only [elemU, goodW] at hw ⊢
      exact hw
  · cases hm : optimizeMatcher m <;> rw [hm] at c' <;> simp only [isTree, Bool.false_eq_true] at c'
    rename_i v l r ll rl len
    rw [hm] at hopen hg he hf
    rw [Matcher.len] at hopen
    refine ⟨?_, fun hw => ?_, rfl⟩
    · simp only [elem, hg, he, hopen, Bool.and_eq_true, decide_eq_true_eq]
      subst hopen
      exact ⟨⟨⟨rfl, hg⟩, he⟩, hf⟩
    · rw [elemU]; exact hw
  · have := c' x hx
    rw [(compound_facts hs).1] at this; cases this

end Verif.Glob
