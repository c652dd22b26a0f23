import Verif.Glob.GlobLang
/-
C55, second half: compiling a tree ends with a matcher, without an error or a crash.
-/
namespace Verif.Glob

theorem chooseValue_ok : ∀ (ms : List Matcher) (i : Nat) (best : Option (Nat × Nat)), (∀ j l, best = some (j, l) → j < i) →
    ∀ j l, chooseValue ms i best = some (j, l) → j < i + ms.length
  | [], i, best, h, j, l, e => by simpa using h j l e
  | m :: ms, i, best, h, j, l, e => by
    rw [chooseValue] at e
    have hi : ∀ j l, best = some (j, l) → j < i + 1 := fun j l e => Nat.lt_succ_of_lt (h j l e)
    simp only [List.length_cons]
    have fin : ∀ best', (∀ j l, best' = some (j, l) → j < i + 1) → chooseValue ms (i + 1) best' = some (j, l) → j < i + (ms.length + 1) := by
      intro best' hb e
      have := chooseValue_ok ms (i + 1) best' hb j l e
      omega
    split at e
    · exact fin _ hi e
    · split at e
      · refine fin _ ?_ e
        intro j l hj
        simp only [Option.some.injEq, Prod.mk.injEq] at hj; omega
      · rename_i best j0 l0
        refine fin _ ?_ e
        intro j' l' hj
        split at hj <;> simp only [Option.some.injEq, Prod.mk.injEq] at hj
        · omega
        · have := h j0 l0 rfl; omega

theorem compileMatchers_total : ∀ (n : Nat) (ms : List Matcher), ms ≠ [] → ms.length ≤ n → ∃ m, compileMatchers n ms = .ok m
  | 0, ms, h, hl => by
    exact absurd (List.length_eq_zero_iff.1 (Nat.le_zero.1 hl)) h
  | n + 1, ms, h, hl => by
    unfold compileMatchers
    split
    · exact absurd rfl h
    · exact ⟨_, rfl⟩
    · rename_i m0 rest hne
      split
      · exact ⟨_, rfl⟩
      · split
        · have hr : rest ≠ [] := by rintro rfl; exact hne rfl
          obtain ⟨r, e⟩ := compileMatchers_total n rest hr (by simpa using hl)
          rw [e]; exact ⟨_, rfl⟩
        · rename_i idx l hidx
          have hlt : idx < (m0 :: rest).length := by
            have := chooseValue_ok (m0 :: rest) 0 none (by simp) idx l hidx
            omega
          rw [List.getElem?_eq_getElem hlt]
          simp only
          have side : ∀ (part : List Matcher), part.length ≤ n → part.isEmpty = true ∨ (part.isEmpty = false ∧ ∃ m, compileMatchers n part = .ok m) := by
            intro part hp
            cases he : part.isEmpty with
            | true => exact Or.inl rfl
            | false => exact Or.inr ⟨rfl, compileMatchers_total n part (by rintro rfl; simp at he) hp⟩
          rcases side ((m0 :: rest).take idx) (by rw [List.length_take]; omega) with e1 | ⟨e1, l, e1'⟩ <;>
            rcases side ((m0 :: rest).drop (idx + 1)) (by rw [List.length_drop]; omega) with e2 | ⟨e2, r, e2'⟩
          · simp only [e1, e2, if_true]; exact ⟨_, rfl⟩
          · simp only [e1, e2, e2', if_true, Bool.false_eq_true, if_false]; exact ⟨_, rfl⟩
          · simp only [e1, e2, e1', if_true, Bool.false_eq_true, if_false]; exact ⟨_, rfl⟩
          · simp only [e1, e2, e1', e2', Bool.false_eq_true, if_false]; exact ⟨_, rfl⟩

theorem minimizeMatchers_total : ∀ (n : Nat) (ms : List Matcher), ms ≠ [] → ms.length ≤ n → ∃ ns, minimizeMatchers n ms = some ns ∧ ns ≠ []
  | 0, ms, h, hl => by
    exact absurd (List.length_eq_zero_iff.1 (Nat.le_zero.1 hl)) h
  | n + 1, ms, h, hl => by
    unfold minimizeMatchers
    split
    · exact ⟨ms, rfl, h⟩
    · rename_i d hd
      obtain ⟨h1, h2, h3⟩ := minimizeLoops_glued hd
      simp only
      have hne : ms.take d.left ++ [d.m] ++ ms.drop d.right ≠ [] := by simp
      split
      · exact ⟨_, rfl, hne⟩
      · rename_i hneq
        refine minimizeMatchers_total n _ hne ?_
        have : (ms.take d.left ++ [d.m] ++ ms.drop d.right).length ≤ ms.length := by
          simp only [List.length_append, List.length_take, List.length_drop, List.length_singleton]; omega
        omega

theorem Node.size_pos (t : Node) : 1 ≤ t.size := by cases t <;> simp [Node.size] <;> omega

theorem sizes_mem {cs : List Node} {c : Node} (h : c ∈ cs) : c.size ≤ sizes cs := by
  induction cs with
  | nil => simp at h
  | cons d ds ih =>
    rw [sizes]
    rcases List.mem_cons.1 h with rfl | h
    · omega
    · have := ih h; omega

theorem sizes_append (as bs : List Node) : sizes (as ++ bs) = sizes as + sizes bs := by
  induction as with
  | nil => simp [sizes]
  | cons a as ih => rw [List.cons_append, sizes, sizes, ih]; omega

theorem sizes_length (as : List Node) : as.length ≤ sizes as := by
  induction as with
  | nil => simp [sizes]
  | cons a as ih => have := a.size_pos; rw [sizes, List.length_cons]; omega

theorem compileChildren_total {f : Node → Res Matcher} : ∀ {cs : List Node}, (∀ c ∈ cs, ∃ m, f c = .ok m) → ∃ ms, compileChildren f cs = .ok ms ∧ ms.length = cs.length
  | [], _ => ⟨[], rfl, rfl⟩
  | c :: cs, h => by
    obtain ⟨m, e⟩ := h c List.mem_cons_self
    obtain ⟨ms, e', hl⟩ := compileChildren_total (cs := cs) fun d hd => h d (List.mem_cons_of_mem _ hd)
    refine ⟨optimizeMatcher m :: ms, ?_, by simp [hl]⟩
    rw [compileChildren, e, e']

theorem reduceAlts_size {cl cr : Nat} : ∀ (ns : List (List Node)) (acc acc' : List Node), reduceAlts cl cr ns acc = some acc' →
    sizes acc' ≤ sizes acc + (ns.map fun cs => 1 + sizes ((cs.take (cs.length - cr)).drop cl)).sum
  | [], acc, acc', h => by simp only [reduceAlts, Option.some.injEq] at h; subst h; simp
  | cs :: ns, acc, acc', h => by
    rw [reduceAlts] at h
    split at h
    · cases h
    · have := reduceAlts_size ns _ acc' h
      have hv : ∀ v, sizes (appendIfUnique acc v) ≤ sizes acc + v.size := by
        intro v
        unfold appendIfUnique
        split
        · omega
        · rw [sizes_append, sizes, sizes]; omega
      have h2 := hv (if ((cs.take (cs.length - cr)).drop cl).isEmpty then .nothing else .pattern ((cs.take (cs.length - cr)).drop cl))
      have h3 : (if ((cs.take (cs.length - cr)).drop cl).isEmpty then Node.nothing else .pattern ((cs.take (cs.length - cr)).drop cl)).size ≤
          1 + sizes ((cs.take (cs.length - cr)).drop cl) := by
        split
        · simp [Node.size]
        · simp [Node.size]
      rw [List.map_cons, List.sum_cons]
      omega

theorem sizes_patterns (nodes : List (List Node)) : sizes (nodes.map Node.pattern) = (nodes.map fun cs => 1 + sizes cs).sum := by
  induction nodes with
  | nil => rfl
  | cons c cs ih => rw [List.map_cons, sizes, ih, Node.size, List.map_cons, List.sum_cons]

/-- A minimised tree is smaller. -/
theorem minimizeTree_size {cs : List Node} {t : Node} (h : minimizeTreeAnyOf cs = some (some t)) : t.size < (Node.anyOf cs).size := by
  unfold minimizeTreeAnyOf at h
  cases hp : patternChildren cs with
  | none => rw [hp] at h; cases h
  | some nodes =>
    obtain ⟨left, right, e, hc⟩ := commonChildren_ok nodes
    rw [hp] at h
    simp only [e] at h
    split at h
    · cases h
    · rename_i hne
      have hcs := patternChildren_some hp
      split at h
      · cases h
      · rename_i alts ha
        simp only [Option.some.injEq] at h
        subst h
        have h1 := reduceAlts_size nodes [] alts ha
        have h2 : sizes (reducedPart alts) ≤ 1 + 4 * sizes alts := by
          rcases alts with _ | ⟨a, _ | ⟨a', as⟩⟩
          · simp [reducedPart, sizes]
          · cases a <;> simp [reducedPart, sizes] <;> omega
          · simp [reducedPart, sizes, Node.size]
        have part : ∀ l : List Node, sizes (if l.length > 0 then [.pattern l] else []) ≤ 1 + sizes l := by
          intro l
          split
          · simp [sizes, Node.size]
          · simp [sizes]
        have hl := part left
        have hr := part right
        have htwo : 2 ≤ nodes.length := by
          by_contra hlt
          rw [commonChildren, if_pos (by omega), Option.some.injEq, Prod.mk.injEq] at e
          obtain ⟨rfl, rfl⟩ := e
          simp at hne
        have hmid : ∀ ns : List (List Node), (∀ cs ∈ ns, cs ∈ nodes) →
            (ns.map fun cs => 1 + sizes cs).sum = (ns.map fun cs => 1 + sizes ((cs.take (cs.length - right.length)).drop left.length)).sum + ns.length * (sizes left + sizes right) := by
          intro ns
          induction ns with
          | nil => simp
          | cons c ns ih =>
            intro hin
            obtain ⟨g1, g2, g3⟩ := hc c (hin c List.mem_cons_self)
            have e2 := congrArg sizes (mid_split g1 g2 g3)
            rw [sizes_append, sizes_append] at e2
            have := ih fun d hd => hin d (List.mem_cons_of_mem _ hd)
            rw [List.map_cons, List.sum_cons, this, List.map_cons, List.sum_cons, List.length_cons, Nat.add_mul]
            omega
        have hsum := hmid nodes fun _ h => h
        have hpos : 1 ≤ sizes left + sizes right := by
          have := sizes_length left
          have := sizes_length right
          simp only [Bool.and_eq_true, decide_eq_true_eq] at hne
          omega
        rw [Node.size, Node.size, sizes_append, sizes_append, hcs, sizes_patterns, hsum]
        have h3 : 2 * (sizes left + sizes right) ≤ nodes.length * (sizes left + sizes right) := Nat.mul_le_mul_right _ htwo
        simp only [sizes, Nat.zero_add] at h1
        omega

/-- Compiling a tree gives a matcher, if the bound on the depth is at least the size of the tree. -/
theorem compile_total (seps : List Nat) : ∀ (n : Nat) (t : Node), t.size ≤ n → ∃ m, compile seps n t = .ok m
  | 0, t, h => by have := t.size_pos; omega
  | n + 1, t, h => by
    cases t <;> try (exact ⟨_, rfl⟩)
    case pattern cs =>
      simp only [compile]
      split
      · exact ⟨_, rfl⟩
      · rename_i hne
        rw [Node.size] at h
        obtain ⟨ms, e, hl⟩ := compileChildren_total (f := compile seps n) (cs := cs) fun c hc => compile_total seps n c (by have := sizes_mem hc; omega)
        rw [e]
        simp only
        have hms : ms ≠ [] := by rintro rfl; simp at hl; omega
        obtain ⟨ns, e2, hns⟩ := minimizeMatchers_total (ms.length + 1) ms hms (by omega)
        rw [e2]
        simp only
        obtain ⟨m, e3⟩ := compileMatchers_total (ns.length + 1) ns hns (by omega)
        rw [e3]
        exact ⟨_, rfl⟩
    case anyOf cs =>
      simp only [compile]
      obtain ⟨o, e1, _⟩ := minimizeTree_ok seps cs
      rw [e1]
      cases o with
      | some t' =>
        have := minimizeTree_size e1
        exact compile_total seps n t' (by omega)
      | none =>
        simp only
        rw [Node.size] at h
        obtain ⟨ms, e, hl⟩ := compileChildren_total (f := compile seps n) (cs := cs) fun c hc => compile_total seps n c (by have := sizes_mem hc; omega)
        rw [e]
        exact ⟨_, rfl⟩

end Verif.Glob
