import Verif.Glob.CompileCost
import Verif.Glob.CostSize
/-
`Compile` takes at most polynomially many steps.
-/
namespace Verif.Glob

/-! ### Matchers -/

theorem anyOfLenSteps_le : ∀ (o : Option Nat) (ls : List (Option Nat × Nat)), anyOfLenSteps o ls ≤ (ls.map Prod.snd).sum
  | _, [] => by simp [anyOfLenSteps]
  | none, (ml, c) :: ls => by
    have := anyOfLenSteps_le ml ls
    simp only [anyOfLenSteps, List.map_cons, List.sum_cons]; omega
  | some _, (none, c) :: ls => by simp [anyOfLenSteps]
  | some l, (some ml, c) :: ls => by
    have := anyOfLenSteps_le (some l) ls
    simp only [anyOfLenSteps, List.map_cons, List.sum_cons]
    split <;> omega

theorem lens_length (ms : List Matcher) : (lens ms).length = ms.length := by
  induction ms with
  | nil => rfl
  | cons m ms ih => simp [lens, ih]

theorem lenStepsList_length (ms : List Matcher) : (lenStepsList ms).length = ms.length := by
  induction ms with
  | nil => rfl
  | cons m ms ih => simp [lenStepsList, ih]

mutual
theorem lenSteps_le : ∀ m : Matcher, m.lenSteps ≤ m.parts
  | .anyOf ms => by
    have h := lenStepsList_le ms
    have h1 := anyOfLenSteps_le none ((lens ms).zip (lenStepsList ms))
    rw [List.map_snd_zip (by rw [lens_length, lenStepsList_length])] at h1
    rw [Matcher.lenSteps, Matcher.parts]
    omega
  | .everyOf [] => by simp [Matcher.lenSteps, Matcher.parts, lenStepsList]
  | .everyOf (m :: ms) => by
    have := lenSteps_le m
    simp only [Matcher.lenSteps, Matcher.parts, lenStepsList, partsList, List.headD_cons]
    omega
  | .nothing | .text _ | .any _ | .super | .single _ | .list _ _ | .range _ _ _ | .min _ | .max _ | .contains _ _ | .prefix _ | .suffix _ | .prefixSuffix _ _
  | .prefixAny _ _ | .suffixAny _ _ => by simp [Matcher.lenSteps, Matcher.parts]
  | .row _ _ => by simp only [Matcher.lenSteps, Matcher.parts]; omega
  | .btree _ _ _ _ _ _ => by simp only [Matcher.lenSteps, Matcher.parts]; omega
theorem lenStepsList_le : ∀ ms : List Matcher, (lenStepsList ms).sum ≤ partsList ms
  | [] => by simp [lenStepsList, partsList]
  | m :: ms => by
    have := lenSteps_le m
    have := lenStepsList_le ms
    simp only [lenStepsList, partsList, List.sum_cons]
    omega
end

mutual
theorem optimizeSteps_le : ∀ m : Matcher, optimizeSteps m ≤ m.parts
  | .btree v l r _ _ _ => by
    have := optimizeStepsOpt_le l
    have := optimizeStepsOpt_le r
    simp only [optimizeSteps, Matcher.parts]
    omega
  | .nothing | .text _ | .any _ | .super | .single _ | .list _ _ | .range _ _ _ | .min _ | .max _ | .contains _ _ | .prefix _ | .suffix _ | .prefixSuffix _ _
  | .prefixAny _ _ | .suffixAny _ _ => by simp [optimizeSteps, Matcher.parts]
  | .row _ _ | .anyOf _ | .everyOf _ => by simp only [optimizeSteps, Matcher.parts]; omega
theorem optimizeStepsOpt_le : ∀ o : Option Matcher, optimizeStepsOpt o ≤ partsOpt o
  | none => by simp [optimizeStepsOpt, partsOpt]
  | some m => by simp only [optimizeStepsOpt, partsOpt]; exact optimizeSteps_le m
end

theorem glueLoopSteps_le (sep : List Nat) : ∀ ms : List Matcher, glueLoopSteps sep ms ≤ ms.length
  | [] => by simp [glueLoopSteps]
  | m :: ms => by
    have := glueLoopSteps_le sep ms
    rw [glueLoopSteps, List.length_cons]
    split
    · omega
    · split <;> omega

theorem glueEverySteps_le (ms : List Matcher) : glueEverySteps ms ≤ 1 + ms.length := by
  unfold glueEverySteps
  split
  · simp
  · simp
  · rename_i m0 rest _
    split
    · simp only [List.length_cons]; omega
    · rename_i sep _ _
      have := glueLoopSteps_le sep (m0 :: rest)
      omega

theorem rowLoopSteps_le : ∀ ms : List Matcher, rowLoopSteps ms ≤ ms.length + partsList ms
  | [] => by simp [rowLoopSteps]
  | m :: ms => by
    have := rowLoopSteps_le ms
    have := lenSteps_le m
    rw [rowLoopSteps, List.length_cons, partsList]
    split <;> omega

theorem glueSteps_le (ms : List Matcher) : glueSteps ms ≤ partsList ms + 2 * ms.length + 3 := by
  have h1 := glueEverySteps_le ms
  have h2 := rowLoopSteps_le ms
  have h3 : glueRowSteps ms ≤ 1 + rowLoopSteps ms := by
    unfold glueRowSteps
    by_cases h : ms.length ≤ 1
    · rw [if_pos h]; omega
    · rw [if_neg h]
  unfold glueSteps
  split <;> omega

theorem chooseSteps_le : ∀ ms : List Matcher, chooseSteps ms ≤ ms.length + partsList ms
  | [] => by simp [chooseSteps]
  | m :: ms => by
    have := chooseSteps_le ms
    have := lenSteps_le m
    rw [chooseSteps, List.length_cons, partsList]
    omega

theorem okOpt_lenSteps (n : Nat) (ps : List Matcher) : (compileMatchers n ps).okOpt.elim 0 Matcher.lenSteps ≤ partsList ps + 2 * ps.length := by
  cases h : compileMatchers n ps with
  | ok l =>
    have g1 := compileMatchers_parts n ps l h
    have g2 := lenSteps_le l
    simp only [Res.okOpt, Option.elim_some]
    omega
  | err e => simp [Res.okOpt]
  | panic => simp [Res.okOpt]
  | steps => simp [Res.okOpt]

/-- Finding a matcher for a list of matchers takes at most quadratically many steps. -/
theorem compileMatchersSteps_le (K : Nat) : ∀ (n : Nat) (ms : List Matcher), partsList ms + 2 * ms.length ≤ K →
    compileMatchersSteps n ms ≤ ms.length * (3 * K + 4) + (if ms.isEmpty then 1 else 0)
  | 0, _, _ => by simp [compileMatchersSteps]
  | n + 1, ms, hK => by
    rw [compileMatchersSteps.eq_def]
    simp only
    split
    · simp
    · simp only [List.length_cons, List.length_nil, List.isEmpty_cons]; simp
    · rename_i m0 rest hne
      have hg := glueSteps_le (m0 :: rest)
      have hc := chooseSteps_le (m0 :: rest)
      rw [if_neg (by simp)]
      split
      · rw [List.length_cons (a := m0), Nat.add_mul, Nat.one_mul]; omega
      · split
        · have hK' : partsList rest + 2 * rest.length ≤ K := by rw [partsList, List.length_cons] at hK; omega
          have ih := compileMatchersSteps_le K n rest hK'
          have hr := okOpt_lenSteps n rest
          have h2 := lenSteps_le m0
          have e1 : partsList (m0 :: rest) = m0.parts + partsList rest := rfl
          have e2 : (m0 :: rest).length = rest.length + 1 := rfl
          have he : rest.isEmpty = false := by
            cases rest with
            | nil => exact (hne rfl).elim
            | cons a as => rfl
          rw [he] at ih
          simp only [Bool.false_eq_true, if_false] at ih
          have e3 : (m0 :: rest).length * (3 * K + 4) = rest.length * (3 * K + 4) + (3 * K + 4) := by rw [e2, Nat.add_mul, Nat.one_mul]
          simp only [newBTreeSteps, Option.elim_none]
          show 1 + (glueSteps (m0 :: rest) + (chooseSteps (m0 :: rest) + (compileMatchersSteps n rest +
            (m0.lenSteps + (0 + (compileMatchers n rest).okOpt.elim 0 Matcher.lenSteps))))) ≤ _
          omega
        · rename_i idx mx hcv
          generalize hms : m0 :: rest = ms' at *
          have hidx : idx < ms'.length := by
            have := chooseValue_ok ms' 0 none (by simp) _ _ hcv
            omega
          have hsplit : ms' = ms'.take idx ++ ms'[idx] :: ms'.drop (idx + 1) := by
            rw [List.getElem_cons_drop, List.take_append_drop]
          have e1 := congrArg partsList hsplit
          have e2 := congrArg List.length hsplit
          rw [partsList_append, partsList] at e1
          rw [List.length_append, List.length_cons] at e2
          rw [List.getElem?_eq_getElem hidx, Option.getD_some]
          have h6 := lenSteps_le ms'[idx]
          generalize ms'[idx] = val at *
          generalize hl : ms'.take idx = left at *
          generalize hr : ms'.drop (idx + 1) = right at *
          have ihl := compileMatchersSteps_le K n left (by omega)
          have ihr := compileMatchersSteps_le K n right (by omega)
          have h1 : (if left.isEmpty then 0 else compileMatchersSteps n left) ≤ left.length * (3 * K + 4) := by
            by_cases he : left.isEmpty
            · rw [if_pos he]; omega
            · rw [if_neg he] at ihl ⊢; omega
          have h2 : (if right.isEmpty then 0 else compileMatchersSteps n right) ≤ right.length * (3 * K + 4) := by
            by_cases he : right.isEmpty
            · rw [if_pos he]; omega
            · rw [if_neg he] at ihr ⊢; omega
          have h4 := okOpt_lenSteps n left
          have h5 := okOpt_lenSteps n right
          simp only [newBTreeSteps]
          have e3 : ms'.length * (3 * K + 4) = left.length * (3 * K + 4) + (3 * K + 4) + right.length * (3 * K + 4) := by
            rw [e2]; ring
          rw [e3]
          show 1 + (glueSteps ms' + (chooseSteps ms' + ((if left.isEmpty then 0 else compileMatchersSteps n left) +
            ((if right.isEmpty then 0 else compileMatchersSteps n right) + (val.lenSteps + ((compileMatchers n left).okOpt.elim 0 Matcher.lenSteps +
            (compileMatchers n right).okOpt.elim 0 Matcher.lenSteps)))))) ≤ _
          omega

/-! ### Minimising the matchers -/

theorem partsList_sub (ms : List Matcher) (l r : Nat) : partsList ((ms.take r).drop l) + 2 * ((ms.take r).drop l).length ≤ partsList ms + 2 * ms.length := by
  have e1 := congrArg partsList (List.take_append_drop r ms)
  have e2 := congrArg List.length (List.take_append_drop r ms)
  have e3 := congrArg partsList (List.take_append_drop l (ms.take r))
  have e4 := congrArg List.length (List.take_append_drop l (ms.take r))
  rw [partsList_append] at e1 e3
  rw [List.length_append] at e2 e4
  omega

theorem minimizeStepSteps_le {ms : List Matcher} {K : Nat} (hK : partsList ms + 2 * ms.length ≤ K) {done : Option Glued} (hd : ∀ d, done = some d → d.m.parts ≤ K)
    (l r : Nat) : minimizeStepSteps ms done l r ≤ 3 * K + 4 ∧ ∀ d, minimizeStep ms done l r = some d → d.m.parts ≤ K := by
  have hsub := partsList_sub ms l r
  have hg := glueSteps_le ((ms.take r).drop l)
  cases hm : glueMatchers ((ms.take r).drop l) with
  | none =>
    constructor
    · simp only [minimizeStepSteps, hm]; omega
    · intro d h
      simp only [minimizeStep, hm] at h
      exact hd d h
  | some g =>
    have hp := glue_parts hm
    have hgl := lenSteps_le g
    constructor
    · simp only [minimizeStepSteps, hm]
      cases done with
      | none => simp only; omega
      | some d =>
        have := hd d rfl
        have := lenSteps_le d.m
        simp only; omega
    · intro d h
      simp only [minimizeStep, hm] at h
      cases done with
      | none => simp only [Option.some.injEq] at h; subst h; simp only; omega
      | some d' =>
        have := hd d' rfl
        have aux : ∀ (b : Bool) (x y : Glued), (if b then some x else some y) = some d → d = x ∨ d = y := by
          intro b x y h
          cases b <;> simp at h <;> simp [h]
        rcases aux _ _ _ h with rfl | rfl
        · simp only; omega
        · omega

theorem minimizeFold_le {ms : List Matcher} {K : Nat} (hK : partsList ms + 2 * ms.length ≤ K) : ∀ (ps : List (Nat × Nat)) (st : Option Glued × Nat),
    (∀ d, st.1 = some d → d.m.parts ≤ K) →
    (ps.foldl (fun (st : Option Glued × Nat) lr => (minimizeStep ms st.1 lr.1 lr.2, st.2 + minimizeStepSteps ms st.1 lr.1 lr.2)) st).2 ≤ st.2 + ps.length * (3 * K + 4)
  | [], st, _ => by simp
  | p :: ps, st, h => by
    rw [List.foldl_cons]
    obtain ⟨h1, h2⟩ := minimizeStepSteps_le hK h p.1 p.2
    have := minimizeFold_le hK ps (minimizeStep ms st.1 p.1 p.2, st.2 + minimizeStepSteps ms st.1 p.1 p.2) h2
    rw [List.length_cons, Nat.add_mul, Nat.one_mul]
    simp only at this
    omega

theorem pairs_length (n : Nat) : ∀ m, m ≤ n → ((List.range m).flatMap fun l => ((List.range (n - l)).map fun k => (l, n - k))).length ≤ m * n
  | 0, _ => by simp
  | m + 1, h => by
    have := pairs_length n m (by omega)
    rw [List.range_succ, List.flatMap_append, List.length_append, Nat.add_mul, Nat.one_mul]
    simp only [List.flatMap_cons, List.flatMap_nil, List.append_nil, List.length_map, List.length_range]
    omega

theorem minimizeLoopsSteps_le {ms : List Matcher} {K : Nat} (hK : partsList ms + 2 * ms.length ≤ K) :
    minimizeLoopsSteps ms ≤ ms.length + ms.length * ms.length * (3 * K + 4) := by
  unfold minimizeLoopsSteps
  have h1 := minimizeFold_le hK ((List.range ms.length).flatMap fun l => ((List.range (ms.length - l)).map fun k => (l, ms.length - k))) (none, 0) (by simp)
  have h2 := pairs_length ms.length ms.length (Nat.le_refl _)
  have h3 := Nat.mul_le_mul_right (3 * K + 4) h2
  simp only [Nat.zero_add] at h1
  omega

theorem minimizeMatchersSteps_le (K N : Nat) : ∀ (n : Nat) (ms : List Matcher), partsList ms + 2 * ms.length ≤ K → ms.length ≤ N →
    minimizeMatchersSteps n ms ≤ n * (1 + N + N * N * (3 * K + 4))
  | 0, _, _, _ => by simp [minimizeMatchersSteps]
  | n + 1, ms, hK, hN => by
    rw [minimizeMatchersSteps, Nat.add_mul, Nat.one_mul]
    have h1 := minimizeLoopsSteps_le hK
    have h2 : ms.length * ms.length * (3 * K + 4) ≤ N * N * (3 * K + 4) := Nat.mul_le_mul_right _ (Nat.mul_le_mul hN hN)
    split
    · omega
    · rename_i d hd
      have hg := minimizeLoops_glued hd
      have hgp := glue_parts hg.1
      have hlr : d.left ≤ d.right := Nat.le_of_lt hg.2.1
      have hs := split_at d.left d.right hlr ms
      have e1 := congrArg partsList hs
      have e2 := congrArg List.length hs
      rw [partsList_append, partsList_append] at e1
      rw [List.length_append, List.length_append] at e2
      simp only
      split
      · omega
      · rename_i hne
        have hlen : (ms.take d.left ++ [d.m] ++ ms.drop d.right).length ≤ ms.length := by
          have := hg.2
          rw [List.length_append, List.length_append, List.length_cons, List.length_nil, List.length_take, List.length_drop]
          omega
        have hstep : partsList (ms.take d.left ++ [d.m] ++ ms.drop d.right) + 2 * (ms.take d.left ++ [d.m] ++ ms.drop d.right).length ≤ K := by
          rw [partsList_append, partsList_append, List.length_append, List.length_append]
          simp only [partsList, List.length_cons, List.length_nil]
          omega
        have := minimizeMatchersSteps_le K N n _ hstep (by omega)
        omega

/-- `omega` after removing parentheses. -/
local macro "omg" : tactic => `(tactic| ((try simp only [← Nat.add_assoc]); omega))

/-! ### Trees -/

mutual
/-- A weight of a tree that becomes smaller when `minimizeTree` rewrites it. -/
def Node.weight : Node → Nat
  | .pattern cs => 1 + weightList cs
  | .anyOf cs => 6 + weightList cs
  | .nothing => 1
  | _ => 6
/-- The weights of the children, and one for each of them. -/
def weightList : List Node → Nat
  | [] => 0
  | c :: cs => 1 + c.weight + weightList cs
end

theorem Node.weight_pos (t : Node) : 1 ≤ t.weight := by
  cases t <;> simp only [Node.weight] <;> omega

theorem weightList_append (as bs : List Node) : weightList (as ++ bs) = weightList as + weightList bs := by
  induction as with
  | nil => simp [weightList]
  | cons a as ih => rw [List.cons_append, weightList, ih, weightList]; omega

theorem weightList_length (as : List Node) : 2 * as.length ≤ weightList as := by
  induction as with
  | nil => simp [weightList]
  | cons a as ih => rw [List.length_cons, weightList]; have := a.weight_pos; omega

theorem weight_le_list {a : Node} : ∀ {as : List Node}, a ∈ as → a.weight + 1 ≤ weightList as
  | [], h => by cases h
  | b :: bs, h => by
    rw [weightList]
    rcases List.mem_cons.1 h with rfl | h
    · omega
    · have := weight_le_list h; omega

mutual
theorem Node.leaves_weight : ∀ t : Node, t.leaves ≤ t.weight
  | .pattern cs => by have := leavesList_weight cs; simp only [Node.leaves, Node.weight]; omega
  | .anyOf cs => by have := leavesList_weight cs; simp only [Node.leaves, Node.weight]; omega
  | .nothing | .any | .super | .single | .list _ _ | .range _ _ _ | .text _ => by simp [Node.leaves, Node.weight]
theorem leavesList_weight : ∀ cs : List Node, leavesList cs ≤ weightList cs
  | [] => by simp [leavesList, weightList]
  | c :: cs => by have := Node.leaves_weight c; have := leavesList_weight cs; simp only [leavesList, weightList]; omega
end

/-- Neither a sequence nor the empty pattern. -/
def Node.flat : Node → Prop
  | .pattern _ => False
  | .nothing => False
  | _ => True

mutual
/-- The elements of the alternatives are neither sequences nor empty. -/
def Node.tidy : Node → Prop
  | .pattern cs => tidyList cs
  | .anyOf cs => tidyAlts cs
  | _ => True
/-- All trees are tidy. -/
def tidyList : List Node → Prop
  | [] => True
  | c :: cs => c.tidy ∧ tidyList cs
/-- All alternatives are tidy. -/
def tidyAlts : List Node → Prop
  | [] => True
  | .pattern ds :: cs => (∀ d ∈ ds, d.flat) ∧ tidyList ds ∧ tidyAlts cs
  | c :: cs => c.tidy ∧ tidyAlts cs
end

theorem tidyList_iff : ∀ {cs : List Node}, tidyList cs ↔ ∀ c ∈ cs, c.tidy
  | [] => by simp [tidyList]
  | c :: cs => by rw [tidyList, tidyList_iff]; simp

/-- An alternative is tidy. -/
def Node.altTidy (c : Node) : Prop := c.tidy ∧ ∀ ds, c = .pattern ds → ∀ d ∈ ds, d.flat

theorem tidyAlts_iff : ∀ {cs : List Node}, tidyAlts cs ↔ ∀ c ∈ cs, c.altTidy
  | [] => by simp [tidyAlts]
  | c :: cs => by
    have ih := @tidyAlts_iff cs
    cases c <;> simp [tidyAlts, ih, Node.altTidy, Node.tidy] <;> tauto

theorem Node.flat_weight {d : Node} (h : d.flat) : 6 ≤ d.weight := by
  cases d <;> simp only [Node.flat, Node.weight] at * <;> omega

mutual
theorem equalSteps_le : ∀ a b : Node, a.equalSteps b ≤ a.weight ∧ a.equalSteps b ≤ b.weight
  | .pattern cs, b => by
    have hb := b.weight_pos
    cases b with
    | pattern ds =>
      have := equalNodesSteps_le cs ds
      simp only [Node.equalSteps, Node.weight]
      split <;> omega
    | _ => simp only [Node.equalSteps, Node.weight] at *; omega
  | .anyOf cs, b => by
    have hb := b.weight_pos
    cases b with
    | anyOf ds =>
      have := equalNodesSteps_le cs ds
      simp only [Node.equalSteps, Node.weight]
      split <;> omega
    | _ => simp only [Node.equalSteps, Node.weight] at *; omega
  | .nothing, b | .any, b | .super, b | .single, b | .list _ _, b | .range _ _ _, b | .text _, b => by
    have := b.weight_pos
    simp only [Node.equalSteps, Node.weight]; omega
theorem equalNodesSteps_le : ∀ as bs : List Node, equalNodesSteps as bs ≤ weightList as ∧ equalNodesSteps as bs ≤ weightList bs
  | [], bs => by simp [equalNodesSteps]
  | a :: as, [] => by simp [equalNodesSteps]
  | a :: as, b :: bs => by
    have h1 := equalSteps_le a b
    have h2 := equalNodesSteps_le as bs
    simp only [equalNodesSteps, weightList]
    split <;> omega
end

theorem sameKindSteps_le : ∀ cs : List Node, sameKindSteps cs ≤ cs.length
  | [] => by simp [sameKindSteps]
  | c :: cs => by
    have := sameKindSteps_le cs
    cases c <;> simp only [sameKindSteps, List.length_cons] <;> omega

theorem commonInnerSteps_le (idx treeLength i j : Nat) (treeLeft treeRight : Node) : ∀ (ns : List (List Node)) (k : Nat) (bs : Bool × Bool),
    commonInnerSteps idx treeLength i j treeLeft treeRight ns k bs ≤ ns.length * (1 + treeLeft.weight + treeRight.weight)
  | [], _, _ => by simp [commonInnerSteps]
  | cs :: ns, k, (b1, b2) => by
    have ih := commonInnerSteps_le idx treeLength i j treeLeft treeRight ns (k + 1)
    rw [commonInnerSteps, List.length_cons, Nat.add_mul, Nat.one_mul]
    split
    · omega
    · split
      · have := ih (b1, b2); omega
      · split
        · rename_i r1 r2 _ _
          have e1 : ∀ (b : Bool), (if b = true then 0 else treeLeft.equalSteps r1) ≤ treeLeft.weight := by
            intro b; have := (equalSteps_le treeLeft r1).1; split <;> omega
          have e2 : ∀ (b : Bool), (if b = true then 0 else treeRight.equalSteps r2) ≤ treeRight.weight := by
            intro b; have := (equalSteps_le treeRight r2).1; split <;> omega
          simp only
          have h1 := e1 b1
          refine le_trans (Nat.add_le_add_left (Nat.add_le_add h1 (Nat.add_le_add (e2 _) (ih _))) _) ?_
          omega
        · omega

theorem commonLoopSteps_le (nodes : List (List Node)) (idx : Nat) (tree : List Node) : ∀ (j i : Nat) (bs : Bool × Bool) (total : Nat),
    commonLoopSteps nodes idx tree j i bs total ≤ j * (1 + nodes.length * (1 + weightList tree + weightList tree))
  | 0, _, _, _ => by simp [commonLoopSteps]
  | j + 1, i, (b1, b2), total => by
    have ih := commonLoopSteps_le nodes idx tree j (i + 1)
    rw [commonLoopSteps, Nat.add_mul, Nat.one_mul]
    split
    · split
      · rename_i tl tr h1 h2
        have w1 := weight_le_list (List.mem_of_getElem? h1)
        have w2 := weight_le_list (List.mem_of_getElem? h2)
        have h3 := commonInnerSteps_le idx tree.length i j tl tr nodes 0 (b1, b2)
        have h4 : nodes.length * (1 + tl.weight + tr.weight) ≤ nodes.length * (1 + weightList tree + weightList tree) := Nat.mul_le_mul_left _ (by omg)
        split
        · simp only [← Nat.add_assoc]
          omg
        · rename_i c1 c2 _
          have := ih (c1, c2) (total + (if !c1 then 1 else 0) + (if !c2 then 1 else 0))
          omg
      · omg
    · omg

theorem commonChildrenSteps_le {nodes : List (List Node)} {V : Nat} (hn : nodes.length ≤ V) (hw : ∀ cs ∈ nodes, weightList cs ≤ V) :
    commonChildrenSteps nodes ≤ 2 + V + V * (1 + V * (1 + V + V)) := by
  unfold commonChildrenSteps
  split
  · omg
  · split
    · omg
    · split
      · omg
      · rename_i idx _ _ _ tree ht
        have hm := hw tree (List.mem_of_getElem? ht)
        have hl := weightList_length tree
        have h1 := commonLoopSteps_le nodes idx tree tree.length 0 (false, false) 0
        have h2 : tree.length * (1 + nodes.length * (1 + weightList tree + weightList tree)) ≤ V * (1 + V * (1 + V + V)) :=
          Nat.mul_le_mul (by omg) (Nat.add_le_add_left (Nat.mul_le_mul hn (by omg)) _)
        omg

theorem uniqueSteps_le (val : Node) : ∀ acc : List Node, uniqueSteps val acc ≤ acc.length * (1 + val.weight)
  | [] => by simp [uniqueSteps]
  | n :: ns => by
    have := uniqueSteps_le val ns
    have := (equalSteps_le n val).2
    rw [uniqueSteps, List.length_cons, Nat.add_mul, Nat.one_mul]
    split <;> omg

theorem weightList_mid (cs : List Node) (a b : Nat) : weightList ((cs.take a).drop b) ≤ weightList cs := by
  have e1 := congrArg weightList (List.take_append_drop a cs)
  have e3 := congrArg weightList (List.take_append_drop b (cs.take a))
  rw [weightList_append] at e1 e3
  omg

theorem reduceSteps_le (cl cr : Nat) {V : Nat} : ∀ (ns : List (List Node)) (acc : List Node), acc.length + ns.length ≤ V → (∀ cs ∈ ns, weightList cs + 1 ≤ V) →
    reduceSteps cl cr ns acc ≤ ns.length * (2 + V * (1 + V))
  | [], _, _, _ => by simp [reduceSteps]
  | cs :: ns, acc, hV, hw => by
    rw [reduceSteps, List.length_cons, Nat.add_mul, Nat.one_mul]
    rw [List.length_cons] at hV
    split
    · omg
    · simp only
      have hmid := weightList_mid cs (cs.length - cr) cl
      generalize ((cs.take (cs.length - cr)).drop cl) = reuse at *
      have hv : (if reuse.isEmpty then Node.nothing else .pattern reuse).weight ≤ V := by
        have := hw cs List.mem_cons_self
        split <;> simp only [Node.weight] <;> omg
      generalize (if reuse.isEmpty then Node.nothing else .pattern reuse) = node at *
      have h1 := uniqueSteps_le node acc
      have h2 : acc.length * (1 + node.weight) ≤ V * (1 + V) := Nat.mul_le_mul (by omg) (by omg)
      have hl : (appendIfUnique acc node).length ≤ acc.length + 1 := by
        unfold appendIfUnique
        split <;> simp
      have ih := reduceSteps_le cl cr ns (appendIfUnique acc node) (by omg) fun c hc => hw c (List.mem_cons_of_mem _ hc)
      omg

theorem patternChildren_length {cs : List Node} {nodes : List (List Node)} (h : patternChildren cs = some nodes) : nodes.length = cs.length := by
  have := congrArg List.length (patternChildren_some h)
  rw [List.length_map] at this
  exact this.symm

theorem minimizeTreeSteps_le {cs : List Node} {V : Nat} (hw : weightList cs ≤ V) (hV : 1 ≤ V) : minimizeTreeSteps cs ≤ 14 * (V * V * V) := by
  unfold minimizeTreeSteps
  have h1 := sameKindSteps_le cs
  have hl := weightList_length cs
  have hV2 : V ≤ V * V := Nat.le_mul_of_pos_left _ hV
  have hV3 : V * V ≤ V * V * V := Nat.le_mul_of_pos_right _ hV
  split
  · omg
  · rename_i nodes hp
    have hlen := patternChildren_length hp
    have hcs := patternChildren_some hp
    have hin : ∀ c ∈ nodes, weightList c + 1 ≤ V := by
      intro c hc
      have : Node.pattern c ∈ cs := by rw [hcs]; exact List.mem_map_of_mem hc
      have := weight_le_list this
      simp only [Node.weight] at this
      omg
    have h2 := commonChildrenSteps_le (nodes := nodes) (V := V) (by omg) fun c hc => by have := hin c hc; omg
    have e1 : V * (1 + V * (1 + V + V)) = V + V * V + 2 * (V * V * V) := by ring
    have e2 : V * (2 + V * (1 + V)) = 2 * V + V * V + V * V * V := by ring
    split
    · omg
    · rename_i left right _
      split
      · omg
      · have h3 := reduceSteps_le left.length right.length (V := V) nodes [] (by simp; omg) hin
        have h4 : nodes.length * (2 + V * (1 + V)) ≤ V * (2 + V * (1 + V)) := Nat.mul_le_mul_right _ (by omg)
        omg

/-! ### Minimising makes a tree lighter -/

theorem reduceAlts_weight {cl cr : Nat} : ∀ (ns : List (List Node)) (acc acc' : List Node), reduceAlts cl cr ns acc = some acc' →
    weightList acc' ≤ weightList acc + (ns.map fun cs => 2 + weightList ((cs.take (cs.length - cr)).drop cl)).sum
  | [], acc, acc', h => by
    simp only [reduceAlts, Option.some.injEq] at h
    subst h
    simp
  | cs :: ns, acc, acc', h => by
    rw [reduceAlts] at h
    split at h
    · cases h
    · have ih := reduceAlts_weight ns _ acc' h
      rw [List.map_cons, List.sum_cons]
      generalize ((cs.take (cs.length - cr)).drop cl) = reuse at *
      have hv : (if reuse.isEmpty then Node.nothing else .pattern reuse).weight ≤ 1 + weightList reuse := by
        split <;> simp only [Node.weight] <;> omg
      generalize (if reuse.isEmpty then Node.nothing else .pattern reuse) = node at *
      have hu : weightList (appendIfUnique acc node) ≤ weightList acc + 1 + node.weight := by
        unfold appendIfUnique
        split
        · omg
        · rw [weightList_append]; simp only [weightList]; omg
      omg

theorem mem_mid {d : Node} {cs : List Node} {a b : Nat} (h : d ∈ (cs.take a).drop b) : d ∈ cs := List.mem_of_mem_take (List.mem_of_mem_drop h)

theorem reduceAlts_tidy {cl cr : Nat} : ∀ (ns : List (List Node)) (acc acc' : List Node), reduceAlts cl cr ns acc = some acc' →
    (∀ c ∈ acc, c.altTidy) → (∀ c ∈ ns, (Node.pattern c).altTidy) → ∀ c ∈ acc', c.altTidy
  | [], acc, acc', h, ha, _ => by
    simp only [reduceAlts, Option.some.injEq] at h
    subst h
    exact ha
  | cs :: ns, acc, acc', h, ha, hn => by
    rw [reduceAlts] at h
    split at h
    · cases h
    · refine reduceAlts_tidy ns _ acc' h ?_ fun c hc => hn c (List.mem_cons_of_mem _ hc)
      have hcs := hn cs List.mem_cons_self
      have hnode : (if ((cs.take (cs.length - cr)).drop cl).isEmpty then Node.nothing else .pattern ((cs.take (cs.length - cr)).drop cl)).altTidy := by
        split
        · exact ⟨trivial, fun ds e => by cases e⟩
        · refine ⟨?_, ?_⟩
          · rw [Node.tidy, tidyList_iff]
            intro d hd
            have := hcs.1
            rw [Node.tidy, tidyList_iff] at this
            exact this d (mem_mid hd)
          · intro ds e d hd
            cases e
            exact hcs.2 cs rfl d (mem_mid hd)
      generalize (if ((cs.take (cs.length - cr)).drop cl).isEmpty then Node.nothing else .pattern ((cs.take (cs.length - cr)).drop cl)) = node at *
      intro c hc
      unfold appendIfUnique at hc
      split at hc
      · exact ha c hc
      · rcases List.mem_append.1 hc with hc | hc
        · exact ha c hc
        · rw [List.mem_singleton] at hc
          rw [hc]
          exact hnode

theorem minimizeTree_weight {cs : List Node} {t : Node} (hcst : (Node.anyOf cs).tidy) (h : minimizeTreeAnyOf cs = some (some t)) :
    t.weight + 1 ≤ (Node.anyOf cs).weight ∧ t.tidy := by
  unfold minimizeTreeAnyOf at h
  cases hp : patternChildren cs with
  | none => rw [hp] at h; cases h
  | some nodes =>
    obtain ⟨left, right, e, hc⟩ := commonChildren_ok nodes
    rw [hp] at h
    simp only [e] at h
    split at h
    · cases h
    · rename_i hne
      have hcs := patternChildren_some hp
      split at h
      · cases h
      · rename_i alts ha
        simp only [Option.some.injEq] at h
        subst h
        rw [Node.tidy, tidyAlts_iff] at hcst
        have hnt : ∀ c ∈ nodes, (Node.pattern c).altTidy := fun c hc' => hcst _ (by rw [hcs]; exact List.mem_map_of_mem hc')
        have htwo : 2 ≤ nodes.length := by
          by_contra hlt
          rw [commonChildren, if_pos (by omg), Option.some.injEq, Prod.mk.injEq] at e
          obtain ⟨rfl, rfl⟩ := e
          simp at hne
        obtain ⟨n0, hn0⟩ : ∃ n0, n0 ∈ nodes := by
          cases nodes with
          | nil => simp at htwo
          | cons n ns => exact ⟨n, List.mem_cons_self⟩
        have hleft : ∀ d ∈ left, d ∈ n0 := by
          obtain ⟨g1, g2, g3⟩ := hc n0 hn0
          intro d hd
          rw [mid_split g1 g2 g3]
          simp [hd]
        have hright : ∀ d ∈ right, d ∈ n0 := by
          obtain ⟨g1, g2, g3⟩ := hc n0 hn0
          intro d hd
          rw [mid_split g1 g2 g3]
          simp [hd]
        have hflat := (hnt n0 hn0).2 n0 rfl
        have htid := (hnt n0 hn0).1
        rw [Node.tidy, tidyList_iff] at htid
        constructor
        · have h1 := reduceAlts_weight nodes [] alts ha
          have h2 : weightList (reducedPart alts) ≤ 7 + weightList alts := by
            rcases alts with _ | ⟨a, _ | ⟨a', as⟩⟩
            · simp [reducedPart, weightList]
            · cases a <;> simp only [reducedPart, weightList] <;> omg
            · simp only [reducedPart, weightList, Node.weight]
              omg
          have part : ∀ l : List Node, weightList (if l.length > 0 then [.pattern l] else []) ≤ 2 + weightList l := by
            intro l
            split
            · simp only [weightList, Node.weight]; omg
            · simp [weightList]
          have hl := part left
          have hr := part right
          have hmid : ∀ ns : List (List Node), (∀ cs ∈ ns, cs ∈ nodes) →
              (ns.map fun cs => 2 + weightList ((cs.take (cs.length - right.length)).drop left.length)).sum + ns.length * (weightList left + weightList right) ≤
                weightList (ns.map .pattern) := by
            intro ns
            induction ns with
            | nil => simp [weightList]
            | cons c ns ih =>
              intro hin
              obtain ⟨g1, g2, g3⟩ := hc c (hin c List.mem_cons_self)
              have e2 := congrArg weightList (mid_split g1 g2 g3)
              rw [weightList_append, weightList_append] at e2
              have := ih fun d hd => hin d (List.mem_cons_of_mem _ hd)
              rw [List.map_cons, List.sum_cons, List.map_cons, weightList, Node.weight, List.length_cons, Nat.add_mul]
              omg
          have hsum := hmid nodes fun _ h => h
          have hpos : 7 ≤ weightList left + weightList right := by
            have one : ∀ l : List Node, (∀ d ∈ l, d ∈ n0) → l.length ≠ 0 → 7 ≤ weightList l := by
              intro l hl hne
              cases l with
              | nil => simp at hne
              | cons a as =>
                have := Node.flat_weight (hflat a (hl a List.mem_cons_self))
                rw [weightList]; omg
            simp only [Bool.and_eq_true, decide_eq_true_eq] at hne
            by_cases h0 : left.length = 0
            · have := one right hright (by tauto)
              omg
            · have := one left hleft h0
              omg
          have h3 : 2 * (weightList left + weightList right) ≤ nodes.length * (weightList left + weightList right) := Nat.mul_le_mul_right _ htwo
          rw [Node.weight, Node.weight, weightList_append, weightList_append, hcs]
          simp only [weightList, Nat.zero_add] at h1
          omg
        · rw [Node.tidy, tidyList_iff]
          have hat := reduceAlts_tidy nodes [] alts ha (by simp) hnt
          intro c hcm
          rcases List.mem_append.1 hcm with hcm | hcm
          · rcases List.mem_append.1 hcm with hcm | hcm
            · split at hcm
              · rw [List.mem_singleton] at hcm
                rw [hcm, Node.tidy, tidyList_iff]
                exact fun d hd => htid d (hleft d hd)
              · cases hcm
            · unfold reducedPart at hcm
              split at hcm
              · split at hcm
                · cases hcm
                · exact (hat c hcm).1
              · cases hcm
              · rw [List.mem_singleton] at hcm
                rw [hcm, Node.tidy, tidyAlts_iff]
                exact hat
          · split at hcm
            · rw [List.mem_singleton] at hcm
              rw [hcm, Node.tidy, tidyList_iff]
              exact fun d hd => htid d (hright d hd)
            · cases hcm

/-! ### Compiling a tree -/

theorem compile_optimizeSteps (seps : List Nat) : ∀ (n : Nat) (t : Node) (m : Matcher), compile seps n t = .ok m → optimizeSteps m ≤ 3 * t.leaves
  | 0, _, _, h => by rw [compile] at h; cases h
  | n + 1, t, m, h => by
    have hpos := t.leaves_pos
    have leaf : ∀ (m' : Matcher), m'.parts = 1 → optimizeSteps (optimizeMatcher m') ≤ 3 * t.leaves := by
      intro m' h2
      have g1 := optimize_parts m'
      have g2 := optimizeSteps_le (optimizeMatcher m')
      omg
    cases t with
    | anyOf cs =>
      have h0 := h
      rw [compile] at h
      split at h
      · cases h
      · rename_i t' ht'
        have := compile_optimizeSteps seps n t' m h
        have := (minimizeTree_leaves ht').1
        omg
      · cases hc : compileChildren (compile seps n) cs with
        | ok ms =>
          rw [hc] at h
          cases h
          simp only [optimizeSteps]
          omg
        | err e => rw [hc] at h; cases h
        | panic => rw [hc] at h; cases h
        | steps => rw [hc] at h; cases h
    | pattern cs =>
      have h1 := (compile_parts seps (n + 1) _ m h).2 ⟨cs, rfl⟩
      have h2 := optimizeSteps_le m
      omg
    | any => rw [compile] at h; cases h; exact leaf _ rfl
    | super => rw [compile] at h; cases h; exact leaf _ rfl
    | single => rw [compile] at h; cases h; exact leaf _ rfl
    | nothing => rw [compile] at h; cases h; exact leaf _ rfl
    | list not chars => rw [compile] at h; cases h; exact leaf _ rfl
    | range not lo hi => rw [compile] at h; cases h; exact leaf _ rfl
    | text t => rw [compile] at h; cases h; exact leaf _ rfl

theorem compileChildren_len {f : Node → Res Matcher} : ∀ {cs : List Node} {ms : List Matcher}, compileChildren f cs = .ok ms → ms.length = cs.length
  | [], ms, h => by cases h; rfl
  | c :: cs, ms, h => by
    rw [compileChildren] at h
    cases h1 : f c with
    | ok m =>
      cases h2 : compileChildren f cs with
      | ok ms' =>
        rw [h1, h2] at h
        cases h
        simp [compileChildren_len h2]
      | err e => rw [h1, h2] at h; cases h
      | panic => rw [h1, h2] at h; cases h
      | steps => rw [h1, h2] at h; cases h
    | err e => rw [h1] at h; cases h
    | panic => rw [h1] at h; cases h
    | steps => rw [h1] at h; cases h

theorem compileChildrenSteps_le {f : Node → Res Matcher} {c : Node → Nat} {B : Nat} : ∀ {cs : List Node}, (∀ t ∈ cs, c t ≤ t.weight * B) →
    (∀ t ∈ cs, ∀ m, f t = .ok m → optimizeSteps m ≤ 3 * t.leaves) → compileChildrenSteps f c cs + cs.length * B ≤ weightList cs * B + cs.length + 3 * leavesList cs
  | [], _, _ => by simp [compileChildrenSteps]
  | t :: ts, h1, h2 => by
    have ih := compileChildrenSteps_le (fun t ht => h1 t (List.mem_cons_of_mem _ ht)) fun t ht => h2 t (List.mem_cons_of_mem _ ht)
    have g1 := h1 t List.mem_cons_self
    have g2 := h2 t List.mem_cons_self
    have e1 : weightList (t :: ts) * B = B + t.weight * B + weightList ts * B := by rw [weightList]; ring
    have e2 : (t :: ts).length * B = ts.length * B + B := by rw [List.length_cons]; ring
    rw [compileChildrenSteps, e1, e2, leavesList, List.length_cons]
    have hle := Nat.mul_le_mul_right B (weightList_length ts)
    split
    · rename_i m hm
      have := g2 m hm
      omg
    · have : ts.length * B ≤ weightList ts * B := Nat.mul_le_mul_right _ (by have := weightList_length ts; omg)
      omg

/-- Compiling a tree takes at most `weight` times 38 V³ steps. -/
theorem compileSteps_le (seps : List Nat) (V : Nat) : ∀ (n : Nat) (t : Node), t.tidy → t.weight ≤ V → compileSteps seps n t ≤ t.weight * (38 * (V * V * V))
  | 0, _, _, _ => by simp [compileSteps]
  | n + 1, t, ht, hw => by
    have hV : 1 ≤ V := le_trans t.weight_pos hw
    have hV2 : V ≤ V * V := Nat.le_mul_of_pos_left _ hV
    have hV3 : V * V ≤ V * V * V := Nat.le_mul_of_pos_right _ hV
    have one : ∀ x : Nat, x * (38 * (V * V * V)) + 38 * (V * V * V) = (x + 1) * (38 * (V * V * V)) := fun x => by ring
    have leaf : 1 ≤ t.weight * (38 * (V * V * V)) := Nat.mul_pos t.weight_pos (by omg)
    have leaf2 : 2 ≤ t.weight * (38 * (V * V * V)) := le_trans (by omg) (Nat.mul_le_mul_right (38 * (V * V * V)) t.weight_pos)
    cases t with
    | anyOf cs =>
      have hwl : weightList cs ≤ V := by rw [Node.weight] at hw; omg
      have h1 := minimizeTreeSteps_le hwl hV
      rw [compileSteps]
      split
      · refine le_trans ?_ (Nat.mul_le_mul_right _ (Node.anyOf cs).weight_pos)
        omg
      · rename_i t' ht'
        obtain ⟨g1, g2⟩ := minimizeTree_weight ht ht'
        have ih := compileSteps_le seps V n t' g2 (by omg)
        have := one t'.weight
        refine le_trans ?_ (Nat.mul_le_mul_right _ g1)
        omg
      · rw [Node.tidy, tidyAlts_iff] at ht
        have h2 := compileChildrenSteps_le (f := compile seps n) (c := compileSteps seps n) (B := 38 * (V * V * V)) (cs := cs)
          (fun t' h' => compileSteps_le seps V n t' (ht t' h').1 (by have := weight_le_list h'; omg)) fun t' _ m hm => compile_optimizeSteps seps n t' m hm
        have hl := leavesList_weight cs
        have hl2 := weightList_length cs
        rw [Node.weight]
        have e : (6 + weightList cs) * (38 * (V * V * V)) = 6 * (38 * (V * V * V)) + weightList cs * (38 * (V * V * V)) := by ring
        rw [e]
        omg
    | pattern cs =>
      have hwl : weightList cs + 1 ≤ V := by rw [Node.weight] at hw; omg
      rw [Node.tidy, tidyList_iff] at ht
      have h2 := compileChildrenSteps_le (f := compile seps n) (c := compileSteps seps n) (B := 38 * (V * V * V)) (cs := cs)
          (fun t' h' => compileSteps_le seps V n t' (ht t' h') (by have := weight_le_list h'; omg)) fun t' _ m hm => compile_optimizeSteps seps n t' m hm
      have hl := leavesList_weight cs
      have hl2 := weightList_length cs
      have e : (1 + weightList cs) * (38 * (V * V * V)) = 38 * (V * V * V) + weightList cs * (38 * (V * V * V)) := by ring
      rw [compileSteps]
      split
      · exact leaf
      · rw [Node.weight, e]
        cases hc : compileChildren (compile seps n) cs with
        | err er => simp only; omg
        | panic => simp only; omg
        | steps => simp only; omg
        | ok ms =>
          simp only
          have hp := compileChildren_parts hc fun c _ m' hm => (compile_parts seps n c m' hm).1
          have hlen : ms.length = cs.length := compileChildren_len hc
          have hK : partsList ms + 2 * ms.length ≤ 3 * V := by omg
          have h3 := minimizeMatchersSteps_le (3 * V) V (ms.length + 1) ms hK (by omg)
          have h4 : (ms.length + 1) * (1 + V + V * V * (3 * (3 * V) + 4)) ≤ (ms.length + 1) * (15 * (V * V * V)) := by
            refine Nat.mul_le_mul_left _ ?_
            have : V * V * (3 * (3 * V) + 4) = 9 * (V * V * V) + 4 * (V * V) := by ring
            omg
          have h5 : (ms.length + 1) * (15 * (V * V * V)) + cs.length * (23 * (V * V * V)) ≤ cs.length * (38 * (V * V * V)) + 15 * (V * V * V) := by
            rw [hlen]
            refine le_of_eq ?_
            ring
          cases hm : minimizeMatchers (ms.length + 1) ms with
          | none => simp only; omg
          | some ns =>
            simp only
            have hns := minimize_parts _ _ _ hm
            have hnl := partsList_length ns
            have h6 := compileMatchersSteps_le (3 * V) (ns.length + 1) ns (by omg)
            have h7 : ns.length * (3 * (3 * V) + 4) ≤ 13 * (V * V) := by
              refine le_trans (Nat.mul_le_mul (show ns.length ≤ V by omg) (show 3 * (3 * V) + 4 ≤ 13 * V by omg)) (le_of_eq ?_)
              ring
            have h8 : (if ns.isEmpty then 1 else 0) ≤ 1 := by split <;> omg
            cases hcm : compileMatchers (ns.length + 1) ns with
            | err er => simp only; omg
            | panic => simp only; omg
            | steps => simp only; omg
            | ok m =>
              simp only
              have h9 := compileMatchers_parts _ _ _ hcm
              have h10 := optimizeSteps_le m
              omg
    | any => exact leaf2
    | super => exact leaf2
    | single => exact leaf2
    | nothing => exact leaf2
    | list not chars => exact leaf2
    | range not lo hi => exact leaf2
    | text t => exact leaf2

end Verif.Glob
