import Verif.Glob.Compile
/-
How many steps `Compile` takes once the pattern is parsed: every call of a function of glob/compiler/compiler.go, of `Len` of a matcher and of `Equal` of a node is a
step, and so is every iteration of a loop of compiler.go. The functions follow the loops, the early returns and the short-circuit evaluation of the functions of
`Verif.Glob.Compile` that compute the results. Not counted: what is done character by character (`runes.Equal` of separators, conversions of strings), copying of
slices, and `ast.NewNode`. `reflect.DeepEqual` of two nodes is counted like `Equal` (see `Node.equal`).
-/
namespace Verif.Glob

/-! ### Matchers -/

/-- any_of.go:60-79 `AnyOf.Len`: the steps of the loop; a matcher is given by its length and the steps of its `Len`. -/
def anyOfLenSteps : Option Nat → List (Option Nat × Nat) → Nat
  | _, [] => 0
  | none, (ml, c) :: ls => c + anyOfLenSteps ml ls
  | some _, (none, c) :: _ => c
  | some l, (some ml, c) :: ls => c + if l ≠ ml then 0 else anyOfLenSteps (some l) ls

mutual
/-- The calls of `Len` that `Len` of a matcher leads to, itself included (see `Matcher.len`). `EveryOf.Len` returns after its first matcher; `Row` and `BTree` keep their length. -/
def Matcher.lenSteps : Matcher → Nat
  | .anyOf ms => 1 + anyOfLenSteps none ((lens ms).zip (lenStepsList ms))
  | .everyOf ms => 1 + (lenStepsList ms).headD 0
  | _ => 1
/-- The steps of `Len` of each matcher. -/
def lenStepsList : List Matcher → List Nat
  | [] => []
  | m :: ms => m.lenSteps :: lenStepsList ms
end

mutual
/-- compiler.go:15-89 `optimizeMatcher`: the calls. -/
def optimizeSteps : Matcher → Nat
  | .btree _ l r _ _ _ => 1 + (optimizeStepsOpt l + optimizeStepsOpt r)
  | _ => 1
/-- The calls for a side of a BTree. -/
def optimizeStepsOpt : Option Matcher → Nat
  | none => 0
  | some m => optimizeSteps m
end

/-- compiler.go:189-228: the iterations of the loop of `glueMatchersAsEvery`. -/
def glueLoopSteps (separator : List Nat) : List Matcher → Nat
  | [] => 0
  | m :: ms => 1 + match gluable m with
    | none => 0
    | some (sep, _) => if Runes.equal sep separator then glueLoopSteps separator ms else 0

/-- compiler.go:176-257 `glueMatchersAsEvery`. -/
def glueEverySteps (ms : List Matcher) : Nat :=
  1 + match ms with
  | [] => 0
  | [_] => 0
  | m :: _ => match gluable m with
    | none => 1
    | some (separator, _) => glueLoopSteps separator ms

/-- compiler.go:165-172: the loop of `glueMatchersAsRow`. -/
def rowLoopSteps : List Matcher → Nat
  | [] => 0
  | m :: ms => 1 + m.lenSteps + match m.len with
    | none => 0
    | some _ => rowLoopSteps ms

/-- compiler.go:156-174 `glueMatchersAsRow`. -/
def glueRowSteps (ms : List Matcher) : Nat := 1 + if ms.length ≤ 1 then 0 else rowLoopSteps ms

/-- compiler.go:146-154 `glueMatchers`. -/
def glueSteps (ms : List Matcher) : Nat :=
  1 + glueEverySteps ms + match glueMatchersAsEvery ms with
  | some _ => 0
  | none => glueRowSteps ms

/-- compiler.go:102-111: the loop that looks for the value. -/
def chooseSteps : List Matcher → Nat
  | [] => 0
  | m :: ms => 1 + m.lenSteps + chooseSteps ms

/-- match/btree.go:18-47 `NewBTree`: the calls of `Len`. -/
def newBTreeSteps (value : Matcher) (left right : Option Matcher) : Nat :=
  value.lenSteps + (left.elim 0 Matcher.lenSteps + right.elim 0 Matcher.lenSteps)

/-- The matcher of a successful call. -/
def Res.okOpt : Res Matcher → Option Matcher
  | .ok m => some m
  | _ => none

/-- compiler.go:91-144 `compileMatchers`; the bound as in `compileMatchers`. -/
def compileMatchersSteps : Nat → List Matcher → Nat
  | 0, _ => 0
  | n + 1, ms => 1 + match ms with
    | [] => 0
    | [_] => 0
    | m0 :: rest => glueSteps ms + match glueMatchers ms with
      | some _ => 0
      | none => chooseSteps ms + match chooseValue ms 0 none with
        | none => compileMatchersSteps n rest + newBTreeSteps m0 none (compileMatchers n rest).okOpt
        | some (idx, _) =>
          let left := ms.take idx
          let right := ms.drop (idx + 1)
          (if left.isEmpty then 0 else compileMatchersSteps n left) + ((if right.isEmpty then 0 else compileMatchersSteps n right) +
            newBTreeSteps (ms[idx]?.getD m0) (compileMatchers n left).okOpt (compileMatchers n right).okOpt)

/-- compiler.go:264-282: one iteration of the inner loop of `minimizeMatchers`. -/
def minimizeStepSteps (ms : List Matcher) (done : Option Glued) (l r : Nat) : Nat :=
  1 + glueSteps ((ms.take r).drop l) + match glueMatchers ((ms.take r).drop l), done with
  | some g, some d => d.m.lenSteps + g.lenSteps
  | _, _ => 0

/-- compiler.go:263-284: the loops of `minimizeMatchers` (in the order of `minimizeLoops`), with an iteration of the outer loop for each matcher. -/
def minimizeLoopsSteps (ms : List Matcher) : Nat :=
  ms.length + (((List.range ms.length).flatMap fun l => ((List.range (ms.length - l)).map fun k => (l, ms.length - k))).foldl
    (fun (st : Option Glued × Nat) lr => (minimizeStep ms st.1 lr.1 lr.2, st.2 + minimizeStepSteps ms st.1 lr.1 lr.2)) (none, 0)).2

/-- compiler.go:259-300 `minimizeMatchers`; the bound as in `minimizeMatchers`. -/
def minimizeMatchersSteps : Nat → List Matcher → Nat
  | 0, _ => 0
  | n + 1, ms => 1 + minimizeLoopsSteps ms + match minimizeLoops ms with
    | none => 0
    | some d =>
      let next := ms.take d.left ++ [d.m] ++ ms.drop d.right
      if next.length = ms.length then 0 else minimizeMatchersSteps n next

/-! ### Trees -/

mutual
/-- ast/ast.go:26-42 `Node.Equal`: the calls. -/
def Node.equalSteps : Node → Node → Nat
  | .pattern cs, .pattern ds => 1 + if cs.length = ds.length then equalNodesSteps cs ds else 0
  | .anyOf cs, .anyOf ds => 1 + if cs.length = ds.length then equalNodesSteps cs ds else 0
  | _, _ => 1
/-- The loop over the children. -/
def equalNodesSteps : List Node → List Node → Nat
  | c :: cs, d :: ds => c.equalSteps d + if c.equal d then equalNodesSteps cs ds else 0
  | _, _ => 0
end

/-- compiler.go:428-435 `areOfSameKind`: the iterations. -/
def sameKindSteps : List Node → Nat
  | .pattern _ :: ns => 1 + sameKindSteps ns
  | _ :: _ => 1
  | [] => 0

/-- compiler.go:387-401: the inner loop of `commonChildren`. -/
def commonInnerSteps (idx treeLength i j : Nat) (treeLeft treeRight : Node) : List (List Node) → Nat → Bool × Bool → Nat
  | [], _, _ => 0
  | cs :: ns, k, (breakLeft, breakRight) =>
    if breakLeft && breakRight then 0
    else 1 + if k = idx then commonInnerSteps idx treeLength i j treeLeft treeRight ns (k + 1) (breakLeft, breakRight)
    else match cs[i]?, cs[j + cs.length - treeLength]? with
      | some restLeft, some restRight =>
        let c1 := if breakLeft then 0 else treeLeft.equalSteps restLeft
        let breakLeft := breakLeft || !treeLeft.equal restLeft
        let breakRight := breakRight || (!breakLeft && decide (j ≤ i))
        let c2 := if breakRight then 0 else treeRight.equalSteps restRight
        let breakRight := breakRight || !treeRight.equal restRight
        c1 + (c2 + commonInnerSteps idx treeLength i j treeLeft treeRight ns (k + 1) (breakLeft, breakRight))
      | _, _ => 0

/-- compiler.go:383-412: the outer loop of `commonChildren`. -/
def commonLoopSteps (nodes : List (List Node)) (idx : Nat) (tree : List Node) : Nat → Nat → Bool × Bool → Nat → Nat
  | 0, _, _, _ => 0
  | j + 1, i, (breakLeft, breakRight), commonTotal =>
    if commonTotal < tree.length && !(breakLeft && breakRight) then
      1 + match tree[i]?, tree[j]? with
      | some treeLeft, some treeRight =>
        commonInnerSteps idx tree.length i j treeLeft treeRight nodes 0 (breakLeft, breakRight) +
        match commonInner idx tree.length i j treeLeft treeRight nodes 0 (breakLeft, breakRight) with
        | none => 0
        | some (breakLeft, breakRight) =>
          commonLoopSteps nodes idx tree j (i + 1) (breakLeft, breakRight) (commonTotal + (if !breakLeft then 1 else 0) + (if !breakRight then 1 else 0))
      | _, _ => 0
    else 0

/-- compiler.go:359-417 `commonChildren`, with the iterations of 437-447 `leastChildren`. -/
def commonChildrenSteps (nodes : List (List Node)) : Nat :=
  1 + if nodes.length ≤ 1 then 0
  else 1 + nodes.length + match leastChildrenLoop nodes 0 none with
    | none => 0
    | some (idx, _) => match nodes[idx]? with
      | none => 0
      | some tree => commonLoopSteps nodes idx tree tree.length 0 (false, false) 0

/-- compiler.go:419-426 `appendIfUnique`: the iterations with their comparisons. -/
def uniqueSteps (val : Node) : List Node → Nat
  | [] => 0
  | n :: ns => 1 + n.equalSteps val + if n.equal val then 0 else uniqueSteps val ns

/-- compiler.go:333-344: the loop over the alternatives. -/
def reduceSteps (cl cr : Nat) : List (List Node) → List Node → Nat
  | [], _ => 0
  | cs :: ns, acc =>
    if cs.length < cl + cr then 0
    else
      let reuse := (cs.take (cs.length - cr)).drop cl
      let node := if reuse.isEmpty then .nothing else .pattern reuse
      2 + uniqueSteps node acc + reduceSteps cl cr ns (appendIfUnique acc node)

/-- compiler.go:303-357 `minimizeTree`, `minimizeTreeAnyOf`, with `areOfSameKind`. -/
def minimizeTreeSteps (cs : List Node) : Nat :=
  3 + sameKindSteps cs + match patternChildren cs with
  | none => 0
  | some nodes => commonChildrenSteps nodes + match commonChildren nodes with
    | none => 0
    | some (left, right) => if left.length = 0 && right.length = 0 then 0 else reduceSteps left.length right.length nodes []

/-- compiler.go:449-459 `compileTreeChildren`: the iterations, with the steps of `compile` and of `optimizeMatcher`. -/
def compileChildrenSteps (f : Node → Res Matcher) (c : Node → Nat) : List Node → Nat
  | [] => 0
  | t :: ts => 1 + c t + match f t with
    | .ok m => optimizeSteps m + compileChildrenSteps f c ts
    | _ => 0

/-- compiler.go:461-516 `compile`; the bound as in `compile`. -/
def compileSteps (seps : List Nat) : Nat → Node → Nat
  | 0, _ => 0
  | n + 1, tree => 1 + match tree with
    | .anyOf cs => minimizeTreeSteps cs + match minimizeTreeAnyOf cs with
      | none => 0
      | some (some t) => compileSteps seps n t
      | some none => 1 + compileChildrenSteps (compile seps n) (compileSteps seps n) cs
    | .pattern cs =>
      if cs.length = 0 then 0
      else 1 + compileChildrenSteps (compile seps n) (compileSteps seps n) cs + match compileChildren (compile seps n) cs with
        | .ok ms => minimizeMatchersSteps (ms.length + 1) ms + match minimizeMatchers (ms.length + 1) ms with
          | none => 0
          | some ms => compileMatchersSteps (ms.length + 1) ms + match compileMatchers (ms.length + 1) ms with
            | .ok m => optimizeSteps m
            | _ => 0
        | _ => 0
    | _ => 1

/-- glob.go:39-51 `Compile` (compiler.go:518-525): the steps after parsing; none if the pattern is not accepted. -/
def globCompileSteps (pattern : Str) (seps : List Nat) : Nat :=
  match parse pattern with
  | .ok tree => 1 + compileSteps seps tree.size tree
  | _ => 0

end Verif.Glob
