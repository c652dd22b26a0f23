import Verif.Glob.Syntax
import Verif.Glob.Match
import Verif.Glob.Runes
/-
glob/compiler/compiler.go: from the tree of a pattern to a matcher, and glob/glob.go `Compile`.
-/
namespace Verif.Glob

/-! ### Matchers -/

/-- match/btree.go:18-47 `NewBTree`: the lengths; the length of a missing side is 0. -/
def newBTree (value : Matcher) (left right : Option Matcher) : Matcher :=
  let ll : Option Nat := match left with
    | none => some 0
    | some m => m.len
  let rl : Option Nat := match right with
    | none => some 0
    | some m => m.len
  let len : Option Nat := match ll, value.len, rl with
    | some a, some b, some c => some (a + b + c)
    | _, _, _ => none
  .btree value left right ll rl len

/-- compiler.go:41-85: the rest of the case for a BTree, with the optimised sides. -/
def optimizeBTree (value : Matcher) (left right : Option Matcher) (ll rl len : Option Nat) : Matcher :=
  let m := Matcher.btree value left right ll rl len
  match value with
  | .text r => match left, right with
    | none, none => .text r
    | some .super, some .super => .contains r false
    | some .super, none => .suffix r
    | none, some .super => .prefix r
    | none, some (.suffix s) => .prefixSuffix r s
    | some (.prefix p), none => .prefixSuffix p r
    | some (.any seps), none => .suffixAny r seps
    | none, some (.any seps) => .prefixAny r seps
    | _, _ => m
  | _ => m

mutual
/-- compiler.go:15-89 `optimizeMatcher`. -/
def optimizeMatcher : Matcher → Matcher
  | .any seps => if seps.length = 0 then .super else .any seps
  | .anyOf ms => match ms with
    | [m] => m
    | _ => .anyOf ms
  | .list rs not => if not = false && rs.length = 1 then .text (rs.flatMap encodeRune) else .list rs not
  | .btree v l r ll rl len => optimizeBTree v (optimizeOpt l) (optimizeOpt r) ll rl len
  | m => m
/-- `optimizeMatcher` of a side of a BTree, which may be nil. -/
def optimizeOpt : Option Matcher → Option Matcher
  | none => none
  | some m => some (optimizeMatcher m)
end

/-- compiler.go:181-228: what `glueMatchersAsEvery` reads of a matcher: the separators, and whether it is a Super, an Any or a single rune; `none` makes
it return nil. -/
inductive Gluable where
  | super
  | any
  | single

/-- compiler.go:192-216: the switch. -/
def gluable : Matcher → Option (List Nat × Gluable)
  | .super => some ([], .super)
  | .any seps => some (seps, .any)
  | .single seps => some (seps, .single)
  | .list rs not => if !not then none else some (rs, .single)
  | _ => none

/-- compiler.go:189-228: the loop; hasAny, hasSuper, hasSingle and min at the end. `separator` is the one of the first matcher. -/
def glueLoop (separator : List Nat) : List Matcher → Bool × Bool × Bool × Nat → Option (Bool × Bool × Bool × Nat)
  | [], st => some st
  | m :: ms, (hasAny, hasSuper, hasSingle, min) => match gluable m with
    | none => none
    | some (sep, k) =>
      if Runes.equal sep separator then
        glueLoop separator ms (match k with
          | .super => (hasAny, true, hasSingle, min)
          | .any => (true, hasSuper, hasSingle, min)
          | .single => (hasAny, hasSuper, true, min + 1))
      else none

/-- compiler.go:176-257 `glueMatchersAsEvery`. -/
def glueMatchersAsEvery (ms : List Matcher) : Option Matcher :=
  match ms with
  | [] => none
  | [_] => none
  | m :: _ => match gluable m with
    | none => none
    | some (separator, _) => match glueLoop separator ms (false, false, false, 0) with
      | none => none
      | some (hasAny, hasSuper, hasSingle, min) =>
        if hasSuper && !hasAny && !hasSingle then some .super
        else if hasAny && !hasSuper && !hasSingle then some (.any separator)
        else if (hasAny || hasSuper) && min > 0 && separator.length = 0 then some (.min min)
        else
          let e1 := if min > 0 then [Matcher.min min] ++ (if !hasAny && !hasSuper then [Matcher.max min] else []) else []
          let e2 := if separator.length > 0 then [Matcher.contains (separator.flatMap encodeRune) true] else []
          some (.everyOf (e1 ++ e2))

/-- compiler.go:156-174: the sum of the lengths; `none` if one is -1. -/
def sumLens : List (Option Nat) → Option Nat
  | [] => some 0
  | l :: ls => match l, sumLens ls with
    | some a, some b => some (a + b)
    | _, _ => none

/-- compiler.go:156-174 `glueMatchersAsRow`. -/
def glueMatchersAsRow (ms : List Matcher) : Option Matcher :=
  if ms.length ≤ 1 then none else (sumLens (lens ms)).map fun l => .row l ms

/-- compiler.go:146-154 `glueMatchers`. -/
def glueMatchers (ms : List Matcher) : Option Matcher :=
  match glueMatchersAsEvery ms with
  | some m => some m
  | none => glueMatchersAsRow ms

/-- compiler.go:102-111: the index of the matcher with the greatest static length, the last one of several; `i` is the index of the first matcher of the list
and the last argument is the choice so far with its length. -/
def chooseValue : List Matcher → Nat → Option (Nat × Nat) → Option (Nat × Nat)
  | [], _, best => best
  | m :: ms, i, best => match m.len with
    | none => chooseValue ms (i + 1) best
    | some l => match best with
      | none => chooseValue ms (i + 1) (some (i, l))
      | some (j, maxLen) => chooseValue ms (i + 1) (if l ≥ maxLen then some (i, l) else some (j, maxLen))

/-- compiler.go:91-144 `compileMatchers`; the bound is on the depth of the recursion. -/
def compileMatchers : Nat → List Matcher → Res Matcher
  | 0, _ => .steps
  | n + 1, ms => match ms with
    | [] => .err .needMatcher
    | [m] => .ok m
    | m0 :: rest => match glueMatchers ms with
      | some m => .ok m
      | none => match chooseValue ms 0 none with
        | none => match compileMatchers n rest with
          | .ok r => .ok (newBTree m0 none (some r))
          | e => e
        | some (idx, _) =>
          let left := ms.take idx
          let right := ms.drop (idx + 1)
          match ms[idx]? with
          | none => .panic
          | some val =>
            match (if left.isEmpty then Res.ok none else match compileMatchers n left with
              | .ok l => .ok (some l)
              | .err e => .err e
              | .panic => .panic
              | .steps => .steps) with
            | .ok l =>
              match (if right.isEmpty then Res.ok none else match compileMatchers n right with
                | .ok r => .ok (some r)
                | .err e => .err e
                | .panic => .panic
                | .steps => .steps) with
              | .ok r => .ok (newBTree val l r)
              | .err e => .err e
              | .panic => .panic
              | .steps => .steps
            | .err e => .err e
            | .panic => .panic
            | .steps => .steps

/-- compiler.go:260-284: what the loops found so far: the glued matcher with `left` and `right` (`count` is their difference). -/
structure Glued where
  m : Matcher
  left : Nat
  right : Nat

/-- compiler.go:265-282: one step of the loops. -/
def minimizeStep (ms : List Matcher) (done : Option Glued) (l r : Nat) : Option Glued :=
  match glueMatchers ((ms.take r).drop l) with
  | none => done
  | some g => match done with
    | none => some ⟨g, l, r⟩
    | some d =>
      let longer : Bool := match d.m.len, g.len with
        | some cl, some gl => decide (gl > cl)
        | _, _ => false
      if longer || decide (d.right - d.left < r - l) then some ⟨g, l, r⟩ else some d

/-- compiler.go:263-284: the loops `for l := 0; l < len; l++ { for r := len; r > l; r-- {...} }`. -/
def minimizeLoops (ms : List Matcher) : Option Glued :=
  ((List.range ms.length).flatMap fun l => ((List.range (ms.length - l)).map fun k => (l, ms.length - k))).foldl
    (fun done lr => minimizeStep ms done lr.1 lr.2) none

/-- compiler.go:259-300 `minimizeMatchers`; the bound is on the depth of the recursion. -/
def minimizeMatchers : Nat → List Matcher → Option (List Matcher)
  | 0, _ => none
  | n + 1, ms => match minimizeLoops ms with
    | none => some ms
    | some d =>
      let next := ms.take d.left ++ [d.m] ++ ms.drop d.right
      if next.length = ms.length then some next else minimizeMatchers n next

/-! ### Trees -/

mutual
/-- ast/ast.go:26-42 `Node.Equal`. For the nodes compared at compiler.go:421 (`appendIfUnique`) `reflect.DeepEqual` is the same: both nodes are new and have no
parent, and the parent of each child is the node it was reached from, a pair that was already visited. -/
def Node.equal : Node → Node → Bool
  | .nothing, .nothing => true
  | .pattern cs, .pattern ds => equalNodes cs ds
  | .list n1 c1, .list n2 c2 => n1 == n2 && c1 == c2
  | .range n1 l1 h1, .range n2 l2 h2 => n1 == n2 && l1 == l2 && h1 == h2
  | .text t1, .text t2 => t1 == t2
  | .any, .any => true
  | .super, .super => true
  | .single, .single => true
  | .anyOf cs, .anyOf ds => equalNodes cs ds
  | _, _ => false
/-- The children are equal one by one. -/
def equalNodes : List Node → List Node → Bool
  | [], [] => true
  | c :: cs, d :: ds => c.equal d && equalNodes cs ds
  | _, _ => false
end

/-- compiler.go:428-435 `areOfSameKind` for `KindPattern`, with the children of the nodes. -/
def patternChildren : List Node → Option (List (List Node))
  | [] => some []
  | .pattern cs :: ns => (patternChildren ns).map (cs :: ·)
  | _ :: _ => none

/-- compiler.go:437-447 `leastChildren`: the loop. -/
def leastChildrenLoop : List (List Node) → Nat → Option (Nat × Nat) → Option (Nat × Nat)
  | [], _, best => best
  | cs :: ns, i, best => match best with
    | none => leastChildrenLoop ns (i + 1) (some (i, cs.length))
    | some (j, min) => leastChildrenLoop ns (i + 1) (if cs.length < min then some (i, cs.length) else some (j, min))

/-- compiler.go:387-401: the loop over the nodes; `none` is a panic (an index out of range). `k` is the index of the first node of the list. -/
def commonInner (idx treeLength i j : Nat) (treeLeft treeRight : Node) : List (List Node) → Nat → Bool × Bool → Option (Bool × Bool)
  | [], _, bs => some bs
  | cs :: ns, k, (breakLeft, breakRight) =>
    if breakLeft && breakRight then some (breakLeft, breakRight)
    else if k = idx then commonInner idx treeLength i j treeLeft treeRight ns (k + 1) (breakLeft, breakRight)
    else match cs[i]?, cs[j + cs.length - treeLength]? with
      | some restLeft, some restRight =>
        let breakLeft := breakLeft || !treeLeft.equal restLeft
        let breakRight := breakRight || (!breakLeft && decide (j ≤ i))
        let breakRight := breakRight || !treeRight.equal restRight
        commonInner idx treeLength i j treeLeft treeRight ns (k + 1) (breakLeft, breakRight)
      | _, _ => none

/-- compiler.go:383-412: the outer loop; the first number is the number of steps left, j + 1. `commonRight[lastRight:]` is a list that grows at its head. -/
def commonLoop (nodes : List (List Node)) (idx : Nat) (tree : List Node) :
    Nat → Nat → Bool × Bool → Nat → List Node → List Node → Option (List Node × List Node)
  | 0, _, _, _, left, right => some (left, right)
  | j + 1, i, (breakLeft, breakRight), commonTotal, left, right =>
    if commonTotal < tree.length && !(breakLeft && breakRight) then
      match tree[i]?, tree[j]? with
      | some treeLeft, some treeRight =>
        match commonInner idx tree.length i j treeLeft treeRight nodes 0 (breakLeft, breakRight) with
        | none => none
        | some (breakLeft, breakRight) =>
          let total := commonTotal + (if !breakLeft then 1 else 0) + (if !breakRight then 1 else 0)
          let left := if !breakLeft then left ++ [treeLeft] else left
          let right := if !breakRight then treeRight :: right else right
          commonLoop nodes idx tree j (i + 1) (breakLeft, breakRight) total left right
      | _, _ => none
    else some (left, right)

/-- compiler.go:359-417 `commonChildren`; `none` is a panic. -/
def commonChildren (nodes : List (List Node)) : Option (List Node × List Node) :=
  if nodes.length ≤ 1 then some ([], [])
  else match leastChildrenLoop nodes 0 none with
    | none => some ([], [])
    | some (idx, _) => match nodes[idx]? with
      | none => none
      | some tree => commonLoop nodes idx tree tree.length 0 (false, false) 0 [] []

/-- compiler.go:419-426 `appendIfUnique`. -/
def appendIfUnique (target : List Node) (val : Node) : List Node := if target.any fun n => n.equal val then target else target ++ [val]

/-- compiler.go:333-344: the loop over the children; `none` is a panic (a slice out of range). -/
def reduceAlts (cl cr : Nat) : List (List Node) → List Node → Option (List Node)
  | [], acc => some acc
  | cs :: ns, acc =>
    if cs.length < cl + cr then none
    else
      let reuse := (cs.take (cs.length - cr)).drop cl
      reduceAlts cl cr ns (appendIfUnique acc (if reuse.isEmpty then .nothing else .pattern reuse))

/-- compiler.go:345-350: the alternatives that are left, as a part of the result. -/
def reducedPart (anyOf : List Node) : List Node :=
  match anyOf with
  | [n] => match n with
    | .nothing => []
    | _ => [n]
  | [] => []
  | _ => [.anyOf anyOf]

/-- compiler.go:303-357 `minimizeTree`, `minimizeTreeAnyOf` of an AnyOf with these children. The outer `none` is a panic, the inner one is nil. -/
def minimizeTreeAnyOf (cs : List Node) : Option (Option Node) :=
  match patternChildren cs with
  | none => some none
  | some nodes => match commonChildren nodes with
    | none => none
    | some (left, right) =>
      if left.length = 0 && right.length = 0 then some none
      else match reduceAlts left.length right.length nodes [] with
        | none => none
        | some anyOf =>
          some (some (.pattern ((if left.length > 0 then [.pattern left] else []) ++ reducedPart anyOf ++
            (if right.length > 0 then [.pattern right] else []))))

/-- compiler.go:449-459 `compileTreeChildren`, with the results of `compile` for the children. -/
def compileChildren (f : Node → Res Matcher) : List Node → Res (List Matcher)
  | [] => .ok []
  | c :: cs => match f c with
    | .ok m => match compileChildren f cs with
      | .ok ms => .ok (optimizeMatcher m :: ms)
      | .err e => .err e
      | .panic => .panic
      | .steps => .steps
    | .err e => .err e
    | .panic => .panic
    | .steps => .steps

/-- compiler.go:461-516 `compile`; the bound is on the depth of the recursion. -/
def compile (seps : List Nat) : Nat → Node → Res Matcher
  | 0, _ => .steps
  | n + 1, tree => match tree with
    | .anyOf cs => match minimizeTreeAnyOf cs with
      | none => .panic
      | some (some t) => compile seps n t
      | some none => match compileChildren (compile seps n) cs with
        | .ok ms => .ok (.anyOf ms)
        | .err e => .err e
        | .panic => .panic
        | .steps => .steps
    | .pattern cs =>
      if cs.length = 0 then .ok .nothing
      else match compileChildren (compile seps n) cs with
        | .ok ms => match minimizeMatchers (ms.length + 1) ms with
          | none => .steps
          | some ms => match compileMatchers (ms.length + 1) ms with
            | .ok m => .ok (optimizeMatcher m)
            | e => e
        | .err e => .err e
        | .panic => .panic
        | .steps => .steps
    | .any => .ok (optimizeMatcher (.any seps))
    | .super => .ok (optimizeMatcher .super)
    | .single => .ok (optimizeMatcher (.single seps))
    | .nothing => .ok (optimizeMatcher .nothing)
    | .list not chars => .ok (optimizeMatcher (.list ((runesOf chars).map Prod.fst) not))
    | .range not lo hi => .ok (optimizeMatcher (.range lo hi not))
    | .text t => .ok (optimizeMatcher (.text t))

mutual
/-- A bound on the depth of the recursion of `compile`. -/
def Node.size : Node → Nat
  | .pattern cs => 1 + sizes cs
  | .anyOf cs => 1 + 4 * sizes cs
  | _ => 1
/-- The sum of the bounds. -/
def sizes : List Node → Nat
  | [] => 0
  | c :: cs => c.size + sizes cs
end

/-- glob.go:39-51 `Compile` (compiler.go:518-525). -/
def globCompile (pattern : Str) (seps : List Nat) : Res Matcher :=
  match parse pattern with
  | .ok tree => compile seps tree.size tree
  | .err e => .err e
  | .panic => .panic
  | .steps => .steps

end Verif.Glob
