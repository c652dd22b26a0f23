import Verif.Glob.Compile
/-
How many calls of the methods `Match` and `Index` of matchers (of any kind) a call of `Match` leads to, itself included. The functions follow the loops and the early
returns of the functions of `Verif.Glob.Match` that compute the results; a call that panics ends the count.
-/
namespace Verif.Glob

/-- any_of.go:18-26 `AnyOf.Match`: the calls of the loop; a matcher is given by its `Match` and the number of calls this leads to. -/
def anyOfCalls (s : Str) : List ((Str → Option Bool) × (Str → Nat)) → Nat
  | [] => 0
  | (f, c) :: fs => c s + match f s with
    | some false => anyOfCalls s fs
    | _ => 0

/-- any_of.go:28-58 `AnyOf.Index`: the calls of the loop. -/
def anyOfIndexCalls (s : Str) : List ((Str → Idx) × (Str → Nat)) → Nat
  | [] => 0
  | (f, c) :: fs => c s + match f s with
    | none => 0
    | some _ => anyOfIndexCalls s fs

/-- every_of.go:87-95 `EveryOf.Match`: the calls of the loop. -/
def everyOfCalls (s : Str) : List ((Str → Option Bool) × (Str → Nat)) → Nat
  | [] => 0
  | (f, c) :: fs => c s + match f s with
    | some true => everyOfCalls s fs
    | _ => 0

/-- every_of.go:32-85 `EveryOf.Index`: the calls of the loop (see `everyOfIndex`). -/
def everyOfIndexCalls (s : Str) (first : Bool) (index offset : Nat) (current : List Nat) (sub : Str) : List ((Str → Idx) × (Str → Nat)) → Nat
  | [] => 0
  | (f, c) :: fs => c sub + match f sub with
    | none => 0
    | some none => 0
    | some (some (idx, seg)) =>
      let next := current.flatMap fun (ex : Nat) => seg.filter fun (n : Nat) => ((ex : Int) + ((index : Int) - ((idx : Int) + offset)) = (n : Int))
      if !first && next.isEmpty then 0
      else if s.length < idx + offset then 0
      else everyOfIndexCalls s false (idx + offset) (offset + idx) (if first then seg else next) (s.drop (idx + offset)) fs

/-- row.go:21-42 `Row.matchAll`: the calls of the loop. -/
def rowMatchAllCalls (s : Str) : Nat → List (Option Nat × (Str → Option Bool) × (Str → Nat)) → Nat
  | _, [] => 0
  | idx, (len, f, c) :: fs =>
    let length := len.getD 0
    let (next, i) := rowStep length (s.drop idx)
    if i < length then 0
    else if s.length < idx + next + 1 then 0
    else c ((s.drop idx).take (next + 1)) + match f ((s.drop idx).take (next + 1)) with
      | some true => rowMatchAllCalls s (idx + next + 1) fs
      | _ => 0

/-- row.go:44-57 `Row.Match`: the calls. -/
def rowMatchCalls (runesLength : Nat) (fs : List (Option Nat × (Str → Option Bool) × (Str → Nat))) (s : Str) : Nat :=
  if (runesOf s).length = runesLength then rowMatchAllCalls s 0 fs else 0

/-- row.go:63-73 `Row.Index`: the calls of the loop over the positions. -/
def rowIndexCalls (runesLength : Nat) (fs : List (Option Nat × (Str → Option Bool) × (Str → Nat))) (s : Str) : List Nat → Nat
  | [] => 0
  | i :: is =>
    if (s.drop i).length < runesLength then 0
    else rowMatchAllCalls (s.drop i) 0 fs + match rowMatchAll (s.drop i) 0 (fs.map fun x => (x.1, x.2.1)) with
      | some false => rowIndexCalls runesLength fs s is
      | _ => 0

/-- btree.go:119-140: the calls of the loop over the segments. -/
def btreeSegmentsCalls (right : Str → Option Bool) (rc : Str → Nat) (s : Str) (pos : Nat) : List Nat → Nat
  | [] => 0
  | length :: ls =>
    let r := if s.length ≤ pos + length then [] else s.drop (pos + length)
    rc r + match right r with
    | some false => btreeSegmentsCalls right rc s pos ls
    | _ => 0

/-- btree.go:101-149: the calls of the loop of `BTree.Match`. -/
def btreeLoopCalls (value : Str → Idx) (vc : Str → Nat) (left right : Str → Option Bool) (lc rc : Str → Nat) (s : Str) (limit : Nat) : Nat → Nat → Nat
  | 0, _ => 0
  | n + 1, offset =>
    if offset < limit then
      vc ((s.take limit).drop offset) + match value ((s.take limit).drop offset) with
      | none => 0
      | some none => 0
      | some (some (index, segments)) =>
        let step := (decodeRune (s.drop (offset + index))).2
        lc (s.take (offset + index)) + match left (s.take (offset + index)) with
        | none => 0
        | some true => btreeSegmentsCalls right rc s (offset + index) segments.reverse + match btreeSegments right s (offset + index) segments.reverse with
          | some false => btreeLoopCalls value vc left right lc rc s limit n (offset + (index + step))
          | _ => 0
        | some false => btreeLoopCalls value vc left right lc rc s limit n (offset + (index + step))
    else 0

/-- btree.go:95-150, 152-168 `BTree.Match`: the calls. -/
def btreeMatchCalls (value : Str → Idx) (vc : Str → Nat) (left right : Str → Option Bool) (lc rc : Str → Nat) (leftLen rightLen length : Option Nat) (s : Str) : Nat :=
  let tooShort : Bool := match length with
    | some l => decide (l > s.length)
    | none => false
  if tooShort then 0
  else
    let offset := leftLen.getD 0
    let limit := match rightLen with
      | some r => s.length - r
      | none => s.length
    btreeLoopCalls value vc left right lc rc s limit (s.length + 1) offset

mutual
/-- The number of calls of `Match` and `Index` in a call of `Match` of the matcher, this one included. Only AnyOf, EveryOf, Row and BTree call other matchers. -/
def Matcher.calls : Matcher → Str → Nat
  | .anyOf ms => fun s => 1 + anyOfCalls s (callFns ms)
  | .everyOf ms => fun s => 1 + everyOfCalls s (callFns ms)
  | .row l ms => fun s => 1 + rowMatchCalls l ((lens ms).zip (callFns ms)) s
  | .btree v l r ll rl len => fun s => 1 + btreeMatchCalls v.index v.indexCalls (matchOpt l) (matchOpt r) (callsOpt l) (callsOpt r) ll rl len s
  | _ => fun _ => 1
/-- A side of a BTree; `nil` is not called (btree.go:110-115, 130-134). -/
def callsOpt : Option Matcher → Str → Nat
  | none => fun _ => 0
  | some m => m.calls
/-- The `Match` functions of matchers with the numbers of calls. -/
def callFns : List Matcher → List ((Str → Option Bool) × (Str → Nat))
  | [] => []
  | m :: ms => (m.match, m.calls) :: callFns ms
/-- The number of calls in a call of `Index`, this one included. `BTree.Index` calls nothing (btree.go:54-93). -/
def Matcher.indexCalls : Matcher → Str → Nat
  | .anyOf ms => fun s => 1 + anyOfIndexCalls s (indexCallFns ms)
  | .everyOf ms => fun s => 1 + everyOfIndexCalls s true 0 0 [] s (indexCallFns ms)
  | .row l ms => fun s => 1 + rowIndexCalls l ((lens ms).zip (callFns ms)) s ((rangeStr s).map Prod.fst)
  | _ => fun _ => 1
/-- The `Index` functions of matchers with the numbers of calls. -/
def indexCallFns : List Matcher → List ((Str → Idx) × (Str → Nat))
  | [] => []
  | m :: ms => (m.index, m.indexCalls) :: indexCallFns ms
end

end Verif.Glob
