import Verif.Glob.GoStrings
/-
glob/match: the matchers.

A matcher is a value of one type; `Match` and `Index` are functions on it. `Index` returns a list where the code has a slice in an array that may come from a
pool; `Verif.Glob.Heap` has the arrays and pools, and `Verif.Glob.HeapProps` shows that the results are the same. `acquireSegments` is modelled in `Verif.Glob.Segments`. The result `none` of a function is a panic; for `Index`, `some none` is the result -1.
-/
namespace Verif.Glob

/-- glob/match/match.go:14-19 `Matcher` with the types that implement it. A length is `none` where the code has -1. In `btree` the lengths are those
the constructor computed (btree.go:8-16). -/
inductive Matcher where
  /-- nothing.go:7 -/
  | nothing
  /-- text.go:10-15 (RunesLength, BytesLength and Segments follow from Str) -/
  | text (str : Str)
  /-- any.go:9-11 -/
  | any (seps : List Nat)
  /-- super.go:7 -/
  | super
  /-- single.go:11-13 -/
  | single (seps : List Nat)
  /-- list.go:10-13 -/
  | list (rs : List Nat) (not : Bool)
  /-- range.go:8-11 -/
  | range (lo hi : Nat) (not : Bool)
  /-- min.go:8-10 -/
  | min (limit : Nat)
  /-- max.go:8-10 -/
  | max (limit : Nat)
  /-- contains.go:8-11 -/
  | contains (needle : Str) (not : Bool)
  /-- prefix.go:9-11 -/
  | prefix (p : Str)
  /-- suffix.go:8-10 -/
  | suffix (q : Str)
  /-- prefix_suffix.go:8-10 -/
  | prefixSuffix (p q : Str)
  /-- prefix_any.go:11-14 -/
  | prefixAny (p : Str) (seps : List Nat)
  /-- suffix_any.go:10-13 -/
  | suffixAny (q : Str) (seps : List Nat)
  /-- any_of.go:5-7 -/
  | anyOf (ms : List Matcher)
  /-- every_of.go:7-9 -/
  | everyOf (ms : List Matcher)
  /-- row.go:7-11 (Segments is [RunesLength]) -/
  | row (runesLength : Nat) (ms : List Matcher)
  /-- btree.go:8-16 (the value's length is not used after construction) -/
  | btree (value : Matcher) (left right : Option Matcher) (leftLen rightLen length : Option Nat)

/-- any_of.go:60-78 `AnyOf.Len`, from the lengths of the matchers: `l` is the variable. -/
def anyOfLen : Option Nat → List (Option Nat) → Option Nat
  | l, [] => l
  | none, ml :: ls => anyOfLen ml ls
  | some _, none :: _ => none
  | some l, some ml :: ls => if l ≠ ml then none else anyOfLen (some l) ls

mutual
/-- `Len` of a matcher; `none` is -1 (nothing.go:21, text.go:30, any.go:40, super.go:17, single.go:28, list.go:29, range.go:17, min.go:51, max.go:43,
contains.go:48, prefix.go:40, suffix.go:16, prefix_suffix.go:52, prefix_any.go:42, suffix_any.go:30, any_of.go:60, every_of.go:20-30, row.go:59,
btree.go:49). `EveryOf.Len` is -1 unless there are no matchers, because its `l` is 0 when the first one is visited. -/
def Matcher.len : Matcher → Option Nat
  | .nothing => some 0
  | .text s => some (runesOf s).length
  | .any _ => none
  | .super => none
  | .single _ => some 1
  | .list _ _ => some 1
  | .range _ _ _ => some 1
  | .min _ => none
  | .max _ => none
  | .contains _ _ => none
  | .prefix _ => none
  | .suffix _ => none
  | .prefixSuffix _ _ => none
  | .prefixAny _ _ => none
  | .suffixAny _ _ => none
  | .anyOf ms => anyOfLen none (lens ms)
  | .everyOf ms => if ms.isEmpty then some 0 else none
  | .row l _ => some l
  | .btree _ _ _ _ _ l => l
/-- The lengths of matchers. -/
def lens : List Matcher → List (Option Nat)
  | [] => []
  | m :: ms => m.len :: lens ms
end

/-- The result of `Index`: `none` is a panic, `some none` is -1. -/
abbrev Idx := Option (Option (Nat × List Nat))

/-- any.go:21-38 `Any.Index`. -/
def anyIndex (seps : List Nat) (s : Str) : Idx :=
  match indexAnyRunes s seps with
  | some 0 => some (some (0, [0]))
  | some found => let t := s.take found; some (some (0, (rangeStr t).map Prod.fst ++ [t.length]))
  | none => some (some (0, (rangeStr s).map Prod.fst ++ [s.length]))

/-- super.go:21-29 `Super.Index`. -/
def superIndex (s : Str) : Idx := some (some (0, (rangeStr s).map Prod.fst ++ [s.length]))

/-- A loop over the runes for the first one with a property: single.go:32-40, list.go:33-41, range.go:32-40 (`Index`). -/
def firstRune (p : Nat → Bool) (s : Str) : Idx :=
  match (rangeStr s).find? fun x => p x.2 with
  | some x => some (some (x.1, [runeLen x.2]))
  | none => some none

/-- single.go:19-26, list.go:19-27, range.go:21-30 (`Match`): the string has at most one rune, which has a property. -/
def oneRune (p : Nat → Bool) (s : Str) : Bool := if s.length > (decodeRune s).2 then false else p (decodeRune s).1

/-- list.go:25-26, 35: the test of a rune. -/
def inList (rs : List Nat) (not : Bool) (r : Nat) : Bool := rs.contains r == !not

/-- range.go:27, 34: the test of a rune. -/
def inRange (lo hi : Nat) (not : Bool) (r : Nat) : Bool := (lo ≤ r && r ≤ hi) == !not

/-- min.go:16-26 `Min.Match`. -/
def minMatch (limit : Nat) (s : Str) : Bool := (runesOf s).length > 0 && (runesOf s).length ≥ limit

/-- min.go:28-49 `Min.Index`. -/
def minIndex (limit : Nat) (s : Str) : Idx :=
  if s.length + 1 ≤ limit then some none
  else
    let segments := (((rangeStr s).zipIdx 1).filter fun x => x.2 ≥ limit).map fun x => x.1.1 + runeLen x.1.2
    if segments.isEmpty then some none else some (some (0, segments))

/-- max.go:16-26 `Max.Match`. -/
def maxMatch (limit : Nat) (s : Str) : Bool := (runesOf s).length ≤ limit

/-- max.go:28-41 `Max.Index`. -/
def maxIndex (limit : Nat) (s : Str) : Idx := some (some (0, 0 :: ((rangeStr s).take limit).map fun x => x.1 + runeLen x.2))

/-- contains.go:21-46 `Contains.Index`. -/
def containsIndex (needle : Str) (not : Bool) (s : Str) : Idx :=
  match strIndex needle s, not with
  | none, false => some none
  | some idx, false =>
    let offset := idx + needle.length
    if s.length ≤ offset then some (some (0, [offset]))
    else let t := s.drop offset; some (some (0, (rangeStr t).map (fun x => offset + x.1) ++ [offset + t.length]))
  | some idx, true => let t := s.take idx; some (some (0, (rangeStr t).map Prod.fst ++ [t.length]))
  | none, true => some (some (0, (rangeStr s).map Prod.fst ++ [s.length]))

/-- prefix.go:17-38 `Prefix.Index`. -/
def prefixIndex (p : Str) (s : Str) : Idx :=
  match strIndex p s with
  | none => some none
  | some idx => some (some (idx, p.length :: (rangeStr (s.drop (idx + p.length))).map fun x => p.length + x.1 + runeLen x.2))

/-- suffix.go:24-31 `Suffix.Index`. -/
def suffixIndex (q : Str) (s : Str) : Idx :=
  match strIndex q s with
  | none => some none
  | some idx => some (some (0, [idx + q.length]))

/-- prefix_suffix.go:31-40: the loop that collects the ends of the occurrences of the suffix, last first; the number bounds the steps. -/
def suffixEnds (q : Str) : Nat → Str → List Nat
  | 0, _ => []
  | n + 1, sub => match strLastIndex q sub with
    | none => []
    | some i => (i + q.length) :: suffixEnds q n (sub.take i)

/-- prefix_suffix.go:16-50 `PrefixSuffix.Index`. -/
def prefixSuffixIndex (p q : Str) (s : Str) : Idx :=
  match strIndex p s with
  | none => some none
  | some idx =>
    if q.length ≤ 0 then some (some (idx, [s.length - idx]))
    else if s.length - idx ≤ 0 then some none
    else
      let segments := suffixEnds q (s.length + 1) (s.drop idx)
      if segments.isEmpty then some none else some (some (idx, segments.reverse))

/-- prefix_any.go:20-40 `PrefixAny.Index`. -/
def prefixAnyIndex (p : Str) (seps : List Nat) (s : Str) : Idx :=
  match strIndex p s with
  | none => some none
  | some idx =>
    let sub := s.drop (idx + p.length)
    let sub := match indexAnyRunes sub seps with
      | some i => sub.take i
      | none => sub
    some (some (idx, p.length :: (rangeStr sub).map fun x => p.length + x.1 + runeLen x.2))

/-- prefix_any.go:46-51 `PrefixAny.Match`. -/
def prefixAnyMatch (p : Str) (seps : List Nat) (s : Str) : Bool := if !hasPrefix s p then false else (indexAnyRunes (s.drop p.length) seps).isNone

/-- suffix_any.go:19-28 `SuffixAny.Index`. -/
def suffixAnyIndex (q : Str) (seps : List Nat) (s : Str) : Idx :=
  match strIndex q s with
  | none => some none
  | some idx => match lastIndexAnyRunes (s.take idx) seps with
    | none => none
    | some r => let i := match r with
        | some j => j + 1
        | none => 0
      some (some (i, [idx + q.length - i]))

/-- suffix_any.go:34-39 `SuffixAny.Match`. -/
def suffixAnyMatch (q : Str) (seps : List Nat) (s : Str) : Bool :=
  if !hasSuffix s q then false else (indexAnyRunes (s.take (s.length - q.length)) seps).isNone

/-- match.go:33-72 `appendMerge`, by index loops on sorted lists. -/
def appendMerge : List Nat → List Nat → List Nat
  | [], sub => sub
  | x :: target, [] => x :: target
  | x :: target, y :: sub =>
    if x = y then x :: appendMerge target sub
    else if x < y then x :: appendMerge target (y :: sub)
    else y :: appendMerge (x :: target) sub
termination_by t s => t.length + s.length

/-- any_of.go:18-26 `AnyOf.Match`. -/
def anyOfMatch (s : Str) : List (Str → Option Bool) → Option Bool
  | [] => some false
  | f :: fs => match f s with
    | none => none
    | some true => some true
    | some false => anyOfMatch s fs

/-- any_of.go:28-58 `AnyOf.Index`: the loop; the accumulator is the index with the segments. -/
def anyOfIndex (s : Str) : Option (Nat × List Nat) → List (Str → Idx) → Idx
  | acc, [] => some acc
  | acc, f :: fs => match f s with
    | none => none
    | some none => anyOfIndex s acc fs
    | some (some (idx, seg)) => match acc with
      | none => anyOfIndex s (some (idx, seg)) fs
      | some (index, segments) =>
        if idx < index then anyOfIndex s (some (idx, seg)) fs
        else if idx > index then anyOfIndex s (some (index, segments)) fs
        else anyOfIndex s (some (index, appendMerge segments seg)) fs

/-- every_of.go:87-95 `EveryOf.Match`. -/
def everyOfMatch (s : Str) : List (Str → Option Bool) → Option Bool
  | [] => some true
  | f :: fs => match f s with
    | none => none
    | some false => some false
    | some true => everyOfMatch s fs

/-- every_of.go:32-85 `EveryOf.Index`: the loop. `first` is `i == 0`; `index`, `offset`, `current` are the variables and `sub` the rest of the
string (`sub = s[index:]` may panic). -/
def everyOfIndex (s : Str) (first : Bool) (index offset : Nat) (current : List Nat) (sub : Str) : List (Str → Idx) → Idx
  | [] => some (some (index, current))
  | f :: fs => match f sub with
    | none => none
    | some none => some none
    | some (some (idx, seg)) =>
      let next := current.flatMap fun (ex : Nat) => seg.filter fun (n : Nat) => ((ex : Int) + ((index : Int) - ((idx : Int) + offset)) = (n : Int))
      if !first && next.isEmpty then some none
      else if s.length < idx + offset then none
      else everyOfIndex s false (idx + offset) (offset + idx) (if first then seg else next) (s.drop (idx + offset)) fs

/-- row.go:26-32: `next` and `i` after the loop over the runes of `s[idx:]`, for a matcher of the given length. -/
def rowStep (length : Nat) (rest : Str) : Nat × Nat :=
  let ps := (rangeStr rest).map Prod.fst
  let visited := if length = 0 then ps else ps.take length
  (visited.getLast?.getD 0, visited.length)

/-- row.go:21-42 `Row.matchAll`; a matcher is given by its length and its `Match`. The slice may panic. -/
def rowMatchAll (s : Str) : Nat → List (Option Nat × (Str → Option Bool)) → Option Bool
  | _, [] => some true
  | idx, (len, f) :: fs =>
    let length := len.getD 0
    let (next, i) := rowStep length (s.drop idx)
    if i < length then some false
    else if s.length < idx + next + 1 then none
    else match f ((s.drop idx).take (next + 1)) with
      | none => none
      | some false => some false
      | some true => rowMatchAll s (idx + next + 1) fs

/-- row.go:44-57 `Row.lenOk` and `Row.Match`. -/
def rowMatch (runesLength : Nat) (fs : List (Option Nat × (Str → Option Bool))) (s : Str) : Option Bool :=
  if (runesOf s).length = runesLength then rowMatchAll s 0 fs else some false

/-- row.go:63-73 `Row.Index`: the loop over the positions. -/
def rowIndex (runesLength : Nat) (fs : List (Option Nat × (Str → Option Bool))) (s : Str) : List Nat → Idx
  | [] => some none
  | i :: is =>
    if (s.drop i).length < runesLength then some none
    else match rowMatchAll (s.drop i) 0 fs with
      | none => none
      | some true => some (some (i, [runesLength]))
      | some false => rowIndex runesLength fs s is

/-- btree.go:119-140: the loop over the segments, last first; `pos` is `offset+index`. -/
def btreeSegments (right : Str → Option Bool) (s : Str) (pos : Nat) : List Nat → Option Bool
  | [] => some false
  | length :: ls =>
    let r := if s.length ≤ pos + length then [] else s.drop (pos + length)
    match right r with
    | none => none
    | some true => some true
    | some false => btreeSegments right s pos ls

/-- btree.go:101-149: the loop of `BTree.Match`; the first argument bounds the steps (every step that does not start at the end increases `offset`).
Reaching the bound, that is a loop without an end, gives `none` like a panic. -/
def btreeLoop (value : Str → Idx) (left right : Str → Option Bool) (s : Str) (limit : Nat) : Nat → Nat → Option Bool
  | 0, _ => none
  | n + 1, offset =>
    if offset < limit then
      match value ((s.take limit).drop offset) with
      | none => none
      | some none => some false
      | some (some (index, segments)) =>
        let step := (decodeRune (s.drop (offset + index))).2
        match left (s.take (offset + index)) with
        | none => none
        | some true => match btreeSegments right s (offset + index) segments.reverse with
          | none => none
          | some true => some true
          | some false => btreeLoop value left right s limit n (offset + (index + step))
        | some false => btreeLoop value left right s limit n (offset + (index + step))
    else some false

/-- btree.go:95-150, 152-168 `BTree.Match` with `offsetLimit`. -/
def btreeMatch (value : Str → Idx) (left right : Str → Option Bool) (leftLen rightLen length : Option Nat) (s : Str) : Option Bool :=
  let tooShort : Bool := match length with
    | some l => decide (l > s.length)
    | none => false
  if tooShort then some false
  else
    let offset := leftLen.getD 0
    let limit := match rightLen with
      | some r => s.length - r
      | none => s.length
    btreeLoop value left right s limit (s.length + 1) offset

mutual
/-- `Match` of a matcher: nothing.go:13, text.go:26, any.go:17, super.go:13, single.go:19, list.go:19, range.go:21, min.go:16, max.go:16, contains.go:17,
prefix.go:44, suffix.go:20, prefix_suffix.go:56, prefix_any.go:46, suffix_any.go:34, any_of.go:18, every_of.go:87, row.go:55, btree.go:95. -/
def Matcher.match : Matcher → Str → Option Bool
  | .nothing => fun s => some s.isEmpty
  | .text t => fun s => some (decide (t = s))
  | .any seps => fun s => some (indexAnyRunes s seps).isNone
  | .super => fun _ => some true
  | .single seps => fun s => some (oneRune (fun r => !seps.contains r) s)
  | .list rs not => fun s => some (oneRune (inList rs not) s)
  | .range lo hi not => fun s => some (oneRune (inRange lo hi not) s)
  | .min l => fun s => some (minMatch l s)
  | .max l => fun s => some (maxMatch l s)
  | .contains needle not => fun s => some (containsStr needle s != not)
  | .prefix p => fun s => some (hasPrefix s p)
  | .suffix q => fun s => some (hasSuffix s q)
  | .prefixSuffix p q => fun s => some (hasPrefix s p && hasSuffix s q)
  | .prefixAny p seps => fun s => some (prefixAnyMatch p seps s)
  | .suffixAny q seps => fun s => some (suffixAnyMatch q seps s)
  | .anyOf ms => fun s => anyOfMatch s (matchFns ms)
  | .everyOf ms => fun s => everyOfMatch s (matchFns ms)
  | .row l ms => rowMatch l ((lens ms).zip (matchFns ms))
  | .btree v l r ll rl len => btreeMatch v.index (matchOpt l) (matchOpt r) ll rl len
/-- A side of a `BTree` (btree.go:110-115, 130-134): `nil` matches the empty string. -/
def matchOpt : Option Matcher → Str → Option Bool
  | none => fun s => some s.isEmpty
  | some m => m.match
/-- The `Match` functions of matchers. -/
def matchFns : List Matcher → List (Str → Option Bool)
  | [] => []
  | m :: ms => m.match :: matchFns ms
/-- `Index` of a matcher: nothing.go:17, text.go:34, any.go:21, super.go:21, single.go:32, list.go:33, range.go:32, min.go:28, max.go:28, contains.go:21,
prefix.go:17, suffix.go:24, prefix_suffix.go:16, prefix_any.go:20, suffix_any.go:19, any_of.go:28, every_of.go:32, row.go:63, btree.go:54-93 (always -1). -/
def Matcher.index : Matcher → Str → Idx
  | .nothing => fun _ => some (some (0, [0]))
  | .text t => fun s => some ((strIndex t s).map fun i => (i, [t.length]))
  | .any seps => anyIndex seps
  | .super => superIndex
  | .single seps => firstRune fun r => !seps.contains r
  | .list rs not => firstRune (inList rs not)
  | .range lo hi not => firstRune (inRange lo hi not)
  | .min l => minIndex l
  | .max l => maxIndex l
  | .contains needle not => containsIndex needle not
  | .prefix p => prefixIndex p
  | .suffix q => suffixIndex q
  | .prefixSuffix p q => prefixSuffixIndex p q
  | .prefixAny p seps => prefixAnyIndex p seps
  | .suffixAny q seps => suffixAnyIndex q seps
  | .anyOf ms => fun s => anyOfIndex s none (indexFns ms)
  | .everyOf ms => fun s => everyOfIndex s true 0 0 [] s (indexFns ms)
  | .row l ms => fun s => rowIndex l ((lens ms).zip (matchFns ms)) s ((rangeStr s).map Prod.fst)
  | .btree _ _ _ _ _ _ => fun _ => some none
/-- The `Index` functions of matchers. -/
def indexFns : List Matcher → List (Str → Idx)
  | [] => []
  | m :: ms => m.index :: indexFns ms
end

end Verif.Glob
