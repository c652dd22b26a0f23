import Verif.Glob.Segments
/-
glob/match with its buffers: the slices of segments live in arrays that all goroutines share, and go through the pools of segments.go. `Verif.Glob.Match` has lists
instead; here every read and write of an element, and every `acquireSegments` and `releaseSegments`, is a step of a program, and the programs of any number of
goroutines run with their steps interleaved.
-/
namespace Verif.Glob.Heap
open Segments

/-- The slices that exist before a `Match` and that all goroutines share. Each is a literal of one element. -/
inductive Static where
  /-- segments.go:33-47: `segments0` to `segments4`. -/
  | rune (k : Nat)
  /-- text.go:22 `Segments: []int{len(s)}` of a `Text`. (All with the same text are taken as one.) -/
  | text (t : Str)
  /-- row.go:17 `Segments: []int{len}` of a `Row`. (All of the same length are taken as one.) -/
  | row (len : Nat)
deriving DecidableEq

/-- The element. -/
def Static.value : Static → Nat
  | .rune k => k
  | .text t => t.length
  | .row l => l

/-- Where an array is. -/
inductive Loc where
  | static (t : Static)
  | dyn (n : Nat)
deriving DecidableEq

/-- A slice: the array and the length (all slices start at the first element). Its capacity is the length of the array. -/
structure Slice where
  loc : Loc
  len : Nat

/-- `s[:0]`. -/
def Slice.empty (s : Slice) : Slice := ⟨s.loc, 0⟩

/-- Programs over slices. -/
inductive Prog (α : Type) where
  | ret (a : α)
  /-- A panic, for another reason than a slice of segments. -/
  | panic
  /-- segments.go:71-79 `acquireSegments(c)`. -/
  | acquire (c : Nat) (k : Slice → Prog α)
  /-- segments.go:81-91 `releaseSegments(s)`. -/
  | release (s : Slice) (k : Prog α)
  /-- `append(s, x)`. -/
  | push (s : Slice) (x : Nat) (k : Slice → Prog α)
  /-- `s[i]`. -/
  | get (s : Slice) (i : Nat) (k : Nat → Prog α)
  /-- `s[i] = x`. -/
  | set (s : Slice) (i x : Nat) (k : Prog α)
  /-- `[]int{x}`. -/
  | lit (x : Nat) (k : Slice → Prog α)

/-- One program after the other. -/
def Prog.bind {α β : Type} : Prog α → (α → Prog β) → Prog β
  | .ret a, f => f a
  | .panic, _ => .panic
  | .acquire c k, f => .acquire c fun s => (k s).bind f
  | .release s k, f => .release s (k.bind f)
  | .push s x k, f => .push s x fun s => (k s).bind f
  | .get s i k, f => .get s i fun x => (k x).bind f
  | .set s i x k, f => .set s i x (k.bind f)
  | .lit x k, f => .lit x fun s => (k s).bind f

instance : Monad Prog where
  pure := .ret
  bind := .bind

/-- The single steps as programs. -/
def acquire (c : Nat) : Prog Slice := .acquire c .ret
def release (s : Slice) : Prog Unit := .release s (.ret ())
def push (s : Slice) (x : Nat) : Prog Slice := .push s x .ret
def get (s : Slice) (i : Nat) : Prog Nat := .get s i .ret
def set (s : Slice) (i x : Nat) : Prog Unit := .set s i x (.ret ())
def lit (x : Nat) : Prog Slice := .lit x .ret

/-- A loop of `append(s, x)`; also `append(s, xs...)`, which in Go allocates at most once. -/
def pushAll (s : Slice) : List Nat → Prog Slice
  | [] => pure s
  | x :: xs => do
    let s ← push s x
    pushAll s xs

/-- The elements from `i` on, as many as the last argument says. -/
def readFrom (s : Slice) : Nat → Nat → Prog (List Nat)
  | _, 0 => pure []
  | i, n + 1 => do
    let x ← get s i
    let xs ← readFrom s (i + 1) n
    pure (x :: xs)

/-- All elements of a slice, one after the other. -/
def readAll (s : Slice) : Prog (List Nat) := readFrom s 0 s.len

/-! ### The machine -/

/-- What the goroutines share, and what each has still to do. `ι` is the set of goroutines. -/
structure State (ι α : Type) where
  /-- The arrays. -/
  heap : Loc → List Nat
  /-- The arrays `dyn 0`, ..., `dyn (next - 1)` have been allocated. -/
  next : Nat
  /-- What is in the pools, with the index of the pool (segments.go:12 `segmentsPools`). -/
  pool : List (Int × Loc)
  threads : ι → Prog α

section
variable {ι α : Type} [DecidableEq ι]

/-- Write an array. -/
def putArr (h : Loc → List Nat) (l : Loc) (a : List Nat) : Loc → List Nat := fun l' => if l' = l then a else h l'

/-- Goroutine `i` goes on with `p`. -/
def State.go (σ : State ι α) (i : ι) (p : Prog α) : State ι α := { σ with threads := fun j => if j = i then p else σ.threads j }

/-- A new array for goroutine `i`. -/
def State.alloc (σ : State ι α) (i : ι) (a : List Nat) (p : Prog α) : State ι α :=
  State.go { σ with heap := putArr σ.heap (.dyn σ.next) a, next := σ.next + 1 } i p

/-- A step of some goroutine, or of the garbage collector. -/
inductive Step : State ι α → State ι α → Prop where
  /-- segments.go:74-76: `make([]int, 0, c)`. -/
  | acquireSmall (σ : State ι α) (i : ι) (c : Nat) (k : Slice → Prog α) (h : σ.threads i = .acquire c k) (hc : c < 16) :
    Step σ (σ.alloc i (List.replicate c 0) (k ⟨.dyn σ.next, 0⟩))
  /-- segments.go:78: the pool makes a slice. -/
  | acquireNew (σ : State ι α) (i : ι) (c : Nat) (k : Slice → Prog α) (h : σ.threads i = .acquire c k) (hc : 16 ≤ c) (cap : Nat) (hp : pools (getTableIndex c) = some cap) :
    Step σ (σ.alloc i (List.replicate cap 0) (k ⟨.dyn σ.next, 0⟩))
  /-- segments.go:78: the pool has no `New` and may give nil; the type assertion panics. -/
  | acquireNil (σ : State ι α) (i : ι) (c : Nat) (k : Slice → Prog α) (h : σ.threads i = .acquire c k) (hc : 16 ≤ c) (hp : pools (getTableIndex c) = none) :
    Step σ (σ.go i .panic)
  /-- segments.go:78: a slice that is in the pool; it is cut to length 0. -/
  | acquirePool (σ : State ι α) (i : ι) (c : Nat) (k : Slice → Prog α) (h : σ.threads i = .acquire c k) (hc : 16 ≤ c) (l : Loc) (as bs : List (Int × Loc))
    (hp : σ.pool = as ++ (getTableIndex c, l) :: bs) : Step σ (State.go { σ with pool := as ++ bs } i (k ⟨l, 0⟩))
  /-- segments.go:86-88: the slice is too small to be kept. -/
  | releaseSmall (σ : State ι α) (i : ι) (s : Slice) (k : Prog α) (h : σ.threads i = .release s k) (hc : (σ.heap s.loc).length < 16) : Step σ (σ.go i k)
  /-- segments.go:90: the slice is put into the pool. -/
  | releasePool (σ : State ι α) (i : ι) (s : Slice) (k : Prog α) (h : σ.threads i = .release s k) (hc : 16 ≤ (σ.heap s.loc).length) :
    Step σ (State.go { σ with pool := (getTableIndex (σ.heap s.loc).length, s.loc) :: σ.pool } i k)
  /-- `append` with room in the array. -/
  | pushHere (σ : State ι α) (i : ι) (s : Slice) (x : Nat) (k : Slice → Prog α) (h : σ.threads i = .push s x k) (hc : s.len < (σ.heap s.loc).length) :
    Step σ (State.go { σ with heap := putArr σ.heap s.loc ((σ.heap s.loc).set s.len x) } i (k ⟨s.loc, s.len + 1⟩))
  /-- `append` without room: a new array, with any further room. -/
  | pushGrow (σ : State ι α) (i : ι) (s : Slice) (x : Nat) (k : Slice → Prog α) (h : σ.threads i = .push s x k) (hc : (σ.heap s.loc).length ≤ s.len) (room : List Nat) :
    Step σ (σ.alloc i ((σ.heap s.loc).take s.len ++ x :: room) (k ⟨.dyn σ.next, s.len + 1⟩))
  /-- Reading an element. -/
  | get (σ : State ι α) (i : ι) (s : Slice) (j x : Nat) (k : Nat → Prog α) (h : σ.threads i = .get s j k) (hj : j < s.len) (hx : (σ.heap s.loc)[j]? = some x) :
    Step σ (σ.go i (k x))
  /-- An index out of range. -/
  | getPanic (σ : State ι α) (i : ι) (s : Slice) (j : Nat) (k : Nat → Prog α) (h : σ.threads i = .get s j k) (hj : s.len ≤ j) : Step σ (σ.go i .panic)
  /-- Writing an element. -/
  | set (σ : State ι α) (i : ι) (s : Slice) (j x : Nat) (k : Prog α) (h : σ.threads i = .set s j x k) (hj : j < s.len) :
    Step σ (State.go { σ with heap := putArr σ.heap s.loc ((σ.heap s.loc).set j x) } i k)
  /-- An index out of range. -/
  | setPanic (σ : State ι α) (i : ι) (s : Slice) (j x : Nat) (k : Prog α) (h : σ.threads i = .set s j x k) (hj : s.len ≤ j) : Step σ (σ.go i .panic)
  /-- A slice literal. -/
  | lit (σ : State ι α) (i : ι) (x : Nat) (k : Slice → Prog α) (h : σ.threads i = .lit x k) : Step σ (σ.alloc i [x] (k ⟨.dyn σ.next, 1⟩))
  /-- `sync.Pool` may remove anything at any time. -/
  | drop (σ : State ι α) (l : Int × Loc) (as bs : List (Int × Loc)) (hp : σ.pool = as ++ l :: bs) : Step σ { σ with pool := as ++ bs }

/-- Any number of steps. -/
inductive Steps : State ι α → State ι α → Prop where
  | refl (σ : State ι α) : Steps σ σ
  | tail {σ τ υ : State ι α} (h : Steps σ τ) (h' : Step τ υ) : Steps σ υ

/-- Before the goroutines start: only the shared slices, nothing in the pools. -/
def start (threads : ι → Prog α) : State ι α where
  heap := fun l => match l with
    | .static t => [t.value]
    | .dyn _ => []
  next := 0
  pool := []
  threads := threads

/-- The array that the next step of a goroutine reads or writes without synchronisation, and whether it writes. (`sync.Pool` synchronises what goes through it.) -/
def accesses (σ : State ι α) (i : ι) : Option (Loc × Bool) :=
  match σ.threads i with
  | .push s _ _ => some (s.loc, decide (s.len < (σ.heap s.loc).length))
  | .get s _ _ => some (s.loc, false)
  | .set s _ _ _ => some (s.loc, true)
  | _ => none
end

/-! ### The matchers -/

/-- The result of `Index`: `none` is -1. -/
abbrev IdxH := Prog (Option (Nat × Slice))

/-- any.go:21-38 `Any.Index`. -/
def anyIndexH (seps : List Nat) (s : Str) : IdxH :=
  match indexAnyRunes s seps with
  | some 0 => pure (some (0, ⟨.static (.rune 0), 1⟩))
  | found => do
    let t := match found with
      | some i => s.take i
      | none => s
    let segments ← acquire t.length
    let segments ← pushAll segments ((rangeStr t).map Prod.fst)
    let segments ← push segments t.length
    pure (some (0, segments))

/-- super.go:21-29 `Super.Index`. -/
def superIndexH (s : Str) : IdxH := do
  let segments ← acquire (s.length + 1)
  let segments ← pushAll segments ((rangeStr s).map Prod.fst)
  let segments ← push segments s.length
  pure (some (0, segments))

/-- single.go:32-40, list.go:33-41, range.go:32-40 (`Index`). -/
def firstRuneH (p : Nat → Bool) (s : Str) : IdxH :=
  match (rangeStr s).find? fun x => p x.2 with
  | some x => pure (some (x.1, ⟨.static (.rune (runeLen x.2)), 1⟩))
  | none => pure none

/-- min.go:28-49 `Min.Index`. -/
def minIndexH (limit : Nat) (s : Str) : IdxH :=
  if s.length + 1 ≤ limit then pure none
  else do
    let segments ← acquire (s.length + 1 - limit)
    let segments ← pushAll segments ((((rangeStr s).zipIdx 1).filter fun x => x.2 ≥ limit).map fun x => x.1.1 + runeLen x.1.2)
    if segments.len = 0 then pure none else pure (some (0, segments))

/-- max.go:28-41 `Max.Index`. -/
def maxIndexH (limit : Nat) (s : Str) : IdxH := do
  let segments ← acquire (limit + 1)
  let segments ← push segments 0
  let segments ← pushAll segments (((rangeStr s).take limit).map fun x => x.1 + runeLen x.2)
  pure (some (0, segments))

/-- contains.go:21-46 `Contains.Index`. -/
def containsIndexH (needle : Str) (not : Bool) (s : Str) : IdxH :=
  match strIndex needle s, not with
  | none, false => pure none
  | some idx, false =>
    let offset := idx + needle.length
    if s.length ≤ offset then do
      let segments ← lit offset
      pure (some (0, segments))
    else containsTail offset (s.drop offset)
  | some idx, true => containsTail 0 (s.take idx)
  | none, true => containsTail 0 s
where
  /-- contains.go:40-45: the end. -/
  containsTail (offset : Nat) (t : Str) : IdxH := do
    let segments ← acquire (t.length + 1)
    let segments ← pushAll segments ((rangeStr t).map fun x => offset + x.1)
    let segments ← push segments (offset + t.length)
    pure (some (0, segments))

/-- prefix.go:17-38 `Prefix.Index` and prefix_any.go:20-40 `PrefixAny.Index`: the end, with the part of the string after the prefix. -/
def prefixTail (p : Str) (idx : Nat) (sub : Str) : IdxH := do
  let segments ← acquire (sub.length + 1)
  let segments ← push segments p.length
  let segments ← pushAll segments ((rangeStr sub).map fun x => p.length + x.1 + runeLen x.2)
  pure (some (idx, segments))

/-- prefix.go:17-38 `Prefix.Index`. -/
def prefixIndexH (p : Str) (s : Str) : IdxH :=
  match strIndex p s with
  | none => pure none
  | some idx => prefixTail p idx (s.drop (idx + p.length))

/-- prefix_any.go:20-40 `PrefixAny.Index`. -/
def prefixAnyIndexH (p : Str) (seps : List Nat) (s : Str) : IdxH :=
  match strIndex p s with
  | none => pure none
  | some idx =>
    let sub := s.drop (idx + p.length)
    prefixTail p idx (match indexAnyRunes sub seps with
      | some i => sub.take i
      | none => sub)

/-- suffix.go:24-31 `Suffix.Index`. -/
def suffixIndexH (q : Str) (s : Str) : IdxH :=
  match strIndex q s with
  | none => pure none
  | some idx => do
    let segments ← lit (idx + q.length)
    pure (some (0, segments))

/-- suffix_any.go:19-28 `SuffixAny.Index`. -/
def suffixAnyIndexH (q : Str) (seps : List Nat) (s : Str) : IdxH :=
  match strIndex q s with
  | none => pure none
  | some idx => match lastIndexAnyRunes (s.take idx) seps with
    | none => .panic
    | some r => do
      let i := match r with
        | some j => j + 1
        | none => 0
      let segments ← lit (idx + q.length - i)
      pure (some (i, segments))

/-- match.go:74-81 `reverseSegments`: the loop from `i` on, with the number of steps left. -/
def reverseLoop (s : Slice) : Nat → Nat → Prog Unit
  | _, 0 => pure ()
  | i, n + 1 => do
    let a ← get s (s.len - i - 1)
    let b ← get s i
    set s i a
    set s (s.len - i - 1) b
    reverseLoop s (i + 1) n

/-- match.go:74-81 `reverseSegments`. -/
def reverseSegments (s : Slice) : Prog Unit := reverseLoop s 0 (s.len / 2)

/-- prefix_suffix.go:16-50 `PrefixSuffix.Index`. -/
def prefixSuffixIndexH (p q : Str) (s : Str) : IdxH :=
  match strIndex p s with
  | none => pure none
  | some idx =>
    if q.length ≤ 0 then do
      let segments ← lit (s.length - idx)
      pure (some (idx, segments))
    else if s.length - idx ≤ 0 then pure none
    else do
      let segments ← acquire (s.length - idx)
      let segments ← pushAll segments (suffixEnds q (s.length + 1) (s.drop idx))
      if segments.len = 0 then do
        release segments
        pure none
      else do
        reverseSegments segments
        pure (some (idx, segments))

/-- match.go:33-72 `appendMerge`; the loop reads the elements of both slices (here all of them at first) and makes `out`, which no one else sees. -/
def appendMergeH (target sub : Slice) : Prog Slice := do
  let a ← readAll target
  let b ← readAll sub
  pushAll target.empty (appendMerge a b)

/-- any_of.go:18-26 `AnyOf.Match`. -/
def anyOfMatchH (s : Str) : List (Str → Prog Bool) → Prog Bool
  | [] => pure false
  | f :: fs => do
    let b ← f s
    if b then pure true else anyOfMatchH s fs

/-- any_of.go:32-57: the loop and the end of `AnyOf.Index`. -/
def anyOfLoopH (s : Str) (index : Option Nat) (segments : Slice) : List (Str → IdxH) → IdxH
  | [] => match index with
    | none => do
      release segments
      pure none
    | some index => pure (some (index, segments))
  | f :: fs => do
    let r ← f s
    match r with
    | none => anyOfLoopH s index segments fs
    | some (idx, seg) => match index with
      | none => do
        let xs ← readAll seg
        let segments ← pushAll segments.empty xs
        anyOfLoopH s (some idx) segments fs
      | some index =>
        if idx < index then do
          let xs ← readAll seg
          let segments ← pushAll segments.empty xs
          anyOfLoopH s (some idx) segments fs
        else if idx > index then anyOfLoopH s (some index) segments fs
        else do
          let segments ← appendMergeH segments seg
          anyOfLoopH s (some index) segments fs

/-- any_of.go:28-58 `AnyOf.Index`. -/
def anyOfIndexH (s : Str) (fs : List (Str → IdxH)) : IdxH := do
  let segments ← acquire s.length
  anyOfLoopH s none segments fs

/-- every_of.go:87-95 `EveryOf.Match`. -/
def everyOfMatchH (s : Str) : List (Str → Prog Bool) → Prog Bool
  | [] => pure true
  | f :: fs => do
    let b ← f s
    if b then everyOfMatchH s fs else pure false

/-- every_of.go:41-84: the loop and the end of `EveryOf.Index`. The inner loops read `current` and `seg` (here all elements at first). -/
def everyOfLoopH (s : Str) (first : Bool) (index offset : Nat) (next current : Slice) (sub : Str) : List (Str → IdxH) → IdxH
  | [] => do
    release next
    pure (some (index, current))
  | f :: fs => do
    let r ← f sub
    match r with
    | none => do
      release next
      release current
      pure none
    | some (idx, seg) =>
      if first then do
        let xs ← readAll seg
        let current ← pushAll current xs
        if s.length < idx + offset then .panic
        else everyOfLoopH s false (idx + offset) (offset + idx) next current (s.drop (idx + offset)) fs
      else do
        let exs ← readAll current
        let ns ← readAll seg
        let next ← pushAll next.empty (exs.flatMap fun (ex : Nat) => ns.filter fun (n : Nat) => ((ex : Int) + ((index : Int) - ((idx : Int) + offset)) = (n : Int)))
        if next.len = 0 then do
          release next
          release current
          pure none
        else do
          let xs ← readAll next
          let current ← pushAll current.empty xs
          if s.length < idx + offset then .panic
          else everyOfLoopH s false (idx + offset) (offset + idx) next current (s.drop (idx + offset)) fs

/-- every_of.go:32-85 `EveryOf.Index`. -/
def everyOfIndexH (s : Str) (fs : List (Str → IdxH)) : IdxH := do
  let next ← acquire s.length
  let current ← acquire s.length
  everyOfLoopH s true 0 0 next current s fs

/-- row.go:21-42 `Row.matchAll`. -/
def rowMatchAllH (s : Str) : Nat → List (Option Nat × (Str → Prog Bool)) → Prog Bool
  | _, [] => pure true
  | idx, (len, f) :: fs =>
    let length := len.getD 0
    let next := (rowStep length (s.drop idx)).1
    let i := (rowStep length (s.drop idx)).2
    if i < length then pure false
    else if s.length < idx + next + 1 then .panic
    else do
      let b ← f ((s.drop idx).take (next + 1))
      if b then rowMatchAllH s (idx + next + 1) fs else pure false

/-- row.go:44-57 `Row.lenOk` and `Row.Match`. -/
def rowMatchH (runesLength : Nat) (fs : List (Option Nat × (Str → Prog Bool))) (s : Str) : Prog Bool :=
  if (runesOf s).length = runesLength then rowMatchAllH s 0 fs else pure false

/-- row.go:63-73 `Row.Index`: the loop over the positions. -/
def rowIndexH (runesLength : Nat) (fs : List (Option Nat × (Str → Prog Bool))) (s : Str) : List Nat → IdxH
  | [] => pure none
  | i :: is =>
    if (s.drop i).length < runesLength then pure none
    else do
      let b ← rowMatchAllH (s.drop i) 0 fs
      if b then pure (some (i, ⟨.static (.row runesLength), 1⟩)) else rowIndexH runesLength fs s is

/-- btree.go:118-140: the loop over the segments, last first; `i` elements are left. -/
def btreeSegmentsH (right : Str → Prog Bool) (s : Str) (pos : Nat) (segments : Slice) : Nat → Prog Bool
  | 0 => pure false
  | i + 1 => do
    let length ← get segments i
    let r := if s.length ≤ pos + length then [] else s.drop (pos + length)
    let b ← right r
    if b then pure true else btreeSegmentsH right s pos segments i

/-- btree.go:101-149: the loop of `BTree.Match`; the first argument bounds the steps. (At btree.go:105 the slice is nil and nothing is released.) -/
def btreeLoopH (value : Str → IdxH) (left right : Str → Prog Bool) (s : Str) (limit : Nat) : Nat → Nat → Prog Bool
  | 0, _ => .panic
  | n + 1, offset =>
    if offset < limit then do
      let r ← value ((s.take limit).drop offset)
      match r with
      | none => pure false
      | some (index, segments) => do
        let step := (decodeRune (s.drop (offset + index))).2
        let l ← left (s.take (offset + index))
        if l then do
          let b ← btreeSegmentsH right s (offset + index) segments segments.len
          release segments
          if b then pure true else btreeLoopH value left right s limit n (offset + (index + step))
        else do
          release segments
          btreeLoopH value left right s limit n (offset + (index + step))
    else pure false

/-- btree.go:95-150, 152-168 `BTree.Match` with `offsetLimit`. -/
def btreeMatchH (value : Str → IdxH) (left right : Str → Prog Bool) (leftLen rightLen length : Option Nat) (s : Str) : Prog Bool :=
  let tooShort : Bool := match length with
    | some l => decide (l > s.length)
    | none => false
  if tooShort then pure false
  else
    let offset := leftLen.getD 0
    let limit := match rightLen with
      | some r => s.length - r
      | none => s.length
    btreeLoopH value left right s limit (s.length + 1) offset

mutual
/-- `Match` of a matcher (the files and lines are those of `Matcher.match`). Only `AnyOf`, `EveryOf`, `Row` and `BTree` can reach a buffer. -/
def matchH : Matcher → Str → Prog Bool
  | .anyOf ms => fun s => anyOfMatchH s (matchFnsH ms)
  | .everyOf ms => fun s => everyOfMatchH s (matchFnsH ms)
  | .row l ms => rowMatchH l ((lens ms).zip (matchFnsH ms))
  | .btree v l r ll rl len => btreeMatchH (indexH v) (matchOptH l) (matchOptH r) ll rl len
  | .nothing => fun s => pure s.isEmpty
  | .text t => fun s => pure (decide (t = s))
  | .any seps => fun s => pure (indexAnyRunes s seps).isNone
  | .super => fun _ => pure true
  | .single seps => fun s => pure (oneRune (fun r => !seps.contains r) s)
  | .list rs not => fun s => pure (oneRune (inList rs not) s)
  | .range lo hi not => fun s => pure (oneRune (inRange lo hi not) s)
  | .min l => fun s => pure (minMatch l s)
  | .max l => fun s => pure (maxMatch l s)
  | .contains needle not => fun s => pure (containsStr needle s != not)
  | .prefix p => fun s => pure (hasPrefix s p)
  | .suffix q => fun s => pure (hasSuffix s q)
  | .prefixSuffix p q => fun s => pure (hasPrefix s p && hasSuffix s q)
  | .prefixAny p seps => fun s => pure (prefixAnyMatch p seps s)
  | .suffixAny q seps => fun s => pure (suffixAnyMatch q seps s)
/-- A side of a `BTree`. -/
def matchOptH : Option Matcher → Str → Prog Bool
  | none => fun s => pure s.isEmpty
  | some m => matchH m
/-- The `Match` functions of matchers. -/
def matchFnsH : List Matcher → List (Str → Prog Bool)
  | [] => []
  | m :: ms => matchH m :: matchFnsH ms
/-- `Index` of a matcher (the files and lines are those of `Matcher.index`). -/
def indexH : Matcher → Str → IdxH
  | .nothing => fun _ => pure (some (0, ⟨.static (.rune 0), 1⟩))
  | .text t => fun s => pure ((strIndex t s).map fun i => (i, ⟨.static (.text t), 1⟩))
  | .any seps => anyIndexH seps
  | .super => superIndexH
  | .single seps => firstRuneH fun r => !seps.contains r
  | .list rs not => firstRuneH (inList rs not)
  | .range lo hi not => firstRuneH (inRange lo hi not)
  | .min l => minIndexH l
  | .max l => maxIndexH l
  | .contains needle not => containsIndexH needle not
  | .prefix p => prefixIndexH p
  | .suffix q => suffixIndexH q
  | .prefixSuffix p q => prefixSuffixIndexH p q
  | .prefixAny p seps => prefixAnyIndexH p seps
  | .suffixAny q seps => suffixAnyIndexH q seps
  | .anyOf ms => fun s => anyOfIndexH s (indexFnsH ms)
  | .everyOf ms => fun s => everyOfIndexH s (indexFnsH ms)
  | .row l ms => fun s => rowIndexH l ((lens ms).zip (matchFnsH ms)) s ((rangeStr s).map Prod.fst)
  | .btree _ _ _ _ _ _ => fun _ => pure none
/-- The `Index` functions of matchers. -/
def indexFnsH : List Matcher → List (Str → IdxH)
  | [] => []
  | m :: ms => indexH m :: indexFnsH ms
end

/-- A goroutine that calls `Match` of compiled globs, one after the other, and keeps the results. -/
def calls : List (Matcher × Str) → Prog (List Bool)
  | [] => pure []
  | (m, s) :: cs => do
    let b ← matchH m s
    let bs ← calls cs
    pure (b :: bs)

end Verif.Glob.Heap
