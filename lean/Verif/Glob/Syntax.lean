import Verif.Glob.GoStrings
/-
glob/syntax/lexer/lexer.go, glob/syntax/ast/ast.go and glob/syntax/ast/parser.go: from the text of a pattern to its tree, and `QuoteMeta` of glob/glob.go.

Loops of the code whose end is not obvious carry a bound on the number of steps; reaching it gives the result `steps` (or `none`), and C55 proves that this
never happens.
-/
namespace Verif.Glob

/-- lexer/token.go:7-24 the tokens, with `Raw` where the parser reads it. (`Char` is never produced. An `Error` token is the field `err` of the lexer.) -/
inductive Tok where
  | eof
  | text (raw : Str)
  | any
  | super
  | single
  | not
  | separator
  | rangeOpen
  | rangeClose
  | rangeLo (raw : Str)
  | rangeHi (raw : Str)
  | rangeBetween
  | termsOpen
  | termsClose
  deriving DecidableEq

/-- The errors of the lexer (lexer.go:97, 127, 205, 211) and of the parser (parser.go:84, 101, 112, 122, 128, 139), and of the compiler
(compiler.go:93). -/
inductive Err where
  | readRune
  | unreadRune
  | unexpectedEndOfInput
  | expectedClose
  | unexpectedToken
  | unexpectedEnd
  | loLength
  | hiBelowLo
  | couldNotParseRange
  | needMatcher
  deriving DecidableEq

/-- The result of a function that may fail with an error, panic, or reach the bound on its steps. -/
inductive Res (α : Type) where
  | ok (a : α)
  | err (e : Err)
  | panic
  | steps
  deriving DecidableEq

/-- lexer.go:57-68 `lexer` (`tokens` first in first out, 38-53). -/
structure Lex where
  data : Str
  pos : Nat
  err : Option Err
  tokens : List Tok
  termsLevel : Nat
  lastRune : Nat
  lastRuneSize : Nat
  hasRune : Bool
  deriving DecidableEq

/-- lexer.go:70-76 `NewLexer`. -/
def newLexer (source : Str) : Lex :=
  { data := source, pos := 0, err := none, tokens := [], termsLevel := 0, lastRune := 0, lastRuneSize := 0, hasRune := false }

namespace Lex

/-- lexer.go:47-49 `push`. -/
def push (l : Lex) (t : Tok) : Lex := { l with tokens := l.tokens ++ [t] }

/-- lexer.go:90-103 `peek`; `eof` is the rune 0 (lexer.go:55). -/
def peek (l : Lex) : (Nat × Nat) × Lex :=
  if l.pos = l.data.length then ((0, 0), l)
  else
    let rw := decodeRune (l.data.drop l.pos)
    if rw.1 = runeError then ((0, 0), { l with err := some .readRune }) else (rw, l)

/-- lexer.go:105-119 `read` (121-123 `seek`). -/
def read (l : Lex) : Nat × Lex :=
  if l.hasRune then (l.lastRune, { l with hasRune := false, pos := l.pos + l.lastRuneSize })
  else
    let p := l.peek
    (p.1.1, { p.2 with pos := p.2.pos + p.1.2, lastRune := p.1.1, lastRuneSize := p.1.2 })

/-- lexer.go:125-132 `unread`. -/
def unread (l : Lex) : Lex :=
  if l.hasRune then { l with err := some .unreadRune } else { l with pos := l.pos - l.lastRuneSize, hasRune := true }

/-- lexer.go:138-140 `inTerms`. -/
def inTerms (l : Lex) : Bool := l.termsLevel > 0

/-- lexer.go:150-151 the runes that end a text: `?`, `*`, `[`, `{` and, between braces, `}` and `,`. -/
def inTextBreakers : List Nat := [63, 42, 91, 123]
/-- lexer.go:151 -/
def inTermsBreakers : List Nat := inTextBreakers ++ [125, 44]

/-- lexer.go:244-274 `fetchText`: the loop. -/
def fetchTextLoop (breakers : List Nat) : Nat → Lex → List Nat → Bool → Option (List Nat × Lex)
  | 0, _, _, _ => none
  | n + 1, l, data, escaped =>
    let rl := l.read
    if rl.1 = 0 then some (data, rl.2)
    else if !escaped && rl.1 = 92 then fetchTextLoop breakers n rl.2 data true
    else if !escaped && breakers.contains rl.1 then some (data, rl.2.unread)
    else fetchTextLoop breakers n rl.2 (data ++ [rl.1]) false

/-- lexer.go:244-274 `fetchText`. -/
def fetchText (l : Lex) (breakers : List Nat) : Option Lex :=
  match fetchTextLoop breakers (l.data.length + 2) l [] false with
  | none => none
  | some (data, l) => some (if data.length > 0 then l.push (.text (data.flatMap encodeRune)) else l)

/-- lexer.go:198-242 `fetchRange`: the loop. -/
def fetchRangeLoop : Nat → Lex → Bool → Bool → Bool → Option Lex
  | 0, _, _, _, _ => none
  | n + 1, l, wantHi, wantClose, seenNot =>
    let rl := l.read
    let r := rl.1
    let l := rl.2
    if r = 0 then some { l with err := some .unexpectedEndOfInput }
    else if wantClose then
      if r ≠ 93 then some { l with err := some .expectedClose } else some (l.push .rangeClose)
    else if wantHi then fetchRangeLoop n (l.push (.rangeHi (encodeRune r))) wantHi true seenNot
    else if !seenNot && r = 33 then fetchRangeLoop n (l.push .not) wantHi wantClose true
    else
      let p := l.peek
      let l := p.2
      if p.1.1 = 45 then
        fetchRangeLoop n ((({ l with pos := l.pos + p.1.2 } : Lex).push (.rangeLo (encodeRune r))).push .rangeBetween) true wantClose seenNot
      else match l.unread.fetchText [93] with
        | none => none
        | some l => fetchRangeLoop n l wantHi true seenNot

/-- lexer.go:198-242 `fetchRange`; at most 5 steps are possible. -/
def fetchRange (l : Lex) : Option Lex := fetchRangeLoop 6 l false false false

/-- lexer.go:153-196 `fetchItem`. -/
def fetchItem (l : Lex) : Option Lex :=
  let rl := l.read
  let r := rl.1
  let l := rl.2
  if r = 0 then some (l.push .eof)
  else if r = 123 then some (({ l with termsLevel := l.termsLevel + 1 } : Lex).push .termsOpen)
  else if r = 44 && l.inTerms then some (l.push .separator)
  else if r = 125 && l.inTerms then
    let l := l.push .termsClose
    some { l with termsLevel := l.termsLevel - 1 }
  else if r = 91 then (l.push .rangeOpen).fetchRange
  else if r = 63 then some (l.push .single)
  else if r = 42 then
    let rl := l.read
    if rl.1 = 42 then some (rl.2.push .super) else some (rl.2.unread.push .any)
  else
    let l := l.unread
    l.fetchText (if l.inTerms then inTermsBreakers else inTextBreakers)

/-- lexer.go:78-88 `Next`; the error token is `.error`. The bound is on the depth of the recursion. -/
def next : Nat → Lex → Option (Except Err Tok × Lex)
  | 0, _ => none
  | n + 1, l => match l.err with
    | some e => some (.error e, l)
    | none => match l.tokens with
      | t :: ts => some (.ok t, { l with tokens := ts })
      | [] => match l.fetchItem with
        | none => none
        | some l => next n l

end Lex

/-- ast/ast.go:8-13 `Node` with 15-24 `NewNode` and 71-97: the kinds with their values. The parents are not modelled: the parser keeps the path to the
root (`Frame`), and the compiler reads a parent only in `reflect.DeepEqual` (see `Verif.Glob.Compile`). -/
inductive Node where
  | nothing
  | pattern (cs : List Node)
  | list (not : Bool) (chars : Str)
  | range (not : Bool) (lo hi : Nat)
  | text (t : Str)
  | any
  | super
  | single
  | anyOf (cs : List Node)

/-- An open brace of the tree under construction: the alternatives before the current one, and the children before the brace of the node that contains it. -/
structure Frame where
  alts : List Node
  outer : List Node

/-- ast/parser.go:90-158 `parserRange`. -/
def parseRange (depth : Nat) : Nat → Lex → Bool → Nat → Nat → Str → Res (Node × Lex)
  | 0, _, _, _, _, _ => .steps
  | n + 1, l, not, lo, hi, chars =>
    match l.next depth with
    | none => .steps
    | some (.error e, _) => .err e
    | some (.ok t, l) => match t with
      | .eof => .err .unexpectedEnd
      | .not => parseRange depth n l true lo hi chars
      | .rangeLo raw =>
        let rw := decodeRune raw
        if raw.length > rw.2 then .err .loLength else parseRange depth n l not rw.1 hi chars
      | .rangeHi raw =>
        let rw := decodeRune raw
        if raw.length > rw.2 then .err .loLength
        else if rw.1 < lo then .err .hiBelowLo
        else parseRange depth n l not lo rw.1 chars
      | .text raw => parseRange depth n l not lo hi raw
      | .rangeClose =>
        let isRange := lo ≠ 0 && hi ≠ 0
        let isChars := !chars.isEmpty
        if isChars = isRange then .err .couldNotParseRange
        else if isRange then .ok (.range not lo hi, l)
        else .ok (.list not chars, l)
      | _ => parseRange depth n l not lo hi chars

/-- ast/parser.go:17-34 `Parse`: at the end of the input the braces that are still open are closed (their nodes are in the tree from the start). -/
def closeFrames : List Frame → List Node → Node
  | [], cur => .pattern cur
  | f :: fs, cur => closeFrames fs (f.outer ++ [.anyOf (f.alts ++ [.pattern cur])])

/-- ast/parser.go:17-88 `Parse` and `parserMain`. `cur` are the children of `tree` so far. `tree.Parent` is nil at the root: then a separator or a closing
brace panics. -/
def parseMain (depth : Nat) : Nat → Lex → List Frame → List Node → Res Node
  | 0, _, _, _ => .steps
  | n + 1, l, fs, cur =>
    match l.next depth with
    | none => .steps
    | some (.error e, _) => .err e
    | some (.ok t, l) => match t with
      | .eof => .ok (closeFrames fs cur)
      | .text raw => parseMain depth n l fs (cur ++ [.text raw])
      | .any => parseMain depth n l fs (cur ++ [.any])
      | .super => parseMain depth n l fs (cur ++ [.super])
      | .single => parseMain depth n l fs (cur ++ [.single])
      | .rangeOpen => match parseRange depth (n + 1) l false 0 0 [] with
        | .ok (node, l) => parseMain depth n l fs (cur ++ [node])
        | .err e => .err e
        | .panic => .panic
        | .steps => .steps
      | .termsOpen => parseMain depth n l (⟨[], cur⟩ :: fs) []
      | .separator => match fs with
        | [] => .panic
        | f :: fs => parseMain depth n l (⟨f.alts ++ [.pattern cur], f.outer⟩ :: fs) []
      | .termsClose => match fs with
        | [] => .panic
        | f :: fs => parseMain depth n l fs (f.outer ++ [.anyOf (f.alts ++ [.pattern cur])])
      | _ => .err .unexpectedToken

/-- syntax/syntax.go:8-10 `Parse`. -/
def parse (s : Str) : Res Node := parseMain (s.length + 2) (7 * s.length + 8) (newLexer s) [] []

/-- lexer.go:24-36 `Special`: `*`, `?`, `\`, `[`, `]`, `{`, `}`. -/
def special (c : UInt8) : Bool := [42, 63, 92, 91, 93, 123, 125].contains c

/-- glob.go:65-80 `QuoteMeta`. -/
def quoteMeta (s : Str) : Str := s.flatMap fun c => if special c then [92, c] else [c]

end Verif.Glob
