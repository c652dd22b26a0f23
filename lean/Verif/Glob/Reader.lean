import Verif.Glob.Spec
/-
C139: how a pattern is read, whatever its characters are. A small reader over the characters of the pattern (a byte that is not part of valid UTF-8 counts as
U+FFFD), without the queue, the put-back character and the error state of the lexer, and without the parser.
-/
namespace Verif.Glob

/-- The parts of a pattern, in order. -/
inductive Piece where
  | text (runes : List Nat)
  | any
  | super
  | single
  | class (n : Node)
  | opens
  | comma
  | closes

/-- A run of characters, up to one of `stop`. A backslash takes the next character as it is. The character U+0000 ends the run and is dropped. U+FFFD is an error. -/
def readText (stop : List Nat) : Bool → List Nat → Option (List Nat × List Nat)
  | _, [] => some ([], [])
  | escaped, c :: rs =>
    if c = 0 then some ([], rs)
    else if c = 0xFFFD then none
    else if !escaped && decide (c = 92) then readText stop true rs
    else if !escaped && decide (c ∈ stop) then some ([], c :: rs)
    else (readText stop false rs).map fun r => (c :: r.1, r.2)

/-- A class without its opening bracket and without `!`: `lo-hi]` with `lo` not above `hi`, or characters followed by `]`. -/
def readSet (neg : Bool) (rs : List Nat) : Option (Node × List Nat) :=
  match rs with
  | lo :: 45 :: more => match more with
    | hi :: 93 :: rest => if 0 < lo ∧ lo ≤ hi ∧ lo ≠ 0xFFFD ∧ hi ≠ 0xFFFD then some (.range neg lo hi, rest) else none
    | _ => none
  | _ => match readText [93] false rs with
    | some (c :: cs, 93 :: rest) => some (.list neg ((c :: cs).flatMap encodeRune), rest)
    | _ => none

/-- A class without its opening bracket. -/
def readClass (rs : List Nat) : Option (Node × List Nat) :=
  if rs.head? = some 33 then readSet true rs.tail else readSet false rs

/-- The parts of a pattern; `depth` braces are open. U+0000 between two parts ends the pattern. (`n` bounds the number of parts; a part has at least one character.) -/
def readParts : Nat → Nat → List Nat → Option (List Piece)
  | 0, _, _ => none
  | _ + 1, _, [] => some []
  | n + 1, depth, c :: rs =>
    if c = 0 then some []
    else if c = 0xFFFD then none
    else if c = 123 then (readParts n (depth + 1) rs).map (.opens :: ·)
    else if c = 44 ∧ 0 < depth then (readParts n depth rs).map (.comma :: ·)
    else if c = 125 ∧ 0 < depth then (readParts n (depth - 1) rs).map (.closes :: ·)
    else if c = 91 then (readClass rs).bind fun r => (readParts n depth r.2).map (.class r.1 :: ·)
    else if c = 63 then (readParts n depth rs).map (.single :: ·)
    else if c = 42 then
      if rs.head? = some 42 then (readParts n depth rs.tail).map (.super :: ·) else (readParts n depth rs).map (.any :: ·)
    else (readText (if 0 < depth then [63, 42, 91, 123, 125, 44] else [63, 42, 91, 123]) false (c :: rs)).bind fun r =>
      (readParts n depth r.2).map fun ps => if r.1 = [] then ps else .text r.1 :: ps

/-- The parts of a pattern, `none` if it is not well-formed. -/
def readPattern (p : Str) : Option (List Piece) := readParts ((runesIn p).length + 1) 0 (runesIn p)

/-- The tree of the parts: `fs` are the braces around the current alternative, `cur` is what the current alternative has so far. A brace that is not closed
is closed by the end. -/
def treeOf : List Frame → List Node → List Piece → Node
  | fs, cur, [] => closeFrames fs cur
  | fs, cur, .text rs :: ps => treeOf fs (cur ++ [.text (rs.flatMap encodeRune)]) ps
  | fs, cur, .any :: ps => treeOf fs (cur ++ [.any]) ps
  | fs, cur, .super :: ps => treeOf fs (cur ++ [.super]) ps
  | fs, cur, .single :: ps => treeOf fs (cur ++ [.single]) ps
  | fs, cur, .class n :: ps => treeOf fs (cur ++ [n]) ps
  | fs, cur, .opens :: ps => treeOf (⟨[], cur⟩ :: fs) [] ps
  | f :: fs, cur, .comma :: ps => treeOf (⟨f.alts ++ [.pattern cur], f.outer⟩ :: fs) [] ps
  | f :: fs, cur, .closes :: ps => treeOf fs (f.outer ++ [.anyOf (f.alts ++ [.pattern cur])]) ps
  | [], cur, .comma :: ps => treeOf [] cur ps
  | [], cur, .closes :: ps => treeOf [] cur ps

end Verif.Glob
