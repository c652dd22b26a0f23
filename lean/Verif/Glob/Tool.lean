import Verif.Glob.Compile
/-
The programs glob/cmd/globtest and glob/cmd/globdraw. The command line is already parsed. Not modelled: the benchmarks that `globtest -v` prints after the result. The
drawing (glob/match/debug) is in `Verif.Glob.Draw`; here only the matcher that is drawn is kept.
-/
namespace Verif.Glob.Tool

/-- Go `strings.Split(s, ",")`. -/
def splitComma : Str → List Str
  | [] => [[]]
  | b :: s => if b = 44 then [] :: splitComma s else match splitComma s with
    | [] => [[b]]
    | p :: ps => (b :: p) :: ps

/-- globtest/main.go:48-56, globdraw/main.go:27-34: the loop over the elements of the list; `none` is the message that only single characters are allowed, and the end of the program. -/
def separators : List Str → Option (List Nat)
  | [] => some []
  | c :: cs => if c.length > (decodeRune c).2 then none else (separators cs).map ((decodeRune c).1 :: ·)

/-- How a program ends: with the usage, with one of its two messages (all three with status 1), with a result of type `α`, with a panic. -/
inductive End (α : Type) where
  | usage
  | badSeparators
  | badPattern
  | result (a : α)
  | panic
  deriving DecidableEq

/-- globtest/main.go:36-83: the boolean it prints. -/
def globtest (pattern sep fixture : Str) : End Bool :=
  if pattern = [] then .usage
  else match separators (splitComma sep) with
    | none => .badSeparators
    | some seps => match globCompile pattern seps with
      | .err _ => .badPattern
      | .ok m => match m.match fixture with
        | some b => .result b
        | none => .panic
      | _ => .panic

/-- globdraw/main.go:15-45: the matcher it draws. -/
def globdraw (pattern sep : Str) : End Matcher :=
  if pattern = [] then .usage
  else match (if sep.length > 0 then separators (splitComma sep) else some []) with
    | none => .badSeparators
    | some seps => match globCompile pattern seps with
      | .err _ => .badPattern
      | .ok m => .result m
      | _ => .panic

end Verif.Glob.Tool
