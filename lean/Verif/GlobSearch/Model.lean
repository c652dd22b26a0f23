import Verif.Repo.Model
import Verif.Glob.Compile
/-
repo.GlobSearch with the globs of package glob: `Verif.Repo` takes the compiled query as a predicate that always returns; here it is the matcher, whose `Match` may panic.
-/
namespace Verif.GlobSearch
open Repo Glob

/-- repo.go:155-173 with the callback of repo.go:181-194 and 75-80: the matches of the lines (`line` is the number of the next one), `none` if `Match` panics. -/
def globLoop (m : Matcher) : Nat → List Str → List (Nat × Str) → Option (List (Nat × Str))
  | _, [], ms => some ms
  | line, text :: rest, ms =>
    if line = 1 ∧ (0 : UInt8) ∈ text then some ms
    else match m.match text with
      | none => none
      | some true => globLoop m (line + 1) rest (ms ++ [(line, text)])
      | some false => globLoop m (line + 1) rest ms

/-- repo.go:177-197 `SearchInFile` with this callback. -/
def globFile (w : World) (m : Matcher) (path : Str) : Option (List (Nat × Str)) :=
  match w.at path with
  | .node (.file c) => globLoop m 1 (scannerLines c) []
  | _ => some []

/-- repo.go:72-86: the loops over the listed paths. -/
def globAll (w : World) (m : Matcher) : List Str → Option (List (Str × List (Nat × Str)))
  | [] => some []
  | path :: rest => match globFile w m path with
    | none => none
    | some ms => (globAll w m rest).map fun r => (path, ms) :: r

/-- repo.go:67-87 `GlobSearch`. -/
def GlobSearch (w : World) (files : Files) (query : Str) (seps : List Nat) (out : Outcome (List (Str × List (Nat × Str)))) : Prop :=
  match globCompile query seps with
  | .err _ => out = .err
  | .ok m => ∃ order, GroupOrder files order ∧ out = match globAll w m (order.flatMap files) with
    | none => .panic
    | some r => .ok r
  | _ => out = .panic

end Verif.GlobSearch
