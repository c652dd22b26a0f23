import Verif.Glob.Syntax
/-
The documented meaning of a pattern (the comment of `Compile` at glob/glob.go:13-39), on the tree of the pattern: a set of sequences of runes.
-/
namespace Verif.Glob

/-- The runes of a text, without their widths. -/
def runesIn (s : Str) : List Nat := (runesOf s).map Prod.fst

mutual
/-- A sequence of runes is in the language of a tree: `*` matches any sequence of runes that are no separators, `**` any sequence, `?` one rune that is no
separator, a class one rune in it (or not in it), a text itself; a pattern matches a sequence of matches of its terms, alternatives what one of them matches. -/
def Matches (seps : List Nat) : Node → List Nat → Prop
  | .nothing, w => w = []
  | .text t, w => w = runesIn t
  | .any, w => ∀ r ∈ w, r ∉ seps
  | .super, _ => True
  | .single, w => ∃ r, w = [r] ∧ r ∉ seps
  | .list not chars, w => ∃ r, w = [r] ∧ (r ∈ runesIn chars ↔ not = false)
  | .range not lo hi, w => ∃ r, w = [r] ∧ ((lo ≤ r ∧ r ≤ hi) ↔ not = false)
  | .pattern cs, w => MatchesSeq seps cs w
  | .anyOf cs, w => MatchesSome seps cs w
/-- The terms of a pattern, one after the other. -/
def MatchesSeq (seps : List Nat) : List Node → List Nat → Prop
  | [], w => w = []
  | c :: cs, w => ∃ u v, w = u ++ v ∧ Matches seps c u ∧ MatchesSeq seps cs v
/-- One of the alternatives. -/
def MatchesSome (seps : List Nat) : List Node → List Nat → Prop
  | [], _ => False
  | c :: cs, w => Matches seps c w ∨ MatchesSome seps cs w
end

end Verif.Glob
