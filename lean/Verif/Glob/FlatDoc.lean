import Verif.Glob.Doc
import Verif.Glob.Good
/-
The patterns for which `Match` is proved to decide the documented language: a condition on the terms. Braces hold literal alternatives only, and some
neighbours are excluded, for which the compiled matcher is wrong or not covered by the proof.
-/
namespace Verif.Glob

/-- An alternative is empty or a run of characters. -/
def literalAlt : List Term → Bool
  | [] => true
  | [.chars _] => true
  | _ => false

/-- The text of a literal alternative. -/
def altText : List Term → Str
  | [.chars cs] => textOf cs
  | _ => []

/-- Braces hold literal alternatives only, two of which differ. -/
def flatTerm : Term → Bool
  | .alts p ps => literalAlt p && ps.all literalAlt && ps.any fun q => altText q != altText p
  | _ => true

/-- What the term excludes: `*` and `?` the separators, `**` nothing, `[!abc]` its characters. -/
def excludes (seps : List Nat) : Term → Option (List Nat)
  | .any => some seps
  | .super => some []
  | .single => some seps
  | .list true cs => some (cs.map Ch.rune)
  | _ => none

/-- `*` and `**`. -/
def isStar : Term → Bool
  | .any => true
  | .super => true
  | _ => false

/-- Braces around alternatives that have different numbers of characters. -/
def varying : Term → Bool
  | .alts p ps => ps.any fun q => (runesOf (altText q)).length != (runesOf (altText p)).length
  | _ => false

/-- The term matches strings of different lengths, and the empty one. -/
def mayBeEmpty : Term → Bool
  | .any => true
  | .super => true
  | .alts p ps => varying (.alts p ps) && (p :: ps).any fun q => (altText q).isEmpty
  | _ => false

/-- The neighbours are not: two wildcards or negated classes that exclude the same runes, of which there are at least two; two terms that may be empty, unless both
are stars that exclude the same; a `*` with at least two separators before a wildcard, a negated class or braces around alternatives of different lengths. -/
def fineTerms (seps : List Nat) (a b : Term) : Bool :=
  !((excludes seps a).isSome && excludes seps a == excludes seps b && decide (2 ≤ ((excludes seps a).getD []).length)) &&
  !(mayBeEmpty a && mayBeEmpty b && !(isStar a && isStar b && excludes seps a == excludes seps b)) &&
  !(isStar a && decide (2 ≤ ((excludes seps a).getD []).length) && ((excludes seps b).isSome || varying b))

/-- All neighbours. -/
def neighbours (seps : List Nat) : List Term → Bool
  | a :: b :: ts => fineTerms seps a b && neighbours seps (b :: ts)
  | _ => true

/-- The text that is the only string that the term matches. -/
def theText : Term → Option Str
  | .chars cs => some (textOf cs)
  | .list false [c] => some (encodeRune c.rune)
  | _ => none

/-- If the pattern is a text, stars that exclude nothing, and a text, then no end of the first text, other than the empty one, is a start of the last. -/
def endsApart (seps : List Nat) (ts : List Term) : Bool :=
  match ts.head?.bind theText, ts.getLast?.bind theText with
  | some p, some q => !(decide (3 ≤ ts.length) && ts.tail.dropLast.all fun t => isStar t && excludes seps t == some []) || noOverlap p q
  | _, _ => true

/-- The pattern is not `?` alone, or a class alone that has U+FFFD in it (as a negated class has). -/
def emptyOk (seps : List Nat) : List Term → Bool
  | [.single] => seps.contains 0xFFFD
  | [.list not _] => !not
  | [.range not lo hi] => not == (decide (lo ≤ 0xFFFD) && decide (0xFFFD ≤ hi))
  | _ => true

/-- The conditions. -/
def flatOk (seps : List Nat) (ts : List Term) : Bool := okTerms false ts && ts.all flatTerm && neighbours seps ts && endsApart seps ts

end Verif.Glob
