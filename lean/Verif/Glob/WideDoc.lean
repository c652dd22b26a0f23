import Verif.Glob.Braces
/-
The condition on patterns with braces that are not literal beside other terms, like `src/{*.go,doc*}` or `**/{a*,b?}.txt`.
-/
namespace Verif.Glob

mutual
/-- The term matches the empty string. -/
def Term.nullable : Term → Bool
  | .any => true
  | .super => true
  | .alts p ps => nullable p || nullableSome ps
  | _ => false
/-- All terms do. -/
def nullable : List Term → Bool
  | [] => true
  | t :: ts => t.nullable && nullable ts
/-- One of the patterns does. -/
def nullableSome : List (List Term) → Bool
  | [] => false
  | p :: ps => nullable p || nullableSome ps
end

/-- The term matches strings of different lengths, and the empty one; braces that are not literal are taken to match strings of different lengths. -/
def wideEmpty (t : Term) : Bool := if flatTerm t then mayBeEmpty t else t.nullable

/-- Braces around alternatives of different lengths, or that are not literal. -/
def wideVarying (t : Term) : Bool := varying t || !flatTerm t

/-- As `fineTerms`; and braces that are not literal do not stand before a wildcard, a negated class or braces around alternatives of different lengths. -/
def wideFine (seps : List Nat) (a b : Term) : Bool :=
  !((excludes seps a).isSome && excludes seps a == excludes seps b && decide (2 ≤ ((excludes seps a).getD []).length)) &&
  !(wideEmpty a && wideEmpty b && !(isStar a && isStar b && excludes seps a == excludes seps b)) &&
  !(((isStar a && decide (2 ≤ ((excludes seps a).getD []).length)) || !flatTerm a) && ((excludes seps b).isSome || wideVarying b))

/-- All neighbours. -/
def wideNeighbours (seps : List Nat) : List Term → Bool
  | a :: b :: ts => wideFine seps a b && wideNeighbours seps (b :: ts)
  | _ => true

/-- An alternative that the compiler sees no length of: it has a star, or braces of different lengths beside other terms. -/
def openAlt (q : List Term) : Bool := q.any isStar || (decide (2 ≤ q.length) && q.any wideVarying)

/-- Alternatives of which the compiler sees that they have no common length. It takes no notice of one without a length that comes first (see `C57_length_false`),
so: the last has no length, or one after a literal one has none, or two literal ones have different lengths. -/
def altsOpen : List (List Term) → Bool
  | [] => false
  | [q] => openAlt q
  | q :: qs => altsOpen qs || (literalAlt q && qs.any fun r => openAlt r || (literalAlt r && (runesOf (altText r)).length != (runesOf (altText q)).length))

mutual
/-- A term in a sequence: braces are literal; or their alternatives share nothing and have no common length, and satisfy the conditions; or they share a star and are
literal otherwise. -/
def Term.wideOk (seps : List Nat) : Term → Bool
  | .alts p ps => flatTerm (.alts p ps) ||
      (!ps.isEmpty && nothingShared p ps && altsOpen (p :: ps) && widePart seps p && wideParts seps ps && emptyPart seps p && emptyParts seps ps) ||
      (factoredOk seps p ps && (sharedOut p ps).any isStar)
  | _ => true
/-- Braces that are alone. -/
def Term.loneOk (seps : List Nat) : Term → Bool
  | .alts p ps => (nothingShared p ps && widePart seps p && wideParts seps ps) || factoredOk seps p ps
  | _ => false
/-- A sequence of such terms with fine neighbours, or braces alone. -/
def widePart (seps : List Nat) : List Term → Bool
  | [] => true
  | t :: ts => (t.wideOk seps && wideTerms seps ts && wideNeighbours seps (t :: ts) && endsApart seps (t :: ts)) || (ts.isEmpty && t.loneOk seps)
/-- All terms. -/
def wideTerms (seps : List Nat) : List Term → Bool
  | [] => true
  | t :: ts => t.wideOk seps && wideTerms seps ts
/-- All alternatives. -/
def wideParts (seps : List Nat) : List (List Term) → Bool
  | [] => true
  | p :: ps => widePart seps p && wideParts seps ps
end

/-- The conditions. -/
def wideOk (seps : List Nat) (ts : List Term) : Bool := okTerms false ts && widePart seps ts

/-- Neighbours of a fixed number of runes are ASCII. -/
def wideAsciiNeighbours : List Term → Bool
  | a :: b :: ts => (!((!isStar a && !wideVarying a) && (!isStar b && !wideVarying b)) || (asciiTerm a && asciiTerm b)) && wideAsciiNeighbours (b :: ts)
  | _ => true

mutual
/-- In braces: the neighbours in the alternatives. -/
def Term.wideAscii : Term → Bool
  | .alts p ps => wideAscii p && wideAsciis ps && asciiNeighbours (sharedOut p ps)
  | _ => true
/-- Neighbours of a fixed number of runes are ASCII, also in braces. -/
def wideAscii : List Term → Bool
  | [] => true
  | t :: ts => wideAsciiNeighbours (t :: ts) && t.wideAscii && wideAsciiTerms ts
/-- In all terms. -/
def wideAsciiTerms : List Term → Bool
  | [] => true
  | t :: ts => t.wideAscii && wideAsciiTerms ts
/-- In all alternatives. -/
def wideAsciis : List (List Term) → Bool
  | [] => true
  | p :: ps => wideAscii p && wideAsciis ps
end

end Verif.Glob
