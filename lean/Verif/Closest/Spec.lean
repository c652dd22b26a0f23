import Verif.Go.Utf8
import Mathlib.Data.Finset.Union
import Mathlib.Algebra.BigOperators.Group.Finset.Basic
/-
What a search means, independently of the index and the goroutines.
-/
namespace Verif.Closest.Spec

/-- The substrings of length `j`. -/
def windows (word : Str) (j : Nat) : Finset Str := (Finset.range (word.length + 1 - j)).image fun i => (word.drop i).take j

/-- The fragments of a word: its substrings of the given lengths that are not blank; the word itself if there are none. -/
def frags (sizes : List Nat) (word : Str) : Finset Str :=
  let w := (sizes.toFinset.biUnion (windows word)).filter fun f => blank f = false
  if w = ∅ then {word} else w

/-- The positions of the words (in lower case) that have the fragment. -/
def holders (other : Str → Str) (sizes : List Nat) (words : List Str) (f : Str) : Finset Nat :=
  (Finset.range words.length).filter fun i => f ∈ frags sizes (toLower other (words.getD i []))

/-- The points of a key `k` for a fragment: for every position of `k` among the holders, one point, the more the shorter the key, and the
more the fewer the holders. -/
def points (other : Str → Str) (sizes : List Nat) (words : List Str) (f k : Str) : Nat :=
  ((holders other sizes words f).filter fun i => words.getD i [] = k).card *
    (1 + 1000 / k.length + 1000 / (holders other sizes words f).card)

/-- The score of a key for a query. -/
def score (other : Str → Str) (sizes : List Nat) (words : List Str) (q k : Str) : Nat :=
  ∑ f ∈ frags sizes q, points other sizes words f k

/-- `k` is an indexed word that shares a fragment with the query. -/
def Shares (other : Str → Str) (sizes : List Nat) (words : List Str) (q k : Str) : Prop :=
  k ∈ words ∧ ∃ f ∈ frags sizes q, f ∈ frags sizes (toLower other k)

end Verif.Closest.Spec
