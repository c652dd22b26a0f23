import Verif.Closest.Spec
/-
What a search in an index means when words have been added to the index in several calls.
-/
namespace Verif.Closest.Spec

/-- An index as its user may see it: the numbers entered under a fragment, and the word that each number stands for. -/
structure Idx where
  holders : Str → Finset Nat
  word : Nat → Str

/-- `k` is the word of a number that is entered under a fragment of the query. -/
def Idx.Found (x : Idx) (sizes : List Nat) (q k : Str) : Prop := ∃ f ∈ frags sizes q, ∃ i ∈ x.holders f, x.word i = k

/-- The score of a word for a query: for every fragment of the query and every number of the word among the holders of the fragment one
point, the more the shorter the word, and the more the fewer the holders. -/
def Idx.score (x : Idx) (sizes : List Nat) (q k : Str) : Nat :=
  ∑ f ∈ frags sizes q, ((x.holders f).filter fun i => x.word i = k).card * (1 + 1000 / k.length + 1000 / (x.holders f).card)

/-- The index after a list of word lists has been entered: each list is numbered from 0. A number stands for the word that the last list that
has this number gives it, but is entered under the fragments of all the words that any of the lists gives it. -/
def history (other : Str → Str) (sizes : List Nat) (lists : List (List Str)) : Idx where
  holders f := lists.toFinset.biUnion fun words => holders other sizes words f
  word i := ((lists.filter fun words => i < words.length).getLastD []).getD i []

end Verif.Closest.Spec
