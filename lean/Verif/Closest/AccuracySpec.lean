import Verif.Closest.HistorySpec
import Mathlib.Data.List.Perm.Basic
/-
What the accuracy measurements of an index test.
-/
namespace Verif.Closest.Spec

/-- `ws` are the words of `s`: the pieces between its spaces (a piece may be empty). -/
def IsWords (s : Str) (ws : List Str) : Prop := ws ≠ [] ∧ (∀ w ∈ ws, 32 ∉ w) ∧ [32].intercalate ws = s

/-- One byte of `s` is replaced by a letter from 'a' to 'z' (it may be the same letter). -/
def Replaced (s q : Str) : Prop := ∃ a c b x, s = a ++ c :: b ∧ q = a ++ x :: b ∧ 97 ≤ x ∧ x ≤ 122

/-- `vs` are the words of a list without one of them, in the same order. -/
def WithoutOne (ws vs : List Str) : Prop := ∃ a w b, ws = a ++ w :: b ∧ vs = a ++ b

/-- `q` is a query that the measurement with words may make from the word `s` of the index: `s` has at least three words and `q` lacks one of
them; or `s` has at least two, and `q` is the others in reverse order; or two letters of the others (in any order) are replaced, or of `s`
itself if it is one word. -/
def WordTest (s q : Str) : Prop :=
  ∃ ws, IsWords s ws ∧
    ((3 ≤ ws.length ∧ ∃ vs, WithoutOne ws vs ∧ q = [32].intercalate vs) ∨
     (2 ≤ ws.length ∧ ∃ vs, WithoutOne ws vs ∧ q = [32].intercalate vs.reverse) ∨
     (2 ≤ ws.length ∧ ∃ vs us p, WithoutOne ws vs ∧ us.Perm vs ∧ Replaced ([32].intercalate us) p ∧ Replaced p q) ∨
     (ws.length = 1 ∧ ∃ p, Replaced s p ∧ Replaced p q))

/-- `q` is a query that the measurement with letters may make from the word `s` of the index: one letter is replaced, removed, or inserted
before another one. -/
def LetterTest (s q : Str) : Prop :=
  Replaced s q ∨ (∃ a c b, s = a ++ c :: b ∧ q = a ++ b) ∨ (∃ a c b x, s = a ++ c :: b ∧ q = a ++ x :: c :: b ∧ 97 ≤ x ∧ x ≤ 122)

/-- The words that an index stands for after a list of word lists has been entered: a later list replaces the words of the earlier ones
from the first on. -/
def current : List (List Str) → List Str
  | [] => []
  | words :: more => current more ++ words.drop (current more).length

/-- A word of the index may be tested only if the index has another one, too (a random number between 0 and their number exclusive is drawn,
but the words are counted from 1). -/
def Tested (Test : Str → Str → Prop) (ws : List Str) (w q : Str) : Prop := 2 ≤ ws.length ∧ w ∈ ws ∧ Test w q

/-- `out` may be the answer to a query: no number under a fragment of the query stands for the empty word (this crashes), and `out` is a word
found with the highest score, or empty if no word is found. -/
def Idx.Answers (x : Idx) (sizes : List Nat) (q out : Str) : Prop :=
  ¬ x.Found sizes q [] ∧
    ((x.Found sizes q out ∧ ∀ k, x.Found sizes q k → x.score sizes q k ≤ x.score sizes q out) ∨ (out = [] ∧ ∀ k, ¬ x.Found sizes q k))

end Verif.Closest.Spec
