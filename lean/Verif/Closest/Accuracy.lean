import Verif.Closest.Model
/-
closestmatch/closestmatch.go:214-346: the two functions that measure the accuracy of an index.

The random numbers are arbitrary: the model says what may happen for some sequence of draws. The real program starts its generator with
`rand.Seed(1)`, so that only one of these sequences is drawn (other goroutines may take numbers from the same generator); the order in which
the map of identifiers is visited is arbitrary in the real program too.
-/
namespace Verif.Closest

/-- A computation that draws random numbers: `rand.Intn(n)`. -/
inductive Draw (α : Type) where
  | ret (a : α)
  | intn (n : Nat) (k : Nat → Draw α)

/-- The possible results of such a computation; `none` is the panic of `rand.Intn(0)`. -/
inductive Can {α : Type} : Draw α → Option α → Prop where
  | ret (a) : Can (.ret a) (some a)
  | intn {n k i o} : i < n → Can (k i) o → Can (.intn n k) o
  | zero {k} : Can (.intn 0 k) none

/-- `strings.Split(s, " ")`. -/
def splitSpace : Str → List Str
  | [] => [[]]
  | b :: s => if b = 32 then [] :: splitSpace s else
    match splitSpace s with
    | [] => [[b]]
    | w :: ws => (b :: w) :: ws

/-- `strings.Join(words, " ")`. -/
def joinSpace : List Str → Str
  | [] => []
  | [w] => w
  | w :: ws => w ++ 32 :: joinSpace ws

/-- `words[i], words[j] = words[j], words[i]`. -/
def swapAt (words : List Str) (i j : Nat) : List Str := (words.set i (words.getD j [])).set j (words.getD i [])

/-- closestmatch.go:274, 320: the letters. -/
def letters : Str := lit "abcdefghijklmnopqrstuvwxyz"

/-- closestmatch.go:255-257: the loop that reverses; at most `m` rounds (every round brings `left` and `right` closer, so as many as there are words are
enough). -/
def reverseLoop : Nat → Nat → Nat → List Str → List Str
  | 0, _, _, words => words
  | m + 1, left, right, words => if left < right then reverseLoop m (left + 1) (right - 1) (swapAt words left right) else words

/-- closestmatch.go:268-271: the loop that shuffles; `m` words are still to be visited, `i` is the index of the next one. -/
def shuffle : Nat → Nat → List Str → (List Str → Draw (Option Str)) → Draw (Option Str)
  | 0, _, words, k => k words
  | m + 1, i, words, k => .intn (i + 1) fun j => shuffle m (i + 1) (swapAt words i j) k

/-- closestmatch.go:278-279, 280-281: replace a letter at a random place. -/
def replaceLetter (s : Str) (k : Str → Draw (Option Str)) : Draw (Option Str) :=
  .intn s.length fun ii => .intn letters.length fun l => k (s.take ii ++ [letters.getD l 0] ++ s.drop (ii + 1))

/-- closestmatch.go:238-282: the test string made from an original; `none` is `continue`. -/
def mutateWords (original : Str) : Draw (Option Str) :=
  .intn 3 fun choice =>
    let words := splitSpace original
    if choice = 0 then
      if words.length < 3 then .ret none
      else .intn words.length fun d => .ret (some (joinSpace (words.take d ++ words.drop (d + 1))))
    else if choice = 1 then
      if words.length > 1 then .intn words.length fun d =>
        let words := words.take d ++ words.drop (d + 1)
        .ret (some (joinSpace (reverseLoop words.length 0 (words.length - 1) words)))
      else .ret none
    else
      let rest (words : List Str) : Draw (Option Str) :=
        let testString := joinSpace words
        if testString.length = 0 then .ret none
        else replaceLetter testString fun testString => replaceLetter testString fun testString => .ret (some testString)
      if words.length > 1 then .intn words.length fun d =>
        let words := words.take d ++ words.drop (d + 1)
        shuffle words.length 0 words rest
      else rest words

/-- closestmatch.go:322-335: the test string made from an original. -/
def mutateLetters (original : Str) : Draw (Option Str) :=
  .intn 3 fun choice =>
    if choice = 0 then .intn original.length fun ii => .intn letters.length fun l =>
      .ret (some (original.take ii ++ [letters.getD l 0] ++ original.drop (ii + 1)))
    else if choice = 1 then .intn original.length fun ii => .ret (some (original.take ii ++ original.drop (ii + 1)))
    else .intn original.length fun ii => .intn letters.length fun l =>
      .ret (some (original.take ii ++ [letters.getD l 0] ++ original.drop ii))

/-- closestmatch.go:227-235, 307-315: the loop over the identifiers in the order `order`; `i` is the loop's counter. -/
def pickLoop (cm : CM) (num : Nat) : Nat → List Nat → Str
  | _, [] => []
  | i, id :: order => if i + 1 ≠ num then pickLoop cm num (i + 1) order else ((cm.id id).getD ⟨[], 0⟩).key

/-- `order` is an order in which the map of identifiers may be visited. -/
def CM.Order (cm : CM) (order : List Nat) : Prop := order.Nodup ∧ ∀ i, i ∈ order ↔ (cm.id i).isSome = true

/-- What one trial of the 200 may do. -/
inductive Trial where
  /-- panic -/
  | crash
  /-- `continue` -/
  | skip
  /-- a test of a word with a mutation of it; `right` if the word was found. -/
  | test (word query : Str) (right : Bool)

/-- closestmatch.go:223-289, 303-342: the body of the loop. `num` is `testStringNum`. -/
inductive DoTrial (cm : CM) (mutate : Str → Draw (Option Str)) : Trial → Prop where
  /-- `rand.Intn(0)` for an empty index -/
  | empty : cm.Order [] → DoTrial cm mutate .crash
  /-- `rand.Intn(0)` in the mutation -/
  | rand (order num) : cm.Order order → num < order.length → Can (mutate (pickLoop cm num 0 order)) none → DoTrial cm mutate .crash
  | continue (order num) : cm.Order order → num < order.length → Can (mutate (pickLoop cm num 0 order)) (some none) → DoTrial cm mutate .skip
  /-- a panic in `Closest` -/
  | search (order num q) : cm.Order order → num < order.length → Can (mutate (pickLoop cm num 0 order)) (some (some q)) → MatchPanics cm q →
      DoTrial cm mutate .crash
  | test (order num q out) : cm.Order order → num < order.length → Can (mutate (pickLoop cm num 0 order)) (some (some q)) → Closest cm q out →
      DoTrial cm mutate (.test (pickLoop cm num 0 order) q (out == pickLoop cm num 0 order))

/-- What such a function returns: `100.0 * percentCorrect / numTrials`, a NaN if `numTrials` is 0; or a panic. -/
inductive Accuracy where
  | panic
  | nan
  | percent (correct trials : Nat)
deriving DecidableEq

/-- closestmatch.go:222-291, 302-345: the loop, with `n` more trials to do. -/
inductive Trials (cm : CM) (mutate : Str → Draw (Option Str)) : Nat → Nat → Nat → Accuracy → Prop where
  | nan (c) : Trials cm mutate 0 c 0 .nan
  | percent (c t) : t ≠ 0 → Trials cm mutate 0 c t (.percent c t)
  | crash (n c t) : DoTrial cm mutate .crash → Trials cm mutate (n + 1) c t .panic
  | skip (n c t r) : DoTrial cm mutate .skip → Trials cm mutate n c t r → Trials cm mutate (n + 1) c t r
  | test (n c t r o q b) : DoTrial cm mutate (.test o q b) → Trials cm mutate n (if b then c + 1 else c) (t + 1) r → Trials cm mutate (n + 1) c t r

/-- closestmatch.go:217-292 `AccuracyMutatingWords`: `r` is a possible result. -/
def AccuracyMutatingWords (cm : CM) (r : Accuracy) : Prop := Trials cm mutateWords 200 0 0 r

/-- closestmatch.go:297-346 `AccuracyMutatingLetters`: `r` is a possible result. -/
def AccuracyMutatingLetters (cm : CM) (r : Accuracy) : Prop := Trials cm mutateLetters 200 0 0 r

end Verif.Closest
