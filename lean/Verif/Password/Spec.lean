import Verif.Password.Model
import Mathlib.Algebra.BigOperators.Group.Finset.Basic
import Mathlib.Algebra.BigOperators.Intervals
import Mathlib.Data.Rat.Defs
import Mathlib.Algebra.Order.Ring.Rat
import Mathlib.Algebra.Field.Rat
/-
Specification vocabulary for the password properties. Nothing here refers to how `Generate` works.
-/
namespace Verif.Password
open Finset

/-- How many characters of `pw` belong to `alphabet`. -/
def countIn (alphabet pw : Str) : Nat := (pw.filter (fun c => decide (c ∈ alphabet))).length

/-- Two alphabets share no character. -/
def Apart (a b : Str) : Prop := ∀ c ∈ a, c ∉ b

instance (a b : Str) : Decidable (Apart a b) := inferInstanceAs (Decidable (∀ c ∈ a, c ∉ b))

/-- All alphabets are ASCII. -/
def Generator.AllAscii (g : Generator) : Prop :=
  Ascii g.lowerLetters ∧ Ascii g.upperLetters ∧ Ascii g.digits ∧ Ascii g.symbols

/-- Letters, digits and symbols are pairwise disjoint. -/
def Generator.Separate (g : Generator) : Prop :=
  Apart (g.lowerLetters ++ g.upperLetters) g.digits ∧
  Apart (g.lowerLetters ++ g.upperLetters) g.symbols ∧ Apart g.digits g.symbols

/-- No alphabet lists a character twice, and the two letter alphabets are disjoint. -/
def Generator.Distinct (g : Generator) : Prop :=
  (g.lowerLetters ++ g.upperLetters).Nodup ∧ g.digits.Nodup ∧ g.symbols.Nodup

/-- `pw` satisfies the password policy of the request. -/
structure Conforms (g : Generator) (length numDigits numSymbols : Int) (noUpper allowRepeat : Bool)
    (pw : Str) : Prop where
  len : (pw.length : Int) = length
  digits : (countIn g.digits pw : Int) = numDigits
  symbols : (countIn g.symbols pw : Int) = numSymbols
  letters : (countIn (g.lowerLetters ++ if noUpper then [] else g.upperLetters) pw : Int) = length - numDigits - numSymbols
  fresh : allowRepeat = false → pw.Nodup

/-- Expected value of `φ` of the result when every call of `rand.Int(_, max)` is uniform on `0..max-1` and calls are
independent; runs that fail or exhaust the retry fuel contribute nothing. -/
def Prog.expect {α} : Prog α → (α → ℚ) → ℚ
  | .ret a, φ => φ a
  | .draw m k, φ => (∑ i ∈ range m, (k i).expect φ) / m
  | .fail _, _ => 0
  | .stuck, _ => 0

/-- Probability that the computation returns exactly `x`. -/
def Prog.prob {α} [DecidableEq α] (p : Prog α) (x : α) : ℚ := p.expect (fun a => if a = x then 1 else 0)

/-- Probability that the computation returns some result. -/
def Prog.probDone {α} (p : Prog α) : ℚ := p.expect (fun _ => 1)

end Verif.Password
