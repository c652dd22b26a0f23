import Verif.Password.Int64
import Verif.Password.IntProps
import Mathlib.Tactic.Linarith
/-
C120: the arithmetic of `Generate` on machine integers.
-/
namespace Verif.Password

/-- **C120** For all machine integers: the request is treated as the request of the length that is `length` up to a multiple of 2^64 and leaves a number of letters that fits into a
machine integer. -/
theorem C120_exact (g : Generator) (fuel : Nat) (length numDigits numSymbols : Int64) (noUpper allowRepeat : Bool) :
    ∃ k : Int, -2 ^ 63 ≤ length.toInt + k * 2 ^ 64 - numDigits.toInt - numSymbols.toInt ∧ length.toInt + k * 2 ^ 64 - numDigits.toInt - numSymbols.toInt < 2 ^ 63 ∧
      g.generate64 fuel length numDigits numSymbols noUpper allowRepeat = g.generate fuel (length.toInt + k * 2 ^ 64) numDigits.toInt numSymbols.toInt noUpper allowRepeat := by
  have hl := (length - numDigits - numSymbols).le_toInt
  have hu := (length - numDigits - numSymbols).toInt_lt
  obtain ⟨k, e⟩ : ∃ k, (length - numDigits - numSymbols).toInt = length.toInt + k * 2 ^ 64 - numDigits.toInt - numSymbols.toInt := by
    have hb : ∀ x : Int, ∃ k : Int, x.bmod (2 ^ 64) = x + k * 2 ^ 64 := fun x => by
      unfold Int.bmod
      dsimp only
      split
      · exact ⟨-(x / 2 ^ 64), by push_cast at *; omega⟩
      · exact ⟨-(x / 2 ^ 64) - 1, by push_cast at *; omega⟩
    rw [Int64.toInt_sub, Int64.toInt_sub]
    obtain ⟨a, ha⟩ := hb (length.toInt - numDigits.toInt)
    rw [ha]
    obtain ⟨b, hb⟩ := hb (length.toInt - numDigits.toInt + a * 2 ^ 64 - numSymbols.toInt)
    rw [hb]
    exact ⟨a + b, by omega⟩
  refine ⟨k, by omega, by omega, ?_⟩
  unfold Generator.generate64 Generator.generate
  dsimp only
  simp only [Int64.lt_iff_toInt_lt, e, Int64.toInt_zero]

/-- **C120** (as far as it holds) If the number of letters fits into a machine integer, `Generate` does what C01 to C09 and C108 say of integers; so in particular if no number is
negative and there are at most 2^63 digits and symbols. -/
theorem C120_integers_partial (g : Generator) (fuel : Nat) (length numDigits numSymbols : Int64) (noUpper allowRepeat : Bool)
    (h1 : -2 ^ 63 ≤ length.toInt - numDigits.toInt - numSymbols.toInt) (h2 : length.toInt - numDigits.toInt - numSymbols.toInt < 2 ^ 63) :
    g.generate64 fuel length numDigits numSymbols noUpper allowRepeat = g.generate fuel length.toInt numDigits.toInt numSymbols.toInt noUpper allowRepeat := by
  obtain ⟨k, l, u, e⟩ := C120_exact g fuel length numDigits numSymbols noUpper allowRepeat
  have : k = 0 := by omega
  rw [e, this, Int.zero_mul, Int.add_zero]

/-- **C120** is false: a request of more digits and symbols than the password is long is not rejected as such if there are enough of them; and a request with enough negative counts
gives a password of five letters. -/
theorem C120_false (noUpper : Bool) :
    (defaultGenerator.generate64 30 0 9223372036854775807 9223372036854775807 noUpper false = .fail .digitsExceeds ∧
      defaultGenerator.generate 30 0 9223372036854775807 9223372036854775807 noUpper false = .fail .exceedsTotal) ∧
    (defaultGenerator.generate64 30 5 (-9223372036854775808) (-9223372036854775808) noUpper false = defaultGenerator.generate 30 5 0 0 noUpper false ∧
      defaultGenerator.generate 30 5 (-9223372036854775808) (-9223372036854775808) noUpper false = .fail .lettersExceeds) := by
  have hl : ((defaultGenerator.letters noUpper).length : Int) ≤ 52 ∧ 5 < ((defaultGenerator.letters noUpper).length : Int) := by cases noUpper <;> decide
  have hd : (defaultGenerator.digits.length : Int) = 10 := by decide
  refine ⟨⟨?_, ?_⟩, ?_, ?_⟩
  · have e : (0 : Int64) - 9223372036854775807 - 9223372036854775807 = 2 := by decide
    have e1 : (2 : Int64).toInt = 2 := by decide
    have e2 : (9223372036854775807 : Int64).toInt = 9223372036854775807 := by decide
    unfold Generator.generate64
    simp only [e, e1, e2]
    rw [if_neg (by decide), if_neg (by simp; omega), if_pos (by simp; omega)]
  · unfold Generator.generate
    dsimp only
    rw [if_pos (by omega)]
  · have e : (5 : Int64) - (-9223372036854775808) - (-9223372036854775808) = 5 := by decide
    have e1 : (5 : Int64).toInt = 5 := by decide
    have e2 : (-9223372036854775808 : Int64).toInt = -9223372036854775808 := by decide
    unfold Generator.generate64 Generator.generate
    simp only [e, e1, e2]
    rw [if_neg (by decide), if_neg (by simp; omega), if_neg (by simp), if_neg (by simp), if_neg (by omega), if_neg (by simp; omega), if_neg (by simp), if_neg (by simp)]
    rfl
  · unfold Generator.generate
    dsimp only
    rw [if_neg (by omega), if_pos (by simp; omega)]

/-- **C120** Without negative counts the wrong arithmetic never gives a wrong password that fits into memory: a password has the requested length, or 2^63 characters or more. -/
theorem C120_length (g : Generator) (hg : g.AllAscii) (fuel : Nat) (length numDigits numSymbols : Int64) (hd : 0 ≤ numDigits.toInt) (hs : 0 ≤ numSymbols.toInt)
    (noUpper allowRepeat : Bool) (stream pw rest : Str) (h : (g.generate64 fuel length numDigits numSymbols noUpper allowRepeat).run stream = .ok (pw, rest)) :
    (pw.length : Int) = length.toInt ∨ 2 ^ 63 ≤ pw.length := by
  obtain ⟨k, l, u, e⟩ := C120_exact g fuel length numDigits numSymbols noUpper allowRepeat
  rw [e] at h
  have h1 := C08_actual_length g hg _ _ _ _ _ _ _ _ _ h
  have h2 := length.le_toInt
  have h3 := length.toInt_lt
  omega

/-- A request that meets the hypotheses. -/
example : -2 ^ 63 ≤ (5 : Int64).toInt - (1 : Int64).toInt - (1 : Int64).toInt ∧ (5 : Int64).toInt - (1 : Int64).toInt - (1 : Int64).toInt < 2 ^ 63 ∧
    ∃ stream, (defaultGenerator.generate64 1 5 1 1 false false).run stream = .ok (lit "aB3$x", []) := by
  refine ⟨by decide, by decide, ?_⟩
  rw [C120_integers_partial _ _ _ _ _ _ _ (by decide) (by decide)]
  obtain ⟨stream, h⟩ := C05_every_password defaultGenerator (by refine ⟨?_, ?_, ?_, ?_⟩ <;> decide) (by refine ⟨?_, ?_, ?_⟩ <;> decide) 1 (by omega) 5 1 1 false false (lit "aB3$x")
    (by refine ⟨?_, ?_, ?_, ?_, ?_⟩ <;> decide)
  exact ⟨stream ++ [], h []⟩

end Verif.Password
