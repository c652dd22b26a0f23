import Verif.Password.Model
/-
generate.go:130-210 with the machine integers of a 64-bit system: `int` is `Int64`, whose subtraction wraps around. (`Generator.generate` has integers without bounds.)
-/
namespace Verif.Password

/-- generate.go:130-210 `Generator.Generate` on a 64-bit system. -/
def Generator.generate64 (g : Generator) (fuel : Nat) (length numDigits numSymbols : Int64) (noUpper allowRepeat : Bool) : Prog Str :=
  let letters := g.letters noUpper
  let chars := length - numDigits - numSymbols
  if chars < 0 then .fail .exceedsTotal
  else if !allowRepeat && decide (chars.toInt > letters.length) then .fail .lettersExceeds
  else if !allowRepeat && decide (numDigits.toInt > g.digits.length) then .fail .digitsExceeds
  else if !allowRepeat && decide (numSymbols.toInt > g.symbols.length) then .fail .symbolsExceeds
  else
    (fill letters (!allowRepeat) fuel chars.toInt.toNat []).bind fun r1 =>
    (fill g.digits (!allowRepeat) fuel numDigits.toInt.toNat r1).bind fun r2 =>
    fill g.symbols (!allowRepeat) fuel numSymbols.toInt.toNat r2

end Verif.Password
