import Verif.Password.Props
/-
C108: what `Generate` does for every integer request, also with negative counts (generate.go:130-210).
-/
namespace Verif.Password

/-- **C108** A request with negative counts is the request with these counts set to zero and the length enlarged by what was missing: the same
result, error or crash on every random stream, the same bytes consumed. -/
theorem C108_negative_counts (g : Generator) (fuel : Nat) (length numDigits numSymbols : Int) (noUpper allowRepeat : Bool) (stream : Str) :
    (g.generate fuel length numDigits numSymbols noUpper allowRepeat).run stream =
      (g.generate fuel (length + max 0 (-numDigits) + max 0 (-numSymbols)) (max 0 numDigits) (max 0 numSymbols) noUpper allowRepeat).run stream := by
  have h : g.generate fuel length numDigits numSymbols noUpper allowRepeat =
      g.generate fuel (length + max 0 (-numDigits) + max 0 (-numSymbols)) (max 0 numDigits) (max 0 numSymbols) noUpper allowRepeat := by
    unfold Generator.generate
    dsimp only
    have e1 : length + max 0 (-numDigits) + max 0 (-numSymbols) - max 0 numDigits - max 0 numSymbols = length - numDigits - numSymbols := by omega
    have e2 : (max 0 numDigits).toNat = numDigits.toNat := by omega
    have e3 : (max 0 numSymbols).toNat = numSymbols.toNat := by omega
    have e4 : (max 0 numDigits > (g.digits.length : Int)) ↔ (numDigits > (g.digits.length : Int)) := by omega
    have e5 : (max 0 numSymbols > (g.symbols.length : Int)) ↔ (numSymbols > (g.symbols.length : Int)) := by omega
    simp only [e1, e2, e3, decide_eq_decide.2 e4, decide_eq_decide.2 e5]
  rw [h]

/-- **C108** The passwords a request with any integer counts can give are exactly those with the digits and symbols asked for (none for a negative
count) and `length - numDigits - numSymbols` letters. -/
theorem C108_possible (g : Generator) (hg : g.AllAscii) (hs : g.Separate) (fuel : Nat) (hf : 0 < fuel) (length numDigits numSymbols : Int)
    (noUpper allowRepeat : Bool) (pw : Str) :
    (∃ stream rest, (g.generate fuel length numDigits numSymbols noUpper allowRepeat).run stream = .ok (pw, rest)) ↔
      (pw.length : Int) = length + max 0 (-numDigits) + max 0 (-numSymbols) ∧ (countIn g.digits pw : Int) = max 0 numDigits ∧
      (countIn g.symbols pw : Int) = max 0 numSymbols ∧
      (countIn (g.lowerLetters ++ if noUpper then [] else g.upperLetters) pw : Int) = length - numDigits - numSymbols ∧
      (allowRepeat = false → pw.Nodup) := by
  constructor
  · rintro ⟨stream, rest, h⟩
    rw [C108_negative_counts] at h
    have := can_conforms hg hs (by omega) (by omega) (run_can _ h)
    exact ⟨this.len, this.digits, this.symbols, by have := this.letters; omega, this.fresh⟩
  · rintro ⟨h1, h2, h3, h4, h5⟩
    obtain ⟨stream, h⟩ := C05_every_password g hg hs fuel hf (length + max 0 (-numDigits) + max 0 (-numSymbols)) (max 0 numDigits) (max 0 numSymbols)
      noUpper allowRepeat pw ⟨h1, h2, h3, by omega, h5⟩
    exact ⟨stream ++ [], [], by rw [C108_negative_counts]; exact h []⟩

/-- The default generator meets the hypotheses: 5 characters with -3 digits and -1 symbols give 9 letters. -/
example : ∃ stream rest, (generate 1 5 (-3) (-1) false true).run stream = .ok (lit "abcABCxyz", rest) :=
  (C108_possible defaultGenerator (by refine ⟨?_, ?_, ?_, ?_⟩ <;> decide) (by refine ⟨?_, ?_, ?_⟩ <;> decide) 1 (by omega) 5 (-3) (-1) false true (lit "abcABCxyz")).2
    (by decide)

end Verif.Password
