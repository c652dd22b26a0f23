import Verif.Password.Draws
import Verif.Password.Props
/-
C138: how many random numbers a call of `Generate` asks its source for.

`fuel` is the limit the model puts on the retries for one character (Verif/Password/Model.lean). The code has no such limit,
so each statement holds for every `fuel`, and what happens as `fuel` grows is what happens in the code.
-/
namespace Verif.Password
open Finset

/-- Average number of calls of `rand.Int` for a request without repeats: the tries for the letters, the digits and the
symbols, and one position for every character but the first. -/
def averageDraws (g : Generator) (length numDigits numSymbols : Nat) (noUpper : Bool) : ℚ :=
  tries (g.lowerLetters.length + if noUpper then 0 else g.upperLetters.length) (length - numDigits - numSymbols) +
  tries g.digits.length numDigits + tries g.symbols.length numSymbols + (length - 1 : Nat)

theorem accepted_of_rejects {g : Generator} {l d s : Int} {nu ar : Bool} (hacc : Rejects g l d s nu ar none) :
    g.accepted l d s nu ar := by
  have hL := letters_length g nu
  cases hacc with
  | acceptRepeat h ha => exact ⟨by omega, fun h' => by rw [ha] at h'; exact absurd h' (by simp)⟩
  | acceptFresh h ha hl hd hs => exact ⟨by omega, fun _ => ⟨by omega, hd, hs⟩⟩

/-- C138: for an accepted request without repeats the average number of random numbers drawn is `averageDraws`: with the
retries cut off at `fuel` per character the average is never more, and the difference vanishes geometrically in `fuel`. -/
theorem C138_average (g : Generator) (hg : g.AllAscii) (hs : g.Separate) (hd : g.Distinct)
    (hne : g.lowerLetters ≠ [] ∧ g.digits ≠ [] ∧ g.symbols ≠ []) (length numDigits numSymbols : Nat) (noUpper : Bool)
    (hacc : Rejects g length numDigits numSymbols noUpper false none) :
    ∃ ρ : ℚ, 0 ≤ ρ ∧ ρ < 1 ∧ ∀ fuel : Nat,
      averageDraws g length numDigits numSymbols noUpper * (1 - length * ρ ^ fuel) ≤
        (g.generate fuel length numDigits numSymbols noUpper false).draws ∧
      (g.generate fuel length numDigits numSymbols noUpper false).draws ≤
        averageDraws g length numDigits numSymbols noUpper := by
  have ha := accepted_of_rejects hacc
  have frac : ∀ A : Str, A ≠ [] → (0 : ℚ) ≤ ((A.length : ℚ) - 1) / A.length ∧ ((A.length : ℚ) - 1) / A.length < 1 := by
    intro A hA
    have hp : 0 < A.length := List.length_pos_iff.mpr hA
    have h1 : (1 : ℚ) ≤ A.length := by exact_mod_cast hp
    refine ⟨div_nonneg (by linarith) (by linarith), ?_⟩
    rw [div_lt_iff₀ (by linarith)]; linarith
  obtain ⟨a1, a2⟩ := frac _ (letters_ne hne.1 noUpper)
  obtain ⟨b1, b2⟩ := frac _ hne.2.1
  obtain ⟨c1, c2⟩ := frac _ hne.2.2
  refine ⟨max (((g.letters noUpper).length - 1 : ℚ) / (g.letters noUpper).length)
    (max ((g.digits.length - 1 : ℚ) / g.digits.length) ((g.symbols.length - 1 : ℚ) / g.symbols.length)), ?_, ?_, fun fuel => ?_⟩
  · exact le_max_of_le_left a1
  · exact max_lt a2 (max_lt b2 c2)
  · rw [generate_accepted ha]
    have h := draws_body hg hs hd ha (by omega) (by omega) (letters_ne hne.1 noUpper) hne.2.1 hne.2.2 (fuel := fuel)
      (max (((g.letters noUpper).length - 1 : ℚ) / (g.letters noUpper).length)
        (max ((g.digits.length - 1 : ℚ) / g.digits.length) ((g.symbols.length - 1 : ℚ) / g.symbols.length)))
      (le_max_of_le_left a1) (le_max_left _ _) (le_max_of_le_right (le_max_left _ _)) (le_max_of_le_right (le_max_right _ _))
    have hL : (g.letters noUpper).length = g.lowerLetters.length + if noUpper then 0 else g.upperLetters.length := by
      unfold Generator.letters; cases noUpper <;> simp
    have h0 : 0 ≤ (length : Int) - numDigits - numSymbols := ha.1
    have e1 : ((length : Int) - numDigits - numSymbols).toNat = length - numDigits - numSymbols := by omega
    have hE : fillDraws (g.letters noUpper).length 0 0 (!false) ((length : Int) - numDigits - numSymbols).toNat +
      (fillDraws g.digits.length 0 ((length : Int) - numDigits - numSymbols).toNat (!false) (numDigits : Int).toNat +
       fillDraws g.symbols.length 0 (((length : Int) - numDigits - numSymbols).toNat + (numDigits : Int).toNat) (!false) (numSymbols : Int).toNat) =
       averageDraws g length numDigits numSymbols noUpper := by
      simp only [Bool.not_false, fillDraws_fresh, e1, Int.toNat_natCast, averageDraws, ← hL]
      have key : ((if 0 = 0 then ((length - numDigits - numSymbols - 1 : Nat) : ℚ) else ((length - numDigits - numSymbols : Nat) : ℚ)) +
          ((if length - numDigits - numSymbols = 0 then ((numDigits - 1 : Nat) : ℚ) else numDigits) +
           (if length - numDigits - numSymbols + numDigits = 0 then ((numSymbols - 1 : Nat) : ℚ) else numSymbols))) =
          ((length - 1 : Nat) : ℚ) := by
        rw [if_pos rfl]
        split
        · split
          · exact_mod_cast (by omega)
          · exact_mod_cast (by omega)
        · rw [if_neg (by omega)]
          exact_mod_cast (by omega)
      rw [← key]; ring
    rw [hE] at h
    exact_mod_cast h

/-- C138, tail: the probability of more than `t` random numbers is at most the average divided by `t + 1`. -/
theorem C138_tail (g : Generator) (hg : g.AllAscii) (hs : g.Separate) (hd : g.Distinct)
    (hne : g.lowerLetters ≠ [] ∧ g.digits ≠ [] ∧ g.symbols ≠ []) (length numDigits numSymbols : Nat) (noUpper : Bool)
    (hacc : Rejects g length numDigits numSymbols noUpper false none) (fuel t : Nat) :
    (g.generate fuel length numDigits numSymbols noUpper false).probMore t ≤
      averageDraws g length numDigits numSymbols noUpper / (t + 1) := by
  obtain ⟨ρ, _, _, h⟩ := C138_average g hg hs hd hne length numDigits numSymbols noUpper hacc
  have h1 := (h fuel).2
  have h2 := (markov (g.generate fuel length numDigits numSymbols noUpper false) t).1
  have ht : (0 : ℚ) < t + 1 := by positivity
  rw [le_div_iff₀ ht]
  linarith

/-- C138, every run: a run that returns a password drew at least two random numbers per character, less one, and exactly that
many when repeats are allowed. -/
theorem C138_every_run (g : Generator) (hg : g.AllAscii) (fuel : Nat) (length numDigits numSymbols : Nat)
    (noUpper allowRepeat : Bool) (n : Nat) (pw : Str)
    (h : (g.generate fuel length numDigits numSymbols noUpper allowRepeat).CanIn n pw) :
    2 * length - 1 ≤ n ∧ (allowRepeat = true → n = 2 * length - 1) := by
  have hcan := canIn_can _ _ _ h
  obtain ⟨ha, _⟩ := can_accepted hcan
  have h0 : 0 ≤ (length : Int) - numDigits - numSymbols := ha.1
  rw [generate_accepted ha] at h
  unfold Generator.body at h
  rw [canIn_bind] at h
  obtain ⟨i, j, r1, hn, h1, h⟩ := h
  rw [canIn_bind] at h
  obtain ⟨k, m, r2, hj, h2, h3⟩ := h
  have f1 := canIn_fill (letters_ascii hg noUpper) _ _ _ _ _ _ h1
  have f2 := canIn_fill hg.2.2.1 _ _ _ _ _ _ h2
  have f3 := canIn_fill hg.2.2.2 _ _ _ _ _ _ h3
  have hz : ([] : Str).length = 0 := rfl
  refine ⟨by omega, fun har => ?_⟩
  have hf : (!allowRepeat) = false := by simp [har]
  have g1 := f1.2.2 hf
  have g2 := f2.2.2 hf
  have g3 := f3.2.2 hf
  omega

theorem can_canIn {α} (p : Prog α) (a : α) (h : p.Can a) : ∃ n, p.CanIn n a := by
  induction p with
  | ret b => exact ⟨0, rfl, h⟩
  | draw m k ih =>
    obtain ⟨i, hi, h'⟩ := h
    obtain ⟨n, hn⟩ := ih i h'
    exact ⟨n + 1, n, i, rfl, hi, hn⟩
  | fail e => exact h.elim
  | stuck => exact h.elim

/-- The hypothesis of `C138_every_run` is met by every run that returns a password. -/
theorem C138_every_run_applies (g : Generator) (fuel : Nat) (length numDigits numSymbols : Int) (noUpper allowRepeat : Bool)
    (stream pw rest : Str)
    (h : (g.generate fuel length numDigits numSymbols noUpper allowRepeat).run stream = .ok (pw, rest)) :
    ∃ n, (g.generate fuel length numDigits numSymbols noUpper allowRepeat).CanIn n pw :=
  can_canIn _ _ (run_can _ h)

/-- A run that draws more than the least: repeats forbidden, the second letter drawn twice. -/
example : (generate 2 2 0 0 false false).CanIn 4 (lit "ab") := by
  refine ⟨3, 0, rfl, by decide, ?_⟩
  refine ⟨2, 0, rfl, by decide, ?_⟩
  refine ⟨1, 1, rfl, by decide, ?_⟩
  refine ⟨0, 1, rfl, by decide, ?_⟩
  exact ⟨rfl, by decide⟩

/-- An accepted request for `C138_average` and `C138_tail`. -/
example : Rejects defaultGenerator (12 : Nat) (3 : Nat) (2 : Nat) false false none :=
  .acceptFresh (by decide) rfl (by decide) (by decide) (by decide)

/-- C138, the worst a default generator can be asked for: all 52 letters, all 10 digits and all 30 symbols in one password take
fewer than 500 random numbers on average, and more than 50000 in fewer than one call in a hundred. -/
theorem C138_default :
    averageDraws defaultGenerator 92 10 30 false < 500 ∧
    ∀ fuel, (generate fuel 92 10 30 false false).probMore 50000 < 1 / 100 := by
  have hlt : averageDraws defaultGenerator 92 10 30 false < 500 := by decide +kernel
  refine ⟨hlt, fun fuel => ?_⟩
  have h := C138_tail defaultGenerator default_ascii default_separate default_distinct (by decide) 92 10 30 false
    (.acceptFresh (by decide) rfl (by decide) (by decide) (by decide)) fuel 50000
  have h2 : averageDraws defaultGenerator 92 10 30 false / ((50000 : Nat) + 1) < 1 / 100 := by
    rw [div_lt_iff₀ (by norm_num)]
    norm_num; linarith
  exact lt_of_le_of_lt h h2

end Verif.Password
