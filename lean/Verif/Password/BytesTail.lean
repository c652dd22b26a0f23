import Verif.Password.BytesRead
/-
C154, the exponential tail: the part of the byte strings that are too short falls exponentially with their length.
-/
namespace Verif.Password
open Finset

theorem rho_half {m : Nat} (h : 1 < m) (h256 : m ≤ 256) : blockLen m = 1 ∧ rho m ≤ 1 / 2 := by
  have key : ∀ m : Fin 257, 1 < m.1 → blockLen m.1 = 1 := by decide +kernel
  have hb := key ⟨m, by omega⟩ h
  dsimp only at hb
  refine ⟨hb, ?_⟩
  have h1 := one_sub_rho h
  have h2 := (cost_le h256).1
  have h3 := (cost_le h256).2 h
  rw [hb] at h1
  push_cast at h1
  obtain ⟨r0, r1⟩ := rho_bounds h
  nlinarith

/-- If all numbers drawn are below at most 256: `L` bytes are too few only if more than `n` numbers are drawn, or else for at most `3^n (2/3)^L` of the byte strings. -/
theorem short_tail {α} (p : Prog α) (hp : p.NoFail) (hb : p.Below) : ∀ n L, short p L ≤ p.probMore n + 3 ^ n * (2 / 3) ^ L := by
  induction p with
  | ret a => intro n L; rw [short_ret]; have := (markov (Prog.ret a) n).2.2; positivity
  | fail e => exact absurd hp (by simp [Prog.NoFail])
  | stuck => intro n L; rw [short_stuck]; have := (markov (Prog.stuck : Prog α) n).2.2; positivity
  | draw m k ih =>
    obtain ⟨hm, hk⟩ := hp
    obtain ⟨h256, hb⟩ := hb
    intro n
    cases n with
    | zero =>
      intro L
      have := short_le_one (Prog.draw m k) L
      have h2 : (0 : ℚ) ≤ 3 ^ 0 * (2 / 3) ^ L := by positivity
      rw [Prog.probMore.eq_1]; linarith
    | succ n =>
      have hmq : (0 : ℚ) < m := by exact_mod_cast hm
      have havg : ∀ L, (∑ i ∈ range m, short (k i) L) / m ≤ (Prog.draw m k).probMore (n + 1) + 3 ^ n * (2 / 3) ^ L := by
        intro L
        have h1 : ∑ i ∈ range m, short (k i) L ≤ ∑ i ∈ range m, ((k i).probMore n + 3 ^ n * (2 / 3) ^ L) :=
          Finset.sum_le_sum fun i hi => ih i (hk i) (hb i (Finset.mem_range.1 hi)) n L
        rw [Finset.sum_add_distrib, Finset.sum_const, Finset.card_range, nsmul_eq_mul] at h1
        rw [Prog.probMore, div_add' _ _ _ hmq.ne']
        exact div_le_div_of_nonneg_right (by linarith) hmq.le
      rcases Nat.lt_or_ge 1 m with h | h
      · obtain ⟨hbl, hr⟩ := rho_half h h256
        obtain ⟨r0, r1⟩ := rho_bounds h
        intro L
        have hP := (markov (Prog.draw m k) (n + 1)).2.2
        induction L with
        | zero =>
          have := short_le_one (Prog.draw m k) 0
          have h3 : (1 : ℚ) ≤ 3 ^ (n + 1) := one_le_pow₀ (by norm_num)
          rw [pow_zero]; linarith
        | succ L ihL =>
          have e := short_draw h k L
          rw [hbl, Nat.add_comm] at e
          rw [e]
          have a := havg L
          have hx : (0 : ℚ) ≤ 3 ^ n * (2 / 3) ^ L := by positivity
          have e2 : (3 : ℚ) ^ (n + 1) * (2 / 3) ^ (L + 1) = 2 * (3 ^ n * (2 / 3) ^ L) := by rw [pow_succ, pow_succ]; ring
          have e3 : (3 : ℚ) ^ (n + 1) * (2 / 3) ^ L = 3 * (3 ^ n * (2 / 3) ^ L) := by rw [pow_succ]; ring
          rw [e2]; rw [e3] at ihL
          have b1 := mul_le_mul_of_nonneg_left a (by linarith : 0 ≤ 1 - rho m)
          have b2 := mul_le_mul_of_nonneg_left ihL r0
          nlinarith
      · obtain rfl : m = 1 := by omega
        intro L
        have a := havg L
        simp only [Finset.range_one, Finset.sum_singleton, Nat.cast_one, div_one] at a
        rw [short_one]
        have hx : (0 : ℚ) ≤ 3 ^ n * (2 / 3) ^ L := by positivity
        have e3 : (3 : ℚ) ^ (n + 1) * (2 / 3) ^ L = 3 * (3 ^ n * (2 / 3) ^ L) := by rw [pow_succ]; ring
        rw [e3]; linarith

/-- **C154** The part of the byte strings of length `L` that are too short for `Generate` falls exponentially with `L`: if no alphabet has more than `M` characters, then for every `k` it is at most
`length * (1 - 1/M)^k + 3^n (2/3)^L` with `n = length * (k + 1)`, for passwords of up to 256 characters from alphabets of up to 256. -/
theorem C154_exponential (g : Generator) (hg : g.AllAscii) (hs : g.Separate) (hd : g.Distinct)
    (hne : g.lowerLetters ≠ [] ∧ g.digits ≠ [] ∧ g.symbols ≠ []) (M : Nat) (h256 : M ≤ 256)
    (hM : g.lowerLetters.length + g.upperLetters.length ≤ M ∧ g.digits.length ≤ M ∧ g.symbols.length ≤ M)
    (length numDigits numSymbols : Nat) (hl : length ≤ 256) (noUpper allowRepeat : Bool) (hacc : Rejects g length numDigits numSymbols noUpper allowRepeat none) (fuel k L : Nat) :
    (Nat.card {s : Str // s.length = L ∧ (g.generate fuel length numDigits numSymbols noUpper allowRepeat).run s = .err .read} : ℚ) / 256 ^ L ≤
      length * (1 - 1 / (M : ℚ)) ^ k + 3 ^ (length * (k + 1)) * (2 / 3) ^ L := by
  rw [← short_eq]
  have ha := accepted_of_rejects hacc
  have hsum : numDigits + numSymbols ≤ length := by have := ha.1; omega
  have e := generate_accepted (fuel := fuel) ha
  have h1 := C138_exponential g hg hs hd hne length numDigits numSymbols noUpper allowRepeat hacc M hM fuel k
  rw [e] at h1 ⊢
  have h2 := short_tail (g.body fuel length numDigits numSymbols noUpper allowRepeat) (noFail_body (letters_ne hne.1 noUpper) hne.2.1 hne.2.2)
    (below_body hg ⟨hM.1.trans h256, hM.2.1.trans h256, hM.2.2.trans h256⟩ fuel length numDigits numSymbols noUpper allowRepeat hsum hl) (length * (k + 1)) L
  linarith

/-- **C154** For the most a default generator can be asked for, 300000 random bytes are too few in fewer than one case in a million. -/
theorem C154_default_tail (fuel : Nat) :
    (Nat.card {s : Str // s.length = 300000 ∧ (generate fuel 92 10 30 false false).run s = .err .read} : ℚ) / 256 ^ 300000 < 1 / 1000000 := by
  have h := C154_exponential defaultGenerator default_ascii default_separate default_distinct (by decide) 52 (by decide) (by decide) 92 10 30 (by decide) false false
    (.acceptFresh (by decide) rfl (by decide) (by decide) (by decide)) fuel 1085 300000
  refine lt_of_le_of_lt h ?_
  have a : ((92 : Nat) : ℚ) * (1 - 1 / ((52 : Nat) : ℚ)) ^ 1085 < 1 / 2000000 := by
    have e : (1 : ℚ) - 1 / (52 : Nat) = 51 / 52 := by norm_num
    rw [e, div_pow, mul_div_assoc', div_lt_div_iff₀ (by positivity) (by positivity)]
    have : 92 * 51 ^ 1085 * 2000000 < 1 * 52 ^ 1085 := by decide +kernel
    exact_mod_cast this
  have b : (3 : ℚ) ^ (92 * (1085 + 1)) * (2 / 3) ^ 300000 < 1 / 2000000 := by
    rw [div_pow, mul_div_assoc', div_lt_div_iff₀ (by positivity) (by positivity)]
    have : 3 ^ (92 * (1085 + 1)) * 2 ^ 300000 * 2000000 < 1 * 3 ^ 300000 := by decide +kernel
    exact_mod_cast this
  exact lt_of_lt_of_le (add_lt_add a b) (by norm_num)

end Verif.Password
