import Verif.Password.Bytes
import Verif.Password.DrawsTail
/-
C154: how many random bytes `Generate` reads.
-/
namespace Verif.Password
open Finset

/-- Average number of bytes `crypto/rand.Int(_, m)` reads: `blockLen m` bytes in every attempt, of which the part `m / 2^bitLen(m-1)` succeeds; nothing for `m = 1`. -/
def costOf (m : Nat) : ℚ := if m ≤ 1 then 0 else blockLen m * 2 ^ bitLen (m - 1) / m

/-- Average number of bytes a computation reads. C154_average says that it is that. -/
def Prog.bytes {α} : Prog α → ℚ
  | .ret _ => 0
  | .draw m k => costOf m + (∑ i ∈ range m, (k i).bytes) / m
  | .fail _ => 0
  | .stuck => 0

open Classical in
/-- The part of the byte strings of length `L` that are too short: the computation reads them all and wants more. -/
noncomputable def short {α} (p : Prog α) (L : Nat) : ℚ := (∑ s ∈ byteStrings L, if p.run s = .err .read then (1 : ℚ) else 0) / 256 ^ L

theorem short_eq {α} (p : Prog α) (L : Nat) : short p L = (Nat.card {s : Str // s.length = L ∧ p.run s = .err .read} : ℚ) / 256 ^ L := by
  classical
  unfold short
  rw [Finset.sum_boole, Nat.subtype_card ((byteStrings L).filter fun s => p.run s = .err .read) (fun s => by rw [Finset.mem_filter, mem_byteStrings])]

theorem short_nonneg {α} (p : Prog α) (L : Nat) : 0 ≤ short p L := by rw [short_eq]; positivity

theorem short_le_one {α} (p : Prog α) (L : Nat) : short p L ≤ 1 := by
  classical
  unfold short
  rw [div_le_one₀ (by positivity)]
  calc _ ≤ ∑ s ∈ byteStrings L, (1 : ℚ) := Finset.sum_le_sum fun _ _ => by split <;> norm_num
    _ = _ := by rw [Finset.sum_const, card_byteStrings]; simp

theorem short_before {α} {m : Nat} (h : 1 < m) (k : Nat → Prog α) (L : Nat) (hL : L < blockLen m) : short (.draw m k) L = 1 := by
  classical
  unfold short
  rw [div_eq_one_iff_eq (by positivity)]
  calc _ = ∑ s ∈ byteStrings L, (1 : ℚ) := Finset.sum_congr rfl fun s hs => by
        rw [if_pos]
        rw [Prog.run, randInt_short h s (by have := (mem_byteStrings _ _).1 hs; omega)]
    _ = _ := by rw [Finset.sum_const, card_byteStrings]; simp

theorem short_draw {α} {m : Nat} (h : 1 < m) (k : Nat → Prog α) (L : Nat) :
    short (.draw m k) (blockLen m + L) = (1 - rho m) * ((∑ i ∈ range m, short (k i) L) / m) + rho m * short (.draw m k) L := by
  classical
  have h0 : (256 : ℚ) ^ blockLen m ≠ 0 := by positivity
  have h1 : (256 : ℚ) ^ L ≠ 0 := by positivity
  have h2 : (m : ℚ) ≠ 0 := by exact_mod_cast (by omega : m ≠ 0)
  have e : ∑ s ∈ byteStrings (blockLen m + L), (if (Prog.draw m k).run s = .err .read then (1 : ℚ) else 0) =
      2 ^ (8 - topBits m) * ∑ i ∈ range m, (∑ s ∈ byteStrings L, if (k i).run s = .err .read then (1 : ℚ) else 0) +
        rej m * ∑ s ∈ byteStrings L, if (Prog.draw m k).run s = .err .read then (1 : ℚ) else 0 := by
    rw [sum_byteStrings, ← sum_cand h]
    refine Finset.sum_congr rfl fun a ha => ?_
    have ha' := (mem_byteStrings _ _).1 ha
    have e : ∀ b, (Prog.draw m k).run (a ++ b) = if cand m a < m then (k (cand m a)).run b else (Prog.draw m k).run b := by
      intro b
      rw [Prog.run, randInt_block h a b ha']
      unfold cand
      by_cases hh : ofBytes a % 2 ^ bitLen (m - 1) < m
      · simp only [hh, if_true]
      · simp only [hh, if_false, Prog.run]
    simp only [e]
    split
    · rfl
    · rfl
  unfold short
  rw [e, ← Finset.sum_div]
  unfold rho rej
  rw [pow_add]
  field_simp
  ring

theorem short_one {α} (k : Nat → Prog α) (L : Nat) : short (.draw 1 k) L = short (k 0) L := rfl

theorem short_ret {α} (a : α) (L : Nat) : short (.ret a) L = 0 := by
  classical
  unfold short
  rw [Finset.sum_eq_zero, zero_div]
  intro s _
  rw [if_neg]; intro h; cases h

theorem short_stuck {α} (L : Nat) : short (.stuck : Prog α) L = 0 := by
  classical
  unfold short
  rw [Finset.sum_eq_zero, zero_div]
  intro s _
  rw [if_neg]; intro h; cases h

theorem one_sub_rho {m : Nat} (h : 1 < m) : (1 - rho m) * costOf m = blockLen m := by
  have h2 : (m : ℚ) ≠ 0 := by exact_mod_cast (by omega : m ≠ 0)
  have hbl : 8 * blockLen m = bitLen (m - 1) + (8 - topBits m) := by
    have := topBits_add h; have := topBits_le m; have := blockLen_pos h; omega
  have h256 : (256 : ℚ) ^ blockLen m = 2 ^ bitLen (m - 1) * 2 ^ (8 - topBits m) := by
    rw [show (256 : ℚ) = 2 ^ 8 by norm_num, ← pow_mul, hbl, pow_add]
  unfold rho rej costOf
  rw [if_neg (by omega), h256]
  field_simp
  ring

theorem bytes_nonneg {α} (p : Prog α) : 0 ≤ p.bytes := by
  induction p with
  | ret a => exact le_refl _
  | draw m k ih =>
    have h1 : 0 ≤ (∑ i ∈ range m, (k i).bytes) / m := div_nonneg (Finset.sum_nonneg fun i _ => ih i) (by positivity)
    have h2 : 0 ≤ costOf m := by unfold costOf; split <;> positivity
    simp only [Prog.bytes]; linarith
  | fail e => exact le_refl _
  | stuck => exact le_refl _

theorem short_anti {α} (p : Prog α) (hp : p.NoFail) : ∀ L, short p (L + 1) ≤ short p L := by
  induction p with
  | ret a => intro L; rw [short_ret, short_ret]
  | fail e => exact absurd hp (by simp [Prog.NoFail])
  | stuck => intro L; rw [short_stuck, short_stuck]
  | draw m k ih =>
    obtain ⟨hm, hk⟩ := hp
    rcases Nat.lt_or_ge 1 m with h | h
    · intro L
      induction L using Nat.strong_induction_on with
      | _ L ihL =>
        rcases Nat.lt_or_ge L (blockLen m) with hL | hL
        · rw [short_before h k L hL]; exact short_le_one _ _
        · obtain ⟨L', rfl⟩ := Nat.exists_eq_add_of_le hL
          have hb := blockLen_pos h
          have a1 := ihL L' (by omega)
          obtain ⟨r0, r1⟩ := rho_bounds h
          have a2 : (∑ i ∈ range m, short (k i) (L' + 1)) / m ≤ (∑ i ∈ range m, short (k i) L') / m :=
            div_le_div_of_nonneg_right (Finset.sum_le_sum fun i _ => ih i (hk i) L') (by positivity)
          rw [Nat.add_assoc, short_draw h, short_draw h]
          nlinarith
    · obtain rfl : m = 1 := by omega
      intro L
      rw [short_one, short_one]
      exact ih 0 (hk 0) L

/-- Sum of the parts that are too short, up to `M`. -/
noncomputable def shortSum {α} (p : Prog α) (M : Nat) : ℚ := ∑ L ∈ range M, short p L

theorem shortSum_draw {α} {m : Nat} (h : 1 < m) (k : Nat → Prog α) (M : Nat) :
    shortSum (.draw m k) (blockLen m + M) = blockLen m + ((1 - rho m) * ((∑ i ∈ range m, shortSum (k i) M) / m) + rho m * shortSum (.draw m k) M) := by
  unfold shortSum
  rw [Finset.sum_range_add]
  have e1 : ∑ L ∈ range (blockLen m), short (.draw m k) L = blockLen m := by
    rw [Finset.sum_congr rfl fun L hL => short_before h k L (Finset.mem_range.1 hL)]
    simp
  rw [e1]
  simp only [short_draw h]
  rw [Finset.sum_add_distrib, ← Finset.mul_sum, ← Finset.mul_sum, Finset.sum_comm, ← Finset.sum_div]

theorem shortSum_nonneg {α} (p : Prog α) (M : Nat) : 0 ≤ shortSum p M := Finset.sum_nonneg fun _ _ => short_nonneg _ _

theorem shortSum_mono {α} (p : Prog α) {M M' : Nat} (h : M ≤ M') : shortSum p M ≤ shortSum p M' :=
  Finset.sum_le_sum_of_subset_of_nonneg (Finset.range_mono h) fun _ _ _ => short_nonneg _ _

theorem shortSum_le {α} (p : Prog α) (hp : p.NoFail) : ∀ M, shortSum p M ≤ p.bytes := by
  induction p with
  | ret a => intro M; unfold shortSum; simp [short_ret, Prog.bytes]
  | fail e => exact absurd hp (by simp [Prog.NoFail])
  | stuck => intro M; unfold shortSum; simp [short_stuck, Prog.bytes]
  | draw m k ih =>
    obtain ⟨hm, hk⟩ := hp
    rcases Nat.lt_or_ge 1 m with h | h
    · intro M
      obtain ⟨r0, r1⟩ := rho_bounds h
      have hc := one_sub_rho h
      have hb := blockLen_pos h
      have key : ∀ M, shortSum (.draw m k) M ≤ (Prog.draw m k).bytes := by
        intro M
        induction M using Nat.strong_induction_on with
        | _ M ihM =>
          have a2 : ∀ M', (∑ i ∈ range m, shortSum (k i) M') / m ≤ (∑ i ∈ range m, (k i).bytes) / m := fun M' =>
            div_le_div_of_nonneg_right (Finset.sum_le_sum fun i _ => ih i (hk i) M') (by positivity)
          have main : ∀ M', M' < M → shortSum (.draw m k) (blockLen m + M') ≤ (Prog.draw m k).bytes := by
            intro M' hM'
            have a1 := ihM M' hM'
            have a2 := a2 M'
            rw [shortSum_draw h]
            simp only [Prog.bytes] at a1 ⊢
            have e : costOf m + (∑ i ∈ range m, (k i).bytes) / m = blockLen m + ((1 - rho m) * ((∑ i ∈ range m, (k i).bytes) / m) + rho m * (costOf m + (∑ i ∈ range m, (k i).bytes) / m)) := by
              rw [← hc]; ring
            rw [e]
            nlinarith
          rcases Nat.eq_zero_or_pos M with rfl | hM
          · unfold shortSum; simpa using bytes_nonneg (Prog.draw m k)
          · rcases Nat.lt_or_ge M (blockLen m) with hL | hL
            · exact (shortSum_mono _ (by omega : M ≤ blockLen m + 0)).trans (main 0 hM)
            · obtain ⟨M', rfl⟩ := Nat.exists_eq_add_of_le hL
              exact main M' (by omega)
      exact key M
    · obtain rfl : m = 1 := by omega
      intro M
      have : shortSum (.draw 1 k) M = shortSum (k 0) M := rfl
      rw [this, Prog.bytes]
      simpa [costOf] using ih 0 (hk 0) M

theorem shortSum_lim {α} (p : Prog α) (hp : p.NoFail) : ∀ ε : ℚ, 0 < ε → ∃ M0, ∀ M, M0 ≤ M → p.bytes - ε ≤ shortSum p M := by
  induction p with
  | ret a => intro ε hε; exact ⟨0, fun M _ => by rw [Prog.bytes]; have := shortSum_nonneg (.ret a) M; linarith⟩
  | fail e => exact absurd hp (by simp [Prog.NoFail])
  | stuck => intro ε hε; exact ⟨0, fun M _ => by rw [Prog.bytes]; have := shortSum_nonneg (.stuck : Prog α) M; linarith⟩
  | draw m k ih =>
    obtain ⟨hm0, hk⟩ := hp
    intro ε hε
    rcases Nat.lt_or_ge 1 m with h | h
    · have hm : (0 : ℚ) < m := by exact_mod_cast hm0
      obtain ⟨r0, r1⟩ := rho_bounds h
      have hc := one_sub_rho h
      have hex : ∃ L0, ∀ i < m, ∀ L, L0 ≤ L → (k i).bytes - ε / 2 ≤ shortSum (k i) L := by
        choose f hf using fun i => ih i (hk i) (ε / 2) (by linarith)
        refine ⟨∑ i ∈ range m, f i, fun i hi L hL => hf i L (le_trans ?_ hL)⟩
        exact Finset.single_le_sum (f := f) (fun _ _ => Nat.zero_le _) (Finset.mem_range.2 hi)
      obtain ⟨L0, h0⟩ := hex
      set A := (∑ i ∈ range m, (k i).bytes) / m with hA
      have havg : ∀ L, L0 ≤ L → A - ε / 2 ≤ (∑ i ∈ range m, shortSum (k i) L) / m := by
        intro L hL
        rw [hA, le_div_iff₀ hm, sub_mul, div_mul_cancel₀ _ hm.ne']
        have := Finset.sum_le_sum (s := range m) fun i hi => h0 i (Finset.mem_range.1 hi) L hL
        rw [Finset.sum_sub_distrib, Finset.sum_const, Finset.card_range, nsmul_eq_mul] at this
        linarith
      have hB : (Prog.draw m k).bytes = costOf m + A := by rw [Prog.bytes]
      have key : ∀ t L, L0 + t * blockLen m ≤ L → (1 - rho m ^ t) * ((Prog.draw m k).bytes - ε / 2) ≤ shortSum (.draw m k) L := by
        intro t
        induction t with
        | zero => intro L _; simpa using shortSum_nonneg (.draw m k) L
        | succ t iht =>
          intro L hL
          rw [Nat.add_mul, Nat.one_mul] at hL
          obtain ⟨L', rfl⟩ := Nat.exists_eq_add_of_le (show blockLen m ≤ L by omega)
          have a1 := iht L' (by omega)
          have a2 := havg L' (by nlinarith)
          rw [shortSum_draw h, pow_succ, hB, ← hc]
          rw [hB] at a1
          nlinarith
      have hpos : 0 ≤ (Prog.draw m k).bytes := bytes_nonneg _
      obtain ⟨t, ht⟩ := exists_pow_lt_of_lt_one (show (0 : ℚ) < ε / (2 * ((Prog.draw m k).bytes + 1)) by positivity) r1
      refine ⟨L0 + t * blockLen m, fun L hL => le_trans ?_ (key t L hL)⟩
      have p2 : 0 ≤ rho m ^ t := pow_nonneg r0 t
      rw [lt_div_iff₀ (by positivity)] at ht
      nlinarith
    · obtain rfl : m = 1 := by omega
      obtain ⟨M0, h0⟩ := ih 0 (hk 0) ε hε
      refine ⟨M0, fun M hM => ?_⟩
      have : shortSum (.draw 1 k) M = shortSum (k 0) M := rfl
      rw [this, Prog.bytes]
      simpa [costOf] using h0 M hM

/-- **C154** For any computation over `rand.Int` that does not fail by itself, `Prog.bytes` is the average number of uniformly distributed random bytes it reads: the sum over all `L` of
the part of the byte strings of length `L` that are too short. -/
theorem C154_average {α} (p : Prog α) (hp : p.NoFail) :
    (∀ M, ∑ L ∈ range M, (Nat.card {s : Str // s.length = L ∧ p.run s = .err .read} : ℚ) / 256 ^ L ≤ p.bytes) ∧
    ∀ ε : ℚ, 0 < ε → ∃ M0, ∀ M, M0 ≤ M → p.bytes - ε ≤ ∑ L ∈ range M, (Nat.card {s : Str // s.length = L ∧ p.run s = .err .read} : ℚ) / 256 ^ L := by
  simp only [← short_eq]
  exact ⟨shortSum_le p hp, shortSum_lim p hp⟩

/-- **C154** `L` bytes are too few for at most the average, divided by `L + 1`, of all byte strings. -/
theorem C154_enough {α} (p : Prog α) (hp : p.NoFail) (L : Nat) :
    (Nat.card {s : Str // s.length = L ∧ p.run s = .err .read} : ℚ) / 256 ^ L ≤ p.bytes / (L + 1) := by
  rw [← short_eq, le_div_iff₀ (by positivity)]
  refine le_trans ?_ (shortSum_le p hp (L + 1))
  have hanti : ∀ d L', short p (L' + d) ≤ short p L' := by
    intro d
    induction d with
    | zero => intro L'; exact le_rfl
    | succ d ih => intro L'; exact (short_anti p hp _).trans (ih L')
  have : ∑ _j ∈ range (L + 1), short p L ≤ ∑ j ∈ range (L + 1), short p j := Finset.sum_le_sum fun j hj => by
    have hj := Finset.mem_range.1 hj
    have := hanti (L - j) j
    rwa [show j + (L - j) = L by omega] at this
  rw [Finset.sum_const, Finset.card_range, nsmul_eq_mul] at this
  unfold shortSum
  push_cast at this
  linarith

/-! ### The bytes of `Generate` -/

/-- All numbers drawn are below at most 256. -/
def Prog.Below {α} : Prog α → Prop
  | .draw m k => m ≤ 256 ∧ ∀ i < m, (k i).Below
  | _ => True

theorem below_bind {α β} (p : Prog α) (f : α → Prog β) (hp : p.Below) (hf : ∀ x, p.Can x → (f x).Below) : (p.bind f).Below := by
  induction p with
  | ret a => exact hf a rfl
  | draw m k ih => exact ⟨hp.1, fun i hi => ih i (hp.2 i hi) fun x hx => hf x ⟨i, hi, hx⟩⟩
  | fail e => trivial
  | stuck => trivial

theorem cost_le {m : Nat} (h : m ≤ 256) : costOf m ≤ 2 ∧ (1 < m → 1 ≤ costOf m) := by
  have key : ∀ m : Fin 257, 1 < m.1 → blockLen m.1 * 2 ^ bitLen (m.1 - 1) ≤ 2 * m.1 ∧ m.1 ≤ blockLen m.1 * 2 ^ bitLen (m.1 - 1) := by decide +kernel
  unfold costOf
  split
  · exact ⟨by norm_num, fun h => by omega⟩
  · have hm : (0 : ℚ) < m := by exact_mod_cast (by omega : 0 < m)
    obtain ⟨k1, k2⟩ := key ⟨m, by omega⟩ (by dsimp only; omega)
    dsimp only at k1 k2
    refine ⟨?_, fun _ => ?_⟩
    · rw [div_le_iff₀ hm]; exact_mod_cast k1
    · rw [le_div_iff₀ hm, one_mul]; exact_mod_cast k2

theorem bytes_le_draws {α} (p : Prog α) (h : p.Below) : p.bytes ≤ 2 * p.draws := by
  induction p with
  | ret a => simp [Prog.bytes, Prog.draws]
  | draw m k ih =>
    have h1 := (cost_le h.1).1
    have h2 : (∑ i ∈ range m, (k i).bytes) / m ≤ (∑ i ∈ range m, 2 * (k i).draws) / m :=
      div_le_div_of_nonneg_right (Finset.sum_le_sum fun i hi => ih i (h.2 i (Finset.mem_range.1 hi))) (by positivity)
    rw [← Finset.mul_sum, mul_div_assoc] at h2
    simp only [Prog.bytes, Prog.draws]
    linarith
  | fail e => simp [Prog.bytes, Prog.draws]
  | stuck => simp [Prog.bytes, Prog.draws]

theorem below_pick {A : Str} (h : A.length ≤ 256) (noRep : Bool) (res : Str) : ∀ fuel, (pick A noRep res fuel).Below
  | 0 => trivial
  | fuel + 1 => by
    rw [pick]
    refine below_bind _ _ ⟨h, fun _ _ => trivial⟩ fun ch _ => ?_
    split
    · exact below_pick h noRep res fuel
    · trivial

theorem below_fill {A : Str} (hA : Ascii A) (h : A.length ≤ 256) (noRep : Bool) (fuel : Nat) : ∀ (n : Nat) (res : Str), res.length + n ≤ 256 → (fill A noRep fuel n res).Below
  | 0, _, _ => trivial
  | n + 1, res, hr => by
    rw [fill]
    refine below_bind _ _ ?_ fun r hr' => ?_
    · rw [step]
      refine below_bind _ _ (below_pick h noRep res fuel) fun ch _ => ?_
      unfold randomInsert
      split
      · trivial
      · exact ⟨by omega, fun _ _ => trivial⟩
    · obtain ⟨_, c, hc, hf, i, hi, rfl⟩ := (can_step hA noRep fuel res r).mp hr'
      apply below_fill hA h
      have := (perm_insert c res i).length_eq
      rw [List.length_cons] at this
      omega

theorem below_body {g : Generator} (hg : g.AllAscii) (hl : g.lowerLetters.length + g.upperLetters.length ≤ 256 ∧ g.digits.length ≤ 256 ∧ g.symbols.length ≤ 256)
    (fuel l d s : Nat) (nu ar : Bool) (hd : d + s ≤ l) (h : l ≤ 256) : (g.body fuel l d s nu ar).Below := by
  have hL : (g.letters nu).length ≤ 256 := by
    unfold Generator.letters
    split
    · omega
    · rw [List.length_append]; omega
  unfold Generator.body
  refine below_bind _ _ (below_fill (letters_ascii hg nu) hL _ fuel _ [] (by simp; omega)) fun r1 h1 => ?_
  obtain ⟨a, ha, ha', hpa, hna⟩ := can_fill (letters_ascii hg nu) _ _ _ _ _ h1
  have e1 : r1.length = ((l : Int) - d - s).toNat := by rw [hpa.length_eq]; simp [ha]
  refine below_bind _ _ (below_fill hg.2.2.1 hl.2.1 _ fuel _ r1 (by omega)) fun r2 h2 => ?_
  obtain ⟨b, hb, hb', hpb, hnb⟩ := can_fill hg.2.2.1 _ _ _ _ _ h2
  have e2 : r2.length = r1.length + d := by rw [hpb.length_eq, List.length_append, hb]; simp; omega
  exact below_fill hg.2.2.2 hl.2.2 _ fuel _ r2 (by omega)

/-- **C154** On average `Generate` reads at most two bytes for each random number it draws (C138), for passwords of up to 256 characters from alphabets of up to 256. Without repeats these are
at most twice `averageDraws`. -/
theorem C154_generate (g : Generator) (hg : g.AllAscii) (hs : g.Separate) (hd : g.Distinct)
    (hne : g.lowerLetters ≠ [] ∧ g.digits ≠ [] ∧ g.symbols ≠ [])
    (hl : g.lowerLetters.length + g.upperLetters.length ≤ 256 ∧ g.digits.length ≤ 256 ∧ g.symbols.length ≤ 256)
    (length numDigits numSymbols : Nat) (h256 : length ≤ 256) (noUpper allowRepeat : Bool) (hacc : Rejects g length numDigits numSymbols noUpper allowRepeat none) (fuel : Nat) :
    let p := g.generate fuel length numDigits numSymbols noUpper allowRepeat
    p.NoFail ∧ p.bytes ≤ 2 * p.draws ∧ (allowRepeat = false → p.bytes ≤ 2 * averageDraws g length numDigits numSymbols noUpper) := by
  intro p
  have ha := accepted_of_rejects hacc
  have e : p = g.body fuel length numDigits numSymbols noUpper allowRepeat := generate_accepted ha
  have hnf : p.NoFail := by rw [e]; exact noFail_body (letters_ne hne.1 noUpper) hne.2.1 hne.2.2
  have hb : p.bytes ≤ 2 * p.draws := by
    rw [e]
    refine bytes_le_draws _ (below_body hg hl fuel length numDigits numSymbols noUpper allowRepeat ?_ h256)
    have := ha.1; omega
  refine ⟨hnf, hb, fun hr => ?_⟩
  subst hr
  obtain ⟨ρ, -, -, h⟩ := C138_average g hg hs hd hne length numDigits numSymbols noUpper hacc
  have := (h fuel).2
  linarith

/-- **C154** The most a default generator can be asked for takes fewer than 1000 random bytes on average, and 100000 bytes are too few in fewer than one case in a hundred. -/
theorem C154_default (fuel : Nat) : (generate fuel 92 10 30 false false).bytes < 1000 ∧
    (Nat.card {s : Str // s.length = 100000 ∧ (generate fuel 92 10 30 false false).run s = .err .read} : ℚ) / 256 ^ 100000 < 1 / 100 := by
  obtain ⟨h1, -, h2⟩ := C154_generate defaultGenerator default_ascii default_separate default_distinct (by decide) (by decide) 92 10 30 (by decide) false false
    (.acceptFresh (by decide) rfl (by decide) (by decide) (by decide)) fuel
  have h3 : (generate fuel 92 10 30 false false).bytes < 1000 := lt_of_le_of_lt (h2 rfl) (by have := C138_default.1; linarith)
  refine ⟨h3, lt_of_le_of_lt (C154_enough _ h1 100000) ?_⟩
  rw [div_lt_iff₀ (by norm_num)]
  refine lt_trans h3 ?_
  norm_num

end Verif.Password
