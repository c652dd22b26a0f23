import Verif.Password.DrawsProps
/-
C138, second tail: the probability of many random numbers falls exponentially.
-/
namespace Verif.Password
open Finset

theorem probMore_anti {α} (p : Prog α) : ∀ t, p.probMore (t + 1) ≤ p.probMore t := by
  induction p with
  | ret a => intro t; cases t <;> simp [Prog.probMore]
  | fail e => intro t; cases t <;> simp [Prog.probMore]
  | stuck => intro t; cases t <;> simp [Prog.probMore]
  | draw m k ih =>
    intro t
    cases t with
    | zero => exact (markov (Prog.draw m k) 1).2.1
    | succ t =>
      rw [Prog.probMore, Prog.probMore]
      exact div_le_div_of_nonneg_right (Finset.sum_le_sum fun i _ => ih i t) (by positivity)

theorem probMore_add {α} (p : Prog α) (c t : Nat) : p.probMore (c + t) ≤ p.probMore t := by
  induction c with
  | zero => rw [Nat.zero_add]
  | succ c ih => rw [Nat.add_right_comm]; exact (probMore_anti p _).trans ih

theorem probMore_bind {α β} (p : Prog α) (f : α → Prog β) (c2 : Nat) (ε : ℚ) (h0 : 0 ≤ ε) (h : ∀ x, p.Can x → (f x).probMore c2 ≤ ε) :
    ∀ c1, (p.bind f).probMore (c1 + c2) ≤ p.probMore c1 + ε := by
  induction p with
  | ret a =>
    intro c1
    have h1 := h a rfl
    have h2 := probMore_add (f a) c1 c2
    have h3 : (Prog.ret a).probMore c1 = 0 := by cases c1 <;> rfl
    rw [Prog.bind, h3]; linarith
  | fail e =>
    intro c1
    have h3 : (Prog.fail e : Prog α).probMore c1 = 0 := by cases c1 <;> rfl
    have h4 : (Prog.fail e : Prog β).probMore (c1 + c2) = 0 := by generalize c1 + c2 = t; cases t <;> rfl
    rw [Prog.bind, h3, h4]; linarith
  | stuck =>
    intro c1
    have h3 : (Prog.stuck : Prog α).probMore c1 = 0 := by cases c1 <;> rfl
    have h4 : (Prog.stuck : Prog β).probMore (c1 + c2) = 0 := by generalize c1 + c2 = t; cases t <;> rfl
    rw [Prog.bind, h3, h4]; linarith
  | draw m k ih =>
    intro c1
    rw [Prog.bind]
    cases c1 with
    | zero =>
      have := (markov (Prog.draw m fun i => (k i).bind f) (0 + c2)).2.1
      rw [Prog.probMore.eq_1]; linarith
    | succ c1 =>
      rw [Nat.add_right_comm, Prog.probMore, Prog.probMore]
      rcases Nat.eq_zero_or_pos m with rfl | hm
      · simpa using h0
      · have hm' : (0 : ℚ) < m := by exact_mod_cast hm
        have h1 : ∑ i ∈ range m, ((k i).bind f).probMore (c1 + c2) ≤ ∑ i ∈ range m, ((k i).probMore c1 + ε) :=
          Finset.sum_le_sum fun i hi => ih i (fun x hx => h x ⟨i, Finset.mem_range.1 hi, hx⟩) c1
        rw [Finset.sum_add_distrib, Finset.sum_const, Finset.card_range, nsmul_eq_mul] at h1
        rw [div_add' _ _ _ hm'.ne']
        apply div_le_div_of_nonneg_right _ hm'.le
        linarith

/-- Each retry for a character happens with a probability of at most `ρ`. -/
theorem tail_pick {A : Str} (hA : Ascii A) (noRep : Bool) (res : Str) (ρ : ℚ) (hρ : ((A.filter (rejects noRep res)).length : ℚ) ≤ ρ * A.length) (h0 : 0 ≤ ρ) :
    ∀ k fuel, (pick A noRep res fuel).probMore k ≤ ρ ^ k
  | 0, fuel => by rw [pow_zero]; exact (markov _ 0).2.1
  | k + 1, 0 => by
    have h : (Prog.stuck : Prog Str).probMore (k + 1) = 0 := rfl
    rw [pick, h]; positivity
  | k + 1, fuel + 1 => by
    have ih := tail_pick hA noRep res ρ hρ h0 k fuel
    rw [pick, randomElement, Prog.bind, Prog.probMore]
    have hterm : ∀ i ∈ range A.length, ((Prog.ret (stringOfByte (A.getD i 0))).bind fun ch => if (noRep && contains res ch) = true then pick A noRep res fuel else Prog.ret ch).probMore k =
        (fun c => if rejects noRep res c = true then (pick A noRep res fuel).probMore k else 0) (A.getD i 0) := by
      intro i hi
      have hi' := Finset.mem_range.mp hi
      have hmem : A.getD i 0 ∈ A := by
        have : A.getD i 0 = A[i] := by simp [List.getD, hi']
        rw [this]; exact List.getElem_mem hi'
      rw [Prog.bind, stringOfByte_ascii (hA _ hmem), contains_singleton]
      simp only [rejects]
      have hr : ∀ x : Str, (Prog.ret x).probMore k = 0 := fun x => by cases k <;> rfl
      split <;> simp_all
    rw [Finset.sum_congr rfl hterm, sum_getD A (fun c => if rejects noRep res c = true then (pick A noRep res fuel).probMore k else 0)]
    have hN : (0 : ℚ) ≤ A.length := by positivity
    have hP := (markov (pick A noRep res fuel) k).2.2
    have hsum : ∀ (B : Str) (x : ℚ), (B.map fun c => if rejects noRep res c = true then x else 0).sum = (B.filter (rejects noRep res)).length * x := by
      intro B x
      induction B with
      | nil => simp
      | cons b B ih =>
        simp only [List.map_cons, List.sum_cons, ih, List.filter_cons]
        split
        · rw [List.length_cons]; push_cast; ring
        · ring
    rw [hsum]
    rcases hN.eq_or_lt with h | h
    · rw [← h, div_zero]; positivity
    · rw [div_le_iff₀ h]
      have hk : 0 ≤ ρ ^ k := by positivity
      calc ((A.filter (rejects noRep res)).length : ℚ) * (pick A noRep res fuel).probMore k ≤ (ρ * A.length) * ρ ^ k :=
            mul_le_mul hρ ih hP (by positivity)
        _ = ρ ^ (k + 1) * A.length := by ring

theorem tail_step {A : Str} (hA : Ascii A) (noRep : Bool) (res : Str) (fuel k : Nat) (ρ : ℚ) (hρ : ((A.filter (rejects noRep res)).length : ℚ) ≤ ρ * A.length) (h0 : 0 ≤ ρ) :
    (step A noRep fuel res).probMore (k + 1) ≤ ρ ^ k := by
  have h1 := probMore_bind (pick A noRep res fuel) (fun ch => randomInsert res ch) 1 0 le_rfl (fun x _ => by
    simp only [randomInsert]
    split
    · simp [Prog.probMore]
    · simp [Prog.probMore]) k
  have h2 := tail_pick hA noRep res ρ hρ h0 k fuel
  rw [step]; linarith

theorem tail_fill {A : Str} (hA : Ascii A) (hne : A ≠ []) (hnd : A.Nodup) (noRep : Bool) (fuel k : Nat) (ρ : ℚ) (hρ0 : 0 ≤ ρ)
    (hρ : (A.length : ℚ) - 1 ≤ ρ * A.length) (n : Nat) (res : Str) (hroom : noRep = true → res.Nodup ∧ countIn A res + n ≤ A.length) :
    (fill A noRep fuel n res).probMore (n * (k + 1)) ≤ n * ρ ^ k := by
  induction n generalizing res with
  | zero => simp [fill, Prog.probMore]
  | succ n ih =>
    have hfree : (A.filter (rejects noRep res)).length < A.length := by
      cases hr : noRep with
      | false =>
        have h0 : A.filter (rejects false res) = [] := by simp [rejects]
        rw [h0]; exact List.length_pos_iff.mpr hne
      | true =>
        obtain ⟨h1, h2⟩ := hroom hr
        have := filter_mem_comm A res hnd h1
        have hfe : rejects true res = fun c => decide (c ∈ res) := by
          funext c; simp [rejects]
        rw [hfe, this]; omega
    have hfree' : ((A.filter (rejects noRep res)).length : ℚ) + 1 ≤ A.length := by exact_mod_cast hfree
    have h1 := tail_step hA noRep res fuel k ρ (by linarith) hρ0
    have h2 := probMore_bind (step A noRep fuel res) (fill A noRep fuel n) (n * (k + 1)) (n * ρ ^ k) (by positivity) (fun r hr => by
      apply ih r
      intro hn
      obtain ⟨_, c, hc, hf, i, hi, rfl⟩ := (can_step hA noRep fuel res r).mp hr
      obtain ⟨h1, h2⟩ := hroom hn
      have hperm := perm_insert c res i
      refine ⟨?_, ?_⟩
      · rw [hperm.nodup_iff, List.nodup_cons]; exact ⟨hf hn, h1⟩
      · rw [countIn_perm hperm]
        have : countIn A (c :: res) = countIn A res + 1 := by
          unfold countIn; simp [hc]
        omega) (k + 1)
    have e : (n + 1) * (k + 1) = (k + 1) + n * (k + 1) := by ring
    rw [fill, e]
    push_cast
    linarith

theorem tail_body {g : Generator} (hg : g.AllAscii) (hs : g.Separate) (hd : g.Distinct) {fuel k : Nat} {l d s : Int}
    {nu ar : Bool} (hacc : g.accepted l d s nu ar) (hd0 : 0 ≤ d) (hs0 : 0 ≤ s) (h1 : g.letters nu ≠ []) (h2 : g.digits ≠ [])
    (h3 : g.symbols ≠ []) (ρ : ℚ) (hρ0 : 0 ≤ ρ)
    (e1 : ((g.letters nu).length - 1 : ℚ) ≤ ρ * (g.letters nu).length)
    (e2 : (g.digits.length - 1 : ℚ) ≤ ρ * g.digits.length) (e3 : (g.symbols.length - 1 : ℚ) ≤ ρ * g.symbols.length) :
    (g.body fuel l d s nu ar).probMore (l.toNat * (k + 1)) ≤ l.toNat * ρ ^ k := by
  have hndL : (g.letters nu).Nodup := by
    unfold Generator.letters
    split
    · exact (List.nodup_append.mp hd.1).1
    · exact hd.1
  have hz : ∀ A : Str, countIn A [] = 0 := fun _ => rfl
  obtain ⟨ha0, hacc⟩ := hacc
  have room1 : (!ar) = true → ([] : Str).Nodup ∧ countIn (g.letters nu) [] + (l - d - s).toNat ≤ (g.letters nu).length :=
    fun hn => ⟨List.nodup_nil, by have := hacc (by simpa using hn); rw [hz]; omega⟩
  have b1 := tail_fill (letters_ascii hg nu) h1 hndL (!ar) fuel k ρ hρ0 e1 (l - d - s).toNat [] room1
  have h := probMore_bind (fill (g.letters nu) (!ar) fuel (l - d - s).toNat [])
    (fun r1 => (fill g.digits (!ar) fuel d.toNat r1).bind fun r2 => fill g.symbols (!ar) fuel s.toNat r2)
    (d.toNat * (k + 1) + s.toNat * (k + 1)) (d.toNat * ρ ^ k + s.toNat * ρ ^ k) (by positivity)
    (fun r1 hr1 => by
      obtain ⟨a, ha, ha', hpa, hna⟩ := can_fill (letters_ascii hg nu) _ _ _ _ _ hr1
      rw [List.append_nil] at hpa
      have hcd : countIn g.digits r1 = 0 := by
        rw [countIn_perm hpa]; exact countIn_none (letters_apart_digits hs nu) ha'
      have hcs : countIn g.symbols r1 = 0 := by
        rw [countIn_perm hpa]; exact countIn_none (letters_apart_symbols hs nu) ha'
      have room2 : (!ar) = true → r1.Nodup ∧ countIn g.digits r1 + d.toNat ≤ g.digits.length :=
        fun hn => ⟨hna hn List.nodup_nil, by have := hacc (by simpa using hn); rw [hcd]; omega⟩
      have b2 := tail_fill hg.2.2.1 h2 hd.2.1 (!ar) fuel k ρ hρ0 e2 d.toNat r1 room2
      refine (probMore_bind _ _ (s.toNat * (k + 1)) (s.toNat * ρ ^ k) (by positivity) ?_ _).trans (by linarith)
      intro r2 hr2
      obtain ⟨b, hb, hb', hpb, hnb⟩ := can_fill hg.2.2.1 _ _ _ _ _ hr2
      have hcs2 : countIn g.symbols r2 = 0 := by
        rw [countIn_perm hpb, countIn_append, hcs]; rw [countIn_none hs.2.2 hb']
      exact tail_fill hg.2.2.2 h3 hd.2.2 (!ar) fuel k ρ hρ0 e3 s.toNat r2
          (fun hn => ⟨hnb hn (hna hn List.nodup_nil), by have := hacc (by simpa using hn); rw [hcs2]; omega⟩))
    ((l - d - s).toNat * (k + 1))
  unfold Generator.body
  have hl : l.toNat = (l - d - s).toNat + d.toNat + s.toNat := by omega
  have e : l.toNat * (k + 1) = (l - d - s).toNat * (k + 1) + (d.toNat * (k + 1) + s.toNat * (k + 1)) := by rw [hl]; ring
  rw [e, hl]
  push_cast
  linarith

/-- C138, exponential tail: if no alphabet has more than `M` characters, then more than `length * (k + 1)` random numbers are drawn with a probability of at most
`length * (1 - 1/M)^k`. -/
theorem C138_exponential (g : Generator) (hg : g.AllAscii) (hs : g.Separate) (hd : g.Distinct)
    (hne : g.lowerLetters ≠ [] ∧ g.digits ≠ [] ∧ g.symbols ≠ []) (length numDigits numSymbols : Nat) (noUpper allowRepeat : Bool)
    (hacc : Rejects g length numDigits numSymbols noUpper allowRepeat none) (M : Nat)
    (hM : g.lowerLetters.length + g.upperLetters.length ≤ M ∧ g.digits.length ≤ M ∧ g.symbols.length ≤ M) (fuel k : Nat) :
    (g.generate fuel length numDigits numSymbols noUpper allowRepeat).probMore (length * (k + 1)) ≤ length * (1 - 1 / (M : ℚ)) ^ k := by
  have ha := accepted_of_rejects hacc
  rw [generate_accepted ha]
  have hMpos : 0 < M := by have := List.length_pos_iff.2 hne.1; omega
  have hMq : (1 : ℚ) ≤ M := by exact_mod_cast hMpos
  have frac : ∀ n : Nat, n ≤ M → (n : ℚ) - 1 ≤ (1 - 1 / (M : ℚ)) * n := by
    intro n hn
    have hn' : (n : ℚ) ≤ M := by exact_mod_cast hn
    have : (n : ℚ) / M ≤ 1 := (div_le_one₀ (by linarith)).2 hn'
    have e : (1 - 1 / (M : ℚ)) * n = n - n / M := by ring
    rw [e]; linarith
  have hL : (g.letters noUpper).length ≤ M := by
    unfold Generator.letters
    split
    · omega
    · rw [List.length_append]; omega
  have h0 : (0 : ℚ) ≤ 1 - 1 / (M : ℚ) := by
    have : 1 / (M : ℚ) ≤ 1 := (div_le_one₀ (by linarith)).2 hMq
    linarith
  have := tail_body hg hs hd ha (by omega) (by omega) (letters_ne hne.1 noUpper) hne.2.1 hne.2.2 (fuel := fuel) (k := k) (1 - 1 / (M : ℚ)) h0 (frac _ hL)
    (frac _ hM.2.1) (frac _ hM.2.2)
  simpa using this

/-- C138: the most a default generator can be asked for takes more than 100000 random numbers in fewer than one call in a million. -/
theorem C138_default_tail (fuel : Nat) : (generate fuel 92 10 30 false false).probMore 100000 < 1 / 1000000 := by
  have h := C138_exponential defaultGenerator default_ascii default_separate default_distinct (by decide) 92 10 30 false false
    (.acceptFresh (by decide) rfl (by decide) (by decide) (by decide)) 52 (by decide) fuel 1085
  have h2 := probMore_add (generate fuel 92 10 30 false false) 88 (92 * (1085 + 1))
  refine lt_of_le_of_lt h2 (lt_of_le_of_lt h ?_)
  have e : (1 : ℚ) - 1 / (52 : Nat) = 51 / 52 := by norm_num
  rw [e, div_pow, mul_div_assoc', div_lt_div_iff₀ (by positivity) (by positivity)]
  have : 92 * 51 ^ 1085 * 1000000 < 1 * 52 ^ 1085 := by decide +kernel
  exact_mod_cast this

end Verif.Password
