import Verif.Password.LemmasGen
/-
How many random numbers `Generate` asks its source for (C138): vocabulary and lemmas.
-/
namespace Verif.Password
open Finset

/-- Average number of calls of `rand.Int` a computation makes when every call is uniform and the calls are independent. -/
def Prog.draws {α} : Prog α → ℚ
  | .ret _ => 0
  | .draw m k => 1 + (∑ i ∈ range m, (k i).draws) / m
  | .fail _ => 0
  | .stuck => 0

/-- Probability that a computation makes more than `t` calls of `rand.Int`. -/
def Prog.probMore {α} : Prog α → Nat → ℚ
  | .draw _ _, 0 => 1
  | .draw m k, t + 1 => (∑ i ∈ range m, (k i).probMore t) / m
  | _, _ => 0

/-- Some answers of the random source make the computation return `a` after exactly `n` calls of `rand.Int`. -/
def Prog.CanIn {α} : Prog α → Nat → α → Prop
  | .ret b, n, a => n = 0 ∧ a = b
  | .draw m k, n, a => ∃ n' i, n = n' + 1 ∧ i < m ∧ (k i).CanIn n' a
  | .fail _, _, _ => False
  | .stuck, _, _ => False

/-- Average number of tries to get `d` different elements out of `a`, drawing one at a time with equal probability and
throwing repetitions away: `a/a + a/(a-1) + ...`, `d` terms. -/
def tries (a d : Nat) : ℚ := ∑ j ∈ range d, (a : ℚ) / (a - j)

theorem draws_nonneg {α} (p : Prog α) : 0 ≤ p.draws := by
  induction p with
  | ret a => exact le_refl _
  | draw m k ih =>
    have : 0 ≤ (∑ i ∈ range m, (k i).draws) / m := div_nonneg (Finset.sum_nonneg fun i _ => ih i) (by positivity)
    simp only [Prog.draws]; linarith
  | fail e => exact le_refl _
  | stuck => exact le_refl _

theorem draws_bind {α β} (p : Prog α) (f : α → Prog β) :
    (p.bind f).draws = p.draws + p.expect (fun a => (f a).draws) := by
  induction p with
  | ret a => simp [Prog.bind, Prog.draws, Prog.expect]
  | draw m k ih =>
    simp only [Prog.bind, Prog.draws, Prog.expect, ih]
    rw [Finset.sum_add_distrib, add_div]; ring
  | fail e => simp [Prog.bind, Prog.draws, Prog.expect]
  | stuck => simp [Prog.bind, Prog.draws, Prog.expect]

theorem markov {α} (p : Prog α) (t : Nat) : ((t : ℚ) + 1) * p.probMore t ≤ p.draws ∧ p.probMore t ≤ 1 ∧ 0 ≤ p.probMore t := by
  induction p generalizing t with
  | ret a => simp [Prog.probMore, Prog.draws]
  | draw m k ih =>
    cases t with
    | zero =>
      have : 0 ≤ (∑ i ∈ range m, (k i).draws) / m :=
        div_nonneg (Finset.sum_nonneg fun i _ => draws_nonneg _) (by positivity)
      simp only [Prog.probMore, Prog.draws]
      refine ⟨?_, le_refl _, by norm_num⟩
      push_cast; linarith
    | succ t =>
      simp only [Prog.probMore, Prog.draws]
      have hone : (∑ i ∈ range m, (k i).probMore t) / m ≤ 1 := by
        rcases Nat.eq_zero_or_pos m with rfl | hm
        · simp
        · have hm' : (0 : ℚ) < m := by exact_mod_cast hm
          rw [div_le_iff₀ hm', one_mul]
          calc ∑ i ∈ range m, (k i).probMore t ≤ ∑ i ∈ range m, (1 : ℚ) := Finset.sum_le_sum fun i _ => (ih i t).2.1
            _ = m := by simp
      have h0 : 0 ≤ (∑ i ∈ range m, (k i).probMore t) / m :=
        div_nonneg (Finset.sum_nonneg fun i _ => (ih i t).2.2) (by positivity)
      have hle : ((t : ℚ) + 1) * ((∑ i ∈ range m, (k i).probMore t) / m) ≤ (∑ i ∈ range m, (k i).draws) / m := by
        rw [← mul_div_assoc, Finset.mul_sum]
        apply div_le_div_of_nonneg_right _ (by positivity)
        exact Finset.sum_le_sum fun i _ => (ih i t).1
      refine ⟨?_, hone, h0⟩
      push_cast
      linarith
  | fail e => simp [Prog.probMore, Prog.draws]
  | stuck => simp [Prog.probMore, Prog.draws]

theorem draws_pick {A : Str} (hA : Ascii A) (hne : A ≠ []) (noRep : Bool) (res : Str) (fuel : Nat) :
    (pick A noRep res fuel).draws = weight A.length (A.filter (rejects noRep res)).length fuel * A.length := by
  have hN : (A.length : ℚ) ≠ 0 := by
    have := List.length_pos_iff.mpr hne
    exact_mod_cast (by omega : A.length ≠ 0)
  induction fuel with
  | zero => simp [pick, Prog.draws, weight]
  | succ f ih =>
    rw [pick, draws_bind]
    simp only [randomElement, Prog.expect, Prog.draws]
    have hterm : ∀ i ∈ range A.length,
        (if (noRep && contains res (stringOfByte (A.getD i 0))) = true then pick A noRep res f
          else Prog.ret (stringOfByte (A.getD i 0))).draws =
        (fun c => if rejects noRep res c = true then (pick A noRep res f).draws else 0) (A.getD i 0) := by
      intro i hi
      have hi' := Finset.mem_range.mp hi
      have hmem : A.getD i 0 ∈ A := by
        have : A.getD i 0 = A[i] := by simp [List.getD, hi']
        rw [this]; exact List.getElem_mem hi'
      rw [stringOfByte_ascii (hA _ hmem), contains_singleton]
      simp only [rejects]
      split <;> simp_all [Prog.draws]
    rw [Finset.sum_congr rfl hterm,
      sum_getD A (fun c => if rejects noRep res c = true then (pick A noRep res f).draws else 0),
      sum_split A (rejects noRep res) _ (fun _ => 0), ih, weight]
    simp only [Finset.sum_const_zero, zero_div, add_zero, List.map_const', List.sum_replicate, nsmul_eq_mul, mul_zero]
    field_simp

theorem draws_insert (r : Str) (c : UInt8) : (randomInsert r [c]).draws = if r = [] then 0 else 1 := by
  unfold randomInsert
  split
  · simp [Prog.draws]
  · simp [Prog.draws]

/-- One more character: the pick and the insertion. -/
theorem draws_step {A : Str} (hA : Ascii A) (hne : A ≠ []) (noRep : Bool) (res : Str) (fuel : Nat)
    (hfree : (A.filter (rejects noRep res)).length < A.length) :
    (step A noRep fuel res).draws =
      (1 - (((A.filter (rejects noRep res)).length : ℚ) / A.length) ^ fuel) *
        ((A.length : ℚ) / (A.length - (A.filter (rejects noRep res)).length) + if res = [] then 0 else 1) := by
  rw [step, draws_bind, draws_pick hA hne, expect_pick hA]
  simp only [draws_insert, List.map_const', List.sum_replicate, nsmul_eq_mul]
  have hsum : (A.filter (rejects noRep res)).length + (A.filter (fun c => !rejects noRep res c)).length = A.length := by
    have := List.length_eq_countP_add_countP (rejects noRep res) (l := A)
    rw [List.countP_eq_length_filter, List.countP_eq_length_filter] at this
    simpa using this.symm
  set u := (A.filter (rejects noRep res)).length
  set v := (A.filter (fun c => !rejects noRep res c)).length
  have hN : (0 : ℚ) < A.length := by exact_mod_cast (by omega : 0 < A.length)
  have hlt : (u : ℚ) < A.length := by exact_mod_cast hfree
  have hv : (v : ℚ) = A.length - u := by
    have : (u : ℚ) + v = A.length := by exact_mod_cast hsum
    linarith
  rw [hv]
  have hw := weight_closed (A.length : ℚ) u hN hlt fuel
  have hpos : (A.length : ℚ) - u ≠ 0 := by linarith
  rw [← hw]
  field_simp

/-- The average a whole loop would make without a limit on the retries. -/
def fillDraws (N u r : Nat) (noRep : Bool) (n : Nat) : ℚ :=
  ∑ j ∈ range n, ((N : ℚ) / (N - (if noRep then ((u + j : Nat) : ℚ) else 0)) + if r + j = 0 then 0 else 1)

theorem fillDraws_succ (N u r : Nat) (noRep : Bool) (n : Nat) :
    fillDraws N u r noRep (n + 1) =
      ((N : ℚ) / (N - (if noRep then (u : ℚ) else 0)) + if r = 0 then 0 else 1) + fillDraws N (u + 1) (r + 1) noRep n := by
  unfold fillDraws
  rw [Finset.sum_range_succ', add_comm]
  have h0 : ∀ j, u + (j + 1) = u + 1 + j ∧ r + (j + 1) = r + 1 + j := fun j => by omega
  have hc := Finset.sum_congr (rfl : range n = range n) (f := fun j => (N : ℚ) / (N - (if noRep then ((u + (j + 1) : Nat) : ℚ) else 0))
      + if r + (j + 1) = 0 then 0 else 1)
    (g := fun j => (N : ℚ) / (N - (if noRep then ((u + 1 + j : Nat) : ℚ) else 0)) + if r + 1 + j = 0 then 0 else 1)
    (fun j _ => by rw [(h0 j).1, (h0 j).2])
  rw [hc, Nat.add_zero, Nat.add_zero]

theorem fillDraws_nonneg (N u r : Nat) (noRep : Bool) (n : Nat) (h : noRep = true → u + n ≤ N) :
    0 ≤ fillDraws N u r noRep n := by
  apply Finset.sum_nonneg
  intro j hj
  have hj' := Finset.mem_range.mp hj
  apply add_nonneg
  · apply div_nonneg (by positivity)
    cases noRep with
    | false => simp
    | true =>
      have h1 := h rfl
      have : ((u + j : Nat) : ℚ) ≤ N := by exact_mod_cast (by omega : u + j ≤ N)
      simpa using this
  · split <;> norm_num

/-- Lower and upper bound for the average of two computations in sequence. -/
theorem draws_bind_bounds {α β} (p : Prog α) (f : α → Prog β) (a b δ ε : ℚ) (ha : 0 ≤ a) (hb : 0 ≤ b) (hδ : 0 ≤ δ)
    (hp : 1 - ε ≤ p.probDone) (h1 : a * (1 - ε) ≤ p.draws ∧ p.draws ≤ a)
    (h2 : ∀ x, p.Can x → b * (1 - δ) ≤ (f x).draws ∧ (f x).draws ≤ b) :
    (a + b) * (1 - (ε + δ)) ≤ (p.bind f).draws ∧ (p.bind f).draws ≤ a + b := by
  have l : p.expect (fun _ => 1 * (b * (1 - δ))) ≤ p.expect (fun x => (f x).draws) :=
    expect_mono p _ _ fun x hx => by have := (h2 x hx).1; linarith
  have u : p.expect (fun x => (f x).draws) ≤ p.expect (fun _ => 1 * b) :=
    expect_mono p _ _ fun x hx => by have := (h2 x hx).2; linarith
  rw [expect_mul] at l u
  have hd := probDone_le p
  unfold Prog.probDone at *
  rw [draws_bind]
  set q := p.expect fun _ => (1 : ℚ)
  have hq : q * b ≤ b := by nlinarith
  refine ⟨?_, by linarith [h1.2]⟩
  have e1 : b * (1 - ε - δ) ≤ q * (b * (1 - δ)) := by
    have : 1 - ε - δ ≤ q * (1 - δ) := by nlinarith
    nlinarith
  have e2 : 0 ≤ a * δ := mul_nonneg ha hδ
  nlinarith [h1.1]

theorem draws_fill {A : Str} (hA : Ascii A) (hne : A ≠ []) (hnd : A.Nodup) (noRep : Bool) (fuel : Nat) (ρ : ℚ) (hρ0 : 0 ≤ ρ)
    (hρ : ((A.length : ℚ) - 1) / A.length ≤ ρ) (n : Nat) (res : Str)
    (hroom : noRep = true → res.Nodup ∧ countIn A res + n ≤ A.length) :
    fillDraws A.length (countIn A res) res.length noRep n * (1 - n * ρ ^ fuel) ≤ (fill A noRep fuel n res).draws ∧
    (fill A noRep fuel n res).draws ≤ fillDraws A.length (countIn A res) res.length noRep n := by
  induction n generalizing res with
  | zero => simp [fill, Prog.draws, fillDraws]
  | succ n ih =>
    have hu : noRep = true → (A.filter (rejects noRep res)).length = countIn A res := by
      intro hr
      obtain ⟨h1, h2⟩ := hroom hr
      have := filter_mem_comm A res hnd h1
      have hfe : rejects noRep res = fun c => decide (c ∈ res) := by
        funext c; simp [rejects, hr]
      rw [hfe, this, countIn]
    have hu0 : noRep = false → (A.filter (rejects noRep res)).length = 0 := by
      intro hr; simp [rejects, hr]
    have hlen : 0 < A.length := List.length_pos_iff.mpr hne
    have hfree : (A.filter (rejects noRep res)).length < A.length := by
      cases hr : noRep with
      | false => rw [← hr, hu0 hr]; exact hlen
      | true => have := (hroom hr).2; rw [← hr, hu hr]; omega
    have hueq : ((A.filter (rejects noRep res)).length : ℚ) = if noRep then (countIn A res : ℚ) else 0 := by
      cases hr : noRep with
      | false => rw [← hr, hu0 hr]; simp [hr]
      | true => rw [← hr, hu hr]; simp [hr]
    have hN : (0 : ℚ) < A.length := by exact_mod_cast hlen
    have hlt : ((A.filter (rejects noRep res)).length : ℚ) < A.length := by exact_mod_cast hfree
    have hstep := draws_step hA hne noRep res fuel hfree
    have hq0 : 0 ≤ ((A.filter (rejects noRep res)).length : ℚ) / A.length := div_nonneg (Nat.cast_nonneg _) hN.le
    have hqρ : ((A.filter (rejects noRep res)).length : ℚ) / A.length ≤ ρ := by
      refine le_trans ?_ hρ
      apply div_le_div_of_nonneg_right _ hN.le
      have : ((A.filter (rejects noRep res)).length : ℚ) + 1 ≤ A.length := by exact_mod_cast hfree
      linarith
    have hpow := pow_le_pow_left₀ hq0 hqρ fuel
    have hpow0 := pow_nonneg hq0 fuel
    have hρf : 0 ≤ ρ ^ fuel := pow_nonneg hρ0 fuel
    have he0 : 0 ≤ (A.length : ℚ) / (A.length - (A.filter (rejects noRep res)).length) + if res = [] then 0 else 1 := by
      apply add_nonneg (div_nonneg hN.le (by linarith))
      split <;> norm_num
    have h := draws_bind_bounds (step A noRep fuel res) (fill A noRep fuel n)
      ((A.length : ℚ) / (A.length - (A.filter (rejects noRep res)).length) + if res = [] then 0 else 1)
      (fillDraws A.length (countIn A res + 1) (res.length + 1) noRep n) (n * ρ ^ fuel) (ρ ^ fuel) he0
      (fillDraws_nonneg _ _ _ _ _ (fun hr => by have := (hroom hr).2; omega)) (by positivity)
      (probDone_step hA noRep res fuel hfree ρ hρ)
      (by rw [hstep]; constructor <;> nlinarith)
      (fun r hr => by
        obtain ⟨_, c, hc, hf, i, hi, rfl⟩ := (can_step hA noRep fuel res r).mp hr
        have hperm := perm_insert c res i
        have hcnt : countIn A (res.take i ++ c :: res.drop i) = countIn A res + 1 := by
          rw [countIn_perm hperm]; unfold countIn; simp [hc]
        have hlen' : (res.take i ++ c :: res.drop i).length = res.length + 1 := by rw [hperm.length_eq]; simp
        have := ih (res.take i ++ c :: res.drop i) (fun hn => by
          obtain ⟨h1, h2⟩ := hroom hn
          refine ⟨?_, by omega⟩
          rw [hperm.nodup_iff, List.nodup_cons]; exact ⟨hf hn, h1⟩)
        rwa [hcnt, hlen'] at this)
    rw [fill, fillDraws_succ]
    have hres : (if res.length = 0 then (0 : ℚ) else 1) = if res = [] then 0 else 1 := by simp
    rw [← hueq, hres]
    have hexp : (1 : ℚ) - ((n + 1 : Nat) : ℚ) * ρ ^ fuel = 1 - (ρ ^ fuel + n * ρ ^ fuel) := by push_cast; ring
    rw [hexp]
    exact h

/-- The loops of an accepted request. -/
theorem draws_body {g : Generator} (hg : g.AllAscii) (hs : g.Separate) (hd : g.Distinct) {fuel : Nat} {l d s : Int}
    {nu ar : Bool} (hacc : g.accepted l d s nu ar) (hd0 : 0 ≤ d) (hs0 : 0 ≤ s) (h1 : g.letters nu ≠ []) (h2 : g.digits ≠ [])
    (h3 : g.symbols ≠ []) (ρ : ℚ) (hρ0 : 0 ≤ ρ)
    (e1 : ((g.letters nu).length - 1 : ℚ) / (g.letters nu).length ≤ ρ)
    (e2 : (g.digits.length - 1 : ℚ) / g.digits.length ≤ ρ) (e3 : (g.symbols.length - 1 : ℚ) / g.symbols.length ≤ ρ) :
    (fillDraws (g.letters nu).length 0 0 (!ar) (l - d - s).toNat +
      (fillDraws g.digits.length 0 (l - d - s).toNat (!ar) d.toNat +
       fillDraws g.symbols.length 0 ((l - d - s).toNat + d.toNat) (!ar) s.toNat)) * (1 - l * ρ ^ fuel)
      ≤ (g.body fuel l d s nu ar).draws ∧
    (g.body fuel l d s nu ar).draws ≤
      fillDraws (g.letters nu).length 0 0 (!ar) (l - d - s).toNat +
      (fillDraws g.digits.length 0 (l - d - s).toNat (!ar) d.toNat +
       fillDraws g.symbols.length 0 ((l - d - s).toNat + d.toNat) (!ar) s.toNat) := by
  have hndL : (g.letters nu).Nodup := by
    unfold Generator.letters
    split
    · exact (List.nodup_append.mp hd.1).1
    · exact hd.1
  have hz : ∀ A : Str, countIn A [] = 0 := fun _ => rfl
  obtain ⟨ha0, hacc⟩ := hacc
  have room1 : (!ar) = true → ([] : Str).Nodup ∧ countIn (g.letters nu) [] + (l - d - s).toNat ≤ (g.letters nu).length :=
    fun hn => ⟨List.nodup_nil, by have := hacc (by simpa using hn); rw [hz]; omega⟩
  have n2 : 0 ≤ fillDraws g.digits.length 0 (l - d - s).toNat (!ar) d.toNat :=
    fillDraws_nonneg _ _ _ _ _ (fun hn => by have := hacc (by simpa using hn); omega)
  have n3 : 0 ≤ fillDraws g.symbols.length 0 ((l - d - s).toNat + d.toNat) (!ar) s.toNat :=
    fillDraws_nonneg _ _ _ _ _ (fun hn => by have := hacc (by simpa using hn); omega)
  have b1 := draws_fill (letters_ascii hg nu) h1 hndL (!ar) fuel ρ hρ0 e1 (l - d - s).toNat [] room1
  rw [hz] at b1
  have p1 := probDone_fill (letters_ascii hg nu) h1 hndL (!ar) fuel ρ hρ0 e1 (l - d - s).toNat [] room1
  have h := draws_bind_bounds (fill (g.letters nu) (!ar) fuel (l - d - s).toNat [])
    (fun r1 => (fill g.digits (!ar) fuel d.toNat r1).bind fun r2 => fill g.symbols (!ar) fuel s.toNat r2)
    _ _ (d.toNat * ρ ^ fuel + s.toNat * ρ ^ fuel) ((l - d - s).toNat * ρ ^ fuel)
    (fillDraws_nonneg _ _ _ _ _ (fun hn => by have := (room1 hn).2; rw [hz] at this; omega)) (add_nonneg n2 n3) (by positivity) p1 b1
    (fun r1 hr1 => by
      obtain ⟨a, ha, ha', hpa, hna⟩ := can_fill (letters_ascii hg nu) _ _ _ _ _ hr1
      rw [List.append_nil] at hpa
      have hcd : countIn g.digits r1 = 0 := by
        rw [countIn_perm hpa]; exact countIn_none (letters_apart_digits hs nu) ha'
      have hcs : countIn g.symbols r1 = 0 := by
        rw [countIn_perm hpa]; exact countIn_none (letters_apart_symbols hs nu) ha'
      have hl1 : r1.length = (l - d - s).toNat := by rw [hpa.length_eq, ha]
      have room2 : (!ar) = true → r1.Nodup ∧ countIn g.digits r1 + d.toNat ≤ g.digits.length :=
        fun hn => ⟨hna hn List.nodup_nil, by have := hacc (by simpa using hn); rw [hcd]; omega⟩
      have b2 := draws_fill hg.2.2.1 h2 hd.2.1 (!ar) fuel ρ hρ0 e2 d.toNat r1 room2
      rw [hcd, hl1] at b2
      refine draws_bind_bounds _ _ _ _ _ _ n2 n3 (by positivity)
        (probDone_fill hg.2.2.1 h2 hd.2.1 (!ar) fuel ρ hρ0 e2 d.toNat r1 room2) b2 ?_
      intro r2 hr2
      obtain ⟨b, hb, hb', hpb, hnb⟩ := can_fill hg.2.2.1 _ _ _ _ _ hr2
      have hcs2 : countIn g.symbols r2 = 0 := by
        rw [countIn_perm hpb, countIn_append, hcs]; rw [countIn_none hs.2.2 hb']
      have hl2 : r2.length = (l - d - s).toNat + d.toNat := by
        rw [hpb.length_eq, List.length_append, hb, hl1]; omega
      have b3 := draws_fill hg.2.2.2 h3 hd.2.2 (!ar) fuel ρ hρ0 e3 s.toNat r2
          (fun hn => ⟨hnb hn (hna hn List.nodup_nil), by have := hacc (by simpa using hn); rw [hcs2]; omega⟩)
      rw [hcs2, hl2] at b3
      exact b3)
  unfold Generator.body
  have hl : (l : ℚ) = ((l - d - s).toNat : ℚ) + (d.toNat : ℚ) + (s.toNat : ℚ) := by
    have : l = ((l - d - s).toNat : Int) + (d.toNat : Int) + (s.toNat : Int) := by omega
    exact_mod_cast this
  have hexp : (1 : ℚ) - l * ρ ^ fuel = 1 - ((l - d - s).toNat * ρ ^ fuel + (d.toNat * ρ ^ fuel + s.toNat * ρ ^ fuel)) := by
    rw [hl]; ring
  rw [hexp]
  exact h

/-- Number of positions `r, r+1, ..., r+n-1` that are not zero. -/
theorem sum_ins (r n : Nat) : (∑ j ∈ range n, if r + j = 0 then (0 : ℚ) else 1) = if r = 0 then ((n - 1 : Nat) : ℚ) else n := by
  induction n with
  | zero => simp
  | succ n ih =>
    rw [Finset.sum_range_succ, ih]
    by_cases hr : r = 0
    · subst hr
      cases n with
      | zero => simp
      | succ n => simp
    · simp [hr]

theorem fillDraws_fresh (N r n : Nat) : fillDraws N 0 r true n = tries N n + if r = 0 then ((n - 1 : Nat) : ℚ) else n := by
  rw [← sum_ins]
  unfold fillDraws tries
  rw [← Finset.sum_add_distrib]
  apply Finset.sum_congr rfl
  intro j _
  simp

theorem fillDraws_repeat (N r n : Nat) (hN : 0 < N) :
    fillDraws N 0 r false n = n + if r = 0 then ((n - 1 : Nat) : ℚ) else n := by
  have hN' : (N : ℚ) ≠ 0 := by exact_mod_cast (by omega : N ≠ 0)
  rw [← sum_ins]
  unfold fillDraws
  rw [Finset.sum_add_distrib]
  simp [hN']

/-! ### Counting the calls of one run -/

theorem canIn_bind {α β} (p : Prog α) (f : α → Prog β) (n : Nat) (b : β) :
    (p.bind f).CanIn n b ↔ ∃ i j a, n = i + j ∧ p.CanIn i a ∧ (f a).CanIn j b := by
  induction p generalizing n with
  | ret a =>
    simp only [Prog.bind, Prog.CanIn]
    constructor
    · intro h; exact ⟨0, n, a, by omega, ⟨rfl, rfl⟩, h⟩
    · rintro ⟨i, j, a', hn, ⟨rfl, rfl⟩, h⟩
      rw [hn, Nat.zero_add]; exact h
  | draw m k ih =>
    simp only [Prog.bind, Prog.CanIn]
    constructor
    · rintro ⟨n', i, hn, hi, h⟩
      obtain ⟨x, y, a, hxy, h1, h2⟩ := (ih i n').mp h
      exact ⟨x + 1, y, a, by omega, ⟨x, i, rfl, hi, h1⟩, h2⟩
    · rintro ⟨x, y, a, hxy, ⟨x', i, hx, hi, h1⟩, h2⟩
      exact ⟨x' + y, i, by omega, hi, (ih i _).mpr ⟨x', y, a, rfl, h1, h2⟩⟩
  | fail e => simp [Prog.bind, Prog.CanIn]
  | stuck => simp [Prog.bind, Prog.CanIn]

theorem canIn_can {α} (p : Prog α) (n : Nat) (a : α) (h : p.CanIn n a) : p.Can a := by
  induction p generalizing n with
  | ret b => exact h.2
  | draw m k ih => obtain ⟨n', i, _, hi, h'⟩ := h; exact ⟨i, hi, ih i n' h'⟩
  | fail e => exact h
  | stuck => exact h

theorem canIn_pick (A : Str) (noRep : Bool) (res : Str) (fuel n : Nat) (x : Str) (h : (pick A noRep res fuel).CanIn n x) :
    1 ≤ n ∧ (noRep = false → n = 1) := by
  induction fuel generalizing n with
  | zero => exact h.elim
  | succ f ih =>
    rw [pick, canIn_bind] at h
    obtain ⟨i, j, a, hn, ⟨i', k, hi, hk, hi', rfl⟩, h2⟩ := h
    split at h2
    · rename_i hr
      have := ih j h2
      refine ⟨by omega, fun hf => ?_⟩
      rw [hf] at hr; simp at hr
    · obtain ⟨hj, _⟩ := h2
      exact ⟨by omega, fun _ => by omega⟩

theorem canIn_insert (r v : Str) (n : Nat) (x : Str) (h : (randomInsert r v).CanIn n x) :
    n = if r = [] then 0 else 1 := by
  unfold randomInsert at h
  split at h
  · rename_i hr; rw [if_pos hr]; exact h.1
  · rename_i hr
    obtain ⟨n', i, hn, _, h', _⟩ := h
    rw [if_neg hr]; omega

theorem canIn_fill {A : Str} (hA : Ascii A) (noRep : Bool) (fuel n : Nat) (res x : Str) (c : Nat)
    (h : (fill A noRep fuel n res).CanIn c x) :
    x.length = res.length + n ∧
    2 * x.length - 1 ≤ c + (2 * res.length - 1) ∧ (noRep = false → 2 * x.length - 1 = c + (2 * res.length - 1)) := by
  induction n generalizing res c with
  | zero =>
    obtain ⟨rfl, rfl⟩ := h
    exact ⟨rfl, by omega, fun _ => by omega⟩
  | succ n ih =>
    rw [fill, canIn_bind] at h
    obtain ⟨i, j, r1, hc, h1, h2⟩ := h
    have hcan := canIn_can _ _ _ h1
    obtain ⟨_, d, _, _, q, hq, hr1⟩ := (can_step hA noRep fuel res r1).mp hcan
    have hlen : r1.length = res.length + 1 := by rw [hr1, (perm_insert d res q).length_eq]; simp
    rw [step, canIn_bind] at h1
    obtain ⟨i1, i2, ch, hi, hp, hins⟩ := h1
    have e1 := canIn_pick _ _ _ _ _ _ hp
    have e2 := canIn_insert _ _ _ _ hins
    have hemp : res = [] ↔ res.length = 0 := by simp
    have hih := ih r1 j h2
    split at e2
    · rename_i hre
      have hre' := hemp.mp hre
      exact ⟨by omega, by omega, fun hf => by have := e1.2 hf; have := hih.2.2 hf; omega⟩
    · rename_i hre
      have hre' : res.length ≠ 0 := fun h => hre (hemp.mpr h)
      exact ⟨by omega, by omega, fun hf => by have := e1.2 hf; have := hih.2.2 hf; omega⟩

end Verif.Password
