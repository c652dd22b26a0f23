import Verif.Password.Lemmas
import Mathlib.Algebra.Order.BigOperators.Group.Finset
import Mathlib.Algebra.BigOperators.Ring.Finset
import Mathlib.Tactic.FieldSimp
import Mathlib.Algebra.BigOperators.Field
/-
Probability of the results of the loops of `Generate`.
-/
namespace Verif.Password
open Finset

theorem expect_bind {α β} (p : Prog α) (f : α → Prog β) (φ : β → ℚ) :
    (p.bind f).expect φ = p.expect (fun a => (f a).expect φ) := by
  induction p with
  | ret a => rfl
  | draw m k ih => simp only [Prog.bind, Prog.expect, ih]
  | fail e => rfl
  | stuck => rfl

theorem expect_sum {α} (p : Prog α) (n : Nat) (φ : Nat → α → ℚ) :
    p.expect (fun a => ∑ i ∈ range n, φ i a) = ∑ i ∈ range n, p.expect (φ i) := by
  induction p with
  | ret a => rfl
  | draw m k ih =>
    simp only [Prog.expect, ih]
    rw [Finset.sum_comm, ← Finset.sum_div]
  | fail e => simp [Prog.expect]
  | stuck => simp [Prog.expect]

theorem expect_mul {α} (p : Prog α) (c : ℚ) (φ : α → ℚ) :
    p.expect (fun a => φ a * c) = p.expect φ * c := by
  induction p with
  | ret a => rfl
  | draw m k ih =>
    simp only [Prog.expect, ih]
    rw [← Finset.sum_mul]; ring
  | fail e => simp [Prog.expect]
  | stuck => simp [Prog.expect]

theorem expect_nonneg {α} (p : Prog α) (φ : α → ℚ) (h : ∀ a, 0 ≤ φ a) : 0 ≤ p.expect φ := by
  induction p with
  | ret a => exact h a
  | draw m k ih =>
    exact div_nonneg (Finset.sum_nonneg fun i _ => ih i) (by positivity)
  | fail e => exact le_refl _
  | stuck => exact le_refl _

theorem expect_mono {α} (p : Prog α) (φ ψ : α → ℚ) (h : ∀ a, p.Can a → φ a ≤ ψ a) :
    p.expect φ ≤ p.expect ψ := by
  induction p with
  | ret a => exact h a rfl
  | draw m k ih =>
    simp only [Prog.expect]
    apply div_le_div_of_nonneg_right _ (by positivity)
    apply Finset.sum_le_sum
    intro i hi
    exact ih i (fun a ha => h a ⟨i, Finset.mem_range.mp hi, ha⟩)
  | fail e => exact le_refl _
  | stuck => exact le_refl _

theorem probDone_le {α} (p : Prog α) : p.probDone ≤ 1 := by
  unfold Prog.probDone
  induction p with
  | ret a => exact le_refl _
  | draw m k ih =>
    simp only [Prog.expect]
    apply div_le_one_of_le₀ _ (by positivity)
    calc ∑ i ∈ range m, (k i).expect (fun _ => 1) ≤ ∑ i ∈ range m, (1 : ℚ) := Finset.sum_le_sum fun i _ => ih i
      _ = m := by simp
  | fail e => simp [Prog.expect]
  | stuck => simp [Prog.expect]

theorem prob_pos {α} [DecidableEq α] (p : Prog α) (x : α) (h : p.Can x) : 0 < p.prob x := by
  unfold Prog.prob
  induction p with
  | ret a => simp only [Prog.Can] at h; simp [Prog.expect, h]
  | draw m k ih =>
    obtain ⟨i, hi, hc⟩ := h
    simp only [Prog.expect]
    apply div_pos _ (by exact_mod_cast (by omega : 0 < m))
    apply Finset.sum_pos'
    · intro j _; exact expect_nonneg _ _ (fun a => by split <;> norm_num)
    · exact ⟨i, Finset.mem_range.mpr hi, ih i hc⟩
  | fail e => exact absurd h (by simp [Prog.Can])
  | stuck => exact absurd h (by simp [Prog.Can])

theorem prob_zero {α} [DecidableEq α] (p : Prog α) (x : α) (h : ¬ p.Can x) : p.prob x = 0 := by
  unfold Prog.prob
  induction p with
  | ret a => simp only [Prog.Can] at h; simp [Prog.expect, Ne.symm h]
  | draw m k ih =>
    simp only [Prog.expect]
    rw [Finset.sum_eq_zero, zero_div]
    intro i hi
    exact ih i (fun hc => h ⟨i, Finset.mem_range.mp hi, hc⟩)
  | fail e => rfl
  | stuck => rfl

/-! ### Sums over an alphabet -/

theorem sum_getD (A : Str) (h : UInt8 → ℚ) : ∑ i ∈ range A.length, h (A.getD i 0) = (A.map h).sum := by
  induction A with
  | nil => simp
  | cons a A ih =>
    rw [List.length_cons, Finset.sum_range_succ', List.map_cons, List.sum_cons, ← ih]
    simp [add_comm]

theorem sum_split (A : Str) (rej : UInt8 → Bool) (E : ℚ) (h : UInt8 → ℚ) :
    (A.map (fun c => if rej c = true then E else h c)).sum =
      (A.filter rej).length * E + ((A.filter (fun c => !rej c)).map h).sum := by
  induction A with
  | nil => simp
  | cons a A ih =>
    rw [List.map_cons, List.sum_cons, ih]
    by_cases hr : rej a = true
    · simp [hr]; ring
    · simp [hr]; ring

/-- Probability weight a fresh character gets after at most `fuel` tries, when `u` of the `N` characters are rejected. -/
def weight (N u : ℚ) : Nat → ℚ
  | 0 => 0
  | f + 1 => (1 + u * weight N u f) / N

/-- Is character `c` rejected when `res` has been built? -/
def rejects (noRep : Bool) (res : Str) (c : UInt8) : Bool := noRep && decide (c ∈ res)

theorem expect_pick {A : Str} (hA : Ascii A) (noRep : Bool) (res : Str) (fuel : Nat) (φ : Str → ℚ) :
    (pick A noRep res fuel).expect φ =
      weight A.length (A.filter (rejects noRep res)).length fuel *
        ((A.filter (fun c => !rejects noRep res c)).map (fun c => φ [c])).sum := by
  induction fuel with
  | zero => simp [pick, Prog.expect, weight]
  | succ f ih =>
    rw [pick, expect_bind]
    simp only [randomElement, Prog.expect]
    have hterm : ∀ i ∈ range A.length,
        (if (noRep && contains res (stringOfByte (A.getD i 0))) = true then pick A noRep res f
          else Prog.ret (stringOfByte (A.getD i 0))).expect φ =
        (fun c => if rejects noRep res c = true then (pick A noRep res f).expect φ else φ [c]) (A.getD i 0) := by
      intro i hi
      have hi' := Finset.mem_range.mp hi
      have hmem : A.getD i 0 ∈ A := by
        have : A.getD i 0 = A[i] := by simp [List.getD, hi']
        rw [this]; exact List.getElem_mem hi'
      rw [stringOfByte_ascii (hA _ hmem), contains_singleton]
      simp only [rejects]
      split <;> simp_all [Prog.expect]
    rw [Finset.sum_congr rfl hterm, sum_getD A (fun c => if rejects noRep res c = true then (pick A noRep res f).expect φ else φ [c]),
      sum_split, ih, weight]
    ring

theorem expect_insert (r : Str) (c : UInt8) (φ : Str → ℚ) :
    (randomInsert r [c]).expect φ =
      (∑ i ∈ range (r.length + 1), φ (r.take i ++ c :: r.drop i)) / (r.length + 1 : ℕ) := by
  unfold randomInsert
  split
  · subst_vars; simp [Prog.expect]
  · simp [Prog.expect]

theorem insert_eq_iff (r t : Str) (c : UInt8) (i : Nat) (hi : i ≤ r.length) :
    r.take i ++ c :: r.drop i = t ↔ (i < t.length ∧ t.length = r.length + 1 ∧ t.getD i 0 = c ∧ t.eraseIdx i = r) := by
  constructor
  · rintro rfl
    have hlen : (r.take i).length = i := by simp [hi]
    refine ⟨by simp; omega, by simp; omega, ?_, ?_⟩
    · rw [List.getD_eq_getElem?_getD, List.getElem?_append_right (by omega)]; simp [hlen]
    · rw [List.eraseIdx_append_of_length_le (by omega)]; simp [hlen]
  · rintro ⟨h1, h2, h3, h4⟩
    subst h4 h3
    have hg : t.getD i 0 = t[i] := by simp [List.getD, h1]
    rw [hg, List.eraseIdx_eq_take_drop_succ]
    have hlen : (t.take i).length = i := by simp; omega
    rw [List.take_append_of_le_length (by omega), List.drop_append_of_le_length (by omega)]
    rw [List.take_of_length_le (by omega), List.drop_of_length_le (by omega)]
    simp

theorem sum_indicator_nodup (A : Str) (hA : A.Nodup) (d : UInt8) (x : ℚ) :
    (A.map (fun c => if d = c then x else 0)).sum = if d ∈ A then x else 0 := by
  induction A with
  | nil => simp
  | cons a A ih =>
    rw [List.nodup_cons] at hA
    rw [List.map_cons, List.sum_cons, ih hA.2]
    by_cases h : d = a
    · subst h; simp [hA.1]
    · simp [h]

theorem list_finset_sum (A : Str) (n : Nat) (h : UInt8 → Nat → ℚ) :
    (A.map (fun c => ∑ i ∈ range n, h c i)).sum = ∑ i ∈ range n, (A.map (fun c => h c i)).sum := by
  induction A with
  | nil => simp
  | cons a A ih => simp only [List.map_cons, List.sum_cons, ih, Finset.sum_add_distrib]

/-- One added character: probability of reaching exactly `t`. -/
theorem expect_step {A : Str} (hA : Ascii A) (hnd : A.Nodup) (noRep : Bool) (fuel : Nat) (r t : Str) :
    (step A noRep fuel r).expect (fun x => if x = t then 1 else 0) =
      ∑ i ∈ range t.length, (if r = t.eraseIdx i then 1 else 0) *
        (if t.getD i 0 ∈ A ∧ rejects noRep (t.eraseIdx i) (t.getD i 0) = false then
          weight A.length (A.filter (rejects noRep (t.eraseIdx i))).length fuel / t.length else 0) := by
  rw [step, expect_bind, expect_pick hA]
  simp only [expect_insert]
  by_cases hlen : t.length = r.length + 1
  · rw [← hlen]
    have h1 : ∀ c, (∑ i ∈ range t.length, if r.take i ++ c :: r.drop i = t then (1:ℚ) else 0) / (t.length : ℕ) =
        ∑ i ∈ range t.length, (if t.getD i 0 = c then (if r = t.eraseIdx i then (1:ℚ) / (t.length : ℕ) else 0) else 0) := by
      intro c
      rw [Finset.sum_div]
      apply Finset.sum_congr rfl
      intro i hi
      have hi' := Finset.mem_range.mp hi
      have := insert_eq_iff r t c i (by omega)
      by_cases ha : t.getD i 0 = c
      · by_cases hb : r = t.eraseIdx i
        · rw [if_pos (this.mpr ⟨hi', hlen, ha, hb.symm⟩), if_pos ha, if_pos hb]
        · rw [if_neg (fun h => hb (this.mp h).2.2.2.symm), if_pos ha, if_neg hb, zero_div]
      · rw [if_neg (fun h => ha (this.mp h).2.2.1), if_neg ha, zero_div]
    simp only [h1]
    rw [list_finset_sum, Finset.mul_sum]
    apply Finset.sum_congr rfl
    intro i _
    rw [sum_indicator_nodup _ (hnd.filter _)]
    by_cases hb : r = t.eraseIdx i
    · rw [if_pos hb, ← hb]
      by_cases hc : t.getD i 0 ∈ A ∧ rejects noRep r (t.getD i 0) = false
      · rw [if_pos hc, if_pos (by rw [List.mem_filter]; exact ⟨hc.1, by rw [hc.2]; rfl⟩), if_pos rfl]
        ring
      · rw [if_neg hc, if_neg (by rw [List.mem_filter]; intro h; exact hc ⟨h.1, by simpa using h.2⟩)]
        simp
    · simp [hb]
  · have hz : ∀ c, (∑ i ∈ range (r.length + 1), if r.take i ++ c :: r.drop i = t then (1:ℚ) else 0) = 0 := by
      intro c
      apply Finset.sum_eq_zero
      intro i hi
      have hi' := Finset.mem_range.mp hi
      rw [if_neg]
      intro h
      exact hlen ((insert_eq_iff r t c i (by omega)).mp h).2.1
    simp only [hz]
    rw [Finset.sum_eq_zero]
    · simp
    · intro i hi
      have hi' := Finset.mem_range.mp hi
      rw [if_neg, zero_mul]
      intro h
      apply hlen
      rw [h, List.length_eraseIdx, if_pos hi']; omega

theorem expect_fill_last (A : Str) (noRep : Bool) (fuel n : Nat) (res : Str) (φ : Str → ℚ) :
    (fill A noRep fuel (n + 1) res).expect φ =
      (fill A noRep fuel n res).expect (fun r => (step A noRep fuel r).expect φ) := by
  induction n generalizing res with
  | zero => simp only [fill, expect_bind, Prog.expect]
  | succ n ih =>
    rw [fill, expect_bind]
    simp only [ih]
    rw [fill, expect_bind]

/-- Last-character decomposition of the probability of `t`. -/
theorem prob_fill_succ {A : Str} (hA : Ascii A) (hnd : A.Nodup) (noRep : Bool) (fuel n : Nat) (p0 : Prog Str) (t : Str) :
    (p0.bind (fill A noRep fuel (n + 1))).prob t =
      ∑ i ∈ range t.length, (p0.bind (fill A noRep fuel n)).prob (t.eraseIdx i) *
        (if t.getD i 0 ∈ A ∧ rejects noRep (t.eraseIdx i) (t.getD i 0) = false then
          weight A.length (A.filter (rejects noRep (t.eraseIdx i))).length fuel / t.length else 0) := by
  unfold Prog.prob
  simp only [expect_bind, expect_fill_last, expect_step hA hnd]
  simp only [expect_sum, expect_mul]

theorem countIn_eraseIdx (A t : Str) (i : Nat) (hi : i < t.length) :
    countIn A (t.eraseIdx i) + (if t.getD i 0 ∈ A then 1 else 0) = countIn A t := by
  have hg : t.getD i 0 = t[i] := by simp [List.getD, hi]
  have hp : t.Perm (t[i] :: t.eraseIdx i) := (List.getElem_cons_eraseIdx_perm hi).symm
  rw [hg, countIn_perm hp]
  unfold countIn
  rw [List.filter_cons]
  split <;> simp_all

theorem countIn_eq_sum (A t : Str) (x : ℚ) :
    ∑ i ∈ range t.length, (if t.getD i 0 ∈ A then x else 0) = countIn A t * x := by
  rw [sum_getD t (fun c => if c ∈ A then x else 0)]
  unfold countIn
  induction t with
  | nil => simp
  | cons a t ih =>
    rw [List.map_cons, List.sum_cons, ih, List.filter_cons]
    split <;> simp_all; ring

theorem filter_mem_comm (A t : Str) (hA : A.Nodup) (ht : t.Nodup) :
    (A.filter (fun c => decide (c ∈ t))).length = countIn A t := by
  unfold countIn
  apply List.Perm.length_eq
  rw [List.perm_ext_iff_of_nodup (hA.filter _) (ht.filter _)]
  intro c
  simp [List.mem_filter, and_comm]

/-- A loop keeps the distribution uniform on the classes it fills. -/
theorem uniform_fill {A : Str} (hA : Ascii A) (hnd : A.Nodup) (noRep : Bool) (fuel : Nat) (p0 : Prog Str)
    (L : Nat) (Rest : Str → Prop) (v : ℚ)
    (hRest : ∀ t i, i < t.length → Rest t → t.getD i 0 ∈ A → Rest (t.eraseIdx i))
    (hbase : ∀ t, countIn A t = 0 → t.length = L → (noRep = true → t.Nodup) → Rest t → p0.prob t = v) (n : Nat) :
    ∃ w, ∀ t, countIn A t = n → t.length = L + n → (noRep = true → t.Nodup) → Rest t →
      (p0.bind (fill A noRep fuel n)).prob t = w := by
  induction n with
  | zero =>
    refine ⟨v, fun t h1 h2 h3 h4 => ?_⟩
    have : (p0.bind (fill A noRep fuel 0)).prob t = p0.prob t := by
      unfold Prog.prob; rw [expect_bind]; rfl
    rw [this]
    exact hbase t h1 h2 h3 h4
  | succ n ih =>
    obtain ⟨w, hw⟩ := ih
    refine ⟨((n + 1 : ℕ) : ℚ) * (w * (weight A.length ((if noRep then n else 0 : ℕ)) fuel / (L + (n + 1) : ℕ))), fun t h1 h2 h3 h4 => ?_⟩
    rw [prob_fill_succ hA hnd]
    have hcs := countIn_eq_sum A t (w * (weight A.length ((if noRep then n else 0 : ℕ)) fuel / (L + (n + 1) : ℕ)))
    rw [h1] at hcs
    rw [← hcs]
    apply Finset.sum_congr rfl
    intro i hi
    have hi' := Finset.mem_range.mp hi
    by_cases hc : t.getD i 0 ∈ A
    · have hcount := countIn_eraseIdx A t i hi'
      rw [if_pos hc] at hcount
      have hndE : noRep = true → (t.eraseIdx i).Nodup := fun h => (h3 h).eraseIdx i
      have hrej : rejects noRep (t.eraseIdx i) (t.getD i 0) = false := by
        unfold rejects
        cases hr : noRep with
        | false => rfl
        | true =>
          have hg : t.getD i 0 = t[i] := by simp [List.getD, hi']
          have hp : t.Perm (t[i] :: t.eraseIdx i) := (List.getElem_cons_eraseIdx_perm hi').symm
          have := hp.nodup_iff.mp (h3 hr)
          rw [List.nodup_cons] at this
          simpa only [hg, Bool.true_and, decide_eq_false_iff_not] using this.1
      have hu : (A.filter (rejects noRep (t.eraseIdx i))).length = if noRep then n else 0 := by
        cases hr : noRep with
        | false => simp [rejects]
        | true =>
          have := filter_mem_comm A (t.eraseIdx i) hnd (hndE hr)
          have hfe : rejects true (t.eraseIdx i) = fun c => decide (c ∈ t.eraseIdx i) := by
            funext c; simp [rejects]
          simp only [hfe, if_true]
          rw [this]; omega
      rw [if_pos ⟨hc, hrej⟩, if_pos hc, hu, h2]
      rw [hw (t.eraseIdx i) (by omega) (by rw [List.length_eraseIdx, if_pos hi']; omega) hndE (hRest t i hi' h4 hc)]
    · rw [if_neg hc, if_neg (fun h => hc h.1), mul_zero]

/-! ### Termination probability -/

theorem probDone_bind {α β} (p : Prog α) (f : α → Prog β) (δ ε : ℚ) (hδ : 0 ≤ δ)
    (hp : 1 - ε ≤ p.probDone) (hf : ∀ a, p.Can a → 1 - δ ≤ (f a).probDone) :
    1 - (ε + δ) ≤ (p.bind f).probDone := by
  have h1 : p.expect (fun _ => 1 * (1 - δ)) ≤ p.expect (fun a => (f a).expect (fun _ => 1)) :=
    expect_mono p _ _ (fun a ha => by have := hf a ha; unfold Prog.probDone at this; linarith)
  rw [expect_mul] at h1
  have h2 := probDone_le p
  unfold Prog.probDone at *
  rw [expect_bind]
  nlinarith

theorem weight_closed (N u : ℚ) (hN : 0 < N) (_hu : u < N) (f : Nat) :
    weight N u f * (N - u) = 1 - (u / N) ^ f := by
  have hne : N ≠ 0 := ne_of_gt hN
  induction f with
  | zero => simp [weight]
  | succ f ih =>
    rw [weight, pow_succ]
    have : (1 + u * weight N u f) / N * (N - u) = ((N - u) + u * (weight N u f * (N - u))) / N := by ring
    rw [this, ih]
    field_simp
    ring

theorem probDone_pick {A : Str} (hA : Ascii A) (noRep : Bool) (res : Str) (fuel : Nat)
    (hfree : (A.filter (rejects noRep res)).length < A.length) (ρ : ℚ) (hρ : ((A.length : ℚ) - 1) / A.length ≤ ρ) :
    1 - ρ ^ fuel ≤ (pick A noRep res fuel).probDone := by
  unfold Prog.probDone
  rw [expect_pick hA]
  have hsum : (A.filter (rejects noRep res)).length + (A.filter (fun c => !rejects noRep res c)).length = A.length := by
    have := List.length_eq_countP_add_countP (rejects noRep res) (l := A)
    rw [List.countP_eq_length_filter, List.countP_eq_length_filter] at this
    simpa using this.symm
  set u := (A.filter (rejects noRep res)).length
  have hN : (0 : ℚ) < A.length := by exact_mod_cast (by omega : 0 < A.length)
  have hlt : (u : ℚ) < A.length := by exact_mod_cast hfree
  have hs : ((A.filter (fun c => !rejects noRep res c)).map (fun _ => (1 : ℚ))).sum = A.length - u := by
    simp only [List.map_const', List.sum_replicate, nsmul_eq_mul, mul_one]
    have : ((A.filter (fun c => !rejects noRep res c)).length : ℚ) + u = A.length := by exact_mod_cast (by omega)
    linarith
  rw [hs, weight_closed _ _ hN hlt]
  have hle : (u : ℚ) / A.length ≤ ρ := by
    refine le_trans ?_ hρ
    apply div_le_div_of_nonneg_right _ hN.le
    have : (u : ℚ) + 1 ≤ A.length := by exact_mod_cast hfree
    linarith
  have h0 : 0 ≤ (u : ℚ) / A.length := div_nonneg (Nat.cast_nonneg u) hN.le
  have := pow_le_pow_left₀ h0 hle fuel
  linarith

theorem probDone_insert (r : Str) (c : UInt8) : (randomInsert r [c]).probDone = 1 := by
  unfold Prog.probDone
  rw [expect_insert]
  simp only [Finset.sum_const, Finset.card_range, nsmul_eq_mul, mul_one]
  exact div_self (by positivity)

theorem probDone_step {A : Str} (hA : Ascii A) (noRep : Bool) (res : Str) (fuel : Nat)
    (hfree : (A.filter (rejects noRep res)).length < A.length) (ρ : ℚ) (hρ : ((A.length : ℚ) - 1) / A.length ≤ ρ) :
    1 - ρ ^ fuel ≤ (step A noRep fuel res).probDone := by
  have h := probDone_bind (pick A noRep res fuel) (fun ch => randomInsert res ch) 0 (ρ ^ fuel) (le_refl _)
    (probDone_pick hA noRep res fuel hfree ρ hρ) (fun a ha => by
      obtain ⟨_, c, _, rfl, _⟩ := (can_pick hA noRep res fuel a).mp ha
      rw [probDone_insert]; norm_num)
  rw [add_zero] at h
  exact h

theorem probDone_fill {A : Str} (hA : Ascii A) (hne : A ≠ []) (hnd : A.Nodup) (noRep : Bool) (fuel : Nat) (ρ : ℚ) (hρ0 : 0 ≤ ρ)
    (hρ : ((A.length : ℚ) - 1) / A.length ≤ ρ) (n : Nat) (res : Str)
    (hroom : noRep = true → res.Nodup ∧ countIn A res + n ≤ A.length) :
    1 - n * ρ ^ fuel ≤ (fill A noRep fuel n res).probDone := by
  induction n generalizing res with
  | zero => simp [fill, Prog.probDone, Prog.expect]
  | succ n ih =>
    have hfree : (A.filter (rejects noRep res)).length < A.length := by
      cases hr : noRep with
      | false =>
        have h0 : A.filter (rejects false res) = [] := by simp [rejects]
        rw [h0]; exact List.length_pos_iff.mpr hne
      | true =>
        obtain ⟨h1, h2⟩ := hroom hr
        have := filter_mem_comm A res hnd h1
        have hfe : rejects true res = fun c => decide (c ∈ res) := by
          funext c; simp [rejects]
        rw [hfe, this]; omega
    have hstep := probDone_step hA noRep res fuel hfree ρ hρ
    have h := probDone_bind (step A noRep fuel res) (fill A noRep fuel n) (n * ρ ^ fuel) (ρ ^ fuel) (by positivity) hstep
      (fun r hr => by
        apply ih r
        intro hn
        obtain ⟨_, c, hc, hf, i, hi, rfl⟩ := (can_step hA noRep fuel res r).mp hr
        obtain ⟨h1, h2⟩ := hroom hn
        have hperm := perm_insert c res i
        refine ⟨?_, ?_⟩
        · rw [hperm.nodup_iff, List.nodup_cons]; exact ⟨hf hn, h1⟩
        · rw [countIn_perm hperm]
          have : countIn A (c :: res) = countIn A res + 1 := by
            unfold countIn; simp [hc]
          omega)
    rw [fill]
    push_cast
    linarith

end Verif.Password
