import Verif.Password.Strength
/-
C152: several passwords generated one after the other.
-/
namespace Verif.Password
open Finset

/-- What a call of `Generate` is asked for: the generator (alphabets) and the arguments. -/
structure Request where
  g : Generator
  length : Nat
  numDigits : Nat
  numSymbols : Nat
  noUpper : Bool
  allowRepeat : Bool

/-- The call of `Generate` (password/generate.go:130-210). -/
def Request.call (fuel : Nat) (r : Request) : Prog Str := r.g.generate fuel r.length r.numDigits r.numSymbols r.noUpper r.allowRepeat

/-- Calls of `Generate` one after the other; the caller keeps all passwords. -/
def several (fuel : Nat) : List Request → Prog (List Str)
  | [] => .ret []
  | r :: rs => (r.call fuel).bind fun w => (several fuel rs).bind fun ws => .ret (w :: ws)

/-- The alphabets of the request are ASCII, disjoint and without duplicates. -/
def Request.Proper (r : Request) : Prop := r.g.AllAscii ∧ r.g.Separate ∧ r.g.Distinct

/-- The number of passwords the request allows (see C134). -/
def Request.number (r : Request) : Nat :=
  passwords r.allowRepeat (r.g.letters r.noUpper).length r.g.digits.length r.g.symbols.length r.length r.numDigits r.numSymbols

theorem run_several_cons (fuel : Nat) (r : Request) (rs : List Request) (src : Str) :
    (several fuel (r :: rs)).run src = match (r.call fuel).run src with
      | .ok (w, rest) => (match (several fuel rs).run rest with
        | .ok (ws, rest') => .ok (w :: ws, rest')
        | .err e => .err e
        | .panic => .panic
        | .nofuel => .nofuel)
      | .err e => .err e
      | .panic => .panic
      | .nofuel => .nofuel := by
  have key : ∀ {α β : Type} (p : Prog α) (f : α → Prog β) (s : Str), (p.bind f).run s = match p.run s with
      | .ok (a, rest) => (f a).run rest
      | .err e => .err e
      | .panic => .panic
      | .nofuel => .nofuel := by
    intro α β p f
    induction p with
    | ret a => intro s; rfl
    | fail e => intro s; rfl
    | stuck => intro s; rfl
    | draw m k ih =>
      intro s
      simp only [Prog.bind, Prog.run]
      cases randInt m s with
      | ok x => exact ih x.1 x.2
      | err e => rfl
      | panic => rfl
      | nofuel => rfl
  rw [several, key]
  cases (r.call fuel).run src with
  | ok x =>
    simp only
    rw [key]
    cases (several fuel rs).run x.2 <;> rfl
  | err e => rfl
  | panic => rfl
  | nofuel => rfl

theorem expect_add {α} (p : Prog α) (φ ψ : α → ℚ) : p.expect (fun a => φ a + ψ a) = p.expect φ + p.expect ψ := by
  induction p with
  | ret a => rfl
  | draw m k ih => simp only [Prog.expect, ih]; rw [Finset.sum_add_distrib]; ring
  | fail e => simp [Prog.expect]
  | stuck => simp [Prog.expect]

theorem expect_zero {α} (p : Prog α) : p.expect (fun _ => 0) = 0 := by
  have := expect_mul p 0 (fun _ => 0)
  simpa using this

theorem expect_finsum {α β} [DecidableEq β] (p : Prog α) (S : Finset β) (φ : β → α → ℚ) : p.expect (fun a => ∑ b ∈ S, φ b a) = ∑ b ∈ S, p.expect (φ b) := by
  induction S using Finset.induction_on with
  | empty => simp [expect_zero]
  | insert b S hb ih => rw [Finset.sum_insert hb, ← ih, ← expect_add]; congr 1; funext a; rw [Finset.sum_insert hb]

theorem expect_const {α} (p : Prog α) (c : ℚ) : p.expect (fun _ => c) = p.probDone * c := by
  have := expect_mul p c (fun _ => 1)
  simpa [Prog.probDone] using this

theorem expect_comm {α β} (p : Prog α) (q : Prog β) (φ : α → β → ℚ) :
    p.expect (fun a => q.expect (fun b => φ a b)) = q.expect (fun b => p.expect (fun a => φ a b)) := by
  induction p with
  | ret a => rfl
  | draw m k ih =>
    simp only [Prog.expect, ih]
    rw [← expect_sum, div_eq_mul_inv, ← expect_mul]
    rfl
  | fail e => simp only [Prog.expect]; rw [expect_zero]
  | stuck => simp only [Prog.expect]; rw [expect_zero]

theorem expect_mem (p : Prog Str) (S : Finset Str) : p.expect (fun w => if w ∈ S then 1 else 0) = ∑ w ∈ S, p.prob w := by
  unfold Prog.prob
  rw [← expect_finsum]
  congr 1; funext a
  rw [Finset.sum_ite_eq S a fun _ => (1 : ℚ)]

theorem expect_several_cons (fuel : Nat) (r : Request) (rs : List Request) (φ : List Str → ℚ) :
    (several fuel (r :: rs)).expect φ = (r.call fuel).expect fun w => (several fuel rs).expect fun ws => φ (w :: ws) := by
  rw [several, expect_bind]
  congr 1; funext w
  rw [expect_bind]; rfl

theorem expect_several_append (fuel : Nat) (rs rs' : List Request) (φ : List Str → ℚ) :
    (several fuel (rs ++ rs')).expect φ = (several fuel rs).expect fun us => (several fuel rs').expect fun vs => φ (us ++ vs) := by
  induction rs generalizing φ with
  | nil => rfl
  | cons r rs ih =>
    rw [List.cons_append, expect_several_cons, expect_several_cons]
    congr 1; funext w
    rw [ih]; rfl

theorem several_length (fuel : Nat) (rs : List Request) : ∀ ws, (several fuel rs).Can ws → ws.length = rs.length := by
  induction rs with
  | nil => intro ws h; have h : ws = [] := h; rw [h]; rfl
  | cons r rs ih =>
    intro ws h
    rw [several, can_bind] at h
    obtain ⟨w, -, h⟩ := h
    rw [can_bind] at h
    obtain ⟨us, hu, h⟩ := h
    have h : ws = w :: us := h
    subst h
    rw [List.length_cons, List.length_cons, ih us hu]

theorem guess_le (fuel : Nat) (hf : 0 < fuel) (r : Request) (hr : r.Proper) (S : Finset Str) :
    (r.call fuel).expect (fun w => if w ∈ S then 1 else 0) ≤ S.card / r.number := by
  rw [expect_mem]
  exact C134_guessing r.g hr.1 hr.2.1 hr.2.2 fuel hf r.length r.numDigits r.numSymbols r.noUpper r.allowRepeat S

/-- **C152** Calls one after the other read the random source one after the other: the second begins where the first ended. -/
theorem C152_in_turn (fuel : Nat) (r : Request) (rs : List Request) (src rest : Str) (ws : List Str) :
    (several fuel (r :: rs)).run src = .ok (ws, rest) ↔
      ∃ w ws' mid, ws = w :: ws' ∧ (r.call fuel).run src = .ok (w, mid) ∧ (several fuel rs).run mid = .ok (ws', rest) := by
  rw [run_several_cons]
  cases h : (r.call fuel).run src with
  | ok x =>
    simp only
    cases h2 : (several fuel rs).run x.2 with
    | ok y =>
      constructor
      · intro h3; cases h3; exact ⟨x.1, y.1, x.2, rfl, rfl, h2⟩
      · rintro ⟨w, ws', mid, rfl, h3, h4⟩; cases h3; rw [h2] at h4; cases h4; rfl
    | err e => constructor
               · intro h3; cases h3
               · rintro ⟨w, ws', mid, rfl, h3, h4⟩; cases h3; rw [h2] at h4; cases h4
    | panic => constructor
               · intro h3; cases h3
               · rintro ⟨w, ws', mid, rfl, h3, h4⟩; cases h3; rw [h2] at h4; cases h4
    | nofuel => constructor
                · intro h3; cases h3
                · rintro ⟨w, ws', mid, rfl, h3, h4⟩; cases h3; rw [h2] at h4; cases h4
  | err e => simp
  | panic => simp
  | nofuel => simp

/-- **C152** Passwords generated one after the other are independent: the probability of a list of passwords is the product of the probabilities that each of
the calls gives its password. -/
theorem C152_independent (fuel : Nat) (rs : List Request) (ws : List Str) :
    (several fuel rs).prob ws = if ws.length = rs.length then ((rs.zip ws).map fun x => (x.1.call fuel).prob x.2).prod else 0 := by
  induction rs generalizing ws with
  | nil => cases ws <;> simp [several, Prog.prob, Prog.expect]
  | cons r rs ih =>
    unfold Prog.prob
    rw [expect_several_cons]
    cases ws with
    | nil => simp [expect_zero]
    | cons w ws =>
      have e : (fun w' => (several fuel rs).expect fun ws' => if w' :: ws' = w :: ws then (1 : ℚ) else 0) =
          fun w' => (if w' = w then 1 else 0) * (several fuel rs).prob ws := by
        funext w'
        by_cases h : w' = w
        · subst h; simp [Prog.prob]
        · simp [h, expect_zero]
      rw [e, expect_mul, ih]
      simp only [List.length_cons, Nat.add_right_cancel_iff, List.zip_cons_cons, List.map_cons, List.prod_cons]
      split <;> simp [Prog.prob]

/-- **C152** Who knows all other passwords, those generated before and those generated after, and then tries `k` passwords that may depend on them, finds the
password with a probability of at most `k` in the number of passwords the request allows. -/
theorem C152_others_known (fuel : Nat) (hf : 0 < fuel) (before after : List Request) (r : Request) (hr : r.Proper) (guess : List Str → List Str → Finset Str)
    (k : Nat) (hk : ∀ us vs, (guess us vs).card ≤ k) :
    (several fuel (before ++ r :: after)).expect (fun ws =>
      if ws.getD before.length [] ∈ guess (ws.take before.length) (ws.drop (before.length + 1)) then 1 else 0) ≤ k / r.number := by
  have hc : (0 : ℚ) ≤ k / r.number := by positivity
  rw [expect_several_append]
  have step : ∀ us, (several fuel before).Can us → ((several fuel (r :: after)).expect fun vs =>
      if (us ++ vs).getD before.length [] ∈ guess ((us ++ vs).take before.length) ((us ++ vs).drop (before.length + 1)) then (1 : ℚ) else 0) ≤ k / r.number := by
    intro us hus
    have hl := several_length fuel before us hus
    rw [expect_several_cons, expect_comm]
    have e : ∀ (w : Str) (vs : List Str), (us ++ w :: vs).getD before.length [] = w ∧ (us ++ w :: vs).take before.length = us ∧
        (us ++ w :: vs).drop (before.length + 1) = vs := by
      intro w vs
      rw [← hl]
      refine ⟨by simp, by simp, by simp [← List.drop_drop]⟩
    simp only [(e _ _).1, (e _ _).2.1, (e _ _).2.2]
    have h1 := expect_mono (several fuel after) (fun vs => (r.call fuel).expect fun w => if w ∈ guess us vs then 1 else 0) (fun _ => k / r.number)
      (fun vs _ => (guess_le fuel hf r hr (guess us vs)).trans (div_le_div_of_nonneg_right (by exact_mod_cast hk us vs) (by positivity)))
    rw [expect_const] at h1
    have h2 := expect_one_le (several fuel after)
    nlinarith
  have h1 := expect_mono (several fuel before) _ (fun _ => k / r.number) step
  rw [expect_const] at h1
  have h2 := expect_one_le (several fuel before)
  nlinarith

/-- **C152** The probability that of `k` passwords for requests that allow at least `N` passwords each, two are equal, is at most `k (k-1) / 2` in `N`. -/
theorem C152_collision (fuel : Nat) (hf : 0 < fuel) (rs : List Request) (N : Nat) (hN : 0 < N) (h : ∀ r ∈ rs, r.Proper ∧ N ≤ r.number) :
    (several fuel rs).expect (fun ws => if ws.Nodup then 0 else 1) ≤ (rs.length.choose 2 : ℚ) / N := by
  have hN' : (0 : ℚ) < N := by exact_mod_cast hN
  induction rs with
  | nil => simp [several, Prog.expect]
  | cons r rs ih =>
    have ih := ih fun x hx => h x (List.mem_cons_of_mem _ hx)
    obtain ⟨hr, hn⟩ := h r List.mem_cons_self
    rw [expect_several_cons]
    have h1 : ((r.call fuel).expect fun w => (several fuel rs).expect fun ws => if (w :: ws).Nodup then (0 : ℚ) else 1) ≤
        (r.call fuel).expect fun w => (several fuel rs).expect fun ws => (if w ∈ ws.toFinset then 1 else 0) + (if ws.Nodup then 0 else 1) := by
      refine expect_mono _ _ _ fun w _ => expect_mono _ _ _ fun ws _ => ?_
      simp only [List.nodup_cons, List.mem_toFinset]
      by_cases a : w ∈ ws <;> by_cases b : ws.Nodup <;> simp [a, b]
    refine h1.trans ?_
    simp only [expect_add]
    rw [expect_comm, expect_const]
    have h2 := expect_mono (several fuel rs) (fun ws => (r.call fuel).expect fun w => if w ∈ ws.toFinset then 1 else 0) (fun _ => rs.length / N) fun ws hws => by
      refine (guess_le fuel hf r hr _).trans ?_
      have hl := several_length fuel rs ws hws
      have hcard : (ws.toFinset.card : ℚ) ≤ rs.length := by rw [← hl]; exact_mod_cast List.toFinset_card_le ws
      have hnq : (N : ℚ) ≤ r.number := by exact_mod_cast hn
      exact div_le_div₀ (by positivity) hcard hN' hnq
    rw [expect_const] at h2
    have h3 := expect_one_le (several fuel rs)
    have h4 := expect_one_le (r.call fuel)
    have h5 : 0 ≤ (several fuel rs).expect fun ws => if ws.Nodup then (0 : ℚ) else 1 := expect_nonneg _ _ fun _ => by split <;> norm_num
    have h6 : (0 : ℚ) ≤ rs.length / N := by positivity
    have e : (((r :: rs).length.choose 2 : Nat) : ℚ) / N = rs.length / N + (rs.length.choose 2 : Nat) / N := by
      rw [List.length_cons, Nat.choose_succ_succ' rs.length 1, Nat.choose_one_right]
      push_cast; ring
    rw [e]
    nlinarith

/-- **C152** Two calls with the same request give the same password with exactly the probability that both give one, divided by the number of passwords. -/
theorem C152_pair (fuel : Nat) (hf : 0 < fuel) (r : Request) (hr : r.Proper) :
    (several fuel [r, r]).expect (fun ws => if ws.getD 0 [] = ws.getD 1 [] then 1 else 0) = (r.call fuel).probDone ^ 2 / r.number := by
  rw [expect_several_cons]
  have e : ∀ w, ((several fuel [r]).expect fun ws => if (w :: ws).getD 0 [] = (w :: ws).getD 1 [] then (1 : ℚ) else 0) = (r.call fuel).prob w := by
    intro w
    rw [expect_several_cons]
    unfold Prog.prob
    congr 1; funext v
    simp [several, Prog.expect, eq_comm]
  simp only [e]
  have hc : ∀ w, (r.call fuel).Can w → (r.call fuel).prob w = (r.call fuel).probDone / r.number := by
    intro w hw
    have hcon : Conforms r.g r.length r.numDigits r.numSymbols r.noUpper r.allowRepeat w := by
      by_contra hn
      obtain ⟨v, hv, -, h0⟩ := C06_uniform r.g hr.1 hr.2.1 hr.2.2 fuel hf r.length r.numDigits r.numSymbols (by omega) (by omega) r.noUpper r.allowRepeat
      have := prob_pos _ w hw
      rw [show (r.call fuel).prob w = 0 from h0 w hn] at this
      exact lt_irrefl _ this
    exact C134_probability r.g hr.1 hr.2.1 hr.2.2 fuel hf r.length r.numDigits r.numSymbols r.noUpper r.allowRepeat w hcon
  have h1 := expect_mono (r.call fuel) (fun w => (r.call fuel).prob w) (fun _ => (r.call fuel).probDone / r.number) fun w hw => (hc w hw).le
  have h2 := expect_mono (r.call fuel) (fun _ => (r.call fuel).probDone / r.number) (fun w => (r.call fuel).prob w) fun w hw => (hc w hw).ge
  rw [le_antisymm h1 h2, expect_const]
  ring

/-- A case: among a billion passwords of the package function `Generate(16, 4, 4, false, true)` two are equal with a probability below one in a hundred billion. -/
theorem C152_case (fuel : Nat) (hf : 0 < fuel) :
    (several fuel (List.replicate 1000000000 ⟨defaultGenerator, 16, 4, 4, false, true⟩)).expect (fun ws => if ws.Nodup then 0 else 1) < 1 / 100000000000 := by
  have h := C152_collision fuel hf (List.replicate 1000000000 ⟨defaultGenerator, 16, 4, 4, false, true⟩) (1820 * 495 * (52 ^ 8 * 10 ^ 4 * 30 ^ 4)) (by norm_num)
    (fun r hr => by
      rw [List.eq_of_mem_replicate hr]
      refine ⟨⟨default_ascii, default_separate, default_distinct⟩, ?_⟩
      decide +kernel)
  refine lt_of_le_of_lt h ?_
  rw [List.length_replicate, Nat.choose_two_right, div_lt_div_iff₀ (by positivity) (by positivity)]
  norm_num

end Verif.Password
