import Verif.FormGen.Model
import Verif.FormGen.Spec
import Verif.Password.Props
/-
Property theorems for `generate --form` (C10, C11, C62).
-/
namespace Verif.FormGen
open Verif.Password

theorem byte_forall (P : UInt8 → Prop) (h : ∀ n : Fin 256, P (UInt8.ofNat n.val)) (c : UInt8) : P c := by
  have := h ⟨c.toNat, c.toNat_lt⟩
  simpa using this

theorem mem_class (c : UInt8) (h : c ∈ LowerLetters ∨ c ∈ Digits ∨ c ∈ Symbols ∨ c ∈ UpperLetters) :
    IsLower c ∨ IsUpper c ∨ IsDigit c ∨ IsSym c := by
  have := byte_forall (fun c => (c ∈ LowerLetters ∨ c ∈ Digits ∨ c ∈ Symbols ∨ c ∈ UpperLetters) →
    IsLower c ∨ IsUpper c ∨ IsDigit c ∨ IsSym c) (by decide +kernel) c
  exact this h

theorem class_ascii (c : UInt8) (h : IsLower c ∨ IsUpper c ∨ IsDigit c ∨ IsSym c) : c < 0x80 :=
  byte_forall (fun c => (IsLower c ∨ IsUpper c ∨ IsDigit c ∨ IsSym c) → c < 0x80) (by decide +kernel) c h

theorem toLower_isLower (c : UInt8) (h : IsLower c ∨ IsUpper c) : IsLower (toLower c) :=
  byte_forall (fun c => (IsLower c ∨ IsUpper c) → IsLower (toLower c)) (by decide +kernel) c h

theorem toUpper_isUpper (c : UInt8) (h : IsLower c ∨ IsUpper c) : IsUpper (toUpper c) :=
  byte_forall (fun c => (IsLower c ∨ IsUpper c) → IsUpper (toUpper c)) (by decide +kernel) c h

theorem classify (c : UInt8) (h : IsLower c ∨ IsUpper c ∨ IsDigit c ∨ IsSym c) :
    (isNumber c = true ∧ IsDigit c ∧ c ∈ Digits) ∨ (isNumber c = false ∧ isSymbol c = true ∧ IsSym c ∧ c ∈ Symbols) ∨
    (isNumber c = false ∧ isSymbol c = false ∧ (IsLower c ∨ IsUpper c) ∧ c ∈ LowerLetters ++ UpperLetters) := by
  exact byte_forall (fun c => (IsLower c ∨ IsUpper c ∨ IsDigit c ∨ IsSym c) →
    (isNumber c = true ∧ IsDigit c ∧ c ∈ Digits) ∨ (isNumber c = false ∧ isSymbol c = true ∧ IsSym c ∧ c ∈ Symbols) ∨
    (isNumber c = false ∧ isSymbol c = false ∧ (IsLower c ∨ IsUpper c) ∧ c ∈ LowerLetters ++ UpperLetters)) (by decide +kernel) c h

def Any (c : UInt8) : Prop := IsLower c ∨ IsUpper c ∨ IsDigit c ∨ IsSym c

theorem apart_all : Apart (LowerLetters ++ UpperLetters) Digits ∧ Apart (LowerLetters ++ UpperLetters) Symbols ∧
    Apart Digits Symbols := default_separate

theorem split_spec (pw : Str) (h : ∀ c ∈ pw, Any c) :
    (∀ c ∈ (split pw).1, IsLower c ∨ IsUpper c) ∧ (∀ c ∈ (split pw).2.1, IsDigit c) ∧ (∀ c ∈ (split pw).2.2, IsSym c) ∧
    (split pw).1.length = countIn (LowerLetters ++ UpperLetters) pw ∧ (split pw).2.1.length = countIn Digits pw ∧
    (split pw).2.2.length = countIn Symbols pw := by
  obtain ⟨a1, a2, a3⟩ := apart_all
  induction pw with
  | nil => simp [split, countIn]
  | cons c r ih =>
    have hc := classify c (h c List.mem_cons_self)
    obtain ⟨i1, i2, i3, i4, i5, i6⟩ := ih (fun d hd => h d (List.mem_cons_of_mem _ hd))
    have key : ∀ D : Str, countIn D (c :: r) = countIn D r + if c ∈ D then 1 else 0 := by
      intro D; unfold countIn; rw [List.filter_cons]; split <;> simp_all
    simp only [key]
    unfold split
    rcases hc with ⟨h1, h2, h3⟩ | ⟨h1, h2, h3, h4⟩ | ⟨h1, h2, h3, h4⟩
    · have n1 : c ∉ LowerLetters ++ UpperLetters := fun hh => a1 c hh h3
      have n2 : c ∉ Symbols := a3 c h3
      simp only [h1, if_true, n1, n2, h3, if_false, List.length_cons]
      refine ⟨i1, ?_, i3, i4, congrArg (· + 1) i5, i6⟩
      intro d hd; rcases List.mem_cons.mp hd with rfl | hd
      · exact h2
      · exact i2 d hd
    · have n1 : c ∉ LowerLetters ++ UpperLetters := fun hh => a2 c hh h4
      have n2 : c ∉ Digits := fun hh => a3 c hh h4
      simp only [h1, h2, if_true, Bool.false_eq_true, n1, n2, h4, if_false, List.length_cons]
      refine ⟨i1, i2, ?_, i4, i5, congrArg (· + 1) i6⟩
      intro d hd; rcases List.mem_cons.mp hd with rfl | hd
      · exact h3
      · exact i3 d hd
    · have n1 := a1 c h4
      have n2 := a2 c h4
      simp only [h1, h2, Bool.false_eq_true, n1, n2, h4, if_true, if_false, List.length_cons]
      refine ⟨?_, i2, i3, congrArg (· + 1) i4, i5, i6⟩
      intro d hd; rcases List.mem_cons.mp hd with rfl | hd
      · exact h3
      · exact i1 d hd

theorem fillForm_fits (P : UInt8 → Prop) (hP : ∀ c, P c → c < 0x80) (f : Str) : ∀ (ch nu sy res : Str), (∀ c ∈ ch, IsLower c ∨ IsUpper c) → (∀ c ∈ nu, IsDigit c) →
    (∀ c ∈ sy, IsSym c) → (∀ c ∈ res, P c) → f.count 120 + f.count 88 ≤ ch.length → f.count 110 ≤ nu.length →
    f.count 115 ≤ sy.length → f.count 97 ≤ res.length →
    ∃ out, fillForm f ch nu sy res = some out ∧ Fits P f out := by
  induction f with
  | nil => intro ch nu sy res _ _ _ _ _ _ _ _; exact ⟨[], by simp [fillForm], .nil⟩
  | cons c f ih =>
    intro ch nu sy res h1 h2 h3 h4 l1 l2 l3 l4
    simp only [List.count_cons] at l1 l2 l3 l4
    unfold fillForm
    by_cases e1 : c = 120
    · subst e1
      simp at l1 l2 l3 l4
      match ch, h1, l1 with
      | [], _, l1 => simp at l1
      | d :: ch, h1, l1 =>
        obtain ⟨o, ho, hf⟩ := ih ch nu sy res (fun x hx => h1 x (List.mem_cons_of_mem _ hx)) h2 h3 h4
          (by simp at l1; omega) l2 l3 l4
        refine ⟨toLower d :: o, by simp [ho], .lower (toLower_isLower d (h1 d List.mem_cons_self)) hf⟩
    by_cases e2 : c = 88
    · subst e2
      simp at l1 l2 l3 l4
      match ch, h1, l1 with
      | [], _, l1 => simp at l1
      | d :: ch, h1, l1 =>
        obtain ⟨o, ho, hf⟩ := ih ch nu sy res (fun x hx => h1 x (List.mem_cons_of_mem _ hx)) h2 h3 h4
          (by simp at l1; omega) l2 l3 l4
        refine ⟨toUpper d :: o, by simp [ho], .upper (toUpper_isUpper d (h1 d List.mem_cons_self)) hf⟩
    by_cases e3 : c = 110
    · subst e3
      simp at l1 l2 l3 l4
      match nu, h2, l2 with
      | [], _, l2 => simp at l2
      | d :: nu, h2, l2 =>
        obtain ⟨o, ho, hf⟩ := ih ch nu sy res h1 (fun x hx => h2 x (List.mem_cons_of_mem _ hx)) h3 h4
          l1 (by simp at l2; omega) l3 l4
        refine ⟨d :: o, by simp [ho], .digit (h2 d List.mem_cons_self) hf⟩
    by_cases e4 : c = 115
    · subst e4
      simp at l1 l2 l3 l4
      match sy, h3, l3 with
      | [], _, l3 => simp at l3
      | d :: sy, h3, l3 =>
        obtain ⟨o, ho, hf⟩ := ih ch nu sy res h1 h2 (fun x hx => h3 x (List.mem_cons_of_mem _ hx)) h4
          l1 l2 (by simp at l3; omega) l4
        refine ⟨d :: o, by simp [ho], .symbol (h3 d List.mem_cons_self) hf⟩
    by_cases e6 : c = 97
    · subst e6
      simp at l1 l2 l3 l4
      match res, h4, l4 with
      | [], _, l4 => simp at l4
      | d :: res, h4, l4 =>
        obtain ⟨o, ho, hf⟩ := ih ch nu sy res h1 h2 h3 (fun x hx => h4 x (List.mem_cons_of_mem _ hx))
          l1 l2 l3 (by simp at l4; omega)
        have hd := h4 d List.mem_cons_self
        refine ⟨d :: o, by simp [ho, stringOfByte_ascii (hP d hd)], .alpha hd hf⟩
    have n1 : (c == 120) = false := by simpa using e1
    have n2 : (c == 88) = false := by simpa using e2
    have n3 : (c == 110) = false := by simpa using e3
    have n4 : (c == 115) = false := by simpa using e4
    have n6 : (c == 97) = false := by simpa using e6
    simp only [n1, n2, n3, n4, n6, Bool.false_eq_true, if_false, Nat.add_zero] at l1 l2 l3 l4
    obtain ⟨o, ho, hf⟩ := ih ch nu sy res h1 h2 h3 h4 l1 l2 l3 l4
    rw [if_neg e1, if_neg e2, if_neg e3, if_neg e4]
    by_cases e5 : c = 45 ∨ c = 95 ∨ c = 47 ∨ c = 92 ∨ c = 35
    · rw [if_pos e5]
      refine ⟨c :: o, by simp [ho], .sep ?_ hf⟩
      rcases e5 with rfl | rfl | rfl | rfl | rfl <;> decide
    · rw [if_neg e5, if_neg e6]
      refine ⟨o, ho, .skip ?_ hf⟩
      intro hm
      have he : lit "xXnsa-_/\\#" = [120, 88, 110, 115, 97, 45, 95, 47, 92, 35] := by decide
      rw [he] at hm
      simp only [List.mem_cons, List.not_mem_nil, or_false] at hm
      tauto

theorem countForm_counts (f : Str) (k : Counts) :
    (countForm f k).alpha = k.alpha + f.count 97 ∧ (countForm f k).lower = k.lower + f.count 120 ∧
    (countForm f k).upper = k.upper + f.count 88 ∧ (countForm f k).number = k.number + f.count 110 ∧
    (countForm f k).symbol = k.symbol + f.count 115 := by
  induction f generalizing k with
  | nil => simp [countForm]
  | cons c f ih =>
    rw [countForm]
    simp only [List.count_cons]
    by_cases e1 : c = 97
    · subst e1; have := ih { k with alpha := k.alpha + 1 }; simp at this ⊢; omega
    by_cases e2 : c = 120
    · subst e2; have := ih { k with lower := k.lower + 1 }; simp at this ⊢; omega
    by_cases e3 : c = 88
    · subst e3; have := ih { k with upper := k.upper + 1 }; simp at this ⊢; omega
    by_cases e4 : c = 110
    · subst e4; have := ih { k with number := k.number + 1 }; simp at this ⊢; omega
    by_cases e5 : c = 115
    · subst e5; have := ih { k with symbol := k.symbol + 1 }; simp at this ⊢; omega
    simp only [e1, e2, e3, e4, e5, if_false, beq_iff_eq, Nat.add_zero]
    exact ih k

theorem run_chars {fuel : Nat} {l d s : Int} {nu ar : Bool} {r pw rest : Str}
    (h : (generate fuel l d s nu ar).run r = .ok (pw, rest)) : ∀ c ∈ pw, Any c := by
  intro c hc
  have := C02_permitted _ default_ascii _ _ _ _ _ _ _ _ _ h c hc
  apply mem_class
  rcases this with h | h | h | h
  · exact .inl h
  · exact .inr (.inl h)
  · exact .inr (.inr (.inl h))
  · exact .inr (.inr (.inr h.2))

theorem default_fields : defaultGenerator.lowerLetters = LowerLetters ∧ defaultGenerator.upperLetters = UpperLetters ∧
    defaultGenerator.digits = Digits ∧ defaultGenerator.symbols = Symbols := by decide

theorem form_counts {fuel : Nat} (f : Str) {nu ar : Bool} {r pw rest : Str}
    (h : (generate fuel (formRequest (countForm f {})).1 (formRequest (countForm f {})).2.1 (formRequest (countForm f {})).2.2
      nu ar).run r = .ok (pw, rest)) :
    f.count 120 + f.count 88 ≤ countIn (LowerLetters ++ UpperLetters) pw ∧ f.count 110 ≤ countIn Digits pw ∧
    countIn Symbols pw = f.count 115 ∧ f.count 97 ≤ pw.length := by
  obtain ⟨k1, k2, k3, k4, k5⟩ := countForm_counts f {}
  simp only [Nat.zero_add] at k1 k2 k3 k4 k5
  obtain ⟨c1, c2, c3, c4, _⟩ := C01_composition _ default_ascii default_separate _ _ _ _
    (by simp only [formRequest]; omega) (by simp only [formRequest]; omega) _ _ _ _ _ h
  obtain ⟨e1, e2, e3, e4⟩ := default_fields
  rw [e1, e2] at c4; rw [e3] at c2; rw [e4] at c3
  simp only [formRequest, k1, k2, k3, k4, k5] at c1 c2 c3 c4
  refine ⟨?_, ?_, ?_, ?_⟩ <;> omega

/-- What happens once a password has been generated for a form. -/
theorem form_fill (P : UInt8 → Prop) (hP : ∀ c, P c → c < 0x80) {fuel : Nat} (f : Str) {nu ar : Bool} {r pw rest : Str}
    (h : (generate fuel (formRequest (countForm f {})).1 (formRequest (countForm f {})).2.1 (formRequest (countForm f {})).2.2
      nu ar).run r = .ok (pw, rest)) (hpw : ∀ c ∈ pw, P c) :
    ∃ out, fillForm f (split pw).1 (split pw).2.1 (split pw).2.2 pw = some out ∧ Fits P f out := by
  obtain ⟨s1, s2, s3, s4, s5, s6⟩ := split_spec pw (run_chars h)
  obtain ⟨c1, c2, c3, c4⟩ := form_counts f h
  apply fillForm_fits P hP f _ _ _ _ s1 s2 s3 hpw <;> omega

/-- C10: for every form the command does not crash, and what it prints follows the form position by position (here an `a` may
become any character, see C11). -/
theorem C10_form (a : GenerateCmd) (f : Str) (hf : a.form = some f) (fuel : Nat) (stream : Str) :
    a.run fuel stream ≠ .panic ∧ ∀ out, a.run fuel stream = .ok out → Fits Any f out := by
  unfold GenerateCmd.run
  rw [hf]
  simp only
  cases hr : (generate fuel (formRequest (countForm f {})).1 (formRequest (countForm f {})).2.1
      (formRequest (countForm f {})).2.2 (!a.mixed) (!a.unique)).run stream with
  | ok p =>
    obtain ⟨pw, rest⟩ := p
    obtain ⟨out, ho, hfit⟩ := form_fill Any class_ascii f hr (run_chars hr)
    simp only [ho]
    exact ⟨by simp, fun o h => by simp at h; rw [← h]; exact hfit⟩
  | err e => simp
  | panic =>
    exfalso
    have hne := C04_newGenerator_nonempty ⟨[], [], [], []⟩
    obtain ⟨v, hv, _⟩ := C04_rules_total defaultGenerator (formRequest (countForm f {})).1
      (formRequest (countForm f {})).2.1 (formRequest (countForm f {})).2.2 (!a.mixed) (!a.unique)
    have := C04_rejections defaultGenerator hne fuel _ _ _ _ _ v hv stream
    unfold generate at hr
    cases v with
    | some e => simp only [hr] at this; simp at this
    | none => simp only [hr] at this; simp at this
  | nofuel => simp

/-- C10, form free case: the printed line is the generated password. -/
theorem C10_no_form (a : GenerateCmd) (hf : a.form = none) (fuel : Nat) (stream out : Str)
    (h : a.run fuel stream = .ok out) :
    ∃ rest, (generate fuel a.length a.numbers a.symbols (!a.mixed) (!a.unique)).run stream = .ok (out, rest) := by
  unfold GenerateCmd.run at h
  rw [hf] at h
  simp only at h
  split at h
  · simp at h; subst h; exact ⟨_, by assumption⟩
  all_goals simp at h

/-- C11 is violated: with the form `as` the position marked `a` can become the symbol `!`. -/
theorem C11_counterexample : ∃ stream, GenerateCmd.run ⟨0, 0, 0, false, false, some (lit "as")⟩ 1 stream = .ok (lit "!!") := by
  have hc : Conforms defaultGenerator 2 0 1 true true (lit "!b") := by
    refine ⟨?_, ?_, ?_, ?_, ?_⟩ <;> decide
  obtain ⟨bs, h⟩ := C05_every_password defaultGenerator default_ascii default_separate 1 (by omega) 2 0 1 true true _ hc
  refine ⟨bs ++ [], ?_⟩
  have h0 := h []
  unfold GenerateCmd.run generate
  have e : formRequest (countForm (lit "as") {}) = (2, 0, 1) := by decide
  simp only [e, Bool.not_false, h0]
  decide

/-- C11, what does hold: forms that ask for no symbol only get letters and digits at `a`. Missing: forms containing `s`. -/
theorem C11_partial (a : GenerateCmd) (f : Str) (hf : a.form = some f) (hs : (115 : UInt8) ∉ f) (fuel : Nat) (stream out : Str)
    (h : a.run fuel stream = .ok out) : Fits (fun c => IsLower c ∨ IsUpper c ∨ IsDigit c) f out := by
  unfold GenerateCmd.run at h
  rw [hf] at h
  simp only at h
  split at h
  · rename_i pw rest hr
    obtain ⟨_, _, c3, _⟩ := form_counts f hr
    have hany := run_chars hr
    rw [List.count_eq_zero_of_not_mem hs] at c3
    obtain ⟨o, ho, hfit⟩ := form_fill (fun c => IsLower c ∨ IsUpper c ∨ IsDigit c)
      (fun c hc => class_ascii c (hc.elim .inl (fun h => .inr (h.elim .inl (fun h => .inr (.inl h)))))) f hr (by
        intro c hc
        unfold countIn at c3
        rw [List.length_eq_zero_iff, List.filter_eq_nil_iff] at c3
        have hns : ¬ IsSym c := fun hsym => c3 c hc (decide_eq_true hsym)
        rcases hany c hc with h | h | h | h
        · exact .inl h
        · exact .inr (.inl h)
        · exact .inr (.inr h)
        · exact absurd h hns)
    simp only [ho] at h
    simp at h; rw [← h]; exact hfit
  all_goals simp at h

/-- C62 is violated: with `--unique` and the form `xa` the printed password can be `bb`. -/
theorem C62_counterexample : ∃ stream, GenerateCmd.run ⟨0, 0, 0, false, true, some (lit "xa")⟩ 1 stream = .ok (lit "bb") := by
  have hc : Conforms defaultGenerator 2 0 0 true false (lit "bc") := by
    refine ⟨?_, ?_, ?_, ?_, ?_⟩ <;> decide
  obtain ⟨bs, h⟩ := C05_every_password defaultGenerator default_ascii default_separate 1 (by omega) 2 0 0 true false _ hc
  refine ⟨bs ++ [], ?_⟩
  have h0 := h []
  unfold GenerateCmd.run generate
  have e : formRequest (countForm (lit "xa") {}) = (2, 0, 0) := by decide
  simp only [e, Bool.not_false, Bool.not_true, h0]
  decide

/-- C62, what does hold: without a form, `--unique` prints no repeated character. Missing: forms (see the counterexample). -/
theorem C62_partial (a : GenerateCmd) (hf : a.form = none) (hu : a.unique = true) (fuel : Nat) (stream out : Str)
    (h : a.run fuel stream = .ok out) : out.Nodup := by
  obtain ⟨rest, hr⟩ := C10_no_form a hf fuel stream out h
  rw [hu] at hr
  exact C03_no_repeats _ default_ascii _ _ _ _ _ _ _ _ hr

/-! ### Concrete cases -/

/-- The form of the help text: some stream makes the command print `ab1c-d2-e3f4`. -/
example : ∃ stream, GenerateCmd.run ⟨0, 0, 0, false, false, some (lit "xxnx-xn-xnxn")⟩ 1 stream = .ok (lit "ab1c-d2-e3f4") := by
  have hc : Conforms defaultGenerator 10 4 0 true true (lit "ab1cd2e3f4") := by
    refine ⟨?_, ?_, ?_, ?_, ?_⟩ <;> decide
  obtain ⟨bs, h⟩ := C05_every_password defaultGenerator default_ascii default_separate 1 (by omega) 10 4 0 true true _ hc
  refine ⟨bs ++ [], ?_⟩
  have h0 := h []
  unfold GenerateCmd.run generate
  have e : formRequest (countForm (lit "xxnx-xn-xnxn") {}) = (10, 4, 0) := by decide
  simp only [e, Bool.not_false, h0]
  decide

end Verif.FormGen
