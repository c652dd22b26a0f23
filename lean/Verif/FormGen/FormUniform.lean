import Verif.FormGen.FormProps
import Mathlib.Algebra.BigOperators.Ring.Finset
import Mathlib.Algebra.Order.BigOperators.Group.Finset
import Mathlib.Data.Finset.Card
/-
C107: every text that a form without `a` stands for is equally likely.
-/
namespace Verif.FormGen
open Verif.Password Finset

/-- The command as a random computation (cmds/generate.go:23-126): the password is drawn, then the form is filled; a run-time panic is a draw below 0,
which is what `crypto/rand.Int` panics on. -/
def GenerateCmd.prog (a : GenerateCmd) (fuel : Nat) : Prog Str :=
  match a.form with
  | none => generate fuel a.length a.numbers a.symbols (!a.mixed) (!a.unique)
  | some f =>
    let (length, numbers, symbols) := formRequest (countForm f {})
    (generate fuel length numbers symbols (!a.mixed) (!a.unique)).bind fun pw =>
      let (ch, nu, sy) := split pw
      match fillForm f ch nu sy pw with
      | some out => .ret out
      | none => .draw 0 fun _ => .stuck

/-- What was printed, without the rest of the random bytes. -/
def printed : Out (Str × Str) → Out Str
  | .ok (o, _) => .ok o
  | .err e => .err e
  | .panic => .panic
  | .nofuel => .nofuel

theorem run_bind {α β} (p : Prog α) (f : α → Prog β) (r : Str) : (p.bind f).run r = match p.run r with
    | .ok (a, r') => (f a).run r' | .err e => .err e | .panic => .panic | .nofuel => .nofuel := by
  induction p generalizing r with
  | ret a => rfl
  | draw m k ih =>
    simp only [Prog.bind, Prog.run]
    split
    · exact ih _ _
    all_goals rfl
  | fail e => rfl
  | stuck => rfl

/-- The random computation is the command. -/
theorem C107_prog (a : GenerateCmd) (fuel : Nat) (stream : Str) : a.run fuel stream = printed ((a.prog fuel).run stream) := by
  unfold GenerateCmd.run GenerateCmd.prog
  cases hf : a.form with
  | none =>
    dsimp only
    cases h : (generate fuel a.length a.numbers a.symbols (!a.mixed) (!a.unique)).run stream <;> rfl
  | some f =>
    dsimp only
    rw [run_bind]
    generalize hg : generate fuel _ _ _ (!a.mixed) (!a.unique) = g
    cases h : g.run stream with
    | ok x =>
      obtain ⟨pw, rest⟩ := x
      dsimp only
      cases h2 : fillForm f (split pw).1 (split pw).2.1 (split pw).2.2 pw with
      | some o => rfl
      | none => rfl
    | err e => rfl
    | panic => rfl
    | nofuel => rfl

/-! ### Forms without `a` -/

theorem fits_nil {out ls ds ss : Str} : FitsWith [] out ls ds ss ↔ out = [] ∧ ls = [] ∧ ds = [] ∧ ss = [] := by
  constructor
  · intro h
    generalize hF : ([] : Str) = F at h
    cases h <;> first | exact ⟨rfl, rfl, rfl, rfl⟩ | simp [lit] at hF
  · rintro ⟨rfl, rfl, rfl, rfl⟩; exact .nil

theorem fits_cons {c : UInt8} {f out ls ds ss : Str} : FitsWith (c :: f) out ls ds ss ↔
    if c = 120 then ∃ d o l, out = d :: o ∧ ls = d :: l ∧ IsLower d ∧ FitsWith f o l ds ss
    else if c = 88 then ∃ d o l, out = d :: o ∧ ls = lowerOf d :: l ∧ IsUpper d ∧ FitsWith f o l ds ss
    else if c = 110 then ∃ d o l, out = d :: o ∧ ds = d :: l ∧ IsDigit d ∧ FitsWith f o ls l ss
    else if c = 115 then ∃ d o l, out = d :: o ∧ ss = d :: l ∧ IsSym d ∧ FitsWith f o ls ds l
    else if c ∈ lit "-_/\\#" then ∃ o, out = c :: o ∧ FitsWith f o ls ds ss
    else c ≠ 97 ∧ FitsWith f out ls ds ss := by
  have ex : lit "x" = [120] := by decide
  have eX : lit "X" = [88] := by decide
  have en : lit "n" = [110] := by decide
  have es : lit "s" = [115] := by decide
  have e5 : lit "-_/\\#" = [45, 95, 47, 92, 35] := by decide
  have e6 : lit "xXnsa-_/\\#" = [120, 88, 110, 115, 97, 45, 95, 47, 92, 35] := by decide
  constructor
  · intro h
    generalize hF : c :: f = F at h
    cases h with
    | nil => cases hF
    | lower h1 h2 => rw [ex] at hF; cases hF; simp; exact ⟨h1, h2⟩
    | upper h1 h2 => rw [eX] at hF; cases hF; simp; exact ⟨h1, h2⟩
    | digit h1 h2 => rw [en] at hF; cases hF; simp; exact ⟨h1, h2⟩
    | symbol h1 h2 => rw [es] at hF; cases hF; simp; exact ⟨h1, h2⟩
    | sep h1 h2 =>
      cases hF
      have : c ≠ 120 ∧ c ≠ 88 ∧ c ≠ 110 ∧ c ≠ 115 := by
        rw [e5] at h1
        simp only [List.mem_cons, List.not_mem_nil, or_false] at h1
        rcases h1 with rfl | rfl | rfl | rfl | rfl <;> decide
      rw [if_neg this.1, if_neg this.2.1, if_neg this.2.2.1, if_neg this.2.2.2, if_pos h1]
      exact ⟨_, rfl, h2⟩
    | skip h1 h2 =>
      cases hF
      rw [e6] at h1
      simp only [List.mem_cons, List.not_mem_nil, or_false, not_or] at h1
      rw [if_neg h1.1, if_neg h1.2.1, if_neg h1.2.2.1, if_neg h1.2.2.2.1, if_neg (by rw [e5]; simp [h1])]
      exact ⟨h1.2.2.2.2.1, h2⟩
  · intro h
    split at h
    · rename_i hc; subst hc; obtain ⟨d, o, l, rfl, rfl, h1, h2⟩ := h; have := FitsWith.lower h1 h2; rwa [ex] at this
    split at h
    · rename_i hc; subst hc; obtain ⟨d, o, l, rfl, rfl, h1, h2⟩ := h; have := FitsWith.upper h1 h2; rwa [eX] at this
    split at h
    · rename_i hc; subst hc; obtain ⟨d, o, l, rfl, rfl, h1, h2⟩ := h; have := FitsWith.digit h1 h2; rwa [en] at this
    split at h
    · rename_i hc; subst hc; obtain ⟨d, o, l, rfl, rfl, h1, h2⟩ := h; have := FitsWith.symbol h1 h2; rwa [es] at this
    split at h
    · rename_i hc; obtain ⟨o, rfl, h2⟩ := h; exact .sep hc h2
    · rename_i n1 n2 n3 n4 n5
      refine .skip ?_ h.2
      rw [e5] at n5
      rw [e6]
      simp only [List.mem_cons, List.not_mem_nil, or_false, not_or] at n5 ⊢
      exact ⟨n1, n2, n3, n4, h.1, n5⟩

theorem lowerOf_letter (c : UInt8) (h : IsLower c ∨ IsUpper c) : IsLower (lowerOf c) ∧ IsUpper (upperOf c) ∧ lowerOf (upperOf c) = lowerOf c :=
  byte_forall (fun c => IsLower c ∨ IsUpper c → IsLower (lowerOf c) ∧ IsUpper (upperOf c) ∧ lowerOf (upperOf c) = lowerOf c) (by decide +kernel) c h

theorem upper_of_lower (c : UInt8) (h : IsUpper c) : upperOf (lowerOf c) = c :=
  byte_forall (fun c => IsUpper c → upperOf (lowerOf c) = c) (by decide +kernel) c h

theorem lower_fixed (c : UInt8) (h : IsLower c) : lowerOf c = c :=
  byte_forall (fun c => IsLower c → lowerOf c = c) (by decide +kernel) c h

/-- A form without `a`, filled from exactly the letters, digits and symbols that it needs, follows the form with just them. -/
theorem fill_fits : ∀ (f ch nu sy res out : Str), (97 : UInt8) ∉ f → (∀ c ∈ ch, IsLower c ∨ IsUpper c) → (∀ c ∈ nu, IsDigit c) → (∀ c ∈ sy, IsSym c) →
    ch.length = f.count 120 + f.count 88 → nu.length = f.count 110 → sy.length = f.count 115 →
    fillForm f ch nu sy res = some out → FitsWith f out (ch.map lowerOf) nu sy
  | [], ch, nu, sy, res, out, _, _, _, _, l1, l2, l3, h => by
    simp only [List.count_nil, Nat.add_zero, List.length_eq_zero_iff] at l1 l2 l3
    subst l1; subst l2; subst l3
    simp [fillForm] at h
    subst h
    exact .nil
  | c :: f, ch, nu, sy, res, out, ha, h1, h2, h3, l1, l2, l3, h => by
    have ha' : (97 : UInt8) ∉ f := fun hm => ha (List.mem_cons_of_mem _ hm)
    have hc : c ≠ 97 := fun e => ha (e ▸ List.mem_cons_self)
    rw [fits_cons]
    unfold fillForm at h
    simp only [List.count_cons, beq_iff_eq] at l1 l2 l3
    by_cases e1 : c = 120
    · subst e1
      rw [if_pos rfl] at h ⊢
      cases ch with
      | nil => simp at h
      | cons d ch =>
        dsimp only at h
        cases h' : fillForm f ch nu sy res with
        | none => rw [h'] at h; simp at h
        | some o =>
          rw [h'] at h
          simp only [Option.map_some, Option.some.injEq] at h
          subst h
          rw [toLower_eq]
          refine ⟨_, _, _, rfl, rfl, (lowerOf_letter d (h1 d List.mem_cons_self)).1, ?_⟩
          exact fill_fits f ch nu sy res o ha' (fun c hc => h1 c (List.mem_cons_of_mem _ hc)) h2 h3 (by simp at l1; omega) (by simpa using l2) (by simpa using l3) h'
    by_cases e2 : c = 88
    · subst e2
      rw [if_neg (by decide), if_pos rfl] at h ⊢
      cases ch with
      | nil => simp at h
      | cons d ch =>
        dsimp only at h
        cases h' : fillForm f ch nu sy res with
        | none => rw [h'] at h; simp at h
        | some o =>
          rw [h'] at h
          simp only [Option.map_some, Option.some.injEq] at h
          subst h
          rw [toUpper_eq]
          obtain ⟨k1, k2, k3⟩ := lowerOf_letter d (h1 d List.mem_cons_self)
          refine ⟨_, _, ch.map lowerOf, rfl, by rw [List.map_cons, k3], k2, ?_⟩
          exact fill_fits f ch nu sy res o ha' (fun c hc => h1 c (List.mem_cons_of_mem _ hc)) h2 h3 (by simp at l1; omega) (by simpa using l2) (by simpa using l3) h'
    by_cases e3 : c = 110
    · subst e3
      rw [if_neg (by decide), if_neg (by decide), if_pos rfl] at h ⊢
      cases nu with
      | nil => simp at h
      | cons d nu =>
        dsimp only at h
        cases h' : fillForm f ch nu sy res with
        | none => rw [h'] at h; simp at h
        | some o =>
          rw [h'] at h
          simp only [Option.map_some, Option.some.injEq] at h
          subst h
          refine ⟨_, _, nu, rfl, rfl, h2 d List.mem_cons_self, ?_⟩
          exact fill_fits f ch nu sy res o ha' h1 (fun c hc => h2 c (List.mem_cons_of_mem _ hc)) h3 (by simp at l1; omega) (by simpa using l2) (by simpa using l3) h'
    by_cases e4 : c = 115
    · subst e4
      rw [if_neg (by decide), if_neg (by decide), if_neg (by decide), if_pos rfl] at h ⊢
      cases sy with
      | nil => simp at h
      | cons d sy =>
        dsimp only at h
        cases h' : fillForm f ch nu sy res with
        | none => rw [h'] at h; simp at h
        | some o =>
          rw [h'] at h
          simp only [Option.map_some, Option.some.injEq] at h
          subst h
          refine ⟨_, _, sy, rfl, rfl, h3 d List.mem_cons_self, ?_⟩
          exact fill_fits f ch nu sy res o ha' h1 h2 (fun c hc => h3 c (List.mem_cons_of_mem _ hc)) (by simp at l1; omega) (by simpa using l2) (by simpa using l3) h'
    rw [if_neg e1, if_neg e2, if_neg e3, if_neg e4] at h ⊢
    have e6 : (c = 45 ∨ c = 95 ∨ c = 47 ∨ c = 92 ∨ c = 35) ↔ c ∈ lit "-_/\\#" := by
      rw [show lit "-_/\\#" = [45, 95, 47, 92, 35] by decide]; simp
    simp only [e1, e2, e3, e4, if_false, Nat.add_zero] at l1 l2 l3
    by_cases e7 : c ∈ lit "-_/\\#"
    · rw [if_pos (e6.2 e7)] at h
      rw [if_pos e7]
      cases h' : fillForm f ch nu sy res with
      | none => rw [h'] at h; simp at h
      | some o =>
        rw [h'] at h
        simp only [Option.map_some, Option.some.injEq] at h
        exact ⟨o, h.symm, fill_fits f ch nu sy res o ha' h1 h2 h3 l1 l2 l3 h'⟩
    · rw [if_neg (fun h => e7 (e6.1 h)), if_neg hc] at h
      rw [if_neg e7]
      exact ⟨hc, fill_fits f ch nu sy res out ha' h1 h2 h3 l1 l2 l3 h⟩

/-- What follows a form is given by the letters, digits and symbols. -/
theorem fits_out : ∀ {f out out' ls ds ss : Str}, FitsWith f out ls ds ss → FitsWith f out' ls ds ss → out = out'
  | [], out, out', ls, ds, ss, h, h' => by rw [fits_nil] at h h'; rw [h.1, h'.1]
  | c :: f, out, out', ls, ds, ss, h, h' => by
    rw [fits_cons] at h h'
    split at h
    · rename_i hc; rw [if_pos hc] at h'
      obtain ⟨d, o, l, rfl, rfl, h1, h2⟩ := h
      obtain ⟨d', o', l', rfl, e, h1', h2'⟩ := h'
      cases e
      rw [fits_out h2 h2']
    rename_i n1; rw [if_neg n1] at h'
    split at h
    · rename_i hc; rw [if_pos hc] at h'
      obtain ⟨d, o, l, rfl, rfl, h1, h2⟩ := h
      obtain ⟨d', o', l', rfl, e, h1', h2'⟩ := h'
      injection e with e0 e; subst e
      rw [fits_out h2 h2', ← upper_of_lower d h1, ← upper_of_lower d' h1', e0]
    rename_i n1; rw [if_neg n1] at h'
    split at h
    · rename_i hc; rw [if_pos hc] at h'
      obtain ⟨d, o, l, rfl, rfl, h1, h2⟩ := h
      obtain ⟨d', o', l', rfl, e, h1', h2'⟩ := h'
      cases e
      rw [fits_out h2 h2']
    rename_i n1; rw [if_neg n1] at h'
    split at h
    · rename_i hc; rw [if_pos hc] at h'
      obtain ⟨d, o, l, rfl, rfl, h1, h2⟩ := h
      obtain ⟨d', o', l', rfl, e, h1', h2'⟩ := h'
      cases e
      rw [fits_out h2 h2']
    rename_i n1; rw [if_neg n1] at h'
    split at h
    · rename_i hc; rw [if_pos hc] at h'
      obtain ⟨o, rfl, h2⟩ := h
      obtain ⟨o', rfl, h2'⟩ := h'
      rw [fits_out h2 h2']
    · rename_i hc; rw [if_neg hc] at h'
      exact fits_out h.2 h'.2

/-- What follows a form has its letters, digits and symbols. -/
theorem fits_parts : ∀ {f out ls ds ss ls' ds' ss' : Str}, FitsWith f out ls ds ss → FitsWith f out ls' ds' ss' → ls = ls' ∧ ds = ds' ∧ ss = ss'
  | [], out, ls, ds, ss, ls', ds', ss', h, h' => by rw [fits_nil] at h h'; simp [h, h']
  | c :: f, out, ls, ds, ss, ls', ds', ss', h, h' => by
    rw [fits_cons] at h h'
    split at h
    · rename_i hc; rw [if_pos hc] at h'
      obtain ⟨d, o, l, rfl, rfl, h1, h2⟩ := h
      obtain ⟨d', o', l', e, rfl, h1', h2'⟩ := h'
      cases e
      obtain ⟨rfl, rfl, rfl⟩ := fits_parts h2 h2'; exact ⟨rfl, rfl, rfl⟩
    rename_i n1; rw [if_neg n1] at h'
    split at h
    · rename_i hc; rw [if_pos hc] at h'
      obtain ⟨d, o, l, rfl, rfl, h1, h2⟩ := h
      obtain ⟨d', o', l', e, rfl, h1', h2'⟩ := h'
      cases e
      obtain ⟨rfl, rfl, rfl⟩ := fits_parts h2 h2'; exact ⟨rfl, rfl, rfl⟩
    rename_i n1; rw [if_neg n1] at h'
    split at h
    · rename_i hc; rw [if_pos hc] at h'
      obtain ⟨d, o, l, rfl, rfl, h1, h2⟩ := h
      obtain ⟨d', o', l', e, rfl, h1', h2'⟩ := h'
      cases e
      obtain ⟨rfl, rfl, rfl⟩ := fits_parts h2 h2'; exact ⟨rfl, rfl, rfl⟩
    rename_i n1; rw [if_neg n1] at h'
    split at h
    · rename_i hc; rw [if_pos hc] at h'
      obtain ⟨d, o, l, rfl, rfl, h1, h2⟩ := h
      obtain ⟨d', o', l', e, rfl, h1', h2'⟩ := h'
      cases e
      obtain ⟨rfl, rfl, rfl⟩ := fits_parts h2 h2'; exact ⟨rfl, rfl, rfl⟩
    rename_i n1; rw [if_neg n1] at h'
    split at h
    · rename_i hc; rw [if_pos hc] at h'
      obtain ⟨o, rfl, h2⟩ := h
      obtain ⟨o', e, h2'⟩ := h'
      cases e
      exact fits_parts h2 h2'
    · rename_i hc; rw [if_neg hc] at h'
      exact fits_parts h.2 h'.2

/-- The parts have the classes and the numbers that the form asks for. -/
theorem fits_shape : ∀ {f out ls ds ss : Str}, FitsWith f out ls ds ss → (∀ c ∈ ls, IsLower c) ∧ (∀ c ∈ ds, IsDigit c) ∧ (∀ c ∈ ss, IsSym c) ∧
    ls.length = f.count 120 + f.count 88 ∧ ds.length = f.count 110 ∧ ss.length = f.count 115
  | [], out, ls, ds, ss, h => by rw [fits_nil] at h; simp [h]
  | c :: f, out, ls, ds, ss, h => by
    rw [fits_cons] at h
    simp only [List.count_cons, beq_iff_eq]
    split at h
    · rename_i hc; subst hc
      obtain ⟨d, o, l, rfl, rfl, h1, h2⟩ := h
      obtain ⟨a1, a2, a3, a4, a5, a6⟩ := fits_shape h2
      refine ⟨?_, a2, a3, by simp; omega, by simpa using a5, by simpa using a6⟩
      simpa [h1] using a1
    split at h
    · rename_i hc; subst hc
      obtain ⟨d, o, l, rfl, rfl, h1, h2⟩ := h
      obtain ⟨a1, a2, a3, a4, a5, a6⟩ := fits_shape h2
      refine ⟨?_, a2, a3, by simp; omega, by simpa using a5, by simpa using a6⟩
      simpa [(lowerOf_letter d (.inr h1)).1] using a1
    split at h
    · rename_i hc; subst hc
      obtain ⟨d, o, l, rfl, rfl, h1, h2⟩ := h
      obtain ⟨a1, a2, a3, a4, a5, a6⟩ := fits_shape h2
      refine ⟨a1, ?_, a3, by simp; omega, by simpa using a5, by simpa using a6⟩
      simpa [h1] using a2
    split at h
    · rename_i hc; subst hc
      obtain ⟨d, o, l, rfl, rfl, h1, h2⟩ := h
      obtain ⟨a1, a2, a3, a4, a5, a6⟩ := fits_shape h2
      refine ⟨a1, a2, ?_, by simp; omega, by simpa using a5, by simpa using a6⟩
      simpa [h1] using a3
    rename_i n1 n2 n3 n4
    simp only [n1, n2, n3, n4, if_false, Nat.add_zero]
    split at h
    · obtain ⟨o, rfl, h2⟩ := h
      exact fits_shape h2
    · exact fits_shape h.2

/-- Letters, digits and symbols in the right numbers fit in a form without `a`. -/
theorem fits_exists : ∀ {f ls ds ss : Str}, (97 : UInt8) ∉ f → (∀ c ∈ ls, IsLower c) → (∀ c ∈ ds, IsDigit c) → (∀ c ∈ ss, IsSym c) →
    ls.length = f.count 120 + f.count 88 → ds.length = f.count 110 → ss.length = f.count 115 → ∃ out, FitsWith f out ls ds ss := by
  intro f ls ds ss ha h1 h2 h3 l1 l2 l3
  have key : fillForm f ls ds ss [] ≠ none := by
    clear h1 h2 h3
    induction f generalizing ls ds ss with
    | nil => simp [fillForm]
    | cons c f ih =>
      have ha' : (97 : UInt8) ∉ f := fun hm => ha (List.mem_cons_of_mem _ hm)
      have hc : c ≠ 97 := fun e => ha (e ▸ List.mem_cons_self)
      unfold fillForm
      simp only [List.count_cons, beq_iff_eq] at l1 l2 l3
      split
      · rename_i e; subst e
        cases ls with
        | nil => simp at l1; omega
        | cons d ls => simpa using ih ha' (by simp at l1; omega) (by simpa using l2) (by simpa using l3)
      split
      · rename_i e; subst e
        cases ls with
        | nil => simp at l1
        | cons d ls => simpa using ih ha' (by simp at l1; omega) (by simpa using l2) (by simpa using l3)
      split
      · rename_i e; subst e
        cases ds with
        | nil => simp at l2
        | cons d ls => simpa using ih ha' (by simpa using l1) (by simpa using l2) (by simpa using l3)
      split
      · rename_i e; subst e
        cases ss with
        | nil => simp at l3
        | cons d ls => simpa using ih ha' (by simpa using l1) (by simpa using l2) (by simpa using l3)
      rename_i n1 n2 n3 n4
      simp only [n1, n2, n3, n4, if_false, Nat.add_zero] at l1 l2 l3
      split
      · simpa using ih ha' l1 l2 l3
      exact ih ha' l1 l2 l3
  cases h : fillForm f ls ds ss [] with
  | none => exact absurd h key
  | some out =>
    have := fill_fits f ls ds ss [] out ha (fun c hc => .inl (h1 c hc)) h2 h3 l1 l2 l3 h
    rw [(List.map_congr_left fun c hc => lower_fixed c (h1 c hc) : ls.map lowerOf = ls.map fun c => c), List.map_id'] at this
    exact ⟨out, this⟩

/-! ### Passwords with given letters, digits and symbols -/

/-- `l` in the case of `c`. -/
def recase (c l : UInt8) : UInt8 := if IsUpper c then upperOf l else l

/-- The password with its letters (each in its case), digits and symbols replaced by others. -/
def weave : Str → Str → Str → Str → Str
  | [], _, _, _ => []
  | c :: r, ls, ds, ss =>
    if IsLower c ∨ IsUpper c then recase c (ls.headD 0) :: weave r ls.tail ds ss
    else if IsDigit c then ds.headD 0 :: weave r ls ds.tail ss
    else ss.headD 0 :: weave r ls ds ss.tail

theorem letters_cons (c : UInt8) (r : Str) : lettersIn (c :: r) = if IsLower c ∨ IsUpper c then c :: lettersIn r else lettersIn r := by
  simp [lettersIn, List.filter_cons]
theorem digits_cons (c : UInt8) (r : Str) : digitsIn (c :: r) = if IsDigit c then c :: digitsIn r else digitsIn r := by
  simp [digitsIn, List.filter_cons]
theorem symbols_cons (c : UInt8) (r : Str) : symbolsIn (c :: r) = if IsSym c then c :: symbolsIn r else symbolsIn r := by
  simp [symbolsIn, List.filter_cons]

theorem classes_apart (c : UInt8) : (IsDigit c → ¬ (IsLower c ∨ IsUpper c)) ∧ (IsSym c → ¬ (IsLower c ∨ IsUpper c)) ∧ (IsSym c → ¬ IsDigit c) ∧ (IsUpper c → ¬ IsLower c) :=
  byte_forall (fun c => (IsDigit c → ¬ (IsLower c ∨ IsUpper c)) ∧ (IsSym c → ¬ (IsLower c ∨ IsUpper c)) ∧ (IsSym c → ¬ IsDigit c) ∧ (IsUpper c → ¬ IsLower c)) (by decide +kernel) c

theorem recase_letter (c l : UInt8) (hl : IsLower l) : (IsLower (recase c l) ∨ IsUpper (recase c l)) ∧ lowerOf (recase c l) = l ∧ (IsUpper (recase c l) ↔ IsUpper c) := by
  unfold recase
  obtain ⟨k1, k2, k3⟩ := lowerOf_letter l (.inl hl)
  split
  · rename_i h
    exact ⟨.inr k2, by rw [k3, lower_fixed l hl], ⟨fun _ => h, fun _ => k2⟩⟩
  · rename_i h
    exact ⟨.inl hl, lower_fixed l hl, ⟨fun hu => absurd hl ((classes_apart l).2.2.2 hu), fun hu => absurd hu h⟩⟩

theorem weave_spec : ∀ (pw ls ds ss : Str), (∀ c ∈ pw, Any c) → (∀ c ∈ ls, IsLower c) → (∀ c ∈ ds, IsDigit c) → (∀ c ∈ ss, IsSym c) →
    (lettersIn pw).length = ls.length → (digitsIn pw).length = ds.length → (symbolsIn pw).length = ss.length →
    (lettersIn (weave pw ls ds ss)).map lowerOf = ls ∧ digitsIn (weave pw ls ds ss) = ds ∧ symbolsIn (weave pw ls ds ss) = ss ∧
    (weave pw ls ds ss).length = pw.length ∧ (∀ c ∈ weave pw ls ds ss, Any c) ∧ ((∀ c ∈ pw, ¬ IsUpper c) → ∀ c ∈ weave pw ls ds ss, ¬ IsUpper c) ∧
    weave (weave pw ls ds ss) ((lettersIn pw).map lowerOf) (digitsIn pw) (symbolsIn pw) = pw
  | [], ls, ds, ss, _, _, _, _, l1, l2, l3 => by
    have e1 : ls = [] := List.length_eq_zero_iff.1 l1.symm
    have e2 : ds = [] := List.length_eq_zero_iff.1 l2.symm
    have e3 : ss = [] := List.length_eq_zero_iff.1 l3.symm
    subst e1; subst e2; subst e3
    simp [weave, lettersIn, digitsIn, symbolsIn]
  | c :: r, ls, ds, ss, hp, h1, h2, h3, l1, l2, l3 => by
    have hr : ∀ c ∈ r, Any c := fun d hd => hp d (List.mem_cons_of_mem _ hd)
    have hc := hp c List.mem_cons_self
    rw [letters_cons] at l1
    rw [digits_cons] at l2
    rw [symbols_cons] at l3
    obtain ⟨a1, a2, a3, a4⟩ := classes_apart c
    by_cases hl : IsLower c ∨ IsUpper c
    · have nd : ¬ IsDigit c := fun h => a1 h hl
      have ns : ¬ IsSym c := fun h => a2 h hl
      rw [if_pos hl] at l1
      rw [if_neg nd] at l2
      rw [if_neg ns] at l3
      cases ls with
      | nil => simp at l1
      | cons l ls =>
        have hll := h1 l List.mem_cons_self
        obtain ⟨r1, r2, r3⟩ := recase_letter c l hll
        obtain ⟨b1, b2, b3, b4⟩ := classes_apart (recase c l)
        obtain ⟨i1, i2, i3, i4, i5, i6, i7⟩ := weave_spec r ls ds ss hr (fun d hd => h1 d (List.mem_cons_of_mem _ hd)) h2 h3 (by simpa using l1) l2 l3
        have ew : weave (c :: r) (l :: ls) ds ss = recase c l :: weave r ls ds ss := by rw [weave, if_pos hl]; rfl
        rw [ew, letters_cons, digits_cons, symbols_cons, if_pos r1, if_neg (fun h => b1 h r1), if_neg (fun h => b2 h r1), letters_cons, digits_cons, symbols_cons,
          if_pos hl, if_neg nd, if_neg ns, List.map_cons, List.map_cons, r2, i1, i2, i3]
        refine ⟨rfl, rfl, rfl, by simpa using i4, ?_, ?_, ?_⟩
        · intro d hd
          rcases List.mem_cons.1 hd with rfl | hd
          · rcases r1 with h | h
            · exact .inl h
            · exact .inr (.inl h)
          · exact i5 d hd
        · intro hu d hd
          rcases List.mem_cons.1 hd with rfl | hd
          · rw [r3]; exact hu c List.mem_cons_self
          · exact i6 (fun d hd => hu d (List.mem_cons_of_mem _ hd)) d hd
        · rw [weave, if_pos r1]
          simp only [List.headD_cons, List.tail_cons]
          rw [i7]
          congr 1
          unfold recase at r3 ⊢
          simp only [r3]
          split
          · rename_i h; exact upper_of_lower c h
          · rename_i h
            exact lower_fixed c (hl.resolve_right h)
    · by_cases hd : IsDigit c
      · have ns : ¬ IsSym c := fun h => a3 h hd
        rw [if_neg hl] at l1
        rw [if_pos hd] at l2
        rw [if_neg ns] at l3
        cases ds with
        | nil => simp at l2
        | cons l ds =>
          have hll := h2 l List.mem_cons_self
          obtain ⟨b1, b2, b3, b4⟩ := classes_apart l
          obtain ⟨i1, i2, i3, i4, i5, i6, i7⟩ := weave_spec r ls ds ss hr h1 (fun d hd => h2 d (List.mem_cons_of_mem _ hd)) h3 l1 (by simpa using l2) l3
          have ew : weave (c :: r) ls (l :: ds) ss = l :: weave r ls ds ss := by rw [weave, if_neg hl, if_pos hd]; rfl
          rw [ew, letters_cons, digits_cons, symbols_cons, if_neg (b1 hll), if_pos hll, if_neg (fun h => b3 h hll), letters_cons, digits_cons, symbols_cons,
            if_neg hl, if_pos hd, if_neg ns, i1, i2, i3]
          refine ⟨rfl, rfl, rfl, by simpa using i4, ?_, ?_, ?_⟩
          · intro d hd
            rcases List.mem_cons.1 hd with rfl | hd
            · exact .inr (.inr (.inl hll))
            · exact i5 d hd
          · intro hu d hd
            rcases List.mem_cons.1 hd with rfl | hd
            · exact fun h => b1 hll (.inr h)
            · exact i6 (fun d hd => hu d (List.mem_cons_of_mem _ hd)) d hd
          · rw [weave, if_neg (b1 hll), if_pos hll]
            simp only [List.headD_cons, List.tail_cons]
            rw [i7]
      · have hs : IsSym c := by
          rcases hc with h | h | h | h
          · exact absurd (.inl h) hl
          · exact absurd (.inr h) hl
          · exact absurd h hd
          · exact h
        rw [if_neg hl] at l1
        rw [if_neg hd] at l2
        rw [if_pos hs] at l3
        cases ss with
        | nil => simp at l3
        | cons l ss =>
          have hll := h3 l List.mem_cons_self
          obtain ⟨b1, b2, b3, b4⟩ := classes_apart l
          obtain ⟨i1, i2, i3, i4, i5, i6, i7⟩ := weave_spec r ls ds ss hr h1 h2 (fun d hd => h3 d (List.mem_cons_of_mem _ hd)) l1 l2 (by simpa using l3)
          have ew : weave (c :: r) ls ds (l :: ss) = l :: weave r ls ds ss := by rw [weave, if_neg hl, if_neg hd]; rfl
          rw [ew, letters_cons, digits_cons, symbols_cons, if_neg (b2 hll), if_neg (b3 hll), if_pos hll, letters_cons, digits_cons, symbols_cons,
            if_neg hl, if_neg hd, if_pos hs, i1, i2, i3]
          refine ⟨rfl, rfl, rfl, by simpa using i4, ?_, ?_, ?_⟩
          · intro d hd
            rcases List.mem_cons.1 hd with rfl | hd
            · exact .inr (.inr (.inr hll))
            · exact i5 d hd
          · intro hu d hd
            rcases List.mem_cons.1 hd with rfl | hd
            · exact fun h => b2 hll (.inr h)
            · exact i6 (fun d hd => hu d (List.mem_cons_of_mem _ hd)) d hd
          · rw [weave, if_neg (b2 hll), if_neg (b3 hll)]
            simp only [List.headD_cons, List.tail_cons]
            rw [i7]

theorem nodup_parts (pw : Str) (h : ∀ c ∈ pw, Any c) : pw.Nodup ↔ (lettersIn pw).Nodup ∧ (digitsIn pw).Nodup ∧ (symbolsIn pw).Nodup := by
  constructor
  · intro hn; exact ⟨hn.filter _, hn.filter _, hn.filter _⟩
  · rintro ⟨h1, h2, h3⟩
    rw [List.nodup_iff_count_le_one] at *
    intro c
    by_cases hc : c ∈ pw
    · rcases h c hc with hk | hk | hk | hk
      · have := h1 c; unfold lettersIn at this; rwa [List.count_filter (by simp [hk])] at this
      · have := h1 c; unfold lettersIn at this; rwa [List.count_filter (by simp [hk])] at this
      · have := h2 c; unfold digitsIn at this; rwa [List.count_filter (by simp [hk])] at this
      · have := h3 c; unfold symbolsIn at this; rwa [List.count_filter (by simp [hk])] at this
    · rw [List.count_eq_zero_of_not_mem hc]; omega

theorem lower_letters (pw : Str) (h : ∀ c ∈ pw, ¬ IsUpper c) : (lettersIn pw).map lowerOf = lettersIn pw := by
  rw [(List.map_congr_left _ : (lettersIn pw).map lowerOf = (lettersIn pw).map fun c => c), List.map_id']
  intro c hc
  have := List.mem_filter.1 hc
  exact lower_fixed c ((of_decide_eq_true this.2).resolve_right (h c this.1))

theorem mem_lists (c : UInt8) : (c ∈ LowerLetters ↔ IsLower c) ∧ (c ∈ UpperLetters ↔ IsUpper c) ∧ (c ∈ Digits ↔ IsDigit c) ∧ (c ∈ Symbols ↔ IsSym c) :=
  byte_forall (fun c => (c ∈ LowerLetters ↔ IsLower c) ∧ (c ∈ UpperLetters ↔ IsUpper c) ∧ (c ∈ Digits ↔ IsDigit c) ∧ (c ∈ Symbols ↔ IsSym c)) (by decide +kernel) c

theorem conforms_iff {l d s : Int} {nu ar : Bool} {pw : Str} : Conforms defaultGenerator l d s nu ar pw ↔
    (∀ c ∈ pw, Any c) ∧ (pw.length : Int) = l ∧ ((digitsIn pw).length : Int) = d ∧ ((symbolsIn pw).length : Int) = s ∧ (nu = true → ∀ c ∈ pw, ¬ IsUpper c) ∧
    (ar = false → pw.Nodup) := by
  obtain ⟨e1, e2, e3, e4⟩ := default_fields
  constructor
  · intro h
    have ha := conforms_any h
    obtain ⟨c1, c2, c3, c4⟩ := class_lengths pw ha
    refine ⟨ha, h.len, ?_, ?_, ?_, h.fresh⟩
    · rw [c2, ← e3]; exact h.digits
    · rw [c3, ← e4]; exact h.symbols
    · rintro rfl c hc hu
      have := conforms_members default_separate h c hc
      unfold Generator.letters at this
      rw [if_pos rfl, e1, e3, e4, (mem_lists c).1, (mem_lists c).2.2.1, (mem_lists c).2.2.2] at this
      obtain ⟨a1, a2, a3, a4⟩ := classes_apart c
      rcases this with h | h | h
      · exact a4 hu h
      · exact a1 h (.inr hu)
      · exact a2 h (.inr hu)
  · rintro ⟨ha, h1, h2, h3, h4, h5⟩
    obtain ⟨c1, c2, c3, c4⟩ := class_lengths pw ha
    refine ⟨h1, by rw [e3, ← c2]; exact h2, by rw [e4, ← c3]; exact h3, ?_, h5⟩
    have : countIn (defaultGenerator.lowerLetters ++ if nu then [] else defaultGenerator.upperLetters) pw = (lettersIn pw).length := by
      rw [c1, e1, e2]
      cases nu with
      | false => rfl
      | true =>
        unfold countIn
        congr 1
        apply List.filter_congr
        intro c hc
        have := h4 rfl c hc
        simp [(mem_lists c).2.1, this]
    rw [this]
    omega

/-! ### Probabilities -/

/-- The results that a computation may have. -/
def support {α} [DecidableEq α] : Prog α → Finset α
  | .ret a => {a}
  | .draw m k => (range m).biUnion fun i => support (k i)
  | .fail _ => ∅
  | .stuck => ∅

theorem expect_support {α} [DecidableEq α] (p : Prog α) (φ : α → ℚ) (T : Finset α) (hT : support p ⊆ T) : p.expect φ = ∑ x ∈ T, p.prob x * φ x := by
  induction p with
  | ret a =>
    have ha : a ∈ T := hT (by simp [support])
    simp only [Prog.expect, Prog.prob, ite_mul, one_mul, zero_mul]
    rw [Finset.sum_ite_eq, if_pos ha]
  | draw m k ih =>
    simp only [Prog.expect, Prog.prob]
    rw [Finset.sum_congr rfl fun i hi => ih i (fun x hx => hT (by rw [support]; exact Finset.mem_biUnion.2 ⟨i, hi, hx⟩)), Finset.sum_comm, Finset.sum_div]
    refine Finset.sum_congr rfl fun x _ => ?_
    rw [← Finset.sum_mul, div_mul_eq_mul_div]
    rfl
  | fail e => simp [Prog.expect, Prog.prob]
  | stuck => simp [Prog.expect, Prog.prob]

theorem expect_congr {α} (p : Prog α) (φ ψ : α → ℚ) (h : ∀ x, p.Can x → φ x = ψ x) : p.expect φ = p.expect ψ :=
  le_antisymm (expect_mono p φ ψ fun a ha => le_of_eq (h a ha)) (expect_mono p ψ φ fun a ha => le_of_eq (h a ha).symm)

theorem can_support {α} [DecidableEq α] (p : Prog α) (x : α) (h : p.prob x ≠ 0) : x ∈ support p := by
  by_contra hx
  apply h
  unfold Prog.prob
  rw [expect_support p _ (support p) (Finset.Subset.refl _)]
  apply Finset.sum_eq_zero
  intro y hy
  have hne : y ≠ x := fun e => hx (e ▸ hy)
  simp [hne]

/-- The passwords that a form asks for. -/
def Asked (a : GenerateCmd) (f pw : Str) : Prop :=
  Conforms defaultGenerator (f.count 120 + f.count 88 + f.count 110 + f.count 115 + f.count 97 : Nat) (f.count 110 + f.count 97 / 3 : Nat) (f.count 115 : Nat)
    (!a.mixed) (!a.unique) pw

theorem asked_iff {a : GenerateCmd} {f pw : Str} (ha : (97 : UInt8) ∉ f) : Asked a f pw ↔ (∀ c ∈ pw, Any c) ∧ (lettersIn pw).length = f.count 120 + f.count 88 ∧
    (digitsIn pw).length = f.count 110 ∧ (symbolsIn pw).length = f.count 115 ∧ (a.mixed = false → ∀ c ∈ pw, ¬ IsUpper c) ∧ (a.unique = true → pw.Nodup) := by
  unfold Asked
  rw [conforms_iff, List.count_eq_zero_of_not_mem ha]
  constructor
  · rintro ⟨h1, h2, h3, h4, h5, h6⟩
    obtain ⟨c1, c2, c3, c4⟩ := class_lengths pw h1
    exact ⟨h1, by omega, by omega, by omega, fun h => h5 (by simp [h]), fun h => h6 (by simp [h])⟩
  · rintro ⟨h1, h2, h3, h4, h5, h6⟩
    obtain ⟨c1, c2, c3, c4⟩ := class_lengths pw h1
    exact ⟨h1, by omega, by omega, by omega, fun h => h5 (by simpa using h), fun h => h6 (by simpa using h)⟩

/-- Which passwords give a text. -/
theorem gives_iff {a : GenerateCmd} {f pw out : Str} (ha : (97 : UInt8) ∉ f) (h : Asked a f pw) :
    fillForm f (split pw).1 (split pw).2.1 (split pw).2.2 pw = some out ↔ FitsWith f out ((lettersIn pw).map lowerOf) (digitsIn pw) (symbolsIn pw) := by
  obtain ⟨h1, h2, h3, h4, _⟩ := (asked_iff ha).1 h
  have hf : ∀ {o}, fillForm f (split pw).1 (split pw).2.1 (split pw).2.2 pw = some o → FitsWith f o ((lettersIn pw).map lowerOf) (digitsIn pw) (symbolsIn pw) := by
    intro o ho
    rw [split_eq pw h1] at ho
    exact fill_fits f _ _ _ _ _ ha (fun c hc => of_decide_eq_true (List.mem_filter.1 hc).2) (fun c hc => of_decide_eq_true (List.mem_filter.1 hc).2)
      (fun c hc => of_decide_eq_true (List.mem_filter.1 hc).2) h2 h3 h4 ho
  refine ⟨hf, fun hfit => ?_⟩
  have hs := fill_filled f h
  rw [hs, fits_out hfit (hf hs)]

theorem asked_parts {a : GenerateCmd} {f pw ls ds ss : Str} (ha : (97 : UInt8) ∉ f) (hm : a.mixed = false ∨ a.unique = false) (hany : ∀ c ∈ pw, Any c)
    (hup : a.mixed = false → ∀ c ∈ pw, ¬ IsUpper c)
    (e1 : (lettersIn pw).map lowerOf = ls) (e2 : digitsIn pw = ds) (e3 : symbolsIn pw = ss) (l1 : ls.length = f.count 120 + f.count 88) (l2 : ds.length = f.count 110)
    (l3 : ss.length = f.count 115) (hn : a.unique = true → ls.Nodup ∧ ds.Nodup ∧ ss.Nodup) : Asked a f pw := by
  rw [asked_iff ha]
  refine ⟨hany, by rw [← l1, ← e1, List.length_map], by rw [e2, l2], by rw [e3, l3], hup, fun hu => ?_⟩
  obtain ⟨n1, n2, n3⟩ := hn hu
  have hmf : a.mixed = false := hm.resolve_right (by simp [hu])
  rw [nodup_parts pw hany, ← lower_letters pw (hup hmf), e1, e2, e3]
  exact ⟨n1, n2, n3⟩

theorem form_prob (a : GenerateCmd) (f : Str) (hf : a.form = some f) (fuel : Nat) (hfuel : 0 < fuel) : ∃ v : ℚ, 0 < v ∧ ∀ out, ∃ F : Finset Str,
    (∀ pw, pw ∈ F ↔ Asked a f pw ∧ fillForm f (split pw).1 (split pw).2.1 (split pw).2.2 pw = some out) ∧ (a.prog fuel).prob out = F.card * v := by
  classical
  obtain ⟨v, hv, hin, hout⟩ := C06_uniform defaultGenerator default_ascii default_separate default_distinct fuel hfuel
    (f.count 120 + f.count 88 + f.count 110 + f.count 115 + f.count 97 : Nat) (f.count 110 + f.count 97 / 3 : Nat) (f.count 115 : Nat) (by omega) (by omega) (!a.mixed) (!a.unique)
  refine ⟨v, hv, fun out => ?_⟩
  set G := defaultGenerator.generate fuel (f.count 120 + f.count 88 + f.count 110 + f.count 115 + f.count 97 : Nat) (f.count 110 + f.count 97 / 3 : Nat) (f.count 115 : Nat)
    (!a.mixed) (!a.unique) with hG
  refine ⟨(support G).filter fun pw => Asked a f pw ∧ fillForm f (split pw).1 (split pw).2.1 (split pw).2.2 pw = some out, fun pw => ?_, ?_⟩
  · rw [Finset.mem_filter]
    refine ⟨fun h => h.2, fun h => ⟨can_support G pw ?_, h⟩⟩
    rw [hin pw h.1]
    exact ne_of_gt hv
  · have hp : (a.prog fuel).prob out = G.expect fun pw => if fillForm f (split pw).1 (split pw).2.1 (split pw).2.2 pw = some out then 1 else 0 := by
      unfold Prog.prob GenerateCmd.prog
      simp only [hf, formRequest_eq]
      rw [expect_bind]
      change G.expect _ = _
      congr 1
      funext pw
      cases h : fillForm f (split pw).1 (split pw).2.1 (split pw).2.2 pw with
      | none => simp [Prog.expect]
      | some o => simp [Prog.expect]
    rw [hp, expect_support G _ (support G) (Finset.Subset.refl _), Finset.card_eq_sum_ones, Nat.cast_sum, Finset.sum_mul, Finset.sum_filter]
    refine Finset.sum_congr rfl fun pw _ => ?_
    by_cases hc : Asked a f pw
    · rw [hin pw hc]
      by_cases h2 : fillForm f (split pw).1 (split pw).2.1 (split pw).2.2 pw = some out
      · simp [hc, h2]
      · simp [h2]
    · rw [hout pw hc]
      simp [hc]

/-- **C107** Every text that a form without `a` stands for is printed with the same probability, and nothing else is ever printed, unless both `--mixed` and
`--unique` are given. The draws of `crypto/rand.Int` are taken to be uniform and independent. -/
theorem C107_form_uniform (a : GenerateCmd) (f : Str) (hf : a.form = some f) (ha : (97 : UInt8) ∉ f) (hm : a.mixed = false ∨ a.unique = false) (fuel : Nat)
    (hfuel : 0 < fuel) :
    ∃ v : ℚ, 0 < v ∧ (∀ out, Allowed a.unique f out → (a.prog fuel).prob out = v) ∧ (∀ out, ¬ Allowed a.unique f out → (a.prog fuel).prob out = 0) := by
  obtain ⟨v, hv, hp⟩ := form_prob a f hf fuel hfuel
  have hsame : ∀ {o o' : Str} {F F' : Finset Str}, Allowed a.unique f o → Allowed a.unique f o' →
      (∀ pw, pw ∈ F ↔ Asked a f pw ∧ fillForm f (split pw).1 (split pw).2.1 (split pw).2.2 pw = some o) →
      (∀ pw, pw ∈ F' ↔ Asked a f pw ∧ fillForm f (split pw).1 (split pw).2.1 (split pw).2.2 pw = some o') → F.card = F'.card := by
    rintro o o' F F' ⟨ls, ds, ss, h, hn⟩ ⟨ls', ds', ss', h', hn'⟩ hF hF'
    obtain ⟨a1, a2, a3, a4, a5, a6⟩ := fits_shape h
    obtain ⟨b1, b2, b3, b4, b5, b6⟩ := fits_shape h'
    have go : ∀ {o o' : Str} {F F' : Finset Str} {ls ds ss ls' ds' ss' : Str}, FitsWith f o ls ds ss → FitsWith f o' ls' ds' ss' →
        (a.unique = true → ls'.Nodup ∧ ds'.Nodup ∧ ss'.Nodup) →
        (∀ pw, pw ∈ F ↔ Asked a f pw ∧ fillForm f (split pw).1 (split pw).2.1 (split pw).2.2 pw = some o) →
        (∀ pw, pw ∈ F' ↔ Asked a f pw ∧ fillForm f (split pw).1 (split pw).2.1 (split pw).2.2 pw = some o') →
        ∀ pw ∈ F, weave pw ls' ds' ss' ∈ F' ∧ weave (weave pw ls' ds' ss') ls ds ss = pw := by
      intro o o' F F' ls ds ss ls' ds' ss' h h' hn' hF hF' pw hpw
      obtain ⟨b1, b2, b3, b4, b5, b6⟩ := fits_shape h'
      obtain ⟨hA, hG⟩ := (hF pw).1 hpw
      rw [gives_iff ha hA] at hG
      obtain ⟨rfl, rfl, rfl⟩ := fits_parts h hG
      obtain ⟨c1, c2, c3, c4, c5, c6⟩ := (asked_iff ha).1 hA
      obtain ⟨w1, w2, w3, w4, w5, w6, w7⟩ := weave_spec pw ls' ds' ss' c1 b1 b2 b3 (by omega) (by omega) (by omega)
      have hA' : Asked a f (weave pw ls' ds' ss') := asked_parts ha hm w5 (fun h => w6 (c5 h)) w1 w2 w3 b4 b5 b6 hn'
      refine ⟨(hF' _).2 ⟨hA', ?_⟩, w7⟩
      rw [gives_iff ha hA', w1, w2, w3]
      exact h'
    exact Finset.card_bij' (fun pw _ => weave pw ls' ds' ss') (fun pw _ => weave pw ls ds ss) (fun pw hpw => (go h h' hn' hF hF' pw hpw).1)
      (fun pw hpw => (go h' h hn hF' hF pw hpw).1) (fun pw hpw => (go h h' hn' hF hF' pw hpw).2) (fun pw hpw => (go h' h hn hF' hF pw hpw).2)
  have hzero : ∀ out, ¬ Allowed a.unique f out → (a.prog fuel).prob out = 0 := by
    intro out hno
    obtain ⟨F, hF, hpr⟩ := hp out
    rw [hpr]
    have : F = ∅ := by
      rw [Finset.eq_empty_iff_forall_notMem]
      intro pw hpw
      obtain ⟨hA, hG⟩ := (hF pw).1 hpw
      obtain ⟨c1, c2, c3, c4, c5, c6⟩ := (asked_iff ha).1 hA
      refine hno ⟨_, _, _, (gives_iff ha hA).1 hG, fun hu => ?_⟩
      rw [lower_letters pw (c5 (hm.resolve_right (by simp [hu]))), ← nodup_parts pw c1]
      exact c6 hu
    simp [this]
  by_cases hex : ∃ o, Allowed a.unique f o
  · obtain ⟨o, ho⟩ := hex
    obtain ⟨F, hF, hpr⟩ := hp o
    have hpos : 0 < F.card := by
      rw [Finset.card_pos]
      obtain ⟨ls, ds, ss, h, hn⟩ := ho
      obtain ⟨a1, a2, a3, a4, a5, a6⟩ := fits_shape h
      have hany : ∀ c ∈ ls ++ ds ++ ss, Any c := by
        intro c hc
        simp only [List.mem_append] at hc
        rcases hc with (hc | hc) | hc
        · exact .inl (a1 c hc)
        · exact .inr (.inr (.inl (a2 c hc)))
        · exact .inr (.inr (.inr (a3 c hc)))
      have hup : ∀ c ∈ ls ++ ds ++ ss, ¬ IsUpper c := by
        intro c hc hu
        obtain ⟨x1, x2, x3, x4⟩ := classes_apart c
        simp only [List.mem_append] at hc
        rcases hc with (hc | hc) | hc
        · exact x4 hu (a1 c hc)
        · exact x1 (a2 c hc) (.inr hu)
        · exact x2 (a3 c hc) (.inr hu)
      have all : ∀ {p : UInt8 → Bool} {l : Str}, (∀ c ∈ l, p c = true) → l.filter p = l := fun h => List.filter_eq_self.2 h
      have none' : ∀ {p : UInt8 → Bool} {l : Str}, (∀ c ∈ l, p c = false) → l.filter p = [] := fun h => List.filter_eq_nil_iff.2 fun c hc => by simp [h c hc]
      have q1 : lettersIn (ls ++ ds ++ ss) = ls := by
        unfold lettersIn
        rw [List.filter_append, List.filter_append, all (fun c hc => decide_eq_true (.inl (a1 c hc))),
          none' (fun c hc => decide_eq_false ((classes_apart c).1 (a2 c hc))), none' (fun c hc => decide_eq_false ((classes_apart c).2.1 (a3 c hc)))]
        simp
      have q2 : digitsIn (ls ++ ds ++ ss) = ds := by
        unfold digitsIn
        rw [List.filter_append, List.filter_append, none' (fun c hc => decide_eq_false fun h => (classes_apart c).1 h (.inl (a1 c hc))),
          all (fun c hc => decide_eq_true (a2 c hc)), none' (fun c hc => decide_eq_false ((classes_apart c).2.2.1 (a3 c hc)))]
        simp
      have q3 : symbolsIn (ls ++ ds ++ ss) = ss := by
        unfold symbolsIn
        rw [List.filter_append, List.filter_append, none' (fun c hc => decide_eq_false fun h => (classes_apart c).2.1 h (.inl (a1 c hc))),
          none' (fun c hc => decide_eq_false fun h => (classes_apart c).2.2.1 h (a2 c hc)), all (fun c hc => decide_eq_true (a3 c hc))]
        simp
      have q0 : (lettersIn (ls ++ ds ++ ss)).map lowerOf = ls := by rw [lower_letters _ hup, q1]
      have hA := asked_parts ha hm hany (fun _ => hup) q0 q2 q3 a4 a5 a6 hn
      refine ⟨ls ++ ds ++ ss, (hF _).2 ⟨hA, ?_⟩⟩
      rw [gives_iff ha hA, q0, q2, q3]
      exact h
    refine ⟨F.card * v, mul_pos (by exact_mod_cast hpos) hv, fun o' ho' => ?_, hzero⟩
    obtain ⟨F', hF', hpr'⟩ := hp o'
    rw [hpr', hsame ho' ho hF' hF]
  · exact ⟨v, hv, fun o ho => absurd ⟨o, ho⟩ hex, hzero⟩

/-- With both `--mixed` and `--unique` a form may print a letter twice: the two cases of a letter count as different characters of the password, but the form
sets the case. -/
theorem C107_mixed_unique_repeats : ∃ stream, GenerateCmd.run ⟨0, 0, 0, true, true, some (lit "xx")⟩ 1 stream = .ok (lit "bb") := by
  rw [C106_form_exact _ (lit "xx") rfl 1 (by omega)]
  refine ⟨lit "bB", ?_, by decide⟩
  refine ⟨?_, ?_, ?_, ?_, ?_⟩ <;> decide

end Verif.FormGen
