import Verif.FormGen.Props
import Verif.FormGen.FormSpec
import Mathlib.Data.List.Nodup
/-
C106, C107: what `generate --form` may print, and how likely it is.
-/
namespace Verif.FormGen
open Verif.Password

/-! ### The filled form -/

theorem split_eq (pw : Str) (h : ∀ c ∈ pw, Any c) : split pw = (lettersIn pw, digitsIn pw, symbolsIn pw) := by
  have key : ∀ c : UInt8, Any c → (isNumber c = decide (IsDigit c)) ∧ ((isNumber c = false → isSymbol c = decide (IsSym c))) ∧
      (IsDigit c → ¬ IsSym c ∧ ¬ (IsLower c ∨ IsUpper c)) ∧ (IsSym c → ¬ (IsLower c ∨ IsUpper c)) := by
    intro c
    exact byte_forall (fun c => IsLower c ∨ IsUpper c ∨ IsDigit c ∨ IsSym c → (isNumber c = decide (IsDigit c)) ∧ ((isNumber c = false → isSymbol c = decide (IsSym c))) ∧
      (IsDigit c → ¬ IsSym c ∧ ¬ (IsLower c ∨ IsUpper c)) ∧ (IsSym c → ¬ (IsLower c ∨ IsUpper c))) (by decide +kernel) c
  induction pw with
  | nil => rfl
  | cons c r ih =>
    obtain ⟨k1, k2, k3, k4⟩ := key c (h c List.mem_cons_self)
    unfold split
    rw [ih (fun d hd => h d (List.mem_cons_of_mem _ hd))]
    dsimp only
    unfold lettersIn digitsIn symbolsIn
    simp only [List.filter_cons]
    by_cases hd : IsDigit c
    · have hn : isNumber c = true := by rw [k1]; simpa using hd
      obtain ⟨h1, h2⟩ := k3 hd
      simp [hn, hd, h1, h2]
    · have hn : isNumber c = false := by rw [k1]; simpa using hd
      by_cases hs : IsSym c
      · have hs' : isSymbol c = true := by rw [k2 hn]; simpa using hs
        simp [hn, hs', hd, hs, k4 hs]
      · have hs' : isSymbol c = false := by rw [k2 hn]; simpa using hs
        have hl : IsLower c ∨ IsUpper c := by
          rcases h c List.mem_cons_self with h | h | h | h
          · exact Or.inl h
          · exact Or.inr h
          · exact absurd h hd
          · exact absurd h hs
        simp [hn, hs', hd, hs, hl]

theorem toLower_eq (c : UInt8) : toLower c = lowerOf c := byte_forall (fun c => toLower c = lowerOf c) (by decide +kernel) c
theorem toUpper_eq (c : UInt8) : toUpper c = upperOf c := byte_forall (fun c => toUpper c = upperOf c) (by decide +kernel) c

theorem fillForm_eq (pw : Str) (hpw : ∀ c ∈ pw, Any c) : ∀ (f pre : Str),
    (pre ++ f).count 120 + (pre ++ f).count 88 ≤ (lettersIn pw).length → (pre ++ f).count 110 ≤ (digitsIn pw).length →
    (pre ++ f).count 115 ≤ (symbolsIn pw).length → (pre ++ f).count 97 ≤ pw.length →
    fillForm f ((lettersIn pw).drop (pre.count 120 + pre.count 88)) ((digitsIn pw).drop (pre.count 110)) ((symbolsIn pw).drop (pre.count 115))
      (pw.drop (pre.count 97)) = some ((List.range f.length).flatMap fun i => placed pw (pre ++ f.take i) (f.getD i 0))
  | [], pre, _, _, _, _ => by simp [fillForm]
  | c :: f, pre, h1, h2, h3, h4 => by
    have ih := fillForm_eq pw hpw f (pre ++ [c]) (by simpa using h1) (by simpa using h2) (by simpa using h3) (by simpa using h4)
    rw [List.length_cons, List.range_succ_eq_map, List.flatMap_cons, List.flatMap_map]
    have e : (fun i => placed pw (pre ++ (c :: f).take (i + 1)) ((c :: f).getD (i + 1) 0)) = fun i => placed pw ((pre ++ [c]) ++ f.take i) (f.getD i 0) := by
      funext i; simp
    simp only [Nat.succ_eq_add_one] at *
    rw [e]
    simp only [List.take_zero, List.append_nil, List.getD_cons_zero]
    generalize (List.range f.length).flatMap (fun i => placed pw ((pre ++ [c]) ++ f.take i) (f.getD i 0)) = R at ih
    simp only [List.count_append, List.count_cons, List.count_nil, Nat.zero_add] at h1 h2 h3 h4 ih
    have hget : ∀ (l : Str) (k : Nat), k < l.length → ∃ d, l[k]? = some d ∧ l.drop k = d :: l.drop (k + 1) := by
      intro l k hk
      exact ⟨l[k], List.getElem?_eq_getElem hk, (List.getElem_cons_drop (h := hk)).symm⟩
    unfold fillForm placed
    by_cases e1 : c = 120
    · subst e1
      obtain ⟨d, hd1, hd2⟩ := hget (lettersIn pw) (pre.count 120 + pre.count 88) (by simp at h1; omega)
      simp at ih
      rw [show pre.count 120 + 1 + pre.count 88 = pre.count 120 + pre.count 88 + 1 by omega] at ih
      rw [if_pos rfl, hd2, if_pos (by decide), hd1]
      simp only
      rw [ih]
      simp [toLower_eq]
    by_cases e2 : c = 88
    · subst e2
      obtain ⟨d, hd1, hd2⟩ := hget (lettersIn pw) (pre.count 120 + pre.count 88) (by simp at h1; omega)
      simp at ih
      rw [show pre.count 120 + (pre.count 88 + 1) = pre.count 120 + pre.count 88 + 1 by omega] at ih
      rw [if_neg (by decide), if_pos rfl, hd2, if_neg (by decide), if_pos (by decide), hd1]
      simp only
      rw [ih]
      simp [toUpper_eq]
    by_cases e3 : c = 110
    · subst e3
      obtain ⟨d, hd1, hd2⟩ := hget (digitsIn pw) (pre.count 110) (by simp at h2; omega)
      simp at ih
      rw [if_neg (by decide), if_neg (by decide), if_pos rfl, hd2, if_neg (by decide), if_neg (by decide), if_pos (by decide), hd1]
      simp only
      rw [ih]
      simp
    by_cases e4 : c = 115
    · subst e4
      obtain ⟨d, hd1, hd2⟩ := hget (symbolsIn pw) (pre.count 115) (by simp at h3; omega)
      simp at ih
      rw [if_neg (by decide), if_neg (by decide), if_neg (by decide), if_pos rfl, hd2, if_neg (by decide), if_neg (by decide), if_neg (by decide), if_pos (by decide), hd1]
      simp only
      rw [ih]
      simp
    by_cases e5 : c = 97
    · subst e5
      obtain ⟨d, hd1, hd2⟩ := hget pw (pre.count 97) (by simp at h4; omega)
      have hda : d < 0x80 := class_ascii d (hpw d (List.mem_of_getElem? hd1))
      simp at ih
      rw [if_neg (by decide), if_neg (by decide), if_neg (by decide), if_neg (by decide), if_neg (by decide), if_pos rfl, hd2, if_neg (by decide), if_neg (by decide),
        if_neg (by decide), if_neg (by decide), if_pos (by decide), hd1]
      simp only
      rw [ih]
      simp [stringOfByte_ascii hda]
    have m1 : c ∉ lit "x" := by rw [show lit "x" = [120] by decide]; simpa using e1
    have m2 : c ∉ lit "X" := by rw [show lit "X" = [88] by decide]; simpa using e2
    have m3 : c ∉ lit "n" := by rw [show lit "n" = [110] by decide]; simpa using e3
    have m4 : c ∉ lit "s" := by rw [show lit "s" = [115] by decide]; simpa using e4
    have m5 : c ∉ lit "a" := by rw [show lit "a" = [97] by decide]; simpa using e5
    simp [e1, e2, e3, e4, e5] at ih
    rw [if_neg e1, if_neg e2, if_neg e3, if_neg e4, if_neg m1, if_neg m2, if_neg m3, if_neg m4, if_neg m5]
    have e6 : (c = 45 ∨ c = 95 ∨ c = 47 ∨ c = 92 ∨ c = 35) ↔ c ∈ lit "-_/\\#" := by
      rw [show lit "-_/\\#" = [45, 95, 47, 92, 35] by decide]; simp
    by_cases e7 : c ∈ lit "-_/\\#"
    · rw [if_pos (e6.2 e7), if_pos e7, ih]; simp
    · rw [if_neg (fun h => e7 (e6.1 h)), if_neg e5, if_neg e7, ih]; simp

/-- The request that a form makes. -/
theorem formRequest_eq (f : Str) : formRequest (countForm f {}) =
    (((f.count 120 + f.count 88 + f.count 110 + f.count 115 + f.count 97 : Nat) : Int), ((f.count 110 + f.count 97 / 3 : Nat) : Int), ((f.count 115 : Nat) : Int)) := by
  obtain ⟨k1, k2, k3, k4, k5⟩ := countForm_counts f {}
  simp only [Nat.zero_add] at k1 k2 k3 k4 k5
  simp only [formRequest, k1, k2, k3, k4, k5, Prod.mk.injEq, and_true]
  constructor
  · push_cast; omega
  · push_cast; omega

theorem conforms_any {l d s : Int} {nu ar : Bool} {pw : Str} (h : Conforms defaultGenerator l d s nu ar pw) : ∀ c ∈ pw, Any c := by
  intro c hc
  have := conforms_members default_separate h c hc
  obtain ⟨e1, e2, e3, e4⟩ := default_fields
  apply mem_class
  rw [e3, e4] at this
  rcases this with h | h | h
  · unfold Generator.letters at h
    rw [e1, e2] at h
    split at h
    · exact .inl h
    · rcases List.mem_append.1 h with h | h
      · exact .inl h
      · exact .inr (.inr (.inr h))
  · exact .inr (.inl h)
  · exact .inr (.inr (.inl h))

theorem class_lengths (pw : Str) (h : ∀ c ∈ pw, Any c) : (lettersIn pw).length = countIn (LowerLetters ++ UpperLetters) pw ∧
    (digitsIn pw).length = countIn Digits pw ∧ (symbolsIn pw).length = countIn Symbols pw ∧
    (lettersIn pw).length + (digitsIn pw).length + (symbolsIn pw).length = pw.length := by
  obtain ⟨h1, h2, h3, h4, h5, h6⟩ := split_spec pw h
  have e := split_eq pw h
  rw [e] at h4 h5 h6
  refine ⟨h4, h5, h6, ?_⟩
  have key : ∀ c : UInt8, Any c → (if IsLower c ∨ IsUpper c then 1 else 0) + (if IsDigit c then 1 else 0) + (if IsSym c then 1 else 0) = 1 := by
    intro c
    exact byte_forall (fun c => IsLower c ∨ IsUpper c ∨ IsDigit c ∨ IsSym c → (if IsLower c ∨ IsUpper c then 1 else 0) + (if IsDigit c then 1 else 0) + (if IsSym c then 1 else 0) = 1)
      (by decide +kernel) c
  clear h1 h2 h3 h4 h5 h6 e
  induction pw with
  | nil => rfl
  | cons c r ih =>
    have ih := ih (fun d hd => h d (List.mem_cons_of_mem _ hd))
    have k := key c (h c List.mem_cons_self)
    have u1 : lettersIn (c :: r) = if IsLower c ∨ IsUpper c then c :: lettersIn r else lettersIn r := by simp [lettersIn, List.filter_cons]
    have u2 : digitsIn (c :: r) = if IsDigit c then c :: digitsIn r else digitsIn r := by simp [digitsIn, List.filter_cons]
    have u3 : symbolsIn (c :: r) = if IsSym c then c :: symbolsIn r else symbolsIn r := by simp [symbolsIn, List.filter_cons]
    rw [u1, u2, u3, List.length_cons, ← ih]
    split at k <;> split at k <;> split at k <;> rename_i p1 p2 p3 <;> first | (exfalso; omega) | (simp only [p1, p2, p3, if_true, if_false, List.length_cons]; omega)

theorem conforms_lengths (f : Str) {nu ar : Bool} {pw : Str}
    (h : Conforms defaultGenerator (f.count 120 + f.count 88 + f.count 110 + f.count 115 + f.count 97 : Nat) (f.count 110 + f.count 97 / 3 : Nat) (f.count 115 : Nat) nu ar pw) :
    (lettersIn pw).length = f.count 120 + f.count 88 + (f.count 97 - f.count 97 / 3) ∧ (digitsIn pw).length = f.count 110 + f.count 97 / 3 ∧
    (symbolsIn pw).length = f.count 115 ∧ f.count 97 ≤ pw.length := by
  obtain ⟨c1, c2, c3, c4⟩ := class_lengths pw (conforms_any h)
  have e3 : defaultGenerator.digits = Digits := default_fields.2.2.1
  have e4 : defaultGenerator.symbols = Symbols := default_fields.2.2.2
  have h1 := h.len
  have h2 := h.digits
  have h3 := h.symbols
  rw [e3, ← c2] at h2
  rw [e4, ← c3] at h3
  refine ⟨?_, ?_, ?_, ?_⟩ <;> omega

theorem fill_filled (f : Str) {nu ar : Bool} {pw : Str}
    (h : Conforms defaultGenerator (f.count 120 + f.count 88 + f.count 110 + f.count 115 + f.count 97 : Nat) (f.count 110 + f.count 97 / 3 : Nat) (f.count 115 : Nat) nu ar pw) :
    fillForm f (split pw).1 (split pw).2.1 (split pw).2.2 pw = some (filled f pw) := by
  obtain ⟨l1, l2, l3, l4⟩ := conforms_lengths f h
  have := fillForm_eq pw (conforms_any h) f [] (by simp; omega) (by simp; omega) (by simp; omega) (by simpa using l4)
  rw [split_eq pw (conforms_any h)]
  unfold filled
  simpa only [List.count_nil, List.drop_zero, Nat.add_zero, List.nil_append] using this

/-- **C106** What `generate --form` may print, for some random bytes, is exactly what the form gives when it is filled from a password that conforms to
the request: as many characters as the form has `x`, `X`, `n`, `s` and `a` together, with as many digits as it has `n` and a third of its `a`, as many symbols as it has
`s`, no upper case letters without `--mixed` and no character twice with `--unique`. -/
theorem C106_form_exact (a : GenerateCmd) (f : Str) (hf : a.form = some f) (fuel : Nat) (hfuel : 0 < fuel) (out : Str) :
    (∃ stream, a.run fuel stream = .ok out) ↔
      ∃ pw, Conforms defaultGenerator (f.count 120 + f.count 88 + f.count 110 + f.count 115 + f.count 97 : Nat) (f.count 110 + f.count 97 / 3 : Nat) (f.count 115 : Nat)
        (!a.mixed) (!a.unique) pw ∧ out = filled f pw := by
  unfold GenerateCmd.run
  simp only [hf, formRequest_eq]
  constructor
  · rintro ⟨stream, h⟩
    split at h
    · rename_i pw rest hr
      have hc := can_conforms default_ascii default_separate (by omega) (by omega) (run_can _ hr)
      refine ⟨pw, hc, ?_⟩
      rw [fill_filled f hc] at h
      simpa using h.symm
    all_goals simp at h
  · rintro ⟨pw, hc, rfl⟩
    obtain ⟨bs, h⟩ := C05_every_password defaultGenerator default_ascii default_separate fuel hfuel _ _ _ _ _ _ hc
    refine ⟨bs ++ [], ?_⟩
    unfold generate
    rw [h []]
    dsimp only
    rw [fill_filled f hc]

end Verif.FormGen
