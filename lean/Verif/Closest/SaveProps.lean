import Verif.Closest.Props
import Verif.Glob.Utf8Lemmas
/-
C111: exactly which indexes survive `Save` and `Load`, and that a second round trip changes nothing (closestmatch.go:50-96).
-/
namespace Verif.Closest

/-- The rune error with a width other than one is the encoding of U+FFFD. -/
theorem decodeRune_error {s : Str} (h : (decodeRune s).1 = runeError) (h2 : (decodeRune s).2 ≠ 1) (h0 : s ≠ []) :
    (decodeRune s).2 = 3 ∧ s.take 3 = [0xEF, 0xBF, 0xBD] := by
  obtain ⟨b, t, rfl⟩ := List.exists_cons_of_ne_nil h0
  by_cases c1 : b < 0x80
  · exact absurd (by rw [Glob.decodeRune_ascii c1]) h2
  simp only [decodeRune, if_neg c1] at h h2 ⊢
  by_cases c2 : (0xC2 ≤ b && b ≤ 0xDF) = true
  · rw [if_pos c2] at h h2
    rcases t with _ | ⟨b1, t⟩
    · simp at h2
    · simp only at h h2
      split at h <;> rename_i c3
      · rw [if_pos c3] at h2
        simp only [Bool.and_eq_true, decide_eq_true_eq, UInt8.le_iff_toNat_le, Glob.contIn_iff] at c2 c3
        simp at c2 c3
        simp only [runeError] at h
        omega
      · rw [if_neg c3] at h2; simp at h2
  rw [if_neg c2] at h h2 ⊢
  by_cases c3 : (0xE0 ≤ b && b ≤ 0xEF) = true
  · rw [if_pos c3] at h h2 ⊢
    rcases t with _ | ⟨b1, _ | ⟨b2, t⟩⟩
    · simp at h2
    · simp at h2
    · simp only at h h2 ⊢
      by_cases c4 : (contIn (if b = 0xE0 then 0xA0 else 0x80) (if b = 0xED then 0x9F else 0xBF) b1 && contIn 0x80 0xBF b2) = true
      · rw [if_pos c4] at h h2 ⊢
        refine ⟨rfl, ?_⟩
        simp only [Bool.and_eq_true, decide_eq_true_eq, UInt8.le_iff_toNat_le, Glob.contIn_iff] at c3 c4
        have u1 : 128 ≤ b1.toNat := by have := c4.1.1; split at this <;> simp at this <;> omega
        have u2 : b1.toNat ≤ 191 := by have := c4.1.2; split at this <;> simp at this <;> omega
        have u3 := c4.2
        simp at c3 u3
        simp only [runeError] at h
        have e1 : b = 0xEF := UInt8.toNat_inj.1 (by simp; omega)
        have e2 : b1 = 0xBF := UInt8.toNat_inj.1 (by simp; omega)
        have e3 : b2 = 0xBD := UInt8.toNat_inj.1 (by simp; omega)
        simp [e1, e2, e3]
      · rw [if_neg c4] at h2; simp at h2
  rw [if_neg c3] at h h2 ⊢
  by_cases c4 : (0xF0 ≤ b && b ≤ 0xF4) = true
  · rw [if_pos c4] at h h2 ⊢
    rcases t with _ | ⟨b1, _ | ⟨b2, _ | ⟨b3, t⟩⟩⟩
    · simp at h2
    · simp at h2
    · simp at h2
    · simp only at h h2 ⊢
      by_cases c5 : (contIn (if b = 0xF0 then 0x90 else 0x80) (if b = 0xF4 then 0x8F else 0xBF) b1 && contIn 0x80 0xBF b2 && contIn 0x80 0xBF b3) = true
      · rw [if_pos c5] at h
        exfalso
        simp only [Bool.and_eq_true, decide_eq_true_eq, UInt8.le_iff_toNat_le, Glob.contIn_iff] at c4 c5
        have u1 : b.toNat = 240 → 144 ≤ b1.toNat := by
          intro he
          have := c5.1.1.1
          rw [if_pos (UInt8.toNat_inj.1 (by simpa using he))] at this
          exact this
        have u2 := c5.1.2
        have u3 := c5.2
        have u4 : 128 ≤ b1.toNat := by have := c5.1.1.1; split at this <;> simp at this <;> omega
        simp at c4 u2 u3
        simp only [runeError] at h
        omega
      · rw [if_neg c5] at h2; simp at h2
  · rw [if_neg c4] at h2; simp at h2

/-- What follows a rune does not matter. -/
theorem decodeRune_take {s : Str} (h0 : s ≠ []) (h : ¬ ((decodeRune s).1 = runeError ∧ (decodeRune s).2 = 1)) (t : Str) :
    decodeRune (s.take (decodeRune s).2 ++ t) = decodeRune s := by
  by_cases hr : (decodeRune s).1 = runeError
  · obtain ⟨a, b⟩ := decodeRune_error hr (fun e => h ⟨hr, e⟩) h0
    rw [a, b]
    have : decodeRune s = (runeError, 3) := Prod.ext hr a
    rw [this]; rfl
  · exact (Glob.decodeRune_local (s := s) rfl hr).2.1 t

/-- A string read back from JSON is valid UTF-8. -/
theorem jsonAux_is_valid : ∀ (n : Nat) (s : Str) (m : Nat), (jsonAux n s).length ≤ m → ((runesAux m (jsonAux n s)).all fun r => !(r.1 == runeError && r.2 == 1)) = true
  | 0, s, m, _ => by cases m <;> rfl
  | n + 1, [], m, _ => by cases m <;> rfl
  | n + 1, b :: s, m, hm => by
    have h1 := (decodeRune_size (b :: s)).2 (by simp)
    have h2 := (decodeRune_size (b :: s)).1
    rw [jsonAux] at hm ⊢
    generalize hT : jsonAux n ((b :: s).drop (decodeRune (b :: s)).2) = T at hm ⊢
    by_cases hb : (decodeRune (b :: s)).1 = runeError ∧ (decodeRune (b :: s)).2 = 1
    · rw [if_pos hb] at hm ⊢
      rcases m with _ | m
      · simp at hm
      have e : decodeRune ([0xEF, 0xBF, 0xBD] ++ T) = (runeError, 3) := rfl
      simp only [List.cons_append, List.nil_append] at e hm ⊢
      rw [runesAux, e, List.all_cons]
      simp only [List.drop_succ_cons, List.drop_zero, List.length_cons] at hm ⊢
      rw [← hT, jsonAux_is_valid n _ m (by rw [hT]; omega)]; rfl
    · rw [if_neg hb] at hm ⊢
      have e := decodeRune_take (s := b :: s) (by simp) hb T
      have hl : ((b :: s).take (decodeRune (b :: s)).2).length = (decodeRune (b :: s)).2 := by rw [List.length_take]; omega
      rw [List.length_append, hl] at hm
      generalize hd : decodeRune (b :: s) = d at *
      rcases m with _ | m
      · omega
      obtain ⟨c, cs, ec⟩ : ∃ c cs, (b :: s).take d.2 ++ T = c :: cs := by
        cases h : (b :: s).take d.2 ++ T with
        | nil => rw [List.append_eq_nil_iff] at h; rw [h.1] at hl; simp at hl; omega
        | cons c cs => exact ⟨c, cs, rfl⟩
      rw [ec, runesAux, ← ec, e, List.all_cons, List.drop_left' hl, ← hT, jsonAux_is_valid n _ m (by rw [hT]; omega)]
      simp only [Bool.and_true, Bool.not_eq_true', Bool.and_eq_false_iff, beq_eq_false_iff_ne]
      by_cases hx : d.1 = runeError
      · exact Or.inr fun hy => hb ⟨hx, hy⟩
      · exact Or.inl hx

theorem jsonString_is_valid (s : Str) : validUtf8 (jsonString s) = true := jsonAux_is_valid _ _ _ (Nat.le_refl _)

/-- **C111** An index is the same after `Save` and `Load` if and only if all its fragments and words are valid UTF-8. -/
theorem C111_round_trip_iff (cm cm' : CM) (h : SaveLoad cm cm') :
    cm' = cm ↔ (∀ f, (cm.sub f).isSome → validUtf8 f = true) ∧ (∀ i inf, cm.id i = some inf → validUtf8 inf.key = true) := by
  constructor
  · rintro rfl
    obtain ⟨_, h2, h3⟩ := h
    constructor
    · intro f hf
      obtain ⟨ids, e⟩ := Option.isSome_iff_exists.1 hf
      obtain ⟨f0, _, e2, _⟩ := (h2 f ids).1 e
      rw [← e2]; exact jsonString_is_valid f0
    · intro i inf e
      have := h3 i
      rw [e, Option.map_some, Option.some.injEq] at this
      rw [this]; exact jsonString_is_valid _
  · rintro ⟨a, b⟩
    exact C69_round_trip_partial cm cm' a b h

/-- **C111** What was loaded can be saved and loaded again without change. -/
theorem C111_second_round_trip (cm cm' cm'' : CM) (h : SaveLoad cm cm') (h' : SaveLoad cm' cm'') : cm'' = cm' := by
  rw [C111_round_trip_iff cm' cm'' h']
  obtain ⟨_, h2, h3⟩ := h
  constructor
  · intro f hf
    obtain ⟨ids, e⟩ := Option.isSome_iff_exists.1 hf
    obtain ⟨f0, _, e2, _⟩ := (h2 f ids).1 e
    rw [← e2]; exact jsonString_is_valid f0
  · intro i inf e
    have := h3 i
    rw [e] at this
    cases e0 : cm.id i with
    | none => rw [e0] at this; cases this
    | some inf0 =>
      rw [e0, Option.map_some, Option.some.injEq] at this
      rw [this]; exact jsonString_is_valid _

/-- An index that changes: the word "é" with fragments of one byte. -/
example : ∃ cm cm', SaveLoad cm cm' ∧ cm' ≠ cm := by
  obtain ⟨cm, e, h1, cm', h, h2⟩ := C69_false
  refine ⟨cm, cm', h, ?_⟩
  rintro rfl
  obtain ⟨cm2, e2, -, ⟨out, ho⟩, -⟩ := C41_no_crash_partial id [[0xC3, 0xA9]] [1] (by decide) [0xC3, 0xA9]
  have e3 : cm2 = cm' := Option.some.inj (e2.symm.trans e)
  subst e3
  have := (h1 out ho).symm.trans (h2 out ho)
  cases this

end Verif.Closest
