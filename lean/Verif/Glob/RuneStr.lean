import Verif.Glob.Split
/-
UTF-8 encodings of lists of runes, and where the functions of packages strings and utf8 find something in them.
-/
namespace Verif.Glob

/-- The runes are Unicode scalar values. -/
def Scalars (w : List Nat) : Prop := ∀ r ∈ w, validRune r = true

/-- The UTF-8 encoding of runes. -/
def enc (w : List Nat) : Str := w.flatMap encodeRune

theorem scalars_nil : Scalars [] := fun _ h => absurd h (by simp)
theorem scalars_append {a b : List Nat} : Scalars (a ++ b) ↔ Scalars a ∧ Scalars b := by
  simp only [Scalars, List.mem_append, or_imp, forall_and]
theorem scalars_cons {r : Nat} {b : List Nat} : Scalars (r :: b) ↔ validRune r = true ∧ Scalars b := by
  simp only [Scalars, List.mem_cons, forall_eq_or_imp]

theorem enc_nil : enc [] = [] := rfl
theorem enc_cons (r : Nat) (w : List Nat) : enc (r :: w) = encodeRune r ++ enc w := by simp [enc]
theorem enc_append (a b : List Nat) : enc (a ++ b) = enc a ++ enc b := by simp [enc]
theorem enc_singleton (r : Nat) : enc [r] = encodeRune r := by simp [enc]

theorem valid_iff {r : Nat} : validRune r = true ↔ r < 0xD800 ∨ 0xE000 ≤ r ∧ r ≤ 0x10FFFF := by simp [validRune]

theorem decode_valid {r : Nat} (h : validRune r = true) (t : Str) : decodeRune (encodeRune r ++ t) = (r, (encodeRune r).length) := decode_encode (valid_iff.1 h) t

theorem decode_enc {r : Nat} {w : List Nat} (h : validRune r = true) (t : Str) : decodeRune (enc (r :: w) ++ t) = (r, (encodeRune r).length) := by
  rw [enc_cons, List.append_assoc, decode_valid h]

theorem encode_ne_nil (r : Nat) : encodeRune r ≠ [] := by
  intro h; have := encodeRune_pos r; rw [h] at this; simp at this

theorem enc_eq_nil {w : List Nat} : enc w = [] ↔ w = [] := by
  cases w with
  | nil => simp [enc]
  | cons r w => rw [enc_cons]; simp [encode_ne_nil]

theorem enc_length_le (w : List Nat) : w.length ≤ (enc w).length := by
  induction w with
  | nil => simp
  | cons r w ih => rw [enc_cons, List.length_append, List.length_cons]; have := encodeRune_pos r; omega

theorem enc_length_pos {w : List Nat} (h : w ≠ []) : 1 ≤ (enc w).length := by
  have := enc_length_le w
  have := List.length_pos_iff.2 h
  omega

theorem runeLen_valid {r : Nat} (h : validRune r = true) : runeLen r = (encodeRune r).length := by
  rw [valid_iff] at h
  unfold runeLen encodeRune
  by_cases h1 : r < 0x80
  · simp [h1]
  by_cases h2 : r < 0x800
  · simp [h1, h2]
  have h3 : ¬ ((decide (0xD800 ≤ r) && decide (r < 0xE000) || decide (0x10FFFF < r)) = true) := by simp; omega
  rw [if_neg h1, if_neg h2, if_neg h1, if_neg h2, if_neg h3]
  by_cases h4 : r < 0x10000
  · simp [h4]
  · simp [h4]

/-- The encoding begins with the first byte of a rune. -/
theorem encodeRune_head {r : Nat} (h : validRune r = true) : ∀ b, (encodeRune r).head? = some b → StartByte b := by
  rw [valid_iff] at h
  intro b hb
  unfold StartByte
  unfold encodeRune at hb
  repeat' split at hb
  all_goals
    simp only [List.head?_cons, Option.some.injEq] at hb
    subst hb
    first
    | decide
    | (rw [toNat_ofNat_lt (by omega)]; omega)

theorem enc_head {w : List Nat} (h : Scalars w) {t : Str} (ht : w = [] → ∀ b, t.head? = some b → StartByte b) : ∀ b, (enc w ++ t).head? = some b → StartByte b := by
  cases w with
  | nil => simpa [enc] using ht rfl
  | cons r w =>
    intro b hb
    refine encodeRune_head (h r (by simp)) b ?_
    rw [enc_cons, List.append_assoc, List.head?_append] at hb
    cases he : (encodeRune r).head? with
    | none => rw [List.head?_eq_none_iff] at he; exact absurd he (encode_ne_nil r)
    | some x => rw [he] at hb; exact hb

theorem enc_head' {w : List Nat} (h : Scalars w) : ∀ b, (enc w).head? = some b → StartByte b := by
  have := enc_head h (t := []) (fun _ b hb => by simp at hb)
  simpa using this

theorem runesAux_append : ∀ (n : Nat) (r : Nat) (t : Str), validRune r = true → (encodeRune r ++ t).length ≤ n + 1 →
    runesAux (n + 1) (encodeRune r ++ t) = (r, (encodeRune r).length) :: runesAux n t := by
  intro n r t h hl
  have hd := decode_valid h t
  have hdrop : (encodeRune r ++ t).drop (encodeRune r).length = t := List.drop_left
  generalize hx : encodeRune r ++ t = x at *
  cases x with
  | nil => rw [List.append_eq_nil_iff] at hx; exact absurd hx.1 (encode_ne_nil r)
  | cons b x => rw [runesAux, hd, hdrop]

theorem runesAux_fuel : ∀ (n m : Nat) (s : Str), s.length ≤ n → s.length ≤ m → runesAux n s = runesAux m s
  | n, m, [], _, _ => by cases n <;> cases m <;> rfl
  | 0, _, b :: s, h, _ => by simp at h
  | _, 0, b :: s, _, h => by simp at h
  | n + 1, m + 1, b :: s, h1, h2 => by
    rw [runesAux, runesAux]
    have h3 := (decodeRune_size (b :: s)).2 (by simp)
    rw [runesAux_fuel n m _ (by rw [List.length_drop]; simp at h1 ⊢; omega) (by rw [List.length_drop]; simp at h2 ⊢; omega)]

theorem runesOf_valid {r : Nat} (h : validRune r = true) (t : Str) : runesOf (encodeRune r ++ t) = (r, (encodeRune r).length) :: runesOf t := by
  have hp := encodeRune_pos r
  obtain ⟨n, hn⟩ : ∃ n, (encodeRune r ++ t).length = n + 1 := ⟨(encodeRune r ++ t).length - 1, by rw [List.length_append]; omega⟩
  unfold runesOf
  rw [hn, runesAux_append n r t h (by omega), runesAux_fuel n t.length t (by rw [List.length_append] at hn; omega) (Nat.le_refl _)]

theorem runesOf_enc_append {w : List Nat} (h : Scalars w) (t : Str) : runesOf (enc w ++ t) = w.map (fun r => (r, (encodeRune r).length)) ++ runesOf t := by
  induction w with
  | nil => rfl
  | cons r w ih =>
    rw [scalars_cons] at h
    rw [enc_cons, List.append_assoc, runesOf_valid h.1, ih h.2]; rfl

theorem runesOf_enc {w : List Nat} (h : Scalars w) : runesOf (enc w) = w.map fun r => (r, (encodeRune r).length) := by
  have := runesOf_enc_append h []
  rw [List.append_nil] at this
  rw [this]
  have : runesOf ([] : Str) = [] := rfl
  rw [this, List.append_nil]

theorem runesIn_enc_append {w : List Nat} (h : Scalars w) (t : Str) : runesIn (enc w ++ t) = w ++ runesIn t := by
  simp [runesIn, runesOf_enc_append h, Function.comp_def]

theorem runesIn_enc {w : List Nat} (h : Scalars w) : runesIn (enc w) = w := by
  simp [runesIn, runesOf_enc h, Function.comp_def]

theorem runesIn_scalars (s : Str) : Scalars (runesIn s) := fun _ h => runesIn_valid h

theorem enc_inj {a b : List Nat} (ha : Scalars a) (hb : Scalars b) (h : enc a = enc b) : a = b := by
  rw [← runesIn_enc ha, ← runesIn_enc hb, h]

/-- A string that begins with an encoding. -/
theorem enc_prefix : ∀ {b w : List Nat} {y : Str}, Scalars w → Scalars b → enc w = enc b ++ y → ∃ d, w = b ++ d ∧ y = enc d
  | [], w, y, _, _, h => ⟨w, rfl, by simpa [enc] using h.symm⟩
  | r :: b, w, y, hw, hb, h => by
    rw [scalars_cons] at hb
    cases w with
    | nil => rw [enc_cons] at h; simp [enc, encode_ne_nil] at h
    | cons r' w =>
      rw [scalars_cons] at hw
      have e1 := decode_enc (w := w) hw.1 []
      have e2 := decode_enc (w := b) hb.1 y
      rw [List.append_nil, h, e2, Prod.mk.injEq] at e1
      obtain ⟨rfl, -⟩ := e1
      rw [enc_cons, enc_cons, List.append_assoc, List.append_cancel_left_eq] at h
      obtain ⟨d, rfl, rfl⟩ := enc_prefix hw.2 hb.2 h
      exact ⟨d, rfl, rfl⟩

/-- An encoding is cut between runes if the second part does not begin inside a rune. -/
theorem enc_cut : ∀ {w : List Nat} {x y : Str}, Scalars w → enc w = x ++ y → (∀ b, y.head? = some b → StartByte b) → ∃ a c, w = a ++ c ∧ x = enc a ∧ y = enc c
  | [], x, y, _, h, _ => by
    rw [enc_nil, eq_comm, List.append_eq_nil_iff] at h
    obtain ⟨rfl, rfl⟩ := h
    exact ⟨[], [], rfl, rfl, rfl⟩
  | r :: w, x, y, hw, h, hy => by
    rw [scalars_cons] at hw
    by_cases hx : x = []
    · subst hx; exact ⟨[], r :: w, rfl, rfl, by simpa using h.symm⟩
    have e1 := decode_enc (w := w) hw.1 []
    rw [List.append_nil, h, decodeRune_append hx hy] at e1
    have hs := (decodeRune_size x).1
    rw [e1] at hs
    simp only at hs
    rw [enc_cons] at h
    obtain ⟨x', rfl⟩ : ∃ x', x = encodeRune r ++ x' := by
      have := congrArg (List.take (encodeRune r).length) h
      rw [List.take_left, List.take_append_of_le_length hs] at this
      exact ⟨x.drop (encodeRune r).length, by conv => lhs; rw [← List.take_append_drop (encodeRune r).length x]
                                              rw [← this]⟩
    rw [List.append_assoc, List.append_cancel_left_eq] at h
    obtain ⟨a, c, rfl, rfl, rfl⟩ := enc_cut hw.2 h hy
    exact ⟨r :: a, c, rfl, by rw [enc_cons], rfl⟩

/-- An encoding occurs in an encoding only where its runes occur. -/
theorem enc_occurs {w b : List Nat} {x y : Str} (hw : Scalars w) (hb : Scalars b) (hne : b ≠ []) (h : enc w = x ++ enc b ++ y) :
    ∃ a c, w = a ++ b ++ c ∧ x = enc a ∧ y = enc c := by
  rw [List.append_assoc] at h
  obtain ⟨a, c, rfl, rfl, h2⟩ := enc_cut hw h (enc_head hb fun e => absurd e hne)
  rw [scalars_append] at hw
  obtain ⟨d, rfl, rfl⟩ := enc_prefix hw.2 hb h2.symm
  exact ⟨a, d, by simp, rfl, rfl⟩

theorem enc_suffix {w b : List Nat} {x : Str} (hw : Scalars w) (hb : Scalars b) (h : enc w = x ++ enc b) : ∃ a, w = a ++ b ∧ x = enc a := by
  by_cases hne : b = []
  · subst hne; exact ⟨w, by simp, by simpa [enc] using h.symm⟩
  · obtain ⟨a, c, rfl, rfl, hc⟩ := enc_occurs (y := []) hw hb hne (by simpa using h)
    rw [eq_comm, enc_eq_nil] at hc
    subst hc
    exact ⟨a, by simp, rfl⟩

/-- Two cuts at the same byte are the same cut. -/
theorem enc_same {a b c d : List Nat} (h : Scalars (a ++ b)) (e : a ++ b = c ++ d) (hl : (enc a).length = (enc c).length) : a = c ∧ b = d := by
  have h' := h
  rw [e] at h'
  rw [scalars_append] at h h'
  have e2 := congrArg enc e
  rw [enc_append, enc_append] at e2
  obtain ⟨h1, h2⟩ := List.append_inj e2 hl
  exact ⟨enc_inj h.1 h'.1 h1, enc_inj h.2 h'.2 h2⟩

/-- Of two cuts the one at a later byte comes later. -/
theorem enc_le {w a b c d : List Nat} (e1 : w = a ++ b) (e2 : w = c ++ d) : (enc a).length ≤ (enc c).length ↔ a.length ≤ c.length := by
  subst e1
  have mono : ∀ x y z t : List Nat, x ++ y = z ++ t → x.length ≤ z.length → ∃ m, z = x ++ m := by
    intro x y z t e hl
    have := congrArg (List.take x.length) e
    rw [List.take_left, List.take_append_of_le_length hl] at this
    exact ⟨z.drop x.length, by conv => lhs; rw [← List.take_append_drop x.length z]
                               rw [← this]⟩
  constructor
  · intro h
    by_contra hc
    obtain ⟨m, rfl⟩ := mono c d a b e2.symm (by omega)
    have hm : m ≠ [] := by rintro rfl; simp at hc
    have := enc_length_pos hm
    rw [enc_append, List.length_append] at h
    omega
  · intro h
    obtain ⟨m, rfl⟩ := mono a b c d e2 h
    rw [enc_append, List.length_append]; omega

/-! ### `range` -/

/-- The positions and runes of an encoding. -/
def spots : Nat → List Nat → List (Nat × Nat)
  | _, [] => []
  | i, r :: w => (i, r) :: spots (i + (encodeRune r).length) w

theorem rangeStr_enc {w : List Nat} (h : Scalars w) : rangeStr (enc w) = spots 0 w := by
  rw [rangeStr, runesOf_enc h]
  generalize 0 = i
  induction w generalizing i with
  | nil => rfl
  | cons r w ih => rw [List.map_cons, positions, spots, ih (scalars_cons.1 h).2]

theorem mem_spots {w : List Nat} : ∀ {i : Nat} {x : Nat × Nat}, x ∈ spots i w ↔ ∃ a c, w = a ++ x.2 :: c ∧ x.1 = i + (enc a).length := by
  induction w with
  | nil => intro i x; simp [spots]
  | cons r w ih =>
    intro i x
    rw [spots, List.mem_cons, ih]
    constructor
    · rintro (rfl | ⟨a, c, rfl, h⟩)
      · exact ⟨[], w, rfl, by simp [enc]⟩
      · exact ⟨r :: a, c, rfl, by rw [h, enc_cons, List.length_append]; omega⟩
    · rintro ⟨a, c, h, h'⟩
      cases a with
      | nil =>
        simp only [List.nil_append, List.cons.injEq] at h
        left; ext
        · simpa [enc] using h'
        · exact h.1.symm
      | cons r' a =>
        simp only [List.cons_append, List.cons.injEq] at h
        obtain ⟨rfl, h⟩ := h
        right; exact ⟨a, c, h, by rw [h', enc_cons, List.length_append]; omega⟩

theorem spots_take {w : List Nat} : ∀ {i n : Nat}, (spots i w).take n = spots i (w.take n) := by
  induction w with
  | nil => intro i n; simp [spots]
  | cons r w ih =>
    intro i n
    cases n with
    | zero => rfl
    | succ n => rw [spots, List.take_succ_cons, ih, List.take_succ_cons, spots]

theorem spots_length {w : List Nat} : ∀ {i : Nat}, (spots i w).length = w.length := by
  induction w with
  | nil => intro i; rfl
  | cons r w ih => intro i; rw [spots, List.length_cons, ih, List.length_cons]

theorem spots_getElem {w : List Nat} : ∀ {i k : Nat}, (spots i w)[k]? = w[k]?.map fun r => (i + (enc (w.take k)).length, r) := by
  induction w with
  | nil => intro i k; simp [spots]
  | cons r w ih =>
    intro i k
    cases k with
    | zero => simp [spots, enc]
    | succ k =>
      rw [spots, List.getElem?_cons_succ, ih, List.getElem?_cons_succ, List.take_succ_cons, enc_cons, List.length_append]
      simp only [Nat.add_assoc]

/-- The ends of the beginnings of an encoding: `for i := range s` and the end. -/
theorem mem_bounds {w : List Nat} (h : Scalars w) (k : Nat) : k ∈ (rangeStr (enc w)).map Prod.fst ++ [(enc w).length] ↔ ∃ b c, w = b ++ c ∧ k = (enc b).length := by
  rw [rangeStr_enc h, List.mem_append, List.mem_singleton, List.mem_map]
  constructor
  · rintro (⟨x, hx, rfl⟩ | rfl)
    · obtain ⟨a, c, e, e'⟩ := mem_spots.1 hx
      exact ⟨a, _, e, by omega⟩
    · exact ⟨w, [], by simp, rfl⟩
  · rintro ⟨b, c, rfl, rfl⟩
    cases c with
    | nil => right; simp
    | cons r c => left; exact ⟨((enc b).length, r), mem_spots.2 ⟨b, c, rfl, by simp⟩, rfl⟩

/-- The same without the start: `i + utf8.RuneLen(r)`. -/
theorem mem_runeEnds {w : List Nat} (h : Scalars w) (n k : Nat) :
    k ∈ (rangeStr (enc w)).map (fun x => n + x.1 + runeLen x.2) ↔ ∃ b c, w = b ++ c ∧ b ≠ [] ∧ k = n + (enc b).length := by
  rw [rangeStr_enc h, List.mem_map]
  constructor
  · rintro ⟨x, hx, rfl⟩
    obtain ⟨a, c, e, e'⟩ := mem_spots.1 hx
    refine ⟨a ++ [x.2], c, by simp [e], by simp, ?_⟩
    rw [enc_append, enc_singleton, List.length_append, e', runeLen_valid (h _ (by simp [e]))]
    omega
  · rintro ⟨b, c, rfl, hb, rfl⟩
    obtain ⟨a, r, rfl⟩ : ∃ a r, b = a ++ [r] := ⟨b.dropLast, b.getLast hb, (List.dropLast_append_getLast hb).symm⟩
    refine ⟨((enc a).length, r), mem_spots.2 ⟨a, c, by simp, by simp⟩, ?_⟩
    rw [runeLen_valid (h _ (by simp)), enc_append, enc_singleton, List.length_append]
    simp only; omega

end Verif.Glob
