import Verif.Glob.DocLang
import Verif.Glob.Quote
/-
Cutting strings of any bytes where a rune begins.
-/
namespace Verif.Glob

/-- A byte that is not inside a rune. -/
def StartByte (b : UInt8) : Prop := ¬ (0x80 ≤ b.toNat ∧ b.toNat ≤ 0xBF)

theorem contIn_start {lo hi b : UInt8} (hb : StartByte b) (h1 : 0x80 ≤ lo.toNat) (h2 : hi.toNat ≤ 0xBF) : contIn lo hi b = false := by
  rw [Bool.eq_false_iff]
  intro h
  rw [contIn_iff] at h
  exact hb ⟨by omega, by omega⟩

/-- What follows a string does not change its first rune, if it does not begin inside a rune. -/
theorem decodeRune_append {a t : Str} (ha : a ≠ []) (ht : ∀ b, t.head? = some b → StartByte b) : decodeRune (a ++ t) = decodeRune a := by
  cases t with
  | nil => rw [List.append_nil]
  | cons b t =>
    have hb := ht b rfl
    have c0 : contIn 0x80 0xBF b = false := contIn_start hb (by decide) (by decide)
    have cl : ∀ b0 : UInt8, contIn (if b0 = 224 then 160 else 128) (if b0 = 237 then 159 else 191) b = false := by
      intro b0
      exact contIn_start hb (by split <;> decide) (by split <;> decide)
    have cl' : ∀ b0 : UInt8, contIn (if b0 = 240 then 144 else 128) (if b0 = 244 then 143 else 191) b = false := by
      intro b0
      exact contIn_start hb (by split <;> decide) (by split <;> decide)
    rcases a with _ | ⟨b0, _ | ⟨b1, _ | ⟨b2, _ | ⟨b3, a⟩⟩⟩⟩
    · exact absurd rfl ha
    · simp only [List.cons_append, List.nil_append, decodeRune, c0, cl, cl']
      rcases t with _ | ⟨x, _ | ⟨y, t⟩⟩ <;> simp [cl, cl']
    · simp only [List.cons_append, List.nil_append, decodeRune, c0]
      rcases t with _ | ⟨x, t⟩ <;> simp [c0]
    · simp only [List.cons_append, List.nil_append, decodeRune, c0]
      simp
    · rfl

/-- Cutting a string after its first rune, or later, does not change the first rune. -/
theorem decodeRune_take {s : Str} (hs : s ≠ []) {n : Nat} (h : (decodeRune s).2 ≤ n) : decodeRune (s.take n) = decodeRune s := by
  have h1 := (decodeRune_size s).2 hs
  rcases s with _ | ⟨b0, s⟩
  · exact absurd rfl hs
  obtain ⟨n, rfl⟩ : ∃ m, n = m + 1 := ⟨n - 1, by omega⟩
  rw [List.take_succ_cons]
  by_cases c1 : b0 < 0x80
  · simp only [decodeRune, if_pos c1]
  by_cases c2 : (0xC2 ≤ b0 && b0 ≤ 0xDF) = true
  · simp only [decodeRune, if_neg c1, if_pos c2] at h ⊢
    rcases s with _ | ⟨b1, s⟩
    · rw [List.take_nil]
    · rcases n with _ | n
      · simp only at h
        simp only [List.take_zero]
        split at h
        · simp at h
        · rename_i hc; rw [if_neg hc]
      · rfl
  by_cases c3 : (0xE0 ≤ b0 && b0 ≤ 0xEF) = true
  · simp only [decodeRune, if_neg c1, if_neg c2, if_pos c3] at h ⊢
    generalize (if b0 = 0xE0 then (0xA0 : UInt8) else 0x80) = lo at h ⊢
    generalize (if b0 = 0xED then (0x9F : UInt8) else 0xBF) = hi at h ⊢
    rcases s with _ | ⟨b1, _ | ⟨b2, s⟩⟩
    · rw [List.take_nil]
    · rcases n with _ | n
      · rfl
      · rw [List.take_succ_cons, List.take_nil]
    · simp only at h
      rcases n with _ | _ | n
      · simp only [List.take_zero]
        split at h
        · simp at h
        · rename_i hc; rw [if_neg hc]
      · simp only [List.take_succ_cons, List.take_zero, Nat.zero_add]
        split at h
        · simp at h
        · rename_i hc; rw [if_neg hc]
      · rfl
  by_cases c4 : (0xF0 ≤ b0 && b0 ≤ 0xF4) = true
  · simp only [decodeRune, if_neg c1, if_neg c2, if_neg c3, if_pos c4] at h ⊢
    generalize (if b0 = 0xF0 then (0x90 : UInt8) else 0x80) = lo at h ⊢
    generalize (if b0 = 0xF4 then (0x8F : UInt8) else 0xBF) = hi at h ⊢
    rcases s with _ | ⟨b1, _ | ⟨b2, _ | ⟨b3, s⟩⟩⟩
    · rw [List.take_nil]
    · rcases n with _ | n
      · rfl
      · rw [List.take_succ_cons, List.take_nil]
    · rcases n with _ | _ | n
      · rfl
      · rfl
      · simp only [List.take_succ_cons, List.take_nil]
    · simp only at h
      rcases n with _ | _ | _ | n
      · simp only [List.take_zero]
        split at h
        · simp at h
        · rename_i hc; rw [if_neg hc]
      · simp only [List.take_succ_cons, List.take_zero, Nat.zero_add]
        split at h
        · simp at h
        · rename_i hc; rw [if_neg hc]
      · simp only [List.take_succ_cons, List.take_zero, Nat.zero_add]
        split at h
        · simp at h
        · rename_i hc; rw [if_neg hc]
      · rfl
  · simp only [decodeRune, if_neg c1, if_neg c2, if_neg c3, if_neg c4]

/-- The runes of a string are those of its parts, if it is cut where a rune begins. -/
theorem runesIn_append : ∀ (n : Nat) (a t : Str), a.length ≤ n → (∀ b, t.head? = some b → StartByte b) → runesIn (a ++ t) = runesIn a ++ runesIn t
  | n, [], t, _, _ => by simp [runesIn, runesOf, runesAux]
  | 0, b :: a, t, h, _ => by simp at h
  | n + 1, b :: a, t, h, ht => by
    have hs := decodeRune_size (b :: a)
    have h1 := hs.2 (by simp)
    rw [runesIn_cons (s := b :: a ++ t) (by simp), runesIn_cons (s := b :: a) (by simp), decodeRune_append (by simp) ht, List.drop_append_of_le_length hs.1,
      runesIn_append n _ t (by rw [List.length_drop]; simp at h ⊢; omega) ht, List.cons_append]

/-- A split of the runes comes from a split of the string. -/
theorem runesIn_split : ∀ (u : List Nat) (s : Str) (v : List Nat), runesIn s = u ++ v → ∃ a c, s = a ++ c ∧ runesIn a = u ∧ runesIn c = v
  | [], s, v, h => ⟨[], s, rfl, rfl, h⟩
  | r :: u, s, v, h => by
    have hs : s ≠ [] := by rintro rfl; simp [runesIn, runesOf, runesAux] at h
    have hd := decodeRune_size s
    have h1 := hd.2 hs
    rw [runesIn_cons hs, List.cons_append, List.cons.injEq] at h
    obtain ⟨a, c, e1, e2, e3⟩ := runesIn_split u _ v h.2
    have e : s = s.take (decodeRune s).2 ++ a ++ c := by rw [List.append_assoc, ← e1, List.take_append_drop]
    refine ⟨s.take (decodeRune s).2 ++ a, c, e, ?_, e3⟩
    have ha : s.take (decodeRune s).2 ++ a = s.take ((decodeRune s).2 + a.length) := by
      have hlen : (s.take (decodeRune s).2 ++ a).length = (decodeRune s).2 + a.length := by rw [List.length_append, List.length_take_of_le hd.1]
      generalize s.take (decodeRune s).2 ++ a = x at e hlen
      rw [← hlen, e, List.take_left]
    have hne : s.take (decodeRune s).2 ++ a ≠ [] := by
      intro h0
      have := congrArg List.length h0
      rw [List.length_append, List.length_take_of_le hd.1] at this
      simp at this; omega
    rw [runesIn_cons hne, ha, decodeRune_take hs (by omega), ← ha, List.drop_left' (List.length_take_of_le hd.1), h.1, e2]

/-- A text of runes that can be written in a pattern. -/
def GoodText (t : Str) : Prop := t ≠ [] ∧ ∃ cs : List Nat, (∀ r ∈ cs, goodRune r = true) ∧ t = cs.flatMap encodeRune

theorem encodeRune_start {r : Nat} (h : goodRune r = true) : ∀ b, (encodeRune r).head? = some b → StartByte b := by
  rw [goodRune_iff] at h
  intro b hb
  unfold StartByte
  unfold encodeRune at hb
  repeat' split at hb
  all_goals
    simp only [List.head?_cons, Option.some.injEq] at hb
    subst hb
    first
    | decide
    | (rw [toNat_ofNat_lt (by omega)]; omega)

theorem runesIn_good : ∀ (cs : List Nat) (c : Str), (∀ r ∈ cs, goodRune r = true) → runesIn (cs.flatMap encodeRune ++ c) = cs ++ runesIn c
  | [], c, _ => rfl
  | r :: cs, c, h => by
    rw [List.flatMap_cons, List.append_assoc, runesIn_encode (h r (by simp)), runesIn_good cs c fun r hr => h r (by simp [hr])]
    rfl

theorem GoodText.start {t : Str} (h : GoodText t) (c : Str) : ∀ b, (t ++ c).head? = some b → StartByte b := by
  obtain ⟨h0, cs, h1, rfl⟩ := h
  cases cs with
  | nil => exact absurd rfl h0
  | cons r cs =>
    intro b hb
    refine encodeRune_start (h1 r (by simp)) b ?_
    have := encodeRune_pos r
    rw [List.flatMap_cons, List.append_assoc, List.head?_append] at hb
    cases he : (encodeRune r).head? with
    | none => rw [List.head?_eq_none_iff] at he; rw [he] at this; simp at this
    | some x => rw [he] at hb; exact hb

/-- The text is found in a string of any bytes exactly where its runes are found. -/
theorem GoodText.runes {t : Str} (h : GoodText t) (a c : Str) : runesIn (a ++ t ++ c) = runesIn a ++ runesIn t ++ runesIn c := by
  rw [List.append_assoc, runesIn_append _ a _ (Nat.le_refl _) (h.start c)]
  obtain ⟨-, cs, h1, rfl⟩ := h
  have := runesIn_good cs [] h1
  rw [List.append_nil] at this
  rw [runesIn_good cs c h1, this]
  simp [runesIn, runesOf, runesAux]

theorem GoodText.of_runes {t a : Str} (h : GoodText t) (e : runesIn a = runesIn t) : a = t := by
  obtain ⟨-, cs, h1, rfl⟩ := h
  have e2 := runesIn_good cs [] h1
  rw [List.append_nil] at e2
  have e3 : runesIn ([] : Str) = [] := rfl
  rw [e3, List.append_nil] at e2
  rw [e2] at e
  rw [← encode_runes _ a (Nat.le_refl _) (by rw [e]; intro hx; have := h1 _ hx; revert this; decide), e]

theorem positions_snd : ∀ (i : Nat) (rs : List (Nat × Nat)), (positions i rs).map Prod.snd = rs.map Prod.fst
  | _, [] => rfl
  | i, (r, w) :: rs => by rw [positions, List.map_cons, positions_snd]; rfl

theorem decodeRune_validRune (s : Str) : validRune (decodeRune s).1 = true := by
  by_cases hr : (decodeRune s).1 = runeError
  · rw [hr]; decide
  · obtain ⟨h1, h2, -⟩ := decodeRune_local (s := s) (r := (decodeRune s).1) (w := (decodeRune s).2) rfl hr
    by_contra hv
    have : encodeRune (decodeRune s).1 = [0xEF, 0xBF, 0xBD] := by
      simp [validRune] at hv
      unfold encodeRune
      rw [if_neg (by omega), if_neg (by omega), if_pos (by simp; omega)]
    rw [this] at h1
    have h3 := h2 []
    rw [← h1] at h3
    have h4 : decodeRune ([0xEF, 0xBF, 0xBD] ++ []) = (runeError, 3) := by decide
    rw [h4] at h3
    exact hr (congrArg Prod.fst h3).symm

theorem runesIn_valid {s : Str} {r : Nat} (h : r ∈ runesIn s) : validRune r = true := by
  obtain ⟨u, v, e⟩ := List.append_of_mem h
  obtain ⟨a, x, rfl, -, ex⟩ := runesIn_split u s _ e
  have hx : x ≠ [] := by rintro rfl; simp [runesIn, runesOf, runesAux] at ex
  rw [runesIn_cons hx, List.cons.injEq] at ex
  rw [← ex.1]; exact decodeRune_validRune x

/-- `strings.IndexRune`, on strings of any bytes, finds a rune exactly if it is one of the runes. -/
theorem indexRune_none_iff (s : Str) (r : Nat) : indexRune s r = none ↔ r ∉ runesIn s := by
  have good : goodRune r = true ∨ r = 0 → validRune r = true → r ≠ runeError → strIndex (encodeRune r) s = none → r ∉ runesIn s := by
    intro _ _ hr h hm
    obtain ⟨u, v, e⟩ := List.append_of_mem hm
    obtain ⟨a, x, rfl, -, ex⟩ := runesIn_split u s _ e
    obtain ⟨y, c, rfl, ey, -⟩ := runesIn_split [r] x v (by rw [ex]; rfl)
    have : y = encodeRune r := by
      have := encode_runes _ y (Nat.le_refl _) (by rw [ey]; simpa using Ne.symm hr)
      rw [ey] at this; simpa using this.symm
    subst this
    exact strIndex_none h a c (by simp)
  have valid : validRune r = true → r ≠ runeError → (strIndex (encodeRune r) s = none ↔ r ∉ runesIn s) := by
    intro hv hr
    have hv' : r < 0xD800 ∨ 0xE000 ≤ r ∧ r ≤ 0x10FFFF := by simpa [validRune] using hv
    constructor
    · refine good ?_ hv hr
      by_cases h0 : r = 0
      · exact Or.inr h0
      · exact Or.inl (goodRune_iff.2 ⟨by omega, hr, hv'⟩)
    · intro h
      by_contra hc
      obtain ⟨i, hi⟩ := Option.ne_none_iff_exists'.1 hc
      obtain ⟨a, c, rfl⟩ : ∃ a c, s = a ++ encodeRune r ++ c := by
        obtain ⟨⟨c, e⟩, -⟩ := strIndex_some hi
        exact ⟨_, c, e⟩
      refine h ?_
      have hst : ∀ b, (encodeRune r ++ c).head? = some b → StartByte b := by
        intro b hb
        by_cases h0 : r = 0
        · subst h0
          simp [encodeRune] at hb
          subst hb; unfold StartByte; decide
        · have hg : GoodText (encodeRune r) := ⟨by have := encodeRune_pos r; intro h; rw [h] at this; simp at this, [r], by simpa using goodRune_iff.2 ⟨Nat.pos_of_ne_zero h0, hr, hv'⟩, by simp⟩
          exact hg.start c b hb
      rw [List.append_assoc, runesIn_append _ a _ (Nat.le_refl _) hst, runesIn_cons (s := encodeRune r ++ c) (by intro h; have h2 := encodeRune_pos r; have h3 := congrArg List.length h; rw [List.length_append, List.length_nil] at h3; omega),
        decode_encode hv']
      simp
  unfold indexRune
  split
  · rename_i h
    have := valid (by simp [validRune]; omega) (by unfold runeError; omega)
    rw [encodeRune, if_pos h] at this
    exact this
  · split
    · rename_i h; subst h
      rw [Option.map_eq_none_iff, List.find?_eq_none, runesIn, ← positions_snd 0, List.mem_map]
      constructor
      · rintro h ⟨x, hx, e⟩
        exact h x hx (by simp [e])
      · intro h x hx e
        exact h ⟨x, hx, by simpa using e⟩
    · split
      · rename_i h
        refine ⟨fun _ hm => ?_, fun _ => rfl⟩
        rw [runesIn_valid hm] at h; simp at h
      · rename_i h1 h2; exact valid (by simpa using h2) h1
theorem indexAnyRunes_isNone (s : Str) (seps : List Nat) : (indexAnyRunes s seps).isNone = true ↔ ∀ r ∈ runesIn s, r ∉ seps := by
  rw [Option.isNone_iff_eq_none]
  induction seps with
  | nil => simp [indexAnyRunes]
  | cons x seps ih =>
    rw [indexAnyRunes]
    cases h : indexRune s x with
    | none =>
      simp only
      rw [ih]
      rw [indexRune_none_iff] at h
      constructor
      · intro h' r hr hm
        rcases List.mem_cons.1 hm with rfl | hm
        · exact h hr
        · exact h' r hr hm
      · intro h' r hr hm; exact h' r hr (List.mem_cons_of_mem _ hm)
    | some i =>
      simp only [reduceCtorEq, false_iff]
      intro h'
      have : ¬ x ∉ runesIn s := by rw [← indexRune_none_iff, h]; simp
      exact this fun hx => h' x hx (by simp)

end Verif.Glob
