import Verif.QR.RenderProps
/-
C157: pictures with any glyphs.
-/
namespace Verif.QR

/-! ## Specification -/

/-- The glyphs can be told apart: each has at least one byte and does not start with a newline, and none is the start of another. -/
def ToldApart {α : Type} (glyph : α → Str) : Prop := (∀ a, glyph a ≠ [] ∧ (glyph a).head? ≠ some 10) ∧ ∀ a b, glyph a <+: glyph b → a = b

/-- The glyphs that a configuration uses can be told apart: two with full blocks, four with half blocks. -/
def Config.ToldApart (cfg : Config) : Prop :=
  if cfg.halfBlocks then Verif.QR.ToldApart fun p : Bool × Bool =>
    match p with
    | (true, true) => cfg.blackChar
    | (true, false) => cfg.blackWhiteChar
    | (false, true) => cfg.whiteBlackChar
    | (false, false) => cfg.whiteChar
  else Verif.QR.ToldApart fun d : Bool => if d then cfg.blackChar else cfg.whiteChar

/-! ## Proofs -/

theorem legible_of {α : Type} {enc : α → Str} (h : ToldApart enc) (as : List α) (hall : ∀ a, a ∈ as) : Legible (as.map fun a => (enc a, a)) enc where
  head a := by
    obtain ⟨h1, h2⟩ := h.1 a
    cases e : enc a with
    | nil => exact absurd e h1
    | cons b g => rw [e] at h2; exact ⟨b, g, rfl, by simpa using h2⟩
  find a rest := by
    have key : ∀ as : List α, a ∈ as → (as.map fun a => (enc a, a)).find? (fun g => g.1.isPrefixOf (enc a ++ rest)) = some (enc a, a) := by
      intro as
      induction as with
      | nil => intro h; cases h
      | cons b as ih =>
        intro hm
        rw [List.map_cons, List.find?_cons]
        by_cases hb : (enc b).isPrefixOf (enc a ++ rest) = true
        · have hp := List.isPrefixOf_iff_prefix.1 hb
          have : b = a := by
            rcases List.prefix_or_prefix_of_prefix hp (List.prefix_append (enc a) rest) with h' | h'
            · exact h.2 _ _ h'
            · exact (h.2 _ _ h').symm
          subst this
          simp only [hb]
        · have hb' : (enc b).isPrefixOf (enc a ++ rest) = false := Bool.eq_false_iff.2 hb
          simp only [hb']
          apply ih
          rcases List.mem_cons.1 hm with rfl | hm
          · exact absurd (List.isPrefixOf_iff_prefix.2 (List.prefix_append _ _)) hb
          · exact hm
    exact key as (hall a)

/-- The same text of glyphs that can be told apart means the same cells. -/
theorem cells_eq {α : Type} {enc : α → Str} (h : ToldApart enc) (as : List α) (hall : ∀ a, a ∈ as) {H W H' W' : Nat} {f f' : Nat → Nat → α}
    (e : ((List.range H).flatMap fun i => ((List.range W).flatMap fun j => enc (f i j)) ++ [10]) = (List.range H').flatMap fun i => ((List.range W').flatMap fun j => enc (f' i j)) ++ [10]) :
    H = H' ∧ ∀ i j, i < H → j < W → j < W' → f i j = f' i j := by
  have l := legible_of h as hall
  have s1 := screen_text l H W f _ rfl
  have s2 := screen_text l H' W' f' _ rfl
  rw [e, s2] at s1
  have s3 := Option.some.inj s1
  have hH : H = H' := by simpa using (congrArg List.length s3).symm
  subst hH
  refine ⟨rfl, fun i j hi hj hj' => ?_⟩
  have := congrArg (fun s => (s[i]?).bind (·[j]?)) s3
  simp only [look_table] at this
  rw [if_pos ⟨hi, hj'⟩, if_pos ⟨hi, hj⟩] at this
  exact (Option.some.inj this).symm

theorem same_code {t t' : Str} {l l' : Level} {c c' : Code} (h : encode t l = .ok c) (h' : encode t' l' = .ok c') (hs : c.size = c'.size)
    (hb : ∀ x y, x < c.size → y < c.size → c.black x y = c'.black x y) : t = t' ∧ l = l' := by
  have e : (fun y x => c.black x y) = fun y x => c'.black x y := by
    funext y x
    by_cases hx : x < c.size ∧ y < c.size
    · exact hb x y hx.1 hx.2
    · rw [black_out _ _ _ (by omega), black_out _ _ _ (by omega)]
  obtain ⟨a1, a2, -⟩ := C31_symbol_decodes t l c h
  obtain ⟨b1, b2, -⟩ := C31_symbol_decodes t' l' c' h'
  rw [e] at a1 a2
  rw [hs, b1] at a1
  exact ⟨(Option.some.inj a1).symm, a2.symm.trans b2⟩

/-- **C157** With any glyphs that can be told apart, and any quiet zone, what `GenerateWithConfig` writes determines the text and the level. -/
theorem C157_determines (cfg : Config) (h : cfg.ToldApart) (t t' : Str) (l l' : Level) (out : Str)
    (h1 : generateWithConfig t { cfg with level := l } = some out) (h2 : generateWithConfig t' { cfg with level := l' } = some out) : t = t' ∧ l = l' := by
  obtain ⟨c, q, e, hq, ho⟩ := C33_C34_generateWithConfig _ _ _ h1
  obtain ⟨c', q', e', hq', ho'⟩ := C33_C34_generateWithConfig _ _ _ h2
  dsimp only at e e' hq hq' ho ho'
  have hqq : q' = q := by rw [← hq] at hq'; exact_mod_cast hq'
  subst hqq
  have hq1 : 1 ≤ q' := by split at hq <;> omega
  obtain ⟨v, hv, hsz⟩ := encode_size e
  obtain ⟨v', hv', hsz'⟩ := encode_size e'
  rw [ho] at ho'
  unfold Config.ToldApart at h
  split at h
  · rename_i hh
    rw [if_pos hh, if_pos hh] at ho'
    have hg : ∀ a b, Config.glyph { cfg with level := l } a b = (fun p : Bool × Bool =>
      match p with
      | (true, true) => cfg.blackChar
      | (true, false) => cfg.blackWhiteChar
      | (false, true) => cfg.whiteBlackChar
      | (false, false) => cfg.whiteChar) (a, b) := by intro a b; cases a <;> cases b <;> rfl
    have hg' : Config.glyph { cfg with level := l' } = Config.glyph { cfg with level := l } := rfl
    rw [hg'] at ho'
    unfold halfText at ho'
    simp only [hg] at ho'
    obtain ⟨hs, hc⟩ := cells_eq h [(true, true), (true, false), (false, true), (false, false)] (by decide)
      (f := fun i j => (framedEven c q' (2 * i) j, framedEven c q' (2 * i + 1) j)) (f' := fun i j => (framedEven c' q' (2 * i) j, framedEven c' q' (2 * i + 1) j)) ho'
    have hs' : c.size = c'.size := by omega
    refine same_code e e' hs' fun x y hx hy => ?_
    have both : ∀ i, i < 2 * (c.size / 2 + 1 + q') → framedEven c q' i (x + q') = framedEven c' q' i (x + q') := by
      intro i hi
      have := hc (i / 2) (x + q') (by omega) (by omega) (by omega)
      rw [Prod.mk.injEq] at this
      rcases Nat.mod_two_eq_zero_or_one i with h0 | h0
      · have e2 : 2 * (i / 2) = i := by omega
        rw [e2] at this; exact this.1
      · have e2 : 2 * (i / 2) + 1 = i := by omega
        rw [e2] at this; exact this.2
    rcases Nat.mod_two_eq_zero_or_one q' with h0 | h0
    · have := both (y + q') (by omega)
      unfold framedEven framed at this
      rw [if_neg (by omega), if_neg (by omega)] at this
      have n1 : (y + q' == c.size + 2 * q') = false := by rw [beq_eq_false_iff_ne]; omega
      have n2 : (y + q' == c'.size + 2 * q') = false := by rw [beq_eq_false_iff_ne]; omega
      simpa [n1, n2] using this
    · have := both (y + q' + 1) (by omega)
      unfold framedEven framed at this
      rw [if_pos h0, if_pos h0] at this
      simpa using this
  · rename_i hh
    rw [if_neg hh, if_neg hh] at ho'
    unfold fullText at ho'
    obtain ⟨hs, hc⟩ := cells_eq h [true, false] (by decide) (f := framed c q') (f' := framed c' q') ho'
    refine same_code e e' (by omega) fun x y hx hy => ?_
    have := hc (y + q') (x + q') (by omega) (by omega) (by omega)
    unfold framed at this
    simpa using this

/-- The glyphs of `Generate` and of `GenerateHalfBlock` can be told apart, and so can `#` and a space. -/
theorem C157_case (l : Level) : Config.ToldApart { level := l, blackChar := blackEsc, whiteChar := whiteEsc, quietZone := 4 } ∧
    Config.ToldApart { level := l, halfBlocks := true, blackChar := glyphBB, whiteBlackChar := glyphWB, whiteChar := glyphWW, blackWhiteChar := glyphBW, quietZone := 4 } ∧
    Config.ToldApart { level := l, blackChar := lit "#", whiteChar := lit " " } := by
  cases l <;> (refine ⟨?_, ?_, ?_⟩ <;> unfold Config.ToldApart ToldApart <;> decide)

/-- It is needed that they can be told apart: with equal glyphs all texts whose symbols have the same size give the same picture. -/
theorem C157_equal_glyphs (cfg : Config) (hh : cfg.halfBlocks = false) (heq : cfg.blackChar = cfg.whiteChar) (t t' : Str) (c c' : Code)
    (h : encode t cfg.level = .ok c) (h' : encode t' cfg.level = .ok c') (hs : c.size = c'.size) : generateWithConfig t cfg = generateWithConfig t' cfg := by
  cases e : generateWithConfig t cfg with
  | none => rw [generateWithConfig_none, h] at e; cases e
  | some out =>
    cases e' : generateWithConfig t' cfg with
    | none => rw [generateWithConfig_none, h'] at e'; cases e'
    | some out' =>
      obtain ⟨d, q, a1, a2, a3⟩ := C33_C34_generateWithConfig _ _ _ e
      obtain ⟨d', q', b1, b2, b3⟩ := C33_C34_generateWithConfig _ _ _ e'
      rw [h] at a1; rw [h'] at b1
      cases a1; cases b1
      have : q = q' := by rw [← b2] at a2; exact_mod_cast a2
      subst this
      rw [a3, b3, hh, hs, heq]
      simp [fullText]

end Verif.QR
