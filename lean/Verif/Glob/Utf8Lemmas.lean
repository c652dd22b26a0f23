import Verif.Glob.GlobLang
/-
Decoding and encoding runes.
-/
namespace Verif.Glob

theorem ofNat_eq {n : Nat} {b : UInt8} (h : n = b.toNat) : UInt8.ofNat n = b := by subst h; simp

theorem contIn_iff {lo hi c : UInt8} : contIn lo hi c = true ↔ lo.toNat ≤ c.toNat ∧ c.toNat ≤ hi.toNat := by
  simp only [contIn, Bool.and_eq_true, decide_eq_true_eq, UInt8.le_iff_toNat_le]

/-- What `decodeRune` reads of a string: a byte, or the two to four bytes of a rune that is not ASCII; the rune's encoding is these bytes, and what follows does
not matter. -/
theorem decodeRune_local {s : Str} {r w : Nat} (h : decodeRune s = (r, w)) (hr : r ≠ runeError) :
    encodeRune r = s.take w ∧ (∀ t, decodeRune (s.take w ++ t) = (r, w)) ∧ ((r < 0x80 ∧ ∃ b : UInt8, s.take w = [b] ∧ b.toNat = r) ∨ (0x80 ≤ r ∧ ∀ b ∈ s.take w, 0x80 ≤ b)) := by
  cases s with
  | nil => simp only [decodeRune, Prod.mk.injEq] at h; exact absurd h.1.symm hr
  | cons b0 rest =>
    have h8 : ∀ b : UInt8, 0x80 ≤ b ↔ 128 ≤ b.toNat := fun b => by rw [UInt8.le_iff_toNat_le]; rfl
    by_cases h0 : b0 < 0x80
    · rw [decodeRune_ascii h0, Prod.mk.injEq] at h
      obtain ⟨rfl, rfl⟩ := h
      have := toNat_lt_of_ascii h0
      refine ⟨?_, fun t => ?_, Or.inl ⟨this, b0, rfl, rfl⟩⟩
      · rw [encodeRune, if_pos this]; simp
      · exact decodeRune_ascii h0
    · simp only [decodeRune, if_neg h0] at h
      split at h
      · rename_i h1
        rcases rest with _ | ⟨b1, rest⟩
        · simp only [Prod.mk.injEq] at h; exact absurd h.1.symm hr
        · simp only at h
          split at h
          · rename_i h2
            have e := fun t => show decodeRune (b0 :: b1 :: t) = (r, w) by
              simp only [decodeRune, if_neg h0, h1, if_true, h2]
              exact h
            rw [Prod.mk.injEq] at h
            obtain ⟨rfl, rfl⟩ := h
            simp only [Bool.and_eq_true, decide_eq_true_eq, UInt8.le_iff_toNat_le, contIn_iff] at h1 h2
            simp at h1 h2
            have hlt := b0.toNat_lt
            refine ⟨?_, fun t => e t, Or.inr ⟨by omega, ?_⟩⟩
            · rw [encodeRune, if_neg (by omega), if_pos (by omega)]
              simp only [List.take_succ_cons, List.take_zero]
              rw [ofNat_eq (b := b0) (by omega), ofNat_eq (b := b1) (by omega)]
            · intro b hb
              rw [h8]
              simp only [List.take_succ_cons, List.take_zero, List.mem_cons, List.not_mem_nil, or_false] at hb
              rcases hb with rfl | rfl <;> omega
          · simp only [Prod.mk.injEq] at h; exact absurd h.1.symm hr
      · rename_i h1
        split at h
        · rename_i h2
          rcases rest with _ | ⟨b1, _ | ⟨b2, rest⟩⟩
          · simp only [Prod.mk.injEq] at h; exact absurd h.1.symm hr
          · simp only [Prod.mk.injEq] at h; exact absurd h.1.symm hr
          · simp only at h
            rw [ite_eq_iff] at h
            rcases h with ⟨h3, h⟩ | ⟨_, h⟩
            · have e := fun t => show decodeRune (b0 :: b1 :: b2 :: t) = (r, w) by
                simp only [decodeRune, if_neg h0, if_neg h1, h2, if_true, h3]
                exact h
              rw [Prod.mk.injEq] at h
              obtain ⟨rfl, rfl⟩ := h
              have hE : b0 = 0xE0 ↔ b0.toNat = 224 := by rw [← UInt8.toNat_inj]; rfl
              have hD : b0 = 0xED ↔ b0.toNat = 237 := by rw [← UInt8.toNat_inj]; rfl
              simp only [Bool.and_eq_true, decide_eq_true_eq, UInt8.le_iff_toNat_le, contIn_iff] at h2 h3
              have h4 : b0.toNat = 224 → 160 ≤ b1.toNat := by
                intro he; have := h3.1.1; rw [if_pos (hE.2 he)] at this; exact this
              have h5 : b0.toNat = 237 → b1.toNat ≤ 159 := by
                intro he; have := h3.1.2; rw [if_pos (hD.2 he)] at this; exact this
              have h6 : 128 ≤ b1.toNat := by
                have := h3.1.1
                split at this
                · have : 160 ≤ b1.toNat := this; omega
                · exact this
              have h7 : b1.toNat ≤ 191 := by
                have := h3.1.2
                split at this
                · have : b1.toNat ≤ 159 := this; omega
                · exact this
              have h9 := h3.2
              clear h3
              simp at h2 h9
              refine ⟨?_, fun t => e t, Or.inr ⟨by omega, ?_⟩⟩
              · rw [encodeRune, if_neg (by omega), if_neg (by omega), if_neg (by simp; omega), if_pos (by omega)]
                simp only [List.take_succ_cons, List.take_zero]
                rw [ofNat_eq (b := b0) (by omega), ofNat_eq (b := b1) (by omega), ofNat_eq (b := b2) (by omega)]
              · intro b hb
                rw [h8]
                simp only [List.take_succ_cons, List.take_zero, List.mem_cons, List.not_mem_nil, or_false] at hb
                rcases hb with rfl | rfl | rfl <;> omega
            · simp only [Prod.mk.injEq] at h; exact absurd h.1.symm hr
        · rename_i h2
          split at h
          · rename_i h3
            rcases rest with _ | ⟨b1, _ | ⟨b2, _ | ⟨b3, rest⟩⟩⟩
            · simp only [Prod.mk.injEq] at h; exact absurd h.1.symm hr
            · simp only [Prod.mk.injEq] at h; exact absurd h.1.symm hr
            · simp only [Prod.mk.injEq] at h; exact absurd h.1.symm hr
            · simp only at h
              rw [ite_eq_iff] at h
              rcases h with ⟨h4, h⟩ | ⟨_, h⟩
              · have e := fun t => show decodeRune (b0 :: b1 :: b2 :: b3 :: t) = (r, w) by
                  simp only [decodeRune, if_neg h0, if_neg h1, if_neg h2, h3, if_true, h4]
                  exact h
                rw [Prod.mk.injEq] at h
                obtain ⟨rfl, rfl⟩ := h
                have hE : b0 = 0xF0 ↔ b0.toNat = 240 := by rw [← UInt8.toNat_inj]; rfl
                have hD : b0 = 0xF4 ↔ b0.toNat = 244 := by rw [← UInt8.toNat_inj]; rfl
                simp only [Bool.and_eq_true, decide_eq_true_eq, UInt8.le_iff_toNat_le, contIn_iff] at h3 h4
                have g4 : b0.toNat = 240 → 144 ≤ b1.toNat := by
                  intro he; have := h4.1.1.1; rw [if_pos (hE.2 he)] at this; exact this
                have g5 : b0.toNat = 244 → b1.toNat ≤ 143 := by
                  intro he; have := h4.1.1.2; rw [if_pos (hD.2 he)] at this; exact this
                have g6 : 128 ≤ b1.toNat := by
                  have := h4.1.1.1
                  split at this
                  · have : 144 ≤ b1.toNat := this; omega
                  · exact this
                have g7 : b1.toNat ≤ 191 := by
                  have := h4.1.1.2
                  split at this
                  · have : b1.toNat ≤ 143 := this; omega
                  · exact this
                have g8 := h4.1.2
                have g9 := h4.2
                clear h4
                simp at h3 g8 g9
                refine ⟨?_, fun t => e t, Or.inr ⟨by omega, ?_⟩⟩
                · rw [encodeRune, if_neg (by omega), if_neg (by omega), if_neg (by simp; omega), if_neg (by omega)]
                  simp only [List.take_succ_cons, List.take_zero]
                  rw [ofNat_eq (b := b0) (by omega), ofNat_eq (b := b1) (by omega), ofNat_eq (b := b2) (by omega), ofNat_eq (b := b3) (by omega)]
                · intro b hb
                  rw [h8]
                  simp only [List.take_succ_cons, List.take_zero, List.mem_cons, List.not_mem_nil, or_false] at hb
                  rcases hb with rfl | rfl | rfl | rfl <;> omega
              · simp only [Prod.mk.injEq] at h; exact absurd h.1.symm hr
          · simp only [Prod.mk.injEq] at h; exact absurd h.1.symm hr

end Verif.Glob
