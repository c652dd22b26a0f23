import Verif.Go.Basic
/-
Go's order of strings.
-/
namespace Verif

/-- Go compares strings bytewise: `s < t`. -/
def strLt : Str → Str → Bool
  | _, [] => false
  | [], _ :: _ => true
  | a :: s, b :: t => a < b || (a == b && strLt s t)

theorem strLt_irrefl (s : Str) : strLt s s = false := by
  induction s with
  | nil => rfl
  | cons a s ih => simp [strLt, ih]

theorem strLt_trans : ∀ {s t u : Str}, strLt s t = true → strLt t u = true → strLt s u = true
  | _, [], _, h, _ => by simp [strLt] at h
  | _, _ :: _, [], _, h => by simp [strLt] at h
  | [], _ :: _, _ :: _, _, _ => rfl
  | a :: s, b :: t, c :: u, h1, h2 => by
    simp only [strLt, Bool.or_eq_true, decide_eq_true_eq, Bool.and_eq_true, beq_iff_eq] at *
    rcases h1 with h1 | ⟨rfl, h1⟩
    · rcases h2 with h2 | ⟨rfl, h2⟩
      · exact Or.inl (UInt8.lt_trans h1 h2)
      · exact Or.inl h1
    · rcases h2 with h2 | ⟨rfl, h2⟩
      · exact Or.inl h2
      · exact Or.inr ⟨rfl, strLt_trans h1 h2⟩

theorem strLt_total : ∀ (s t : Str), strLt s t = true ∨ s = t ∨ strLt t s = true
  | [], [] => Or.inr (Or.inl rfl)
  | [], _ :: _ => Or.inl rfl
  | _ :: _, [] => Or.inr (Or.inr rfl)
  | a :: s, b :: t => by
    simp only [strLt, Bool.or_eq_true, decide_eq_true_eq, Bool.and_eq_true, beq_iff_eq, List.cons.injEq]
    have tri : a < b ∨ a = b ∨ b < a := by
      rcases Nat.lt_trichotomy a.toNat b.toNat with h | h | h
      · exact Or.inl h
      · exact Or.inr (Or.inl (UInt8.toNat_inj.1 h))
      · exact Or.inr (Or.inr h)
    rcases tri with h | h | h
    · exact Or.inl (Or.inl h)
    · rcases strLt_total s t with h' | h' | h'
      · exact Or.inl (Or.inr ⟨h, h'⟩)
      · exact Or.inr (Or.inl ⟨h, h'⟩)
      · exact Or.inr (Or.inr (Or.inr ⟨h.symm, h'⟩))
    · exact Or.inr (Or.inr (Or.inl h))

theorem strLt_append (p : Str) {s t : Str} : strLt (p ++ s) (p ++ t) = strLt s t := by
  induction p with
  | nil => rfl
  | cons a p ih => simp [strLt, ih]

theorem strLt_ne {s t : Str} (h : strLt s t = true) : s ≠ t := by
  rintro rfl; rw [strLt_irrefl] at h; cases h

end Verif
