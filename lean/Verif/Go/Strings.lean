import Verif.Go.Utf8
import Mathlib.Data.List.TakeWhile
/-
Functions of package strings used by the commands.
-/
namespace Verif

/-- The runes of a string with their bytes; at most `n`. -/
def chunksAux : Nat → Str → List (Str × Nat)
  | 0, _ => []
  | _ + 1, [] => []
  | n + 1, b :: s => ((b :: s).take (decodeRune (b :: s)).2, (decodeRune (b :: s)).1) :: chunksAux n ((b :: s).drop (decodeRune (b :: s)).2)

/-- The runes of a string with their bytes. -/
def chunks (s : Str) : List (Str × Nat) := chunksAux s.length s

/-- Go `strings.TrimSpace`: without the white space at both ends. -/
def trimSpace (s : Str) : Str :=
  ((((chunks s).dropWhile fun c => isSpace c.2).reverse.dropWhile fun c => isSpace c.2).reverse).flatMap Prod.fst

/-- Go `strings.HasPrefix`. -/
def hasPrefix (s p : Str) : Bool := p.isPrefixOf s

/-- ASCII upper case of a byte. -/
def upperByte (b : UInt8) : UInt8 := if 97 ≤ b && b ≤ 122 then b - 32 else b

/-- Go `strings.ToUpper`: for ASCII strings byte by byte; `other` stands for the Unicode mapping of the remaining strings, about which nothing
is assumed. -/
def toUpper (other : Str → Str) (s : Str) : Str := if s.all (· < 0x80) then s.map upperByte else other s

/-- `%d` -/
def decimal (n : Nat) : Str := lit (toString n)

/-- What follows the first `c`, or the string itself if there is none. -/
def afterFirst (c : UInt8) (s : Str) : Str := if c ∈ s then (s.dropWhile (· ≠ c)).drop 1 else s

/-- `sub` occurs in `s` (Go `strings.Contains`). -/
def containsStr (sub : Str) : Str → Bool
  | [] => sub.isEmpty
  | b :: s => sub.isPrefixOf (b :: s) || containsStr sub s

theorem containsStr_iff {sub : Str} : ∀ {s : Str}, containsStr sub s = true ↔ ∃ a b, s = a ++ sub ++ b
  | [] => by
    simp only [containsStr, List.isEmpty_iff]
    constructor
    · rintro rfl; exact ⟨[], [], rfl⟩
    · rintro ⟨a, b, h⟩
      have := congrArg List.length h
      simp only [List.length_nil, List.length_append] at this
      exact List.length_eq_zero_iff.1 (by omega)
  | c :: s => by
    rw [containsStr, Bool.or_eq_true, List.isPrefixOf_iff_prefix, containsStr_iff]
    constructor
    · rintro (⟨b, h⟩ | ⟨a, b, h⟩)
      · exact ⟨[], b, by rw [← h]; rfl⟩
      · exact ⟨c :: a, b, by rw [h]; rfl⟩
    · rintro ⟨a, b, h⟩
      cases a with
      | nil => exact Or.inl ⟨b, h.symm⟩
      | cons x a =>
        injection h with h1 h2
        exact Or.inr ⟨a, b, h2⟩

theorem chunksAux_flatten : ∀ (n : Nat) (s : Str), s.length ≤ n → (chunksAux n s).flatMap Prod.fst = s
  | 0, s, h => by have := List.length_eq_zero_iff.1 (Nat.le_zero.1 h); subst this; rfl
  | n + 1, [], _ => rfl
  | n + 1, b :: s, h => by
    have h0 := decodeRune_size (b :: s)
    have h1 := h0.2 (by simp)
    rw [chunksAux, List.flatMap_cons, chunksAux_flatten n _ (by simp only [List.length_drop]; omega), List.take_append_drop]

theorem chunks_flatten (s : Str) : (chunks s).flatMap Prod.fst = s := chunksAux_flatten _ _ (Nat.le_refl _)

end Verif
