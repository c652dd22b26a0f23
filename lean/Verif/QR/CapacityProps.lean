import Verif.QR.RenderProps
/-
C110: how long a text the QR functions take (ISO/IEC 18004, table 7, version 40).
-/
namespace Verif.QR
open Iso

/-- The most characters a QR code can hold (ISO/IEC 18004, table 7, the rows of version 40): digits only, alphanumeric, any bytes. -/
def longest (text : Str) : Level → Nat
  | .L => if text.all isDigit then 7089 else if text.all isAlnum then 4296 else 2953
  | .M => if text.all isDigit then 5596 else if text.all isAlnum then 3391 else 2331
  | .Q => if text.all isDigit then 3993 else if text.all isAlnum then 2420 else 1663
  | .H => if text.all isDigit then 3057 else if text.all isAlnum then 1852 else 1273

theorem dataBytes_40 : dataBytes 40 .L = 2956 ∧ dataBytes 40 .M = 2334 ∧ dataBytes 40 .Q = 1666 ∧ dataBytes 40 .H = 1276 := by decide +kernel

theorem dataBytes_le : ∀ v ∈ List.range' 1 40, ∀ l ∈ levels, dataBytes v l ≤ dataBytes 40 l ∧ (v ≤ 26 → 5 * dataBytes v l ≤ 3 * dataBytes 40 l) := by decide +kernel

theorem too_long_iff (text : Str) (l : Level) : (∀ v, 1 ≤ v → v ≤ 40 → 8 * dataCodewords v l < need v text) ↔ longest text l < text.length := by
  obtain ⟨a, b, c, d⟩ := dataBytes_40
  unfold need longest
  generalize text.length = n
  generalize text.all isDigit = p
  generalize text.all isAlnum = q
  constructor
  · intro h
    have := h 40 (by omega) (by omega)
    rw [dataCodewords_eq (by omega) (by omega)] at this
    unfold numericNeed alnumNeed byteNeed countBits at this
    cases l <;> cases p <;> cases q <;> simp (config := {decide := false}) only [a, b, c, d, if_true, reduceIte, Bool.false_eq_true, Nat.reduceLT] at this ⊢ <;>
      (repeat' split at this) <;> omega
  · intro h v h1 h2
    rw [dataCodewords_eq h1 h2]
    obtain ⟨k1, k2⟩ := dataBytes_le v (mem_versions h1 h2) l (mem_levels l)
    unfold numericNeed alnumNeed byteNeed countBits
    have k3 : dataBytes v l ≤ dataBytes 40 l ∧ (v < 27 → 5 * dataBytes v l ≤ 3 * dataBytes 40 l) := ⟨k1, fun h => k2 (by omega)⟩
    clear k1 k2
    generalize dataBytes v l = m at k3 ⊢
    cases l <;> cases p <;> cases q <;> simp only [a, b, c, d, if_true, reduceIte, Bool.false_eq_true] at k3 h ⊢ <;>
      (repeat' split) <;> omega

/-- **C110** `Encode` returns a code if and only if the text is not longer than the standard allows, otherwise an error. -/
theorem C110_encode (text : Str) (l : Level) : ((∃ c, encode text l = .ok c) ↔ text.length ≤ longest text l) ∧ (encode text l = .err ↔ longest text l < text.length) := by
  have h1 := (C29_smallest_version text l).1
  have h2 := (C29_smallest_version text l).2.1
  rw [too_long_iff] at h2
  refine ⟨?_, h2⟩
  cases h : encode text l with
  | ok c =>
    have : ¬ longest text l < text.length := fun hl => by simp [h2.2 hl] at h
    exact ⟨fun _ => by omega, fun _ => ⟨c, rfl⟩⟩
  | err => exact ⟨fun ⟨c, hc⟩ => by simp at hc, fun hl => by have := h2.1 h; omega⟩
  | panic => exact absurd h h1

/-- **C110** The functions that write a picture crash if and only if the text is longer than that. -/
theorem C110_crash_iff (text : Str) (cfg : Config) : generateWithConfig text cfg = none ↔ longest text cfg.level < text.length := by
  rw [C35_crash_iff_too_long_partial, too_long_iff]

/-- **C110** In particular no text of at most 1273 bytes is refused, at any level. -/
theorem C110_short_text (text : Str) (h : text.length ≤ 1273) (cfg : Config) : ∃ out, generateWithConfig text cfg = some out := by
  cases e : generateWithConfig text cfg with
  | some out => exact ⟨out, rfl⟩
  | none =>
    have := (C110_crash_iff text cfg).1 e
    unfold longest at this
    exfalso
    cases hl : cfg.level <;> rw [hl] at this <;> dsimp only at this <;> (repeat' split at this) <;> omega

/-- 2331 letters fit at level M, 2332 do not. -/
example (cfg : Config) (h : cfg.level = .M) : generateWithConfig (List.replicate 2331 97) cfg ≠ none ∧ generateWithConfig (List.replicate 2332 97) cfg = none := by
  have e (n : Nat) (hn : n ≠ 0) : longest (List.replicate n 97) .M = 2331 := by
    unfold longest
    have h1 : isDigit 97 = false := by decide
    have h2 : isAlnum 97 = false := by decide
    simp [List.all_replicate, hn, h1, h2]
  rw [Ne, C110_crash_iff, C110_crash_iff, h, e 2331 (by omega), e 2332 (by omega), List.length_replicate, List.length_replicate]
  omega

end Verif.QR
