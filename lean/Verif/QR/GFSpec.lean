import Mathlib.RingTheory.AdjoinRoot
import Mathlib.Data.ZMod.Basic
import Mathlib.Algebra.Field.ZMod
/-
Polynomials over GF(2) as numbers: bit `i` is the coefficient of `X^i`. Independent of the code.
-/
namespace Verif.QR
open Polynomial

/-- The polynomial over GF(2) whose coefficients are the bits of `n`. -/
noncomputable def toPoly (n : Nat) : (ZMod 2)[X] := ∑ i ∈ Finset.range n, if n.testBit i then X ^ i else 0

end Verif.QR
