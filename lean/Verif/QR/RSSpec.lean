import Verif.QR.GFModel
/-
Reed-Solomon vocabulary on bytes, using only the field operations.
-/
namespace Verif.QR

/-- Value at `x` of the polynomial whose coefficients are the bytes, most significant first (Horner's rule). -/
def evalBytes (f : Field) (l : List UInt8) (x : UInt8) : UInt8 := l.foldl (fun acc b => f.add (f.mul acc x) b) 0

/-- The bytes form a code word with `c` check bytes: the polynomial vanishes at `Exp(0), ..., Exp(c-1)`. -/
def IsCodeword (f : Field) (c : Nat) (l : List UInt8) : Prop := ∀ i : Nat, i < c → evalBytes f l (f.Exp i) = 0

/-- Number of positions in which two byte strings of the same length differ. -/
def distance : List UInt8 → List UInt8 → Nat
  | a :: l, b :: r => (if a = b then 0 else 1) + distance l r
  | _, _ => 0

end Verif.QR
