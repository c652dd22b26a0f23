import Verif.QR.QRSpec
import Verif.QR.CodingModel
/-
Pictures of symbols that are partly wrong or unreadable, in terms of modules only.
-/
namespace Verif.QR
open Iso

/-- A picture taken of a symbol: the colour seen at (row, column), `none` where the module cannot be read. -/
abbrev Picture := Nat → Nat → Option Bool

/-- The undamaged picture of a code. -/
def Code.picture (c : Code) : Picture := fun y x => some (c.black x y)

/-- Weight of a module of a picture whose true colour is `b`: 0 if right, 1 if unreadable, 2 if wrong. -/
def penalty : Option Bool → Bool → Nat
  | none, _ => 1
  | some a, b => if a = b then 0 else 2

/-- The two copies of the format information. -/
def formatCell (v : Nat) (second : Bool) (i : Nat) : Nat × Nat := if second then formatCell2 v i else formatCell1 i

/-- Twice the wrong plus the unreadable modules of a copy of the format information. -/
def formatPenalty (v : Nat) (second : Bool) (D : Picture) (c : Code) : Nat :=
  ((List.range 15).map fun i => let a := formatCell v second i; penalty (D a.1 a.2) (c.black a.2 a.1)).sum

/-- The eight modules of code word `t`. -/
def wordCells (v t : Nat) : List (Nat × Nat) := ((dataCells v).drop (8 * t)).take 8

/-- Weight of a code word: 0 if all its modules are right, 1 if one is unreadable, otherwise 2. -/
def wordPenalty (v : Nat) (D : Picture) (c : Code) (t : Nat) : Nat :=
  if (wordCells v t).any fun a => D a.1 a.2 = none then 1
  else if (wordCells v t).all fun a => D a.1 a.2 = some (c.black a.2 a.1) then 0 else 2

/-- The numbers of the code words of block `j`: its data bytes, then its check bytes (7.6; the last blocks may be one byte longer). -/
def blockWords (v : Nat) (l : Level) (j : Nat) : List Nat :=
  let nb := numBlocks v l
  let short := dataCodewords v l / nb
  let nshort := nb - dataCodewords v l % nb
  ((List.range short).map fun i => i * nb + j) ++ (if nshort ≤ j then [short * nb + (j - nshort)] else []) ++
    (List.range (eccPerBlock v l)).map fun i => dataCodewords v l + i * nb + j

/-- Twice the wrong plus the unreadable code words of block `j`. -/
def blockPenalty (v : Nat) (l : Level) (D : Picture) (c : Code) (j : Nat) : Nat := ((blockWords v l j).map (wordPenalty v D c)).sum

/-- The picture is within the correction capacity of the code `c` of version `v` and level `l`: twice the wrong plus the unreadable modules of
one copy of the format information are at most 6, and twice the wrong plus the unreadable code words of every block are at most the number
of its check bytes. -/
def Within (v : Nat) (l : Level) (second : Bool) (D : Picture) (c : Code) : Prop :=
  formatPenalty v second D c ≤ 6 ∧ ∀ j < numBlocks v l, blockPenalty v l D c j ≤ eccPerBlock v l

/-- Twice the wrong plus the unreadable modules of the whole picture. -/
def totalPenalty (siz : Nat) (D : Picture) (c : Code) : Nat :=
  ((List.range siz).map fun y => ((List.range siz).map fun x => penalty (D y x) (c.black x y)).sum).sum

/-- The number of modules in which two codes of the same size differ. -/
def modulesDiffer (siz : Nat) (c d : Code) : Nat :=
  ((List.range siz).map fun y => (List.range siz).countP fun x => c.black x y ≠ d.black x y).sum

end Verif.QR
