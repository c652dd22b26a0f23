import Verif.Go.Basic
/-
Semantics of the Go statements used in the unrolled bodies of crypter/crypter{256,512,1024}.go. Registers `b0..`, `k0..`,
`t0..` are functions from the register number; `uint64` is `BitVec 64`.
-/
namespace Verif.Crypter

abbrev W := BitVec 64

/-- One Go statement; the shapes are exactly those that occur in the bodies (crypter256.go:66-910, crypter512.go:66-1729,
crypter1024.go:66-3723).
* `loadB i j`: `bi := input[j]`; `loadK i j`: `ki := tf.expandedKey[j]`; `loadT i j`: `ti := tf.expandedTweak[j]`
* `add d b k t c`: `bd += bB + kK + tT + c` (absent operands `none`, `c = 0`); `sub` likewise with `-=`
* `rolXor d x r y w r' z`: `bd = ((bx << r) | (by >> (w - r'))) ^ bz`
* `tmpXor x y`: `tmp = bx ^ by`; `rorTmp d r w r'`: `bd = (tmp >> r) | (tmp << (w - r'))`
* `out i b k t c`: `output[i] = bB + kK + tT + c` -/
inductive Raw
  | loadB (i j : Nat)
  | loadK (i j : Nat)
  | loadT (i j : Nat)
  | add (d : Nat) (b k t : Option Nat) (c : Nat)
  | sub (d : Nat) (b k t : Option Nat) (c : Nat)
  | rolXor (d x r y w r' z : Nat)
  | tmpXor (x y : Nat)
  | rorTmp (d r w r' : Nat)
  | out (i b : Nat) (k t : Option Nat) (c : Nat)

/-- Local variables of a body. -/
structure RawState where
  b : Nat → W := fun _ => 0
  k : Nat → W := fun _ => 0
  t : Nat → W := fun _ => 0
  tmp : W := 0
  out : Nat → W := fun _ => 0

def upd (f : Nat → W) (i : Nat) (v : W) : Nat → W := fun j => if j = i then v else f j

/-- An absent operand contributes nothing. -/
def opnd (f : Nat → W) : Option Nat → W
  | none => 0
  | some i => f i

/-- One statement; `inp`, `ek`, `et` are `input`, `tf.expandedKey`, `tf.expandedTweak`. -/
def Raw.exec (inp ek et : Nat → W) (s : RawState) : Raw → RawState
  | .loadB i j => { s with b := upd s.b i (inp j) }
  | .loadK i j => { s with k := upd s.k i (ek j) }
  | .loadT i j => { s with t := upd s.t i (et j) }
  | .add d b k t c => { s with b := upd s.b d (s.b d + (opnd s.b b + opnd s.k k + opnd s.t t + BitVec.ofNat 64 c)) }
  | .sub d b k t c => { s with b := upd s.b d (s.b d - (opnd s.b b + opnd s.k k + opnd s.t t + BitVec.ofNat 64 c)) }
  | .rolXor d x r y w r' z => { s with b := upd s.b d (((s.b x <<< r) ||| (s.b y >>> (w - r'))) ^^^ s.b z) }
  | .tmpXor x y => { s with tmp := s.b x ^^^ s.b y }
  | .rorTmp d r w r' => { s with b := upd s.b d ((s.tmp >>> r) ||| (s.tmp <<< (w - r'))) }
  | .out i b k t c => { s with out := upd s.out i (s.b b + opnd s.k k + opnd s.t t + BitVec.ofNat 64 c) }

/-- A whole body; the result is the output array. -/
def runRaw (prog : List Raw) (inp ek et : Nat → W) : Nat → W :=
  (prog.foldl (Raw.exec inp ek et) {}).out

end Verif.Crypter
