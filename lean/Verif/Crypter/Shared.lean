import Verif.Crypter.Model
/-
crypter.go:150-216 used by several goroutines at once. A call is a straight-line program of loads and stores of single cells: bytes and words of the caller's slices, and the words of
the scratch buffers of the cipher. The key and tweak are only read (no goroutine sets them), so they are not cells. Between two loads or stores of a goroutine the others may do anything.
-/
namespace Verif.Crypter.Shared

/-- A memory cell: a byte of a byte slice, a word of a word slice, a word of `tmpData1` or `tmpData2` of a cipher (crypter256.go:18, 54-56). -/
inductive Loc where
  | byte (i : Nat)
  | word (i : Nat)
  | tmp1 (cipher i : Nat)
  | tmp2 (cipher i : Nat)
  deriving DecidableEq

/-- The content of the cells; a byte is in the low bits. -/
abbrev Memory := Loc → W

def ofByte (b : UInt8) : W := b.toBitVec.setWidth 64
def toByte (w : W) : UInt8 := ⟨w.setWidth 8⟩

/-- Load a cell (the values that were loaded are kept, the last one first), or store what is computed from the values loaded so far. -/
inductive Op where
  | load (l : Loc)
  | store (l : Loc) (f : List W → W)

/-- One step: the values loaded and the memory. -/
def Op.exec : Op → List W × Memory → List W × Memory
  | .load l, s => (s.2 l :: s.1, s.2)
  | .store l f, s => (s.1, fun l' => if l' = l then f s.1 else s.2 l')

/-- The four methods (crypter.go:150, 175, 201, 214). -/
inductive Method where
  | encrypt | decrypt | encrypt64 | decrypt64
  deriving DecidableEq

/-- A call of a method of the cipher `c`, whose number is `id`, on slices (of sufficient length) that start at these bytes or words. -/
structure CallAt where
  id : Nat
  c : Cipher
  method : Method
  dst : Nat
  src : Nat

/-- What `encrypt` or `decrypt` of `cipherInternal` computes. -/
def CallAt.block (a : CallAt) (input : List W) : List W :=
  match a.method with
  | .encrypt | .encrypt64 => a.c.int.enc input
  | .decrypt | .decrypt64 => a.c.int.dec input

/-- crypter256.go:66-413 (and the others): `encrypt` or `decrypt` load all input words, and at the end store all output words (here always from the
first to the last; `decrypt` of the larger sizes stores them from the last to the first, which makes no difference once a call is done). -/
def CallAt.body (a : CallAt) (input output : Nat → Loc) : List Op :=
  ((List.range a.c.int.size.words).map fun i => .load (input i)) ++
  (List.range a.c.int.size.words).map fun i => .store (output i) fun regs => (a.block (regs.take a.c.int.size.words).reverse).getD i 0

/-- crypter.go:157-159, 182-184: a word of the source goes to `tmpin`. -/
def CallAt.wordIn (a : CallAt) (i : Nat) : List Op :=
  ((List.range 8).map fun j => .load (.byte (a.src + (8 * i + j)))) ++ [.store (.tmp1 a.id i) fun regs => leWord ((regs.take 8).reverse.map toByte)]

/-- crypter.go:162-164, 187-189: a word of `tmpout` goes to the destination. -/
def CallAt.wordOut (a : CallAt) (i : Nat) : List Op :=
  .load (.tmp2 a.id i) :: (List.range 8).map fun j => .store (.byte (a.dst + (8 * i + j))) fun regs => ofByte ((leBytes (regs.headD 0)).getD j 0)

/-- crypter.go:150-216: the whole call. -/
def CallAt.prog (a : CallAt) : List Op :=
  match a.method with
  | .encrypt64 | .decrypt64 => a.body (fun i => .word (a.src + i)) (fun i => .word (a.dst + i))
  | .encrypt | .decrypt =>
    (List.range (a.c.stateSize / 64)).flatMap a.wordIn ++ a.body (.tmp1 a.id) (.tmp2 a.id) ++ (List.range (a.c.stateSize / 64)).flatMap a.wordOut

/-- A goroutine: what it still has to do, and the values it has loaded. -/
structure Thread where
  ops : List Op
  regs : List W

/-- The goroutines with these numbers make a step each. -/
def run : List Nat → List Thread × Memory → List Thread × Memory
  | [], s => s
  | i :: is, s => match s.1[i]? with
    | some ⟨o :: ops, regs⟩ => run is (s.1.set i ⟨ops, (o.exec (regs, s.2)).1⟩, (o.exec (regs, s.2)).2)
    | _ => run is s

end Verif.Crypter.Shared
