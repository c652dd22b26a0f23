import Verif.Go.Basic
/-
Model of qrterminal/qrcode/gf256/gf256.go. Go `int` values are natural numbers (the arguments modelled are non-negative); an
index or explicit panic is `none`.
-/
namespace Verif.QR

/-- gf256.go:11-14. -/
structure Field where
  log : List UInt8
  exp : List UInt8
deriving DecidableEq

/-- gf256.go:57-63 `nbit` (the loop runs at most `fuel` times). -/
def nbitAux : Nat → Nat → Nat
  | 0, _ => 0
  | fuel + 1, p => if p > 0 then nbitAux fuel (p >>> 1) + 1 else 0

def nbit (p : Nat) : Nat := nbitAux p p

/-- gf256.go:66-75 `polyDiv`: the loop counts `np` down to `nq`. -/
def polyDivLoop (q nq : Nat) : Nat → Nat → Nat
  | 0, p => p
  | np + 1, p =>
    if nq ≤ np + 1 then polyDivLoop q nq np (if p.testBit np then p ^^^ (q <<< (np + 1 - nq)) else p) else p

def polyDiv (p q : Nat) : Nat := polyDivLoop q (nbit q) (nbit p) p

/-- gf256.go:78-91 `mul` (at most `fuel` rounds). -/
def mulLoop (poly : Nat) : Nat → Nat → Nat → Nat → Nat
  | 0, _, _, z => z
  | fuel + 1, x, y, z =>
    if x > 0 then
      let z := if x &&& 1 ≠ 0 then z ^^^ y else z
      let y := y <<< 1
      let y := if y &&& 0x100 ≠ 0 then y ^^^ poly else y
      mulLoop poly fuel (x >>> 1) y z
    else z

def mul (x y poly : Nat) : Nat := mulLoop poly x x y 0

/-- gf256.go:94-105 `reducible`. -/
def reducible (p : Nat) : Bool :=
  (List.range (1 <<< (nbit p / 2 + 1))).any fun q => decide (2 ≤ q) && polyDiv p q == 0

/-- gf256.go:28-37, the table loop: `n` rounds left, index `i`; result: the exponentials and the log table. -/
def tableLoop (poly α : Nat) : (n i x : Nat) → List UInt8 → Option (List UInt8 × List UInt8)
  | 0, _, _, log => some ([], log)
  | n + 1, i, x, log =>
    if x = 1 ∧ i ≠ 0 then none
    else if x < 256 then
      (tableLoop poly α n (i + 1) (mul x α poly) (log.set x (UInt8.ofNat i))).map fun r => (UInt8.ofNat x :: r.1, r.2)
    else none

/-- gf256.go:39-51, the consistency checks. -/
def tablesOk (log exp : List UInt8) : Bool :=
  (List.range 255).all (fun i => log.getD (exp.getD i 0).toNat 0 == UInt8.ofNat i) &&
  (List.range 255).all (fun i => log.getD (exp.getD (i + 255) 0).toNat 0 == UInt8.ofNat i) &&
  (List.range 255).all (fun i => exp.getD (log.getD (i + 1) 0).toNat 0 == UInt8.ofNat (i + 1))

/-- gf256.go:21-54 `NewField`. The two halves of `exp` are written with equal values (line 33-34), here as `e ++ e`. -/
def newField (poly α : Nat) : Option Field :=
  if poly < 0x100 ∨ 0x200 ≤ poly ∨ reducible poly then none
  else
    match tableLoop poly α 255 0 1 (List.replicate 256 0) with
    | none => none
    | some (e, log) =>
      let log := log.set 0 255
      if tablesOk log (e ++ e) then some ⟨log, e ++ e⟩ else none

/-- gf256.go:108-110 `Add`. -/
def Field.add (_ : Field) (x y : UInt8) : UInt8 := x ^^^ y

/-- gf256.go:114-119 `Exp`. -/
def Field.Exp (f : Field) (e : Int) : UInt8 := if e < 0 then 0 else f.exp.getD (e.toNat % 255) 0

/-- gf256.go:123-128 `Log`. -/
def Field.Log (f : Field) (x : UInt8) : Int := if x = 0 then -1 else (f.log.getD x.toNat 0).toNat

/-- gf256.go:132-137 `Inv`: `255 - f.log[x]` is byte arithmetic. -/
def Field.inv (f : Field) (x : UInt8) : UInt8 := if x = 0 then 0 else f.exp.getD (255 - f.log.getD x.toNat 0).toNat 0

/-- gf256.go:140-145 `Mul`. -/
def Field.mul (f : Field) (x y : UInt8) : UInt8 :=
  if x = 0 ∨ y = 0 then 0 else f.exp.getD ((f.log.getD x.toNat 0).toNat + (f.log.getD y.toNat 0).toNat) 0

/-- gf256.go:149-155 (`p` is the reused work buffer). -/
structure RSEncoder where
  f : Field
  c : Nat
  gen : List UInt8
  lgen : List UInt8
  p : List UInt8

/-- gf256.go:163-169: one factor, `p[j] = p[j]*c ^ p[j+1]` left to right (each `p[j+1]` is still the old one). -/
def genStep (f : Field) (c : UInt8) : List UInt8 → List UInt8
  | [] => []
  | [a] => [f.mul a c]
  | a :: b :: r => (f.mul a c ^^^ b) :: genStep f c (b :: r)

/-- gf256.go:158-170: the generator polynomial, most significant coefficient first. -/
def Field.genPoly (f : Field) (e : Nat) : List UInt8 :=
  (List.range e).foldl (fun p (i : Nat) => genStep f (f.Exp (i : Int)) p) (List.replicate e 0 ++ [1])

/-- gf256.go:157-183 `gen`. -/
def Field.gen (f : Field) (e : Nat) : List UInt8 × List UInt8 :=
  let p := f.genPoly e
  (p, p.map fun c => if c = 0 then 255 else UInt8.ofNat (f.Log c).toNat)

/-- gf256.go:187-190 `NewRSEncoder`. -/
def newRSEncoder (f : Field) (c : Nat) : RSEncoder := ⟨f, c, (f.gen c).1, (f.gen c).2, []⟩

/-- gf256.go:233-237: `q[j] ^= exp[lg]` for the log coefficients `lgen`, with `exp = f.exp[f.log[c]:]`. -/
def xorGen (f : Field) (lc : Nat) : List UInt8 → List UInt8 → List UInt8
  | lg :: lgen, b :: q => (if lg ≠ 255 then b ^^^ f.exp.getD (lc + lg.toNat) 0 else b) :: xorGen f lc lgen q
  | _, q => q

/-- gf256.go:226-238: divide `p` in place, for the first `n` positions. -/
def divLoop (f : Field) (lgen : List UInt8) : Nat → List UInt8 → List UInt8
  | 0, p => p
  | _ + 1, [] => []
  | n + 1, c :: q => c :: divLoop f lgen n (if c = 0 then q else xorGen f (f.log.getD c.toNat 0).toNat lgen q)

/-- gf256.go:194-241 `ECC`: the encoder (with its work buffer) and `check` afterwards. -/
def RSEncoder.ecc (rs : RSEncoder) (data check : List UInt8) : Option (RSEncoder × List UInt8) :=
  if check.length < rs.c then none
  else if rs.c = 0 then some (rs, check)
  else
    let n := data.length + rs.c
    let p := if n ≤ rs.p.length then rs.p else List.replicate n 0
    let p := data ++ p.drop data.length
    let p := p.take data.length ++ (p.drop data.length).map fun _ => 0
    let p := divLoop rs.f (rs.lgen.drop 1) data.length p
    let rem := p.drop data.length
    some ({ rs with p := p }, rem.take check.length ++ check.drop rem.length)

end Verif.QR
