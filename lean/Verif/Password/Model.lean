import Verif.Go.Basic
/-
Model of password/generate.go.

The randomness a call consumes is made explicit: a `Prog` is the decision tree of a computation that calls
`rand.Int(reader, max)`. `Prog.run` executes it on a concrete byte stream (with the rejection sampling of `crypto/rand.Int`),
and `Verif/Password/Spec.lean` gives the probability of an outcome when every `rand.Int` is uniform.
-/
namespace Verif.Password

/-- Errors of `Generate`: the four sentinel errors (generate.go:46-62) and a failing read of the random source. -/
inductive GErr
  | exceedsTotal | lettersExceeds | digitsExceeds | symbolsExceeds | read
  deriving DecidableEq, Repr

/-- Computation tree over calls of `rand.Int`. `stuck` = retry fuel exhausted (see `pick`). -/
inductive Prog (α : Type)
  | ret (a : α)
  | draw (max : Nat) (k : Nat → Prog α)
  | fail (e : GErr)
  | stuck

def Prog.bind {α β} : Prog α → (α → Prog β) → Prog β
  | .ret a, f => f a
  | .draw m k, f => .draw m (fun i => (k i).bind f)
  | .fail e, _ => .fail e
  | .stuck, _ => .stuck

/-- Outcome of running on a concrete stream. -/
inductive Out (α : Type)
  | ok (a : α)
  | err (e : GErr)
  | panic
  | nofuel
  deriving DecidableEq, Repr

/-- Number of significant bits of `n` (`big.Int.BitLen`). -/
def bitLen (n : Nat) : Nat := if n = 0 then 0 else Nat.log2 n + 1

/-- Big-endian value of a byte list (`big.Int.SetBytes`). -/
def ofBytes (bs : Str) : Nat := bs.foldl (fun acc b => acc * 256 + b.toNat) 0

/-- `bytes[0] &= uint8(int(1<<b) - 1)` in crypto/rand.Int. -/
def maskTop (b : Nat) : Str → Str
  | [] => []
  | x :: xs => (x &&& UInt8.ofNat (2 ^ b - 1)) :: xs

/-- The rejection loop of crypto/rand.Int (Go standard library, crypto/rand/util.go): read `k` bytes, mask the top byte to
`b` bits, accept if below `max`. The reader is a finite byte list followed by a read error. -/
def randLoop (max k b : Nat) (hk : 0 < k) (r : Str) : Out (Nat × Str) :=
  if _h : r.length < k then .err .read
  else
    let n := ofBytes (maskTop b (r.take k))
    if n < max then .ok (n, r.drop k)
    else randLoop max k b hk (r.drop k)
termination_by r.length
decreasing_by simp [List.length_drop]; omega

/-- crypto/rand.Int(reader, max): panics for `max <= 0`, reads nothing for `max = 1`. -/
def randInt (max : Nat) (r : Str) : Out (Nat × Str) :=
  if max = 0 then .panic
  else
    let bl := bitLen (max - 1)
    if hb : bl = 0 then .ok (0, r)
    else
      let b := if bl % 8 = 0 then 8 else bl % 8
      randLoop max ((bl + 7) / 8) b (by omega) r

/-- Execute a computation on a byte stream; returns the unread rest. -/
def Prog.run {α} : Prog α → Str → Out (α × Str)
  | .ret a, r => .ok (a, r)
  | .draw m k, r =>
      match randInt m r with
      | .ok (i, r') => (k i).run r'
      | .err e => .err e
      | .panic => .panic
      | .nofuel => .nofuel
  | .fail e, _ => .err e
  | .stuck, _ => .nofuel

/-- generate.go:66-72 `Generator` (the reader is the explicit byte stream). -/
structure Generator where
  lowerLetters : Str
  upperLetters : Str
  digits : Str
  symbols : Str
  deriving DecidableEq

/-- generate.go:32-44, the default alphabets. -/
def LowerLetters : Str := lit "abcdefghijklmnopqrstuvwxyz"
def UpperLetters : Str := lit "ABCDEFGHIJKLMNOPQRSTUVWXYZ"
def Digits : Str := lit "0123456789"
def Symbols : Str := lit "~!@#$%^&*()_+`-={}|[]\\:\"<>?,./"

/-- generate.go:86-120 `NewGenerator`: an empty field selects the default (a nil input is the all-empty input). The reader
default is not modelled: the stream is a parameter. -/
def newGenerator (i : Generator) : Generator where
  lowerLetters := if i.lowerLetters = [] then LowerLetters else i.lowerLetters
  upperLetters := if i.upperLetters = [] then UpperLetters else i.upperLetters
  digits := if i.digits = [] then Digits else i.digits
  symbols := if i.symbols = [] then Symbols else i.symbols

/-- The generator used by the package function `Generate` (generate.go:222-229). -/
def defaultGenerator : Generator := newGenerator ⟨[], [], [], []⟩

/-- generate.go:255-261 `randomElement`. -/
def randomElement (s : Str) : Prog Str :=
  .draw s.length (fun i => .ret (stringOfByte (s.getD i 0)))

/-- generate.go:241-252 `randomInsert`. -/
def randomInsert (s val : Str) : Prog Str :=
  if s = [] then .ret val
  else .draw (s.length + 1) (fun i => .ret (s.take i ++ val ++ s.drop i))

/-- `strings.Contains(result, ch)`: `ch` occurs as a contiguous substring. -/
def contains (s sub : Str) : Bool := decide (sub <:+: s)

/-- One iteration of the loops at generate.go:156-171, 174-189, 192-207 up to the point where a character is accepted: draw
an element, and while repeats are forbidden and it is already present, retry (`i--; continue`). The number of retries for one
character is bounded by the fuel; `stuck` means the fuel did not suffice. -/
def pick (alphabet : Str) (noRep : Bool) (res : Str) : Nat → Prog Str
  | 0 => .stuck
  | fuel + 1 => (randomElement alphabet).bind fun ch =>
      if noRep && contains res ch then pick alphabet noRep res fuel else .ret ch

/-- One character added: generate.go:157-170. -/
def step (alphabet : Str) (noRep : Bool) (fuel : Nat) (res : Str) : Prog Str :=
  (pick alphabet noRep res fuel).bind fun ch => randomInsert res ch

/-- A whole loop adding `n` characters (generate.go:156-171 etc.). -/
def fill (alphabet : Str) (noRep : Bool) (fuel : Nat) : Nat → Str → Prog Str
  | 0, res => .ret res
  | n + 1, res => (step alphabet noRep fuel res).bind (fill alphabet noRep fuel n)

/-- The letters alphabet: generate.go:131-134. -/
def Generator.letters (g : Generator) (noUpper : Bool) : Str :=
  if noUpper then g.lowerLetters else g.lowerLetters ++ g.upperLetters

/-- generate.go:130-210 `Generator.Generate`. `int` is unbounded. A loop `for i := 0; i < n` with negative `n` runs zero
times (`Int.toNat`). -/
def Generator.generate (g : Generator) (fuel : Nat) (length numDigits numSymbols : Int)
    (noUpper allowRepeat : Bool) : Prog Str :=
  let letters := g.letters noUpper
  let chars := length - numDigits - numSymbols
  if chars < 0 then .fail .exceedsTotal
  else if !allowRepeat && decide (chars > letters.length) then .fail .lettersExceeds
  else if !allowRepeat && decide (numDigits > g.digits.length) then .fail .digitsExceeds
  else if !allowRepeat && decide (numSymbols > g.symbols.length) then .fail .symbolsExceeds
  else
    (fill letters (!allowRepeat) fuel chars.toNat []).bind fun r1 =>
    (fill g.digits (!allowRepeat) fuel numDigits.toNat r1).bind fun r2 =>
    fill g.symbols (!allowRepeat) fuel numSymbols.toNat r2

/-- The package function `Generate` (generate.go:222-229). -/
def generate (fuel : Nat) (length numDigits numSymbols : Int) (noUpper allowRepeat : Bool) : Prog Str :=
  defaultGenerator.generate fuel length numDigits numSymbols noUpper allowRepeat

/-- generate.go:213-219 and 232-238 `MustGenerate`: panics on error, after the same computation. -/
def mustOf {α} : Out α → Out α
  | .err _ => .panic
  | o => o

end Verif.Password
