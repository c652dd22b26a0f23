import Verif.Repo.Model
/-
repo.go:153-156: the `bufio.Scanner` (Go standard library, bufio/scan.go) that GetFileContentByLine reads a file with: its buffer, and the reads of the file. `scannerLines` of Model.lean
says which lines come out; here that is derived.
-/
namespace Verif.Repo

/-- The scanner and the file. The bytes of the buffer outside `start:end` are never looked at. -/
structure Scanner where
  /-- `len(s.buf)` -/
  size : Nat
  /-- `s.start` -/
  start : Nat
  /-- `s.buf[s.start:s.end]` -/
  data : Str
  /-- `s.err != nil` -/
  err : Bool
  /-- What the file will still give before it gives `io.EOF` or an error. -/
  rest : Str
  /-- The number of reads so far. -/
  reads : Nat

/-- bufio.ScanLines: how far to advance, and the token. -/
def splitLine (data : Str) (atEOF : Bool) : Nat × Option Str :=
  if atEOF = true ∧ data = [] then (0, none)
  else if (10 : UInt8) ∈ data then (data.idxOf 10 + 1, some (dropCR (data.take (data.idxOf 10))))
  else if atEOF then (data.length, some (dropCR data))
  else (0, none)

/-- What a round of the loop of `Scan` comes to: `Scan` returns true with a token, returns false, or goes on. -/
inductive Round where
  | token (t : Str)
  | stop
  | again

/-- `s.r.Read(s.buf[s.end:len(s.buf)])`: as the system likes, which for the i-th read means up to `sizes i` bytes, but at least one; `io.EOF` or an error when nothing is left. -/
def Scanner.read (sizes : Nat → Nat) (s : Scanner) : Round × Scanner :=
  if s.rest = [] then (.again, { s with err := true, reads := s.reads + 1 })
  else
    let n := min (max 1 (sizes s.reads)) (s.size - (s.start + s.data.length))
    (.again, { s with data := s.data ++ s.rest.take n, rest := s.rest.drop n, reads := s.reads + 1 })

/-- The part of `Scan` after "We cannot generate a token with what we are holding": shift the data to the beginning, enlarge the buffer (4096 bytes, then twice as many, up to
65536), read. -/
def Scanner.fill (sizes : Nat → Nat) (s : Scanner) : Round × Scanner :=
  if s.err then (.stop, { s with start := 0, data := [] })
  else
    let s := if 0 < s.start ∧ (s.start + s.data.length = s.size ∨ s.size / 2 < s.start) then { s with start := 0 } else s
    if s.start + s.data.length = s.size then
      if 65536 ≤ s.size then (.stop, { s with err := true })
      else Scanner.read sizes { s with size := min (if s.size * 2 = 0 then 4096 else s.size * 2) 65536, start := 0 }
    else Scanner.read sizes s

/-- A round of the loop of `Scan`. -/
def Scanner.round (sizes : Nat → Nat) (s : Scanner) : Round × Scanner :=
  if s.data ≠ [] ∨ s.err = true then
    match splitLine s.data s.err with
    | (advance, some t) => (.token t, { s with start := s.start + advance, data := s.data.drop advance })
    | (_, none) => s.fill sizes
  else s.fill sizes

/-- The tokens of as many rounds, and whether `Scan` has returned false. -/
def Scanner.tokens (sizes : Nat → Nat) : Nat → Scanner → List Str × Bool
  | 0, _ => ([], false)
  | n + 1, s => match s.round sizes with
    | (.token t, s) => (t :: (Scanner.tokens sizes n s).1, (Scanner.tokens sizes n s).2)
    | (.stop, _) => ([], true)
    | (.again, s) => Scanner.tokens sizes n s

/-- bufio.NewScanner for a file that gives these bytes. -/
def newScanner (c : Str) : Scanner := ⟨0, 0, [], false, c, 0⟩

/-- repo.go:153-174: the loop over the lines of a file that was opened, of which `given` can be read; then comes the end of the file, or an error if `whole` is false. `scanner.Err()` is
not looked at. -/
def readLines {σ : Type} (sizes : Nat → Nat) (given : Str) (_whole : Bool) (handle : σ → Nat → Str → σ × CbErr) (st : σ) : σ × Bool :=
  lineLoop handle 1 ((newScanner given).tokens sizes (2 * given.length + 2)).1 st

end Verif.Repo
