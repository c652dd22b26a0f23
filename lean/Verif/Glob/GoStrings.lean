import Verif.Go.Utf8
import Verif.Go.Strings
/-
Functions of packages strings and unicode/utf8 used by package glob, and glob/util/strings/strings.go. A position is an index into the bytes of
the string; `none` stands for -1. Runes are natural numbers (negative runes, which no string contains, are not modelled).
-/
namespace Verif.Glob

/-- Go `strings.Index`. -/
def strIndex (sub : Str) : Str → Option Nat
  | [] => if sub.isEmpty then some 0 else none
  | b :: s => if sub.isPrefixOf (b :: s) then some 0 else (strIndex sub s).map (· + 1)

/-- Go `strings.LastIndex`. -/
def strLastIndex (sub : Str) : Str → Option Nat
  | [] => if sub.isEmpty then some 0 else none
  | b :: s => match strLastIndex sub s with
    | some i => some (i + 1)
    | none => if sub.isPrefixOf (b :: s) then some 0 else none

/-- Go `strings.HasSuffix`. -/
def hasSuffix (s p : Str) : Bool := p.isSuffixOf s

/-- `for i, r := range s`: the positions and the runes, from the runes with their widths. -/
def positions : Nat → List (Nat × Nat) → List (Nat × Nat)
  | _, [] => []
  | i, (r, w) :: rs => (i, r) :: positions (i + w) rs

/-- `for i, r := range s`. -/
def rangeStr (s : Str) : List (Nat × Nat) := positions 0 (runesOf s)

/-- Go `utf8.ValidRune`. -/
def validRune (r : Nat) : Bool := r < 0xD800 || (0xE000 ≤ r && r ≤ 0x10FFFF)

/-- Go `utf8.RuneLen` of a rune that was decoded from a string (never -1). -/
def runeLen (r : Nat) : Nat := if r < 0x80 then 1 else if r < 0x800 then 2 else if r < 0x10000 then 3 else 4

/-- Go `strings.IndexRune`. -/
def indexRune (s : Str) (r : Nat) : Option Nat :=
  if r < 0x80 then strIndex [UInt8.ofNat r] s
  else if r = runeError then ((rangeStr s).find? fun p => p.2 == runeError).map Prod.fst
  else if !validRune r then none
  else strIndex (encodeRune r) s

/-- glob/util/strings/strings.go:8-16 `IndexAnyRunes`: the position of the first rune of `rs` that occurs in `s`. -/
def indexAnyRunes (s : Str) : List Nat → Option Nat
  | [] => none
  | r :: rs => match indexRune s r with
    | some i => some i
    | none => indexAnyRunes s rs

/-- strings.go:24-32: the loop for a rune that is not ASCII; `sub[i+1:]` may panic (outer `none`). The second argument bounds the number of
steps; every step shortens `sub`. -/
def lastIndexLoop (s : Str) (r : Nat) : Nat → Str → Option Nat → Option (Option Nat)
  | 0, _, i => some i
  | n + 1, sub, i =>
    if sub.length > 0 then match indexRune s r with
      | none => some i
      | some j => if sub.length < j + 1 then none else lastIndexLoop s r n (sub.drop (j + 1)) (some j)
    else some i

/-- strings.go:18-39 `LastIndexAnyRunes`; the outer `none` is a panic. -/
def lastIndexAnyRunes (s : Str) : List Nat → Option (Option Nat)
  | [] => some none
  | r :: rs =>
    match (if r < 0x80 then some (strLastIndex [UInt8.ofNat r] s) else lastIndexLoop s r s.length s none) with
    | none => none
    | some (some i) => some (some i)
    | some none => lastIndexAnyRunes s rs

end Verif.Glob
