/-
Shared conventions for modelling Go values.
-/
namespace Verif

/-- A Go `string` or `[]byte`: a finite byte sequence. -/
abbrev Str := List UInt8

/-- Go's conversion `string(b)` of a byte (an integer) to a string: the UTF-8 encoding of the code point with that
value (Go spec, "Conversions to and from a string type"). Used at password/generate.go:260. -/
def stringOfByte (b : UInt8) : Str :=
  if b < 0x80 then [b] else [(0xC0 : UInt8) ||| (b >>> 6), (0x80 : UInt8) ||| (b &&& 0x3F)]

/-- All bytes below 0x80. -/
def Ascii (s : Str) : Prop := ∀ b ∈ s, b < 0x80

instance (s : Str) : Decidable (Ascii s) := inferInstanceAs (Decidable (∀ b ∈ s, b < 0x80))

/-- A string literal as Go bytes (all literals used in the model are ASCII). -/
def lit (s : String) : Str := s.toList.map (fun c => UInt8.ofNat c.toNat)

end Verif
