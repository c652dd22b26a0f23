import Verif.Go.Basic
/-
What a filled form looks like, position by position.
-/
namespace Verif.FormGen

/-- A character class of the form language. -/
def IsLower (c : UInt8) : Prop := 97 ≤ c ∧ c ≤ 122
def IsUpper (c : UInt8) : Prop := 65 ≤ c ∧ c ≤ 90
def IsDigit (c : UInt8) : Prop := 48 ≤ c ∧ c ≤ 57
/-- The documented symbol set. -/
def IsSym (c : UInt8) : Prop := c ∈ lit "~!@#$%^&*()_+`-={}|[]\\:\"<>?,./"

instance (c : UInt8) : Decidable (IsLower c) := inferInstanceAs (Decidable (_ ∧ _))
instance (c : UInt8) : Decidable (IsUpper c) := inferInstanceAs (Decidable (_ ∧ _))
instance (c : UInt8) : Decidable (IsDigit c) := inferInstanceAs (Decidable (_ ∧ _))
instance (c : UInt8) : Decidable (IsSym c) := inferInstanceAs (Decidable (_ ∈ _))

/-- `Fits alnum form out`: `out` follows `form`; `alnum` is what an `a` may become. -/
inductive Fits (alnum : UInt8 → Prop) : Str → Str → Prop
  | nil : Fits alnum [] []
  | lower {f o c} (h : IsLower c) : Fits alnum f o → Fits alnum (lit "x" ++ f) (c :: o)
  | upper {f o c} (h : IsUpper c) : Fits alnum f o → Fits alnum (lit "X" ++ f) (c :: o)
  | digit {f o c} (h : IsDigit c) : Fits alnum f o → Fits alnum (lit "n" ++ f) (c :: o)
  | symbol {f o c} (h : IsSym c) : Fits alnum f o → Fits alnum (lit "s" ++ f) (c :: o)
  | alpha {f o c} (h : alnum c) : Fits alnum f o → Fits alnum (lit "a" ++ f) (c :: o)
  | sep {f o c} (h : c ∈ lit "-_/\\#") : Fits alnum f o → Fits alnum (c :: f) (c :: o)
  | skip {f o c} (h : c ∉ lit "xXnsa-_/\\#") : Fits alnum f o → Fits alnum (c :: f) o

end Verif.FormGen
