import Verif.FormGen.Spec
/-
How a form is filled from a password, and which texts a form without `a` stands for.
-/
namespace Verif.FormGen

/-- The lower case letter of a letter. -/
def lowerOf (c : UInt8) : UInt8 := if IsUpper c then c + 32 else c
/-- The upper case letter of a letter. -/
def upperOf (c : UInt8) : UInt8 := if IsLower c then c - 32 else c

/-- The letters, the digits and the symbols of a password, in their order. -/
def lettersIn (pw : Str) : Str := pw.filter fun c => decide (IsLower c ∨ IsUpper c)
def digitsIn (pw : Str) : Str := pw.filter fun c => decide (IsDigit c)
def symbolsIn (pw : Str) : Str := pw.filter fun c => decide (IsSym c)

/-- What a character `c` of a form becomes, `before` being the part of the form before it: the k-th of all `x` and `X` becomes the k-th letter of the
password, the k-th `n` the k-th digit, the k-th `s` the k-th symbol, the k-th `a` the k-th character; the separators stay, the rest is left out. -/
def placed (pw before : Str) (c : UInt8) : Str :=
  if c ∈ lit "x" then ((lettersIn pw)[before.count 120 + before.count 88]?.map lowerOf).toList
  else if c ∈ lit "X" then ((lettersIn pw)[before.count 120 + before.count 88]?.map upperOf).toList
  else if c ∈ lit "n" then (digitsIn pw)[before.count 110]?.toList
  else if c ∈ lit "s" then (symbolsIn pw)[before.count 115]?.toList
  else if c ∈ lit "a" then pw[before.count 97]?.toList
  else if c ∈ lit "-_/\\#" then [c]
  else []

/-- The form filled from a password. -/
def filled (form pw : Str) : Str := (List.range form.length).flatMap fun i => placed pw (form.take i) (form.getD i 0)

/-- `out` follows a form without `a`, and `ls` are its letters (all in lower case), `ds` its digits and `ss` its symbols, without the separators. -/
inductive FitsWith : (form out ls ds ss : Str) → Prop
  | nil : FitsWith [] [] [] [] []
  | lower {f o ls ds ss c} (h : IsLower c) : FitsWith f o ls ds ss → FitsWith (lit "x" ++ f) (c :: o) (c :: ls) ds ss
  | upper {f o ls ds ss c} (h : IsUpper c) : FitsWith f o ls ds ss → FitsWith (lit "X" ++ f) (c :: o) (lowerOf c :: ls) ds ss
  | digit {f o ls ds ss c} (h : IsDigit c) : FitsWith f o ls ds ss → FitsWith (lit "n" ++ f) (c :: o) ls (c :: ds) ss
  | symbol {f o ls ds ss c} (h : IsSym c) : FitsWith f o ls ds ss → FitsWith (lit "s" ++ f) (c :: o) ls ds (c :: ss)
  | sep {f o ls ds ss c} (h : c ∈ lit "-_/\\#") : FitsWith f o ls ds ss → FitsWith (c :: f) (c :: o) ls ds ss
  | skip {f o ls ds ss c} (h : c ∉ lit "xXnsa-_/\\#") : FitsWith f o ls ds ss → FitsWith (c :: f) o ls ds ss

/-- The texts that may be printed for a form without `a`: those that follow it; if characters must be unique, those that also do not have a letter
(in any case), a digit or a symbol (other than the separators of the form) twice. -/
def Allowed (unique : Bool) (form out : Str) : Prop :=
  ∃ ls ds ss, FitsWith form out ls ds ss ∧ (unique = true → ls.Nodup ∧ ds.Nodup ∧ ss.Nodup)

end Verif.FormGen
