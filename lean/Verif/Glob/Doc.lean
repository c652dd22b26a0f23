import Verif.Glob.Spec
/-
The documented syntax of patterns (the comment of `Compile` at glob/glob.go:13-39): terms, how they are written, and the tree that they stand for. Characters are
runes. Runs of characters are one term, and a class is either one range or a list of characters, as the parser has it.
-/
namespace Verif.Glob

/-- A character in a pattern: as it is, or after a backslash. -/
inductive Ch where
  | plain (r : Nat)
  | esc (r : Nat)

/-- The character. -/
def Ch.rune : Ch → Nat
  | .plain r => r
  | .esc r => r

/-- How it is written. -/
def Ch.write : Ch → Str
  | .plain r => encodeRune r
  | .esc r => 92 :: encodeRune r

/-- A run of characters. -/
def writeChs (cs : List Ch) : Str := cs.flatMap Ch.write

/-- The text of a run of characters. -/
def textOf (cs : List Ch) : Str := (cs.map Ch.rune).flatMap encodeRune

/-- The terms of the documented syntax. -/
inductive Term where
  /-- `c` and `\c` -/
  | chars (cs : List Ch)
  /-- `*` -/
  | any
  /-- `**` -/
  | super
  /-- `?` -/
  | single
  /-- `[abc]` and `[!abc]` -/
  | list (not : Bool) (cs : List Ch)
  /-- `[a-z]` and `[!a-z]` -/
  | range (not : Bool) (lo hi : Nat)
  /-- `{pattern,pattern}` -/
  | alts (p : List Term) (ps : List (List Term))

mutual
/-- How a term is written. -/
def Term.write : Term → Str
  | .chars cs => writeChs cs
  | .any => [42]
  | .super => [42, 42]
  | .single => [63]
  | .list not cs => 91 :: ((if not then [33] else []) ++ writeChs cs ++ [93])
  | .range not lo hi => 91 :: ((if not then [33] else []) ++ encodeRune lo ++ [45] ++ encodeRune hi ++ [93])
  | .alts p ps => 123 :: (writeTerms p ++ writeAlts ps ++ [125])
/-- How a pattern is written: its terms one after the other. -/
def writeTerms : List Term → Str
  | [] => []
  | t :: ts => t.write ++ writeTerms ts
/-- More alternatives, each after a comma. -/
def writeAlts : List (List Term) → Str
  | [] => []
  | p :: ps => 44 :: (writeTerms p ++ writeAlts ps)
end

mutual
/-- The tree of a term. -/
def Term.node : Term → Node
  | .chars cs => .text (textOf cs)
  | .any => .any
  | .super => .super
  | .single => .single
  | .list not cs => .list not (textOf cs)
  | .range not lo hi => .range not lo hi
  | .alts p ps => .anyOf (.pattern (nodes p) :: patterns ps)
/-- The trees of terms. -/
def nodes : List Term → List Node
  | [] => []
  | t :: ts => t.node :: nodes ts
/-- The trees of patterns. -/
def patterns : List (List Term) → List Node
  | [] => []
  | p :: ps => .pattern (nodes p) :: patterns ps
end

mutual
/-- The documented meaning of a term: a set of sequences of runes. `*` matches any sequence of runes that are no separators, `**` any sequence, `?` one rune that
is no separator, a class one rune in it (or not in it), characters themselves, and braces what one of the patterns between them matches. -/
def Term.Lang (seps : List Nat) : Term → List Nat → Prop
  | .chars cs, w => w = cs.map Ch.rune
  | .any, w => ∀ r ∈ w, r ∉ seps
  | .super, _ => True
  | .single, w => ∃ r, w = [r] ∧ r ∉ seps
  | .list not cs, w => ∃ r, w = [r] ∧ (r ∈ cs.map Ch.rune ↔ not = false)
  | .range not lo hi, w => ∃ r, w = [r] ∧ ((lo ≤ r ∧ r ≤ hi) ↔ not = false)
  | .alts p ps, w => TermsLang seps p w ∨ AltsLang seps ps w
/-- The meaning of a pattern: its terms match one after the other. -/
def TermsLang (seps : List Nat) : List Term → List Nat → Prop
  | [], w => w = []
  | t :: ts, w => ∃ u v, w = u ++ v ∧ t.Lang seps u ∧ TermsLang seps ts v
/-- One of the patterns. -/
def AltsLang (seps : List Nat) : List (List Term) → List Nat → Prop
  | [], _ => False
  | p :: ps, w => TermsLang seps p w ∨ AltsLang seps ps w
end

/-- A rune that can be written in a pattern: a Unicode code point, not U+0000 and not U+FFFD. -/
def goodRune (r : Nat) : Bool := 0 < r && r ≠ 0xFFFD && (r < 0xD800 || (0xE000 ≤ r && r ≤ 0x10FFFF))

/-- The character has no special meaning as it is written: not one of `specials` unless it follows a backslash. -/
def Ch.ok (specials : List Nat) : Ch → Bool
  | .plain r => goodRune r && !specials.contains r && r != 92
  | .esc r => goodRune r

/-- `*`, `?`, `[`, `{` and, between braces, `,` and `}` have to be written after a backslash. -/
def specialRunes (inBraces : Bool) : List Nat := if inBraces then [63, 42, 91, 123, 125, 44] else [63, 42, 91, 123]

/-- The first character written, a backslash included. -/
def Ch.first : Ch → Nat
  | .plain r => r
  | .esc _ => 92

/-- The second character written of a run is not `-`; the first is not `!`, unless the class is negated. -/
def listStart (not : Bool) : List Ch → Bool
  | [] => false
  | [.plain r] => not || r != 33
  | .plain r :: c :: _ => (not || r != 33) && c.first != 45
  | .esc r :: _ => r != 45

/-- A term must not run into the one after it: characters into characters, `*` into `*`. -/
def apart : Term → List Term → Bool
  | .chars _, .chars _ :: _ => false
  | .any, .any :: _ => false
  | .any, .super :: _ => false
  | _, _ => true

mutual
/-- The term is written as documented. -/
def Term.ok (inBraces : Bool) : Term → Bool
  | .chars cs => !cs.isEmpty && cs.all (Ch.ok (specialRunes inBraces))
  | .list not cs => listStart not cs && cs.all (Ch.ok [93])
  | .range not lo hi => goodRune lo && goodRune hi && lo ≤ hi && (not || lo != 33)
  | .alts p ps => okTerms true p && okAlts ps
  | _ => true
/-- The pattern is written as documented. -/
def okTerms (inBraces : Bool) : List Term → Bool
  | [] => true
  | t :: ts => t.ok inBraces && apart t ts && okTerms inBraces ts
/-- The alternatives are written as documented. -/
def okAlts : List (List Term) → Bool
  | [] => true
  | p :: ps => okTerms true p && okAlts ps
end

end Verif.Glob
