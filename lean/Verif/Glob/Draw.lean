import Verif.Glob.Tool
import Verif.Go.Strings
import Mathlib.Data.Nat.Digits.Defs
/-
glob/match/debug: drawing a matcher as a graph for Graphviz, and the texts of the matchers (`String`), which become the labels.

The results of `rand.Int63` are a sequence `rnd` of numbers, of which the `k`-th call takes the `k`-th.
-/
namespace Verif.Glob

/-- Go `string(rs)` for a slice of runes. -/
def runesText (rs : List Nat) : Str := rs.flatMap encodeRune

/-- contains.go:53-56, list.go:44-47, range.go:43-46: `not`. -/
def notText (not : Bool) : Str := if not then lit "!" else []

mutual
/-- `String` of a matcher: nothing.go:25, text.go:43, any.go:44, super.go:31, single.go:42, list.go:43, range.go:42, min.go:55, max.go:47, contains.go:52,
prefix.go:48, suffix.go:33, prefix_suffix.go:60, prefix_any.go:53, suffix_any.go:41, any_of.go:80, every_of.go:97, row.go:75, btree.go:170-185. -/
def Matcher.string : Matcher → Str
  | .nothing => lit "<nothing>"
  | .text s => lit "<text:`" ++ s ++ lit "`>"
  | .any seps => lit "<any:![" ++ runesText seps ++ lit "]>"
  | .super => lit "<super>"
  | .single seps => lit "<single:![" ++ runesText seps ++ lit "]>"
  | .list rs not => lit "<list:" ++ notText not ++ lit "[" ++ runesText rs ++ lit "]>"
  | .range lo hi not => lit "<range:" ++ notText not ++ lit "[" ++ encodeRune lo ++ lit "," ++ encodeRune hi ++ lit "]>"
  | .min l => lit "<min:" ++ decimal l ++ lit ">"
  | .max l => lit "<max:" ++ decimal l ++ lit ">"
  | .contains n not => lit "<contains:" ++ notText not ++ lit "[" ++ n ++ lit "]>"
  | .prefix p => lit "<prefix:" ++ p ++ lit ">"
  | .suffix q => lit "<suffix:" ++ q ++ lit ">"
  | .prefixSuffix p q => lit "<prefix_suffix:[" ++ p ++ lit "," ++ q ++ lit "]>"
  | .prefixAny p seps => lit "<prefix_any:" ++ p ++ lit "![" ++ runesText seps ++ lit "]>"
  | .suffixAny q seps => lit "<suffix_any:![" ++ runesText seps ++ lit "]" ++ q ++ lit ">"
  | .anyOf ms => lit "<any_of:[" ++ Matcher.strings ms ++ lit "]>"
  | .everyOf ms => lit "<every_of:[" ++ Matcher.strings ms ++ lit "]>"
  | .row n ms => lit "<row_" ++ decimal n ++ lit ":[" ++ Matcher.strings ms ++ lit "]>"
  | .btree v l r _ _ _ => lit "<btree:[" ++ Matcher.stringOpt l ++ lit "<-" ++ v.string ++ lit "->" ++ Matcher.stringOpt r ++ lit "]>"
/-- match.go:23-30 `Matchers.String`: with commas between them. -/
def Matcher.strings : List Matcher → Str
  | [] => []
  | m :: ms => m.string ++ (if ms.isEmpty then [] else lit ",") ++ Matcher.strings ms
/-- btree.go:173-182: a branch, `<nil>` if there is none. -/
def Matcher.stringOpt : Option Matcher → Str
  | none => lit "<nil>"
  | some m => m.string
end

/-- Go `fmt.Fprintf(w, format)` without operands. A percent sign and another one give one; a percent sign at the end gives `%!(NOVERB)`; with a character after it,
`%!c(MISSING)`. Not modelled (`none`): a flag, width, precision or operand number after the percent sign. -/
def fprintAux : Nat → Str → Option Str
  | 0, _ => some []
  | _ + 1, [] => some []
  | n + 1, b :: s =>
    if b ≠ 37 then (fprintAux n s).map (b :: ·)
    else match s with
      | [] => some (lit "%!(NOVERB)")
      | c :: s' =>
        if c = 37 then (fprintAux n s').map (37 :: ·)
        else if c ∈ lit "#0+- 123456789*.[" then none
        else (fprintAux n ((c :: s').drop (decodeRune (c :: s')).2)).map ((lit "%!" ++ encodeRune (decodeRune (c :: s')).1 ++ lit "(MISSING)") ++ ·)

/-- Go `fmt.Fprintf(w, format)` without operands: what is written; `none` where it is not modelled. -/
def fprint (format : Str) : Option Str := fprintAux format.length format

/-- `%x` of a number that is not negative. -/
def hex (n : Nat) : Str := if n = 0 then lit "0" else (Nat.digits 16 n).reverse.map fun d => if d < 10 then UInt8.ofNat (48 + d) else UInt8.ofNat (87 + d)

/-- debug.go:20, 25, 37, 45, 53: a line with an id and a label. -/
def nodeText (id label : Str) : Str := lit "\"" ++ id ++ lit "\"[label=\"" ++ label ++ lit "\"];"

/-- debug.go:26, 30, 41, 49: a line with two ids. -/
def edgeText (a b : Str) : Str := lit "\"" ++ a ++ lit "\"->\"" ++ b ++ lit "\";"

mutual
/-- debug.go:15-57 `graphviz_internal`, when `k` random numbers have been drawn: the text and the number of random numbers drawn after it; `none` if a format is not modelled. -/
def graphviz (rnd : Nat → Nat) : Matcher → Str → Nat → Option (Str × Nat)
  | .btree v l r _ _ _ => fun id k => do
    let (a, k) ← graphvizBranch rnd l id k
    let (b, k) ← graphvizBranch rnd r id k
    some (nodeText id v.string ++ a ++ b, k)
  | .anyOf ms => fun id k => do
    let (a, k) ← graphvizAll rnd ms id k
    some (nodeText id (lit "AnyOf") ++ a, k)
  | .everyOf ms => fun id k => do
    let (a, k) ← graphvizAll rnd ms id k
    some (nodeText id (lit "EveryOf") ++ a, k)
  | m => fun id k => some (nodeText id m.string, k)
/-- debug.go:21-33: the loop over the branches of a tree. -/
def graphvizBranch (rnd : Nat → Nat) : Option Matcher → Str → Nat → Option (Str × Nat)
  | none => fun id k => some (nodeText (hex (rnd k)) (lit "<nil>") ++ edgeText id (hex (rnd k)), k + 1)
  | some m => fun id k => do
    let (s, k') ← graphviz rnd m (hex (rnd k)) (k + 1)
    let s ← fprint s
    some (edgeText id (hex (rnd k)) ++ s, k')
/-- debug.go:38-42, 46-50: the loops over the matchers. -/
def graphvizAll (rnd : Nat → Nat) : List Matcher → Str → Nat → Option (Str × Nat)
  | [] => fun _ k => some ([], k)
  | m :: ms => fun id k => do
    let (s, k') ← graphviz rnd m (hex (rnd k)) (k + 1)
    let s ← fprint s
    let (t, k'') ← graphvizAll rnd ms id k'
    some (s ++ edgeText id (hex (rnd k)) ++ t, k'')
end

/-- debug.go:11-13 `Graphviz`. -/
def drawMatcher (rnd : Nat → Nat) (pattern : Str) (m : Matcher) : Option Str := do
  let (s, _) ← graphviz rnd m (hex (rnd 0)) 1
  some (lit "digraph G {graph[label=\"" ++ pattern ++ lit "\"];" ++ s ++ lit "}")

/-- globdraw/main.go:15-45: what the program prints; `none` if a format is not modelled. -/
def globdrawText (rnd : Nat → Nat) (pattern sep : Str) : Tool.End (Option Str) :=
  match Tool.globdraw pattern sep with
  | .usage => .usage
  | .badSeparators => .badSeparators
  | .badPattern => .badPattern
  | .result m => .result (drawMatcher rnd pattern m)
  | .panic => .panic

end Verif.Glob
