import Verif.Glob.Lang
/-
Which matchers decide their language: a check of the matcher. The properties of the check are in `Verif.Glob.GoodProps`.
-/
namespace Verif.Glob

/-- No end of the first text, other than the empty one, is a start of the second. -/
def noOverlap (p q : Str) : Bool := (List.range p.length).all fun i => !(p.drop i).isPrefixOf q

/-- The length of a side of a BTree. -/
def lenOpt : Option Matcher → Option Nat
  | none => some 0
  | some m => m.len

mutual
/-- `Len` is right: all strings of the language have this length. -/
def lenGood : Matcher → Bool
  | .anyOf ms => (anyOfLen none (lens ms)).isNone || (lenGoods ms && (lens ms).all fun l => l == anyOfLen none (lens ms))
  | .everyOf ms => !ms.isEmpty
  | .row l ms => lenGoods ms && sumLens (lens ms) == some l
  | .btree v l r _ _ len => len.isNone || (lenGood v && lenGoodOpt l && lenGoodOpt r && sumLens [lenOpt l, v.len, lenOpt r] == len)
  | _ => true
/-- `lenGood` of matchers. -/
def lenGoods : List Matcher → Bool
  | [] => true
  | m :: ms => lenGood m && lenGoods ms
/-- `lenGood` of a side. -/
def lenGoodOpt : Option Matcher → Bool
  | none => true
  | some m => lenGood m
end

/-- The length is at least 1. -/
def posLen : Option Nat → Bool
  | some k => decide (1 ≤ k)
  | none => false

/-- `contains needle true` can tell a rune: the needle is one byte, or has no ASCII byte. -/
def needleGood (needle : Str) : Bool := needle.length == 1 || (!needle.isEmpty && needle.all fun b => decide (0x80 ≤ b))

mutual
/-- `Match` is right on the empty string. -/
def goodE : Matcher → Bool
  | .single seps => seps.contains runeError
  | .list rs not => !inList rs not runeError
  | .range lo hi not => !inRange lo hi not runeError
  | .min n => decide (1 ≤ n)
  | .prefixSuffix p q => noOverlap p q
  | .contains needle not => !not || needleGood needle
  | .anyOf ms => goodEs ms
  | .everyOf ms => goodEs ms
  | .row l ms => decide (1 ≤ l) && lenGood (.row l ms)
  | .btree v l r ll rl len => (posLen v.len && lenGood v) ||
      (goodE v && goodEOpt l && goodEOpt r && !(v.match [] == some true && matchOpt l [] == some true && matchOpt r [] == some true))
  | _ => true
/-- `goodE` of matchers. -/
def goodEs : List Matcher → Bool
  | [] => true
  | m :: ms => goodE m && goodEs ms
/-- `goodE` of a side. -/
def goodEOpt : Option Matcher → Bool
  | none => true
  | some m => goodE m
end

/-- The matchers of which `EveryOf.Index` is right: their index is always 0. -/
def goodIdxZero : Matcher → Bool
  | .min n => decide (1 ≤ n)
  | .max _ => true
  | .contains needle not => !not || needleGood needle
  | _ => false

mutual
/-- `Match` is right on the strings that are not empty; and a negated `contains` stands for one rune (as it was meant to, compiler.go:253). -/
def good : Matcher → Bool
  | .contains needle not => !not || needleGood needle
  | .prefixSuffix p q => noOverlap p q
  | .min n => decide (1 ≤ n)
  | .anyOf ms => goods ms
  | .everyOf ms => goods ms
  | .row l ms => goods ms && decide (1 ≤ l) && lenGood (.row l ms) && (lens ms).all posLen
  | .btree v l r ll rl len =>
    lenGood (.btree v l r ll rl len) && (ll.isNone || (ll == lenOpt l && lenGoodOpt l)) && (rl.isNone || (rl == lenOpt r && lenGoodOpt r)) &&
      goodOpt l && goodEOpt l && goodOpt r && goodEOpt r &&
      ((goodIdx v && lenGood v && posLen v.len) || (goodIdx0 v && l.isNone && rl.isNone))
  | _ => true
/-- `good` of matchers. -/
def goods : List Matcher → Bool
  | [] => true
  | m :: ms => good m && goods ms
/-- `good` of a side. -/
def goodOpt : Option Matcher → Bool
  | none => true
  | some m => good m
/-- `Index` finds the first occurrence. -/
def goodIdx : Matcher → Bool
  | .text t => !t.isEmpty
  | .single _ => true
  | .list _ _ => true
  | .range _ _ _ => true
  | .row l ms => goods ms && decide (1 ≤ l) && lenGood (.row l ms) && (lens ms).all posLen
  | .anyOf ms => goodIdxs ms
  | _ => false
/-- `goodIdx` of matchers. -/
def goodIdxs : List Matcher → Bool
  | [] => true
  | m :: ms => goodIdx m && goodIdxs ms
/-- `Index` finds all matches at the start of the string. -/
def goodIdx0 : Matcher → Bool
  | .nothing => true
  | .text _ => true
  | .any seps => decide (seps.length ≤ 1)
  | .super => true
  | .single _ => true
  | .list _ _ => true
  | .range _ _ _ => true
  | .min n => decide (1 ≤ n)
  | .max _ => true
  | .contains needle not => !not || needleGood needle
  | .prefix _ => true
  | .prefixAny _ seps => decide (seps.length ≤ 1)
  | .row l ms => goods ms && decide (1 ≤ l) && lenGood (.row l ms) && (lens ms).all posLen
  | .anyOf ms => goodIdx0s ms
  | .everyOf ms => ms.all goodIdxZero && !ms.isEmpty
  | _ => false
/-- `goodIdx0` of matchers. -/
def goodIdx0s : List Matcher → Bool
  | [] => true
  | m :: ms => goodIdx0 m && goodIdx0s ms
end

/-- The check. -/
def wellBehaved (m : Matcher) : Bool := good m && goodE m

theorem lenGoods_iff {ms : List Matcher} : lenGoods ms = true ↔ ∀ m ∈ ms, lenGood m = true := by
  induction ms with
  | nil => simp [lenGoods]
  | cons m ms ih => simp [lenGoods, ih]
theorem goodEs_iff {ms : List Matcher} : goodEs ms = true ↔ ∀ m ∈ ms, goodE m = true := by
  induction ms with
  | nil => simp [goodEs]
  | cons m ms ih => simp [goodEs, ih]
theorem goods_iff {ms : List Matcher} : goods ms = true ↔ ∀ m ∈ ms, good m = true := by
  induction ms with
  | nil => simp [goods]
  | cons m ms ih => simp [goods, ih]
theorem goodIdxs_iff {ms : List Matcher} : goodIdxs ms = true ↔ ∀ m ∈ ms, goodIdx m = true := by
  induction ms with
  | nil => simp [goodIdxs]
  | cons m ms ih => simp [goodIdxs, ih]
theorem goodIdx0s_iff {ms : List Matcher} : goodIdx0s ms = true ↔ ∀ m ∈ ms, goodIdx0 m = true := by
  induction ms with
  | nil => simp [goodIdx0s]
  | cons m ms ih => simp [goodIdx0s, ih]

end Verif.Glob
