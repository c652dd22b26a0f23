import Verif.Glob.StrLemmas
import Verif.Glob.Compile
/-
The language of a matcher: what it is meant to match, on ASCII strings (a negated `contains` has no byte of the
needle, which is a set of separators: compiler.go:253). Only a step between the documented language (`Verif.Glob.Spec`) and `Match`.
-/
namespace Verif.Glob

mutual
/-- The language of a matcher. -/
def MLang : Matcher → Str → Prop
  | .nothing, s => s = []
  | .text t, s => s = t
  | .any seps, s => ∀ b ∈ s, b.toNat ∉ seps
  | .super, _ => True
  | .single seps, s => ∃ b, s = [b] ∧ b.toNat ∉ seps
  | .list rs not, s => ∃ b, s = [b] ∧ inList rs not b.toNat = true
  | .range lo hi not, s => ∃ b, s = [b] ∧ inRange lo hi not b.toNat = true
  | .min n, s => n ≤ s.length
  | .max n, s => s.length ≤ n
  | .contains needle not, s => if not then ∀ b ∈ s, b ∉ needle else ∃ a c, s = a ++ needle ++ c
  | .prefix p, s => ∃ c, s = p ++ c
  | .suffix q, s => ∃ a, s = a ++ q
  | .prefixSuffix p q, s => ∃ b, s = p ++ b ++ q
  | .prefixAny p seps, s => ∃ c, s = p ++ c ∧ ∀ b ∈ c, b.toNat ∉ seps
  | .suffixAny q seps, s => ∃ a, s = a ++ q ∧ ∀ b ∈ a, b.toNat ∉ seps
  | .anyOf ms, s => LangSome ms s
  | .everyOf ms, s => LangAll ms s
  | .row _ ms, s => LangSeq ms s
  | .btree v l r _ _ _, s => ∃ a b c, s = a ++ b ++ c ∧ LangOpt l a ∧ MLang v b ∧ LangOpt r c
/-- A side of a BTree. -/
def LangOpt : Option Matcher → Str → Prop
  | none, s => s = []
  | some m, s => MLang m s
/-- One of the matchers. -/
def LangSome : List Matcher → Str → Prop
  | [], _ => False
  | m :: ms, s => MLang m s ∨ LangSome ms s
/-- All matchers. -/
def LangAll : List Matcher → Str → Prop
  | [], _ => True
  | m :: ms, s => MLang m s ∧ LangAll ms s
/-- The matchers one after the other. -/
def LangSeq : List Matcher → Str → Prop
  | [], s => s = []
  | m :: ms, s => ∃ a c, s = a ++ c ∧ MLang m a ∧ LangSeq ms c
end

theorem langSome_iff {ms : List Matcher} {s : Str} : LangSome ms s ↔ ∃ m ∈ ms, MLang m s := by
  induction ms with
  | nil => simp [LangSome]
  | cons m ms ih => simp [LangSome, ih]

theorem langAll_iff {ms : List Matcher} {s : Str} : LangAll ms s ↔ ∀ m ∈ ms, MLang m s := by
  induction ms with
  | nil => simp [LangAll]
  | cons m ms ih => simp [LangAll, ih]

theorem langSeq_append {ms ns : List Matcher} {s : Str} : LangSeq (ms ++ ns) s ↔ ∃ a c, s = a ++ c ∧ LangSeq ms a ∧ LangSeq ns c := by
  induction ms generalizing s with
  | nil =>
    simp only [List.nil_append, LangSeq]
    constructor
    · intro h; exact ⟨[], s, rfl, rfl, h⟩
    · rintro ⟨a, c, rfl, rfl, h⟩; exact h
  | cons m ms ih =>
    simp only [List.cons_append, LangSeq]
    constructor
    · rintro ⟨a, c, rfl, h1, h2⟩
      obtain ⟨a', c', rfl, h3, h4⟩ := ih.1 h2
      exact ⟨a ++ a', c', by simp, ⟨a, a', rfl, h1, h3⟩, h4⟩
    · rintro ⟨a, c, rfl, ⟨a', c', rfl, h1, h2⟩, h3⟩
      exact ⟨a', c' ++ c, by simp, h1, ih.2 ⟨c', c, rfl, h2, h3⟩⟩

theorem langSeq_singleton {m : Matcher} {s : Str} : LangSeq [m] s ↔ MLang m s := by
  simp only [LangSeq]
  constructor
  · rintro ⟨a, c, rfl, h, rfl⟩; simpa using h
  · intro h; exact ⟨s, [], by simp, h, rfl⟩

theorem matchFns_eq (ms : List Matcher) : matchFns ms = ms.map Matcher.match := by
  induction ms with
  | nil => rfl
  | cons m ms ih => rw [matchFns, ih]; rfl

theorem indexFns_eq (ms : List Matcher) : indexFns ms = ms.map Matcher.index := by
  induction ms with
  | nil => rfl
  | cons m ms ih => rw [indexFns, ih]; rfl

theorem lens_eq (ms : List Matcher) : lens ms = ms.map Matcher.len := by
  induction ms with
  | nil => rfl
  | cons m ms ih => rw [lens, ih]; rfl

/-- The matchers inside a matcher. -/
def Matcher.children : Matcher → List Matcher
  | .anyOf ms => ms
  | .everyOf ms => ms
  | .row _ ms => ms
  | .btree v l r _ _ _ => v :: (l.toList ++ r.toList)
  | _ => []

theorem Matcher.child_size {m c : Matcher} (h : c ∈ m.children) : sizeOf c < sizeOf m := by
  cases m <;> simp only [children, List.not_mem_nil] at h
  case anyOf ms => have := List.sizeOf_lt_of_mem h; simp; omega
  case everyOf ms => have := List.sizeOf_lt_of_mem h; simp; omega
  case row l ms => have := List.sizeOf_lt_of_mem h; simp; omega
  case btree v l r ll rl len =>
    simp only [List.mem_cons, List.mem_append, Option.mem_toList] at h
    rcases h with rfl | h | h
    · simp; omega
    · subst h; simp; omega
    · subst h; simp; omega

/-- Induction on matchers. -/
theorem Matcher.ind {P : Matcher → Prop} (h : ∀ m : Matcher, (∀ c ∈ m.children, P c) → P m) (m : Matcher) : P m :=
  h m fun c hc => Matcher.ind h c
termination_by sizeOf m
decreasing_by exact Matcher.child_size hc

end Verif.Glob
