import Verif.Glob.TotalProps
/-
C93: a check of the compiled matcher that excludes crashes for every string. The check is decidable: for any one pattern, the kernel can settle the question for all strings.
-/
namespace Verif.Glob

mutual
/-- In every row each matcher has a fixed positive length, and the separators of every matcher that looks for the last one are ASCII. -/
def Matcher.safe : Matcher → Bool
  | .suffixAny _ seps => seps.all fun r => decide (r < 0x80)
  | .anyOf ms => safeAll ms
  | .everyOf ms => safeAll ms
  | .row _ ms => safeAll ms && ms.all fun m => posLen m.len
  | .btree v l r _ _ _ => v.safe && safeOpt l && safeOpt r
  | _ => true
def safeAll : List Matcher → Bool
  | [] => true
  | m :: ms => m.safe && safeAll ms
def safeOpt : Option Matcher → Bool
  | none => true
  | some m => m.safe
end

mutual
theorem safe_returns : ∀ (m : Matcher), m.safe = true → Returns m.match ∧ IdxReturns m.index
  | .suffixAny q seps, h => ⟨fun s => ⟨_, rfl⟩, leaf_index rfl (fun q' s' e => by cases e; simpa [Matcher.safe, asciiSeps] using h) nofun nofun nofun⟩
  | .anyOf ms, h => by
    have := safeAll_returns ms (by simpa [Matcher.safe] using h)
    exact ⟨anyOf_returns fun m hm => (this m hm).1, anyOf_index fun m hm => (this m hm).2⟩
  | .everyOf ms, h => by
    have := safeAll_returns ms (by simpa [Matcher.safe] using h)
    exact ⟨everyOf_returns fun m hm => (this m hm).1, everyOf_index fun m hm => (this m hm).2⟩
  | .row l ms, h => by
    rw [Matcher.safe, Bool.and_eq_true, List.all_eq_true] at h
    have := safeAll_returns ms h.1
    exact ⟨row_returns (fun m hm => (this m hm).1) h.2, row_index (fun m hm => (this m hm).1) h.2⟩
  | .btree v l r _ _ _, h => by
    rw [Matcher.safe, Bool.and_eq_true, Bool.and_eq_true] at h
    exact ⟨btree_returns (safe_returns v h.1.1).2 (safeOpt_returns l h.1.2) (safeOpt_returns r h.2), fun s => idx_const nofun⟩
  | .nothing, _ => ⟨fun s => ⟨_, rfl⟩, leaf_index rfl nofun nofun nofun nofun⟩
  | .text _, _ => ⟨fun s => ⟨_, rfl⟩, leaf_index rfl nofun nofun nofun nofun⟩
  | .any _, _ => ⟨fun s => ⟨_, rfl⟩, leaf_index rfl nofun nofun nofun nofun⟩
  | .super, _ => ⟨fun s => ⟨_, rfl⟩, leaf_index rfl nofun nofun nofun nofun⟩
  | .single _, _ => ⟨fun s => ⟨_, rfl⟩, leaf_index rfl nofun nofun nofun nofun⟩
  | .list _ _, _ => ⟨fun s => ⟨_, rfl⟩, leaf_index rfl nofun nofun nofun nofun⟩
  | .range _ _ _, _ => ⟨fun s => ⟨_, rfl⟩, leaf_index rfl nofun nofun nofun nofun⟩
  | .min _, _ => ⟨fun s => ⟨_, rfl⟩, leaf_index rfl nofun nofun nofun nofun⟩
  | .max _, _ => ⟨fun s => ⟨_, rfl⟩, leaf_index rfl nofun nofun nofun nofun⟩
  | .contains _ _, _ => ⟨fun s => ⟨_, rfl⟩, leaf_index rfl nofun nofun nofun nofun⟩
  | .prefix _, _ => ⟨fun s => ⟨_, rfl⟩, leaf_index rfl nofun nofun nofun nofun⟩
  | .suffix _, _ => ⟨fun s => ⟨_, rfl⟩, leaf_index rfl nofun nofun nofun nofun⟩
  | .prefixSuffix _ _, _ => ⟨fun s => ⟨_, rfl⟩, leaf_index rfl nofun nofun nofun nofun⟩
  | .prefixAny _ _, _ => ⟨fun s => ⟨_, rfl⟩, leaf_index rfl nofun nofun nofun nofun⟩
theorem safeAll_returns : ∀ (ms : List Matcher), safeAll ms = true → ∀ m ∈ ms, Returns m.match ∧ IdxReturns m.index
  | [], _ => nofun
  | m :: ms, h => fun x hx => by
    rw [safeAll, Bool.and_eq_true] at h
    have h1 := safe_returns m h.1
    have h2 := safeAll_returns ms h.2
    rcases List.mem_cons.1 hx with e | hx
    · rw [e]; exact h1
    · exact h2 x hx
theorem safeOpt_returns : ∀ (o : Option Matcher), safeOpt o = true → Returns (matchOpt o)
  | none, _ => fun _ => ⟨_, rfl⟩
  | some m, h => (safe_returns m h).1
end

/-- If every row of the compiled matcher has parts of fixed positive length, and the separators are ASCII wherever the last one is looked for, then `Match` returns for every string. -/
theorem C93_checked_partial (p : Str) (seps : List Nat) (m : Matcher) (h : globCompile p seps = .ok m) (hs : m.safe = true) (s : Str) : ∃ b, m.match s = some b :=
  have _ := h
  (safe_returns m hs).1 s

/-- The check of a pattern. -/
def patternSafe (p : Str) (seps : List Nat) : Bool := match globCompile p seps with
  | .ok m => m.safe
  | _ => false

theorem C93_checked_pattern_partial (p : Str) (seps : List Nat) (h : patternSafe p seps = true) : ∃ m, globCompile p seps = .ok m ∧ ∀ s, ∃ b, m.match s = some b := by
  unfold patternSafe at h
  split at h
  · exact ⟨_, by assumption, fun s => C93_checked_partial p seps _ (by assumption) h s⟩
  · cases h

/-- Patterns with empty, absorbed or nested alternatives; each never crashes, whatever the string. -/
example : (∃ m, globCompile (lit "{a*,ab}") [47] = .ok m ∧ ∀ s, ∃ b, m.match s = some b) ∧
    (∃ m, globCompile (lit "{a,{b,}}") [47] = .ok m ∧ ∀ s, ∃ b, m.match s = some b) ∧
    (∃ m, globCompile (lit "{a,ab}") [] = .ok m ∧ ∀ s, ∃ b, m.match s = some b) ∧
    ∃ m, globCompile (lit "{*.go,*.md}") [47] = .ok m ∧ ∀ s, ∃ b, m.match s = some b := by
  refine ⟨C93_checked_pattern_partial _ _ ?_, C93_checked_pattern_partial _ _ ?_, C93_checked_pattern_partial _ _ ?_, C93_checked_pattern_partial _ _ ?_⟩ <;> decide +kernel

/-- The check refuses the patterns of `C93_false` and `C93_separators_false`. -/
example : patternSafe (lit "{a*,a}") [] = false ∧ patternSafe (lit "{/a/**,/a/}") [47] = false ∧ patternSafe (lit "x{*,}") [] = false ∧ patternSafe (lit "a{}") [] = false ∧
    patternSafe (lit "{*a}{*b}") [233] = false := by
  refine ⟨?_, ?_, ?_, ?_, ?_⟩ <;> decide +kernel

end Verif.Glob
