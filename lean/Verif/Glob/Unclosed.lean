import Verif.Glob.DocParse
import Verif.Glob.Compile
/-
Patterns in which braces are still open at the end: they are read as if all of them were closed there.
-/
namespace Verif.Glob

namespace Spec

/-- A pattern that may end inside braces: terms up to the end; or terms, an opening brace, complete alternatives, and an alternative that reaches to the end of the pattern. -/
inductive Unclosed where
  | done (ts : List Term)
  | brace (ts : List Term) (alts : List (List Term)) (last : Unclosed)

/-- How it is written: a comma after each complete alternative, nothing at the end. -/
def Unclosed.write : Unclosed → Str
  | .done ts => writeTerms ts
  | .brace ts alts last => writeTerms ts ++ [123] ++ alts.flatMap (fun p => writeTerms p ++ [44]) ++ last.write

/-- The alternatives between braces: one or more. -/
def braces (last : List Term) : List (List Term) → Term
  | [] => .alts last []
  | p :: ps => .alts p (ps ++ [last])

/-- The pattern with the missing closing braces at its end. -/
def Unclosed.closed : Unclosed → List Term
  | .done ts => ts
  | .brace ts alts last => ts ++ [braces last.closed alts]

/-- All parts are written as documented. -/
def Unclosed.ok (inBraces : Bool) : Unclosed → Bool
  | .done ts => okTerms inBraces ts
  | .brace ts alts last => okTerms inBraces ts && okAlts alts && last.ok true

/-- The number of braces that are open at the end. -/
def Unclosed.depth : Unclosed → Nat
  | .done _ => 0
  | .brace _ _ last => last.depth + 1

end Spec
open Spec

theorem nodes_app : ∀ (a b : List Term), nodes (a ++ b) = nodes a ++ nodes b
  | [], _ => rfl
  | t :: a, b => by rw [List.cons_append, nodes, nodes, nodes_app a b, List.cons_append]

theorem patterns_app : ∀ (a b : List (List Term)), patterns (a ++ b) = patterns a ++ patterns b
  | [], _ => rfl
  | t :: a, b => by rw [List.cons_append, patterns, patterns, patterns_app a b, List.cons_append]

theorem writeTerms_app : ∀ (a b : List Term), writeTerms (a ++ b) = writeTerms a ++ writeTerms b
  | [], _ => rfl
  | t :: a, b => by rw [List.cons_append, writeTerms, writeTerms, writeTerms_app a b, List.append_assoc]

theorem writeAlts_app : ∀ (a b : List (List Term)), writeAlts (a ++ b) = writeAlts a ++ writeAlts b
  | [], _ => rfl
  | t :: a, b => by rw [List.cons_append, writeAlts, writeAlts, writeAlts_app a b]; simp

theorem braces_node (last : List Term) (alts : List (List Term)) : (braces last alts).node = .anyOf (patterns alts ++ [.pattern (nodes last)]) := by
  cases alts with
  | nil => simp [braces, Term.node, patterns]
  | cons p ps => simp [braces, Term.node, patterns, patterns_app]

/-- The complete alternatives. -/
theorem parse_complete : ∀ (alts : List (List Term)) (n : Nat) (l : Lex) (rest : Str) (as outer : List Node) (fs : List Frame), okAlts alts = true →
    LexAt l (alts.flatMap (fun p => writeTerms p ++ [44]) ++ rest) [] (fs.length + 1) → (alts.flatMap (fun p => writeTerms p ++ [44]) ++ rest).length + 8 ≤ n →
    ∃ n' l', parseMain (d + 2) n l (⟨as, outer⟩ :: fs) [] = parseMain (d + 2) n' l' (⟨as ++ patterns alts, outer⟩ :: fs) [] ∧ LexAt l' rest [] (fs.length + 1) ∧ rest.length + 8 ≤ n'
  | [], n, l, rest, as, outer, fs, _, hl, hn => ⟨n, l, by simp [patterns], by simpa using hl, by simpa using hn⟩
  | p :: ps, n, l, rest, as, outer, fs, hok, hl, hn => by
    simp only [okAlts, Bool.and_eq_true] at hok
    simp only [List.flatMap_cons, List.append_assoc, List.cons_append, List.nil_append] at hl hn
    obtain ⟨n1, l1, e1, g1, hn1⟩ := parse_terms (d := d) p n l (44 :: (ps.flatMap (fun p => writeTerms p ++ [44]) ++ rest)) (fs.length + 1) (⟨as, outer⟩ :: fs) [] (by simpa using hok.1)
      (Or.inr (Or.inl ⟨by omega, _, Or.inl rfl⟩)) hl (by simp) (by simpa using hn)
    obtain ⟨m, rfl⟩ : ∃ m, n1 = m + 1 := ⟨n1 - 1, by omega⟩
    obtain ⟨l2, e2, g2⟩ := next_sep (d := d) g1
    obtain ⟨n3, l3, e3, g3, hn3⟩ := parse_complete ps m l2 rest (as ++ [.pattern (nodes p)]) outer fs hok.2 g2 (by simp at hn1 ⊢; omega)
    refine ⟨n3, l3, ?_, g3, hn3⟩
    rw [e1, parseMain, e2]
    simp only [List.nil_append]
    rw [e3]
    simp [patterns]

theorem parse_unclosed : ∀ (o : Unclosed) (n : Nat) (l : Lex) (fs : List Frame) (cur : List Node), o.ok (decide (0 < fs.length)) = true →
    LexAt l o.write [] fs.length → o.write.length + 8 ≤ n → parseMain (d + 2) n l fs cur = .ok (closeFrames fs (cur ++ nodes o.closed))
  | .done ts, n, l, fs, cur, hok, hl, hn => by
    simp only [Unclosed.ok, Unclosed.write, Unclosed.closed] at hok hl hn ⊢
    obtain ⟨n1, l1, e1, g1, hn1⟩ := parse_terms (d := d) ts n l [] fs.length fs cur hok (Or.inl rfl) (by simpa using hl) rfl (by simpa using hn)
    obtain ⟨m, rfl⟩ : ∃ m, n1 = m + 1 := ⟨n1 - 1, by omega⟩
    obtain ⟨l2, e2⟩ := next_end (d := d) g1
    rw [e1, parseMain, e2]
  | .brace ts alts last, n, l, fs, cur, hok, hl, hn => by
    simp only [Unclosed.ok, Bool.and_eq_true] at hok
    simp only [Unclosed.write, Unclosed.closed, List.append_assoc, List.cons_append, List.nil_append] at hl hn ⊢
    obtain ⟨n1, l1, e1, g1, hn1⟩ := parse_terms (d := d) ts n l (123 :: (alts.flatMap (fun p => writeTerms p ++ [44]) ++ last.write)) fs.length fs cur hok.1.1 (Or.inr (Or.inr ⟨_, rfl⟩))
      hl rfl hn
    obtain ⟨m, rfl⟩ : ∃ m, n1 = m + 1 := ⟨n1 - 1, by omega⟩
    obtain ⟨l2, e2, g2⟩ := next_opens (d := d) g1
    obtain ⟨n3, l3, e3, g3, hn3⟩ := parse_complete (d := d) alts m l2 last.write [] (cur ++ nodes ts) fs hok.1.2 g2 (by simp at hn1 ⊢; omega)
    have := parse_unclosed (d := d) last n3 l3 (⟨[] ++ patterns alts, cur ++ nodes ts⟩ :: fs) [] (by simpa using hok.2) g3 hn3
    rw [e1, parseMain, e2]
    simp only
    rw [e3, this, closeFrames, nodes_app, nodes, nodes, braces_node]
    simp

/-- **C90** A pattern in which braces are still open at the end, to any depth, parses, and gives the tree of the pattern in which they are closed. -/
theorem C90_unclosed_braces (o : Unclosed) (h : o.ok false = true) : parse o.write = .ok (.pattern (nodes o.closed)) := by
  have h0 : LexAt (newLexer o.write) o.write [] 0 := ⟨⟨by simp [newLexer], by simp [newLexer]⟩, rfl, rfl, by simp [newLexer], rfl⟩
  unfold parse
  rw [parse_unclosed (d := o.write.length) o (7 * o.write.length + 8) _ [] [] (by simpa using h) h0 (by omega)]
  simp [closeFrames]

/-- The text with the closing braces. -/
theorem write_closed : ∀ (o : Unclosed), writeTerms o.closed = o.write ++ List.replicate o.depth 125
  | .done ts => by simp [Unclosed.closed, Unclosed.write, Unclosed.depth]
  | .brace ts alts last => by
    have h := write_closed last
    have hb : ∀ (alts : List (List Term)), (braces last.closed alts).write = 123 :: (alts.flatMap (fun p => writeTerms p ++ [44]) ++ writeTerms last.closed ++ [125]) := by
      intro alts
      cases alts with
      | nil => simp [braces, Term.write, writeAlts]
      | cons p ps =>
        simp only [braces, Term.write, writeAlts_app, writeAlts, List.flatMap_cons, List.append_assoc, List.cons_append, List.nil_append, List.cons.injEq, true_and]
        congr 1
        generalize writeTerms last.closed ++ [125] = z
        induction ps with
        | nil => simp [writeAlts]
        | cons q ps ih => simp only [writeAlts, List.flatMap_cons, List.cons_append, List.append_assoc, List.nil_append, List.cons.injEq, true_and]; rw [ih]
    rw [Unclosed.closed, writeTerms_app, writeTerms, writeTerms, hb, h]
    simp [Unclosed.write, Unclosed.depth, List.replicate_succ']

theorem braces_ok (last : List Term) (h : okTerms true last = true) : ∀ (alts : List (List Term)), okAlts alts = true → (b : Bool) → (braces last alts).ok b = true := by
  intro alts ha b
  cases alts with
  | nil => simp [braces, Term.ok, okAlts, h]
  | cons p ps =>
    simp only [okAlts, Bool.and_eq_true] at ha
    simp only [braces, Term.ok, Bool.and_eq_true]
    refine ⟨ha.1, ?_⟩
    have := ha.2
    clear ha
    induction ps with
    | nil => simp [okAlts, h]
    | cons q ps ih =>
      simp only [okAlts, Bool.and_eq_true] at this
      simp [okAlts, this.1, ih this.2]

theorem okTerms_snoc : ∀ (ts : List Term) (b : Bool) (t : Term), okTerms b ts = true → t.ok b = true → (∃ p ps, t = .alts p ps) → okTerms b (ts ++ [t]) = true
  | [], b, t, _, h, _ => by cases t <;> simp_all [okTerms, apart]
  | x :: ts, b, t, h, ht, he => by
    simp only [okTerms, Bool.and_eq_true] at h
    rw [List.cons_append, okTerms, okTerms_snoc ts b t h.2 ht he, h.1.1]
    obtain ⟨p, ps, rfl⟩ := he
    cases ts with
    | nil => cases x <;> simp [apart]
    | cons y ts =>
      have := h.1.2
      cases x <;> cases y <;> simp_all [apart]

theorem closed_ok : ∀ (o : Unclosed) (b : Bool), o.ok b = true → okTerms b o.closed = true
  | .done ts, b, h => h
  | .brace ts alts last, b, h => by
    simp only [Unclosed.ok, Bool.and_eq_true] at h
    refine okTerms_snoc ts b _ h.1.1 (braces_ok _ (closed_ok last true h.2) _ h.1.2 b) ?_
    cases alts with
    | nil => exact ⟨_, _, rfl⟩
    | cons p ps => exact ⟨_, _, rfl⟩

/-- **C90** So the pattern means the same as with as many closing braces appended as are missing, to the parser and to `Compile` with any separators. -/
theorem C90_same_as_closed (o : Unclosed) (h : o.ok false = true) (seps : List Nat) :
    parse o.write = parse (o.write ++ List.replicate o.depth 125) ∧ globCompile o.write seps = globCompile (o.write ++ List.replicate o.depth 125) seps := by
  have e : parse o.write = parse (o.write ++ List.replicate o.depth 125) := by
    rw [← write_closed, C90_unclosed_braces o h, C75_parse_documented _ (closed_ok o false h)]
  exact ⟨e, by unfold globCompile; rw [e]⟩

/-- `a{b,{c,d` is read as `a{b,{c,d}}`. -/
example : let c : Char → List Term := fun x => [.chars [.plain x.toNat]]
    let o : Unclosed := .brace (c 'a') [c 'b'] (.brace [] [c 'c'] (.done (c 'd')))
    o.ok false = true ∧ o.write = lit "a{b,{c,d" ∧ o.depth = 2 ∧ (∃ m, parse (lit "a{b,{c,d") = .ok m) := by
  refine ⟨by decide, by decide, rfl, _, C90_unclosed_braces (.brace [.chars [.plain 97]] [[.chars [.plain 98]]] (.brace [] [[.chars [.plain 99]]] (.done [.chars [.plain 100]]))) (by decide)⟩

end Verif.Glob
