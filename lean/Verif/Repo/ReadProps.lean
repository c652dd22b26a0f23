import Verif.Repo.Props
/-
What is read of a file, for every content: C46, C48 and C76.
-/
namespace Verif.Repo
namespace Spec

/-- What is read of a file with this text: its lines up to the first one of 65536 bytes or more, without `\n` and `\r\n`; but if the first of them contains a NUL
byte the file counts as binary and none is read. -/
def Reads (text : Str) (ts : List Str) (binary : Bool) : Prop :=
  ∃ ls us, IsLines text ls ∧ List.Forall₂ Stripped (ls.takeWhile fun l => l.length ≤ 65535) us ∧
    ((∃ t, us.head? = some t ∧ (0 : UInt8) ∈ t) ∧ ts = [] ∧ binary = true ∨ (∀ t, us.head? = some t → (0 : UInt8) ∉ t) ∧ ts = us ∧ binary = false)

end Spec
open Spec

theorem stripped_exists (l : Str) : ∃ t, Stripped l t := by
  by_cases h : ∃ t', l = t' ++ [13]
  · obtain ⟨t, h⟩ := h; exact ⟨t, Or.inl h⟩
  · exact ⟨l, Or.inr ⟨rfl, fun t' e => h ⟨t', e⟩⟩⟩

theorem stripped_all : ∀ ls : List Str, ∃ ts, List.Forall₂ Stripped ls ts
  | [] => ⟨[], .nil⟩
  | l :: ls => by
    obtain ⟨t, h⟩ := stripped_exists l
    obtain ⟨ts, hs⟩ := stripped_all ls
    exact ⟨t :: ts, .cons h hs⟩

/-- For every text it is determined what is read of it. -/
theorem reads_exists (text : Str) : ∃ ts b, Reads text ts b := by
  obtain ⟨us, hus⟩ := stripped_all ((rawLines text).takeWhile fun l => l.length ≤ 65535)
  by_cases h : ∃ t, us.head? = some t ∧ (0 : UInt8) ∈ t
  · exact ⟨[], true, _, us, isLines_exists text, hus, Or.inl ⟨h, rfl, rfl⟩⟩
  · exact ⟨us, false, _, us, isLines_exists text, hus, Or.inr ⟨fun t h1 h2 => h ⟨t, h1, h2⟩, rfl, rfl⟩⟩

theorem reads_scanner {text : Str} {ts : List Str} {b : Bool} (h : Reads text ts b) :
    (b = true ∧ ts = [] ∧ ∃ t us, scannerLines text = t :: us ∧ (0 : UInt8) ∈ t) ∨ (b = false ∧ scannerLines text = ts ∧ ∀ t, ts.head? = some t → (0 : UInt8) ∉ t) := by
  obtain ⟨ls, us, h1, h2, h3⟩ := h
  have e : scannerLines text = us := by
    unfold scannerLines
    rw [rawLines_spec h1, ← stripped_unique h2]
    congr 2
    funext l
    simp only [decide_eq_decide]; omega
  rcases h3 with ⟨⟨t, h3, h4⟩, rfl, rfl⟩ | ⟨h3, rfl, rfl⟩
  · left
    cases us with
    | nil => cases h3
    | cons u us =>
      injection h3 with h3
      subst h3
      exact ⟨rfl, rfl, u, us, e, h4⟩
  · right
    exact ⟨rfl, e, h3⟩

theorem reads_unique {text : Str} {ts ts' : List Str} {b b' : Bool} (h : Reads text ts b) (h' : Reads text ts' b') : ts = ts' ∧ b = b' := by
  rcases reads_scanner h with ⟨rfl, rfl, t, us, e, h0⟩ | ⟨rfl, e, h0⟩ <;> rcases reads_scanner h' with ⟨rfl, rfl, t', us', e', h0'⟩ | ⟨rfl, e', h0'⟩
  · exact ⟨rfl, rfl⟩
  · rw [e] at e'; subst e'; exact absurd h0 (h0' t rfl)
  · rw [e'] at e; subst e; exact absurd h0' (h0 t' rfl)
  · rw [e] at e'; exact ⟨e', rfl⟩

/-- The state of a callback after it was given numbered lines one after the other, until it returned an error. -/
def handleAll {σ : Type} (handle : σ → Nat → Str → σ × CbErr) : List (Nat × Str) → σ → σ
  | [], st => st
  | (n, t) :: ms, st => match handle st n t with
    | (st, .nil) => handleAll handle ms st
    | (st, _) => st

theorem lineLoop_all {σ : Type} (handle : σ → Nat → Str → σ × CbErr) : ∀ (ts : List Str) (k : Nat) (st : σ), (k = 0 → ∀ t, ts.head? = some t → (0 : UInt8) ∉ t) →
    lineLoop handle (k + 1) ts st = (handleAll handle ((ts.zipIdx k).map fun p => (p.2 + 1, p.1)) st, false)
  | [], k, st, _ => rfl
  | t :: ts, k, st, h0 => by
    have h0' : ¬ (k + 1 = 1 ∧ (0 : UInt8) ∈ t) := fun h => h0 (by omega) t rfl h.2
    rw [lineLoop, if_neg h0', List.zipIdx_cons, List.map_cons, handleAll]
    cases handle st (k + 1) t with
    | mk st' r => cases r with
      | nil => exact lineLoop_all handle ts (k + 1) st' (by omega)
      | _ => rfl

/-- **C76** For every file and every callback: `GetFileContentByLine` hands to the callback, in order and with their numbers, exactly the lines that are read of the
file, until the callback returns an error; the result is an error exactly for a binary file. -/
theorem C76_get_content {σ : Type} (w : World) (filename text : Str) (hf : w.at filename = .node (.file text)) {ts : List Str} {b : Bool} (h : Reads text ts b)
    (handle : σ → Nat → Str → σ × CbErr) (st : σ) : getFileContentByLine w filename handle st = (handleAll handle (numbered ts) st, b) := by
  unfold getFileContentByLine
  rw [hf]
  simp only
  rcases reads_scanner h with ⟨rfl, rfl, t, us, e, h0⟩ | ⟨rfl, e, h0⟩
  · rw [e, lineLoop, if_pos ⟨rfl, h0⟩]; rfl
  · rw [e, lineLoop_all handle ts 0 st (fun _ => h0)]; rfl

/-- **C76** For every file: `SearchInFile` reports exactly the matching lines of those that are read, in order, with their numbers. -/
theorem C76_search (w : World) (filename text : Str) (hf : w.at filename = .node (.file text)) {ts : List Str} {b : Bool} (h : Reads text ts b) (p : Str → Bool) :
    searchInFile w filename (fun line => if p line then .matched else .nil) = (numbered ts).filter fun m => p m.2 := by
  unfold searchInFile
  rw [C76_get_content w filename text hf h]
  simp only
  have : ∀ (l : List (Nat × Str)) (ms : List (Nat × Str)), handleAll (searchHandle fun line => if p line then .matched else .nil) l ms = ms ++ l.filter fun m => p m.2 := by
    intro l
    induction l with
    | nil => intro ms; simp [handleAll]
    | cons m l ih =>
      obtain ⟨n, t⟩ := m
      intro ms
      rw [handleAll, searchHandle]
      by_cases hp : p t = true
      · simp only [hp, if_true]
        rw [ih, List.filter_cons_of_pos (by simpa using hp), List.append_assoc]; rfl
      · simp only [hp, Bool.false_eq_true, if_false]
        rw [ih, List.filter_cons_of_neg (by simpa using hp)]
  rw [this, List.nil_append]

/-- A file with a line that is too long: what is before it is read. -/
example (x : Str) (hx : 65536 ≤ x.length) (hn : (10 : UInt8) ∉ x) : Reads (lit "ab\r\nc\n" ++ x ++ lit "\nd") [lit "ab", lit "c"] false := by
  refine ⟨[lit "ab\r", lit "c", x, lit "d"], [lit "ab", lit "c"], ⟨?_, Or.inr ⟨[lit "ab\r", lit "c", x], lit "d", rfl, by decide, ?_⟩⟩, ?_, Or.inr ⟨by decide, rfl, rfl⟩⟩
  · intro l hl
    simp only [List.mem_cons, List.not_mem_nil, or_false] at hl
    rcases hl with rfl | rfl | rfl | rfl
    · decide
    · decide
    · exact hn
    · decide
  · simp [lit]
  · rw [List.takeWhile_cons_of_pos (by decide), List.takeWhile_cons_of_pos (by decide), List.takeWhile_cons_of_neg (by simp; omega)]
    refine .cons (Or.inl (by decide)) (.cons (Or.inr ⟨rfl, fun t' e => ?_⟩) .nil)
    have := congrArg List.getLast? e
    rw [List.getLast?_append] at this
    revert this; simp [lit]

/-- A binary file. -/
example : Reads [97, 0, 10, 98, 10] [] true := by
  have hs : ∀ (l : Str), l.getLast? ≠ some 13 → Stripped l l := fun l h => Or.inr ⟨rfl, fun t' e => h (by rw [e]; simp)⟩
  exact ⟨[[97, 0], [98]], [[97, 0], [98]], ⟨by decide, Or.inl (by decide)⟩, .cons (hs _ (by decide)) (.cons (hs _ (by decide)) .nil),
    Or.inl ⟨⟨[97, 0], rfl, by decide⟩, rfl, rfl⟩⟩

/-- What a search for `p` finds in the file a path means: in a directory, or if there is no such file, nothing. -/
def Spec.Finds (w : World) (p : Str → Bool) (path : Str) (ms : List (Nat × Str)) : Prop :=
  match w.at path with
  | .node (.file text) => ∀ ts b, Reads text ts b → ms = (numbered ts).filter fun m => p m.2
  | _ => ms = []

theorem finds_searchInFile (w : World) (p : Str → Bool) (path : Str) : Spec.Finds w p path (searchInFile w path (fun line => if p line then .matched else .nil)) := by
  unfold Spec.Finds
  split
  · rename_i text h
    intro ts b hr
    exact C76_search w path text h hr p
  · rename_i hno
    unfold searchInFile getFileContentByLine
    cases h : w.at path with
    | noEnt => rfl
    | notDir => rfl
    | node nd => cases nd with
      | file c => exact absurd h (hno c)
      | dir es => rfl

/-- **C77** A search gives an error and no result exactly if the query does not compile. -/
theorem C77_error (w : World) (files : Files) (compiled : Option (Str → Bool)) (out : Option (List (Str × List (Nat × Str)))) (h : QuerySearch w files compiled out) :
    out = none ↔ compiled = none := by
  cases compiled with
  | none => exact ⟨fun _ => rfl, fun _ => h⟩
  | some p =>
    obtain ⟨_, -, e⟩ := h
    rw [e]
    simp

/-- **C77** Whatever the working directory and the contents: `GlobSearch` and `GrepSearch` (and with `C48_direct` `DirectSearch`) report every listed path as often as it is
listed, each with exactly the matching lines that are read of the file which the path means in the working directory. -/
theorem C77_search (w : World) (files : Files) (p : Str → Bool) (out : List (Str × List (Nat × Str))) (h : QuerySearch w files (some p) (some out)) :
    (∃ order, GroupOrder files order ∧ out.map Prod.fst = order.flatMap files) ∧ ∀ path ms, (path, ms) ∈ out → Spec.Finds w p path ms := by
  obtain ⟨order, ho, hout⟩ := h
  injection hout with hout
  refine ⟨⟨order, ho, ?_⟩, ?_⟩
  · rw [hout, searchAll, List.map_flatMap]
    congr 1
    funext d
    rw [List.map_map]
    exact List.map_id _
  · intro path ms hin
    rw [hout] at hin
    rw [searchAll_mem hin]
    exact finds_searchInFile w p path

/-- The store of the examples, searched from inside: the file has lines that match. -/
example : Spec.Finds ⟨exampleWorld.tree, [lit "v"]⟩ (fun l => l == lit "s3") (lit "sites/a.com") [(1, lit "s3")] := by
  show ∀ ts b, Reads (lit "s3\nenv: tok\n") ts b → _
  intro ts b h
  have hs : ∀ (l : Str), l.getLast? ≠ some 13 → Stripped l l := fun l h => Or.inr ⟨rfl, fun t' e => h (by rw [e]; simp)⟩
  have h' : Reads (lit "s3\nenv: tok\n") [lit "s3", lit "env: tok"] false :=
    ⟨[lit "s3", lit "env: tok"], [lit "s3", lit "env: tok"], ⟨by decide, Or.inl (by decide)⟩, .cons (hs _ (by decide)) (.cons (hs _ (by decide)) .nil),
      Or.inr ⟨by decide, rfl, rfl⟩⟩
  rw [(reads_unique h h').1]
  decide

end Verif.Repo
