import Verif.Repo.Spec
import Verif.Closest.Spec
import Verif.Go.Strings
/-
What the commands should do, in terms of the tree of the store.
-/
namespace Verif.Cmds.Spec
open Repo Repo.Spec

/-- The store is the tree at `root`: a cleaned path other than `.` and `/` that does not end in `.git`. -/
structure IsStore (w : World) (root : Str) (es : List (Str × Node)) : Prop where
  clean : CleanDir root
  here : w.at root = .node (.dir es)
  wf : (Node.dir es).WF
  notGit : baseName root ≠ lit ".git"

/-- `f` is an entry of the store with the given text. -/
def Entry (es : List (Str × Node)) (f text : Str) : Prop :=
  ∃ d ∈ [lit "people", lit "email", lit "phone", lit "sites", lit "devices", lit "bank"], ∃ n,
    lookupAt (.dir es) [d, n] = .node (.file text) ∧ n ≠ lit ".DS_Store" ∧ f = d ++ lit "/" ++ n

/-- `ws` lists the entries, each once. -/
def AllEntries (es : List (Str × Node)) (ws : List Str) : Prop := ws.Nodup ∧ ∀ f, f ∈ ws ↔ ∃ text, Entry es f text

/-- A text file the code can read: `ts` are its lines, none of 65536 bytes or more, and the first contains no NUL byte. -/
def TextLines (text : Str) (ts : List Str) : Prop :=
  ∃ ls, IsLines text ls ∧ List.Forall₂ Stripped ls ts ∧ (∀ l ∈ ls, l.length ≤ 65535) ∧ ∀ t, ts.head? = some t → (0 : UInt8) ∉ t

/-- The entry `f` is a best match for `q` among the entries. -/
def BestMatch (other : Str → Str) (es : List (Str × Node)) (q f : Str) : Prop :=
  ∃ ws, AllEntries es ws ∧ Closest.Spec.Shares other [2] ws q f ∧
    ∀ k, Closest.Spec.Shares other [2] ws q k → Closest.Spec.score other [2] ws q k ≤ Closest.Spec.score other [2] ws q f

/-- No entry has a fragment (of two bytes) in common with `q`. -/
def NoMatch (other : Str → Str) (es : List (Str × Node)) (q : Str) : Prop :=
  ∃ ws, AllEntries es ws ∧ ∀ k, ¬ Closest.Spec.Shares other [2] ws q k

/-- What `show` should print of the lines: all of them with numbers, or the requested one, or all. -/
def body (lineNumbers : Bool) (line : Int) (ts : List Str) : Str :=
  if lineNumbers then (numbered ts).flatMap fun m => decimal m.1 ++ lit ": " ++ m.2 ++ lit "\n"
  else if 0 < line then (match ts[line.toNat - 1]? with
    | some t => t ++ lit "\n"
    | none => [])
  else ts.flatMap fun t => t ++ lit "\n"

/-- The line `show --qrcode` works on: the last one that has the requested number or begins with the requested field. -/
def selected (line : Int) (field : Str) (ts : List Str) : Str :=
  ((((numbered ts).filter fun m => (m.1 : Int) = line || (!field.isEmpty && field.isPrefixOf m.2)).getLast?).map Prod.snd).getD []

/-- The exports of an entry: every line after the first that begins with `env:` names a variable (in upper case, without the white space
around it), whose value is the first line. -/
def exports (otherUp : Str → Str) : List Str → List (Str × Str)
  | [] => []
  | pw :: rest => (rest.filter fun t => (lit "env:").isPrefixOf t).map fun t => (toUpper otherUp (trimSpace (t.drop 4)), pw)

end Verif.Cmds.Spec
