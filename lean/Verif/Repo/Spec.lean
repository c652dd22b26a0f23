import Verif.Repo.Model
/-
What scanning and searching mean, in terms of the file tree and of the text of a file.
-/
namespace Verif.Repo

mutual
/-- A well-formed tree: in every directory the names are proper, different, and sorted. -/
def Node.WF : Node → Prop
  | .file _ => True
  | .dir es => es.Pairwise (fun a b => strLt a.1 b.1 = true) ∧ WFList es
/-- The entries of a directory. -/
def WFList : List (Str × Node) → Prop
  | [] => True
  | e :: es => WFPair e ∧ WFList es
/-- One entry. -/
def WFPair : Str × Node → Prop
  | (n, c) => GoodName n ∧ c.WF
end

mutual
/-- The tree without its directories named `.git`. -/
def Node.prune : Node → Node
  | .file c => .file c
  | .dir es => .dir (pruneList es)
/-- The entries that stay. -/
def pruneList : List (Str × Node) → List (Str × Node)
  | [] => []
  | e :: es => prunePair e ++ pruneList es
/-- One entry. -/
def prunePair : Str × Node → List (Str × Node)
  | (n, .file c) => [(n, .file c)]
  | (n, .dir es) => if n = lit ".git" then [] else [(n, .dir (pruneList es))]
end

namespace Spec

/-- The file `name` lies directly in the directory `d` of the store with the given tree, and is not `.DS_Store`. -/
def IsEntry (tree : Node) (d name : Str) : Prop := (∃ c, lookupAt tree [d, name] = .node (.file c)) ∧ name ≠ lit ".DS_Store"

/-- `ls` are the lines of the text: none contains `\n`, and the text is these lines with a `\n` after each, which may be missing after a last
line that is not empty. -/
def IsLines (text : Str) (ls : List Str) : Prop :=
  (∀ l ∈ ls, (10 : UInt8) ∉ l) ∧
  (text = ls.flatMap (· ++ [10]) ∨ ∃ init last, ls = init ++ [last] ∧ last ≠ [] ∧ text = init.flatMap (· ++ [10]) ++ last)

/-- A line without the `\r` of `\r\n`. -/
def Stripped (l t : Str) : Prop := l = t ++ [13] ∨ (l = t ∧ ∀ t', l ≠ t' ++ [13])

/-- The numbered lines. -/
def numbered (ts : List Str) : List (Nat × Str) := ts.zipIdx.map fun p => (p.2 + 1, p.1)

end Spec
end Verif.Repo
