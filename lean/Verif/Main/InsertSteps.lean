import Verif.Cmds.Model
/-
cmds/insert.go step by step: `os.Create`, and the reads and writes of `io.Copy`. Several inserts may run at the same time (programs started one beside the other), and any of them
may be killed between two steps: it is not scheduled any more. Reads and writes may fail.
-/
namespace Verif.Main
open Repo Cmds

/-- The result of a `Read`: the bytes, and with them nothing, the end of the file (`some true`) or an error (`some false`). -/
structure ReadRes where
  data : Str
  stop : Option Bool

/-- The source as `io.Copy` meets it: the reads, each with what happens to the bytes when they are written: all are written (`none`), or an error, after this many of them. -/
abbrev Source := List (ReadRes × Option Nat)

/-- A program that executes `insert` (insert.go:13-16, with the root of globals.go) in a working directory. -/
structure InsertJob where
  cwd : List Str
  root : Str
  passName : Str
  source : Source

/-- How far it is: before `os.Create`; in `io.Copy`, with the position in the new file; at its end, with the result (`true` is `nil`). -/
inductive Proc where
  | start
  | copying (pos : Nat) (rest : Source)
  | done (ok : Bool)

/-- insert.go:22: the file that is created, as names from the root of the file system. -/
def InsertJob.dest (j : InsertJob) : List Str := (⟨.dir [], j.cwd⟩ : World).parts (joinPath j.root j.passName)

/-- A `write` of the system at a position of an open file; behind the end the file is filled up with zeros. Files are never removed or renamed. -/
def writeAt (tree : Node) (path : List Str) (pos : Nat) (b : Str) : Node :=
  if b = [] then tree
  else match lookupAt tree path with
    | .node (.file c) => (put tree path (c.take pos ++ List.replicate (pos - c.length) 0 ++ b ++ c.drop (pos + b.length))).getD tree
    | _ => tree

/-- The bytes that get into the file. -/
def written (d : Str) : Option Nat → Str
  | none => d
  | some k => d.take k

/-- One step of insert.go:18-38: line 23-26 `os.Create`; line 27 a round of the loop of `io.Copy` (io/io.go `copyBuffer`): read, write what was read; an error of `Write` or of
`Read`, or the end of the file, ends it. Whatever the error is, line 37 returns `nil`. -/
def InsertJob.step (j : InsertJob) (tree : Node) : Proc → Node × Proc
  | .start => match Cmds.insert ⟨tree, j.cwd⟩ j.root j.passName [] with
    | none => (tree, .done false)
    | some w => (w.tree, .copying 0 j.source)
  | .copying pos [] => (tree, .copying pos [])
  | .copying pos ((r, w) :: rest) =>
    let b := written r.data w
    let tree' := writeAt tree j.dest pos b
    if r.data ≠ [] ∧ w ≠ none then (tree', .done true)
    else if r.stop ≠ none then (tree', .done true)
    else (tree', .copying (pos + b.length) rest)
  | .done ok => (tree, .done ok)

/-- The file system and how far the programs are, after the programs with these numbers made a step each. -/
def runJobs (jobs : List InsertJob) : List Nat → Node × List Proc → Node × List Proc
  | [], s => s
  | i :: is, s => match jobs[i]?, s.2[i]? with
    | some j, some p => runJobs jobs is ((j.step s.1 p).1, s.2.set i (j.step s.1 p).2)
    | _, _ => runJobs jobs is s

end Verif.Main
