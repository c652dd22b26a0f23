import Verif.Repo.Links
/-
repo.go:23-64 `Scan` on a file system that changes while `Scan` runs: other programs (another `gopass`, git, a synchronisation service) create, remove, rename and replace files and
directories between any two system calls of `filepath.Walk`.
-/
namespace Verif.Repo

/-- The file system as seen from the root, at every moment. The three functions are what `os.Stat` of the root, `os.Lstat` of the path with these names below the root, and reading the
directory with these names answer if they are called at that moment. Nothing is assumed about how the moments are related: in between anything may happen. -/
structure Hist where
  /-- `os.Stat` of the root does not say "not exist". -/
  present : Nat → Bool
  /-- `none`: an error; `some true`: a directory; `some false`: anything else. -/
  lstat : Nat → List Str → Option Bool
  /-- `none`: the directory cannot be read; otherwise the names in it, in sorted order. -/
  names : Nat → List Str → Option (List Str)

/-- At this moment the directory can be read and has an entry of that name. -/
def Hist.Has (h : Hist) (s : Nat) (ps : List Str) (n : Str) : Prop := ∃ l, h.names s ps = some l ∧ n ∈ l

/-- `readDirNames`, called between `a` and `b`, answers with these names: sorted, without duplicates, each of them present at some moment in between. An entry that is there all the time
is among them; whether one that comes or goes in between is, is left open (as POSIX does). -/
structure Hist.Lists (h : Hist) (ps : List Str) (a b : Nat) (ns : List Str) : Prop where
  le : a ≤ b
  opened : ∃ l, h.names a ps = some l
  sorted : ns.Pairwise (fun x y => strLt x y = true)
  sound : ∀ n ∈ ns, ∃ s, a ≤ s ∧ s ≤ b ∧ h.Has s ps n
  complete : ∀ n, (∀ s, a ≤ s → s ≤ b → h.Has s ps n) → n ∈ ns

/-- What `filepath.Walk` has to do: visit a path (`ps` are the names below the root, `path` and `name` the strings given to the callback), or the entries `ns` of a directory. -/
inductive Job where
  | node (ps : List Str) (path name : Str)
  | list (ps : List Str) (path : Str) (ns : List Str)

/-- `filepath.Walk` with the callback of repo.go:35-62, begun at moment `t` and ended at moment `t'`: the calls of the callback, up to the first one with an error, which ends the program
(line 37). Every system call is made at a later moment than the one before it; how much later is left open. `walk` reads a directory before it calls the callback for it. -/
inductive Walks (h : Hist) : Nat → Job → List Visit → Nat → Prop
  | missing {t s ps path name} : t < s → h.lstat s ps = none → Walks h t (.node ps path name) [.error] s
  | file {t s ps path name} : t < s → h.lstat s ps = some false → Walks h t (.node ps path name) [.file path name] s
  | unreadable {t s a ps path name} : t < s → h.lstat s ps = some true → s < a → h.names a ps = none → Walks h t (.node ps path name) [.error] a
  | git {t s a b ps path name ns} : t < s → h.lstat s ps = some true → s < a → h.Lists ps a b ns → name = lit ".git" → Walks h t (.node ps path name) [] b
  | dir {t s a b ps path name ns l t'} : t < s → h.lstat s ps = some true → s < a → h.Lists ps a b ns → name ≠ lit ".git" → Walks h b (.list ps path ns) l t' →
      Walks h t (.node ps path name) l t'
  | nil {t ps path} : Walks h t (.list ps path []) [] t
  | stop {t ps path n ns l s} : Walks h t (.node (ps ++ [n]) (joinPath path n) n) l s → Visit.error ∈ l → Walks h t (.list ps path (n :: ns)) l s
  | next {t ps path n ns l s l2 t'} : Walks h t (.node (ps ++ [n]) (joinPath path n) n) l s → Visit.error ∉ l → Walks h s (.list ps path ns) l2 t' →
      Walks h t (.list ps path (n :: ns)) (l ++ l2) t'

/-- `filepath.Walk` goes on for ever: one of its calls of `walk`, or of its loops, never ends. -/
def Endless (h : Hist) (t : Nat) (job : Job) : Prop :=
  ∃ P : Nat → Job → Prop, P t job ∧ ∀ t job, P t job →
    (∃ ps path name s a b ns, job = .node ps path name ∧ t < s ∧ h.lstat s ps = some true ∧ s < a ∧ h.Lists ps a b ns ∧ name ≠ lit ".git" ∧ P b (.list ps path ns)) ∨
    (∃ ps path n ns, job = .list ps path (n :: ns) ∧
      (P t (.node (ps ++ [n]) (joinPath path n) n) ∨ ∃ l s, Walks h t (.node (ps ++ [n]) (joinPath path n) n) l s ∧ Visit.error ∉ l ∧ P s (.list ps path ns)))

/-- repo.go:23-64 `Scan`, begun at moment `t`, ended at `t'`. -/
inductive Scans (h : Hist) (root : Str) : Nat → Outcome Files → Nat → Prop
  | missing {t s} : t < s → h.present s = false → Scans h root t .err s
  | walk {t s l t'} : t < s → h.present s = true → Walks h s (.node [] root (baseName root)) l t' → Scans h root t (visitAll (root.length + 1) (fun _ => []) l) t'

/-- `Scan` goes on for ever. -/
def ScansForever (h : Hist) (root : Str) (t : Nat) : Prop := ∃ s, t < s ∧ h.present s = true ∧ Endless h s (.node [] root (baseName root))

end Verif.Repo
