import Verif.Main.InsertSteps
import Verif.Main.InsertProps
/-
C119: what an `insert` that is interrupted, fails, or runs beside others leaves behind.
-/
namespace Verif.Main
open Repo Cmds

namespace Spec

/-- The bytes that are read: all up to the end of the file or an error. -/
def readText : Source → Str
  | [] => []
  | (r, _) :: rest => if r.stop = none then r.data ++ readText rest else r.data

/-- Nothing fails: the text is read up to its end, and written. -/
inductive Delivers : Source → Str → Prop
  | last (d : Str) (rest : Source) : Delivers ((⟨d, some true⟩, none) :: rest) d
  | more (d : Str) {rest : Source} {t : Str} : Delivers rest t → Delivers ((⟨d, none⟩, none) :: rest) (d ++ t)

/-- The file at `path` is the same in both file systems (or in none). -/
def SameFile (t t' : Node) (path : List Str) : Prop := ∀ x, lookupAt t' path = .node (.file x) ↔ lookupAt t path = .node (.file x)

/-- What a program that got so far may have made of its entry. -/
def Left (t t' : Node) (j : InsertJob) : Proc → Prop
  -- before `os.Create`, and if it fails: nothing
  | .start => SameFile t t' j.dest
  | .done false => SameFile t t' j.dest
  -- on its way: a part of the text from its start, as long as the position says
  | .copying pos _ => ∃ c, lookupAt t' j.dest = .node (.file c) ∧ c <+: readText j.source ∧ c.length = pos
  -- at its end: the same, and if nothing failed all of the text
  | .done true => ∃ c, lookupAt t' j.dest = .node (.file c) ∧ c <+: readText j.source ∧ ∀ text, Delivers j.source text → c = text

end Spec
open Spec

theorem put_file (c : Str) : ∀ (ps : List Str) (t : Node) (x : Str), ps ≠ [] → lookupAt t ps = .node (.file x) → ∃ t', put t ps c = some t'
  | [], _, _, h, _ => absurd rfl h
  | _ :: _, .file _, _, _, h => by simp [lookupAt] at h
  | [n], .dir es, x, _, h => by
    rw [lookupAt] at h
    rw [put]
    cases he : entry es n with
    | none => rw [he] at h; simp at h
    | some nd => rw [he] at h; simp only [lookupAt, Found.node.injEq] at h; subst h; exact ⟨_, rfl⟩
  | p :: q :: ps, .dir es, x, _, h => by
    rw [lookupAt] at h
    rw [put]
    cases he : entry es p with
    | none => rw [he] at h; simp at h
    | some nd =>
      rw [he] at h
      obtain ⟨t', ht⟩ := put_file c (q :: ps) nd x (by simp) h
      simp only [ht]
      exact ⟨_, rfl⟩

/-- A write at the end of a file. -/
theorem writeAt_end {tree : Node} {path : List Str} (hp : path ≠ []) {c : Str} (h : lookupAt tree path = .node (.file c)) (b : Str) :
    lookupAt (writeAt tree path c.length b) path = .node (.file (c ++ b)) ∧ ∀ q, q ≠ path → SameFile tree (writeAt tree path c.length b) q := by
  unfold writeAt
  split
  · rename_i hb
    subst hb
    rw [List.append_nil]
    exact ⟨h, fun q _ x => Iff.rfl⟩
  · rw [h]
    simp only [List.take_length, Nat.sub_self, List.replicate_zero, List.append_nil, List.drop_eq_nil_of_le (Nat.le_add_right c.length b.length)]
    obtain ⟨t', ht⟩ := put_file (c ++ b) path tree c hp h
    rw [ht]
    exact ⟨(put_lookup _ _ _ _ ht).1, fun q hq x => (put_lookup _ _ _ _ ht).2 q x hq⟩

/-- The invariant of a program: what it left, with what is still to read. -/
def Inv (t t' : Node) (j : InsertJob) : Proc → Prop
  | .start => SameFile t t' j.dest
  | .done false => SameFile t t' j.dest
  | .copying pos rest => ∃ c, lookupAt t' j.dest = .node (.file c) ∧ c.length = pos ∧ readText j.source = c ++ readText rest ∧
      ∀ text, Delivers j.source text → ∃ text', text = c ++ text' ∧ Delivers rest text'
  | .done true => ∃ c, lookupAt t' j.dest = .node (.file c) ∧ c <+: readText j.source ∧ ∀ text, Delivers j.source text → c = text

theorem Inv.left {t t' : Node} {j : InsertJob} {p : Proc} (h : Inv t t' j p) : Left t t' j p := by
  cases p with
  | start => exact h
  | done ok => cases ok <;> exact h
  | copying pos rest =>
    obtain ⟨c, h1, h2, h3, -⟩ := h
    exact ⟨c, h1, ⟨_, h3.symm⟩, h2⟩

/-- Another program's change does not matter. -/
theorem Inv.other {t t1 t2 : Node} {j : InsertJob} {p : Proc} (h : Inv t t1 j p) (hs : SameFile t1 t2 j.dest) : Inv t t2 j p := by
  cases p with
  | start => exact fun x => (hs x).trans (h x)
  | done ok =>
    cases ok with
    | false => exact fun x => (hs x).trans (h x)
    | true => obtain ⟨c, h1, h2⟩ := h; exact ⟨c, (hs c).2 h1, h2⟩
  | copying pos rest => obtain ⟨c, h1, h2⟩ := h; exact ⟨c, (hs c).2 h1, h2⟩

theorem insert_put {tree : Node} {j : InsertJob} {w : World} {c : Str} (h : Cmds.insert ⟨tree, j.cwd⟩ j.root j.passName c = some w) : put tree j.dest c = some w.tree := by
  unfold Cmds.insert at h
  dsimp only at h
  split at h
  · cases h
  · change (put tree j.dest c).map _ = some w at h
    cases hp : put tree j.dest c with
    | none => rw [hp] at h; cases h
    | some t => rw [hp] at h; cases h; rfl

theorem put_ne_nil {c : Str} {ps : List Str} {t t' : Node} (h : put t ps c = some t') : ps ≠ [] := by
  rintro rfl
  cases t <;> simp [put] at h

theorem step_inv {t0 tree : Node} {j : InsertJob} {p : Proc} (hd : j.dest ≠ [] ∨ p = .start ∨ ∃ ok, p = .done ok) (h : Inv t0 tree j p) :
    Inv t0 (j.step tree p).1 j (j.step tree p).2 ∧ (∀ q, q ≠ j.dest → SameFile tree (j.step tree p).1 q) ∧
      (j.dest ≠ [] ∨ (j.step tree p).2 = .start ∨ ∃ ok, (j.step tree p).2 = .done ok) := by
  cases p with
  | start =>
    simp only [InsertJob.step]
    split
    · exact ⟨h, fun q _ x => Iff.rfl, .inr (.inr ⟨_, rfl⟩)⟩
    · rename_i w hw
      have hp := insert_put hw
      obtain ⟨l1, l2⟩ := put_lookup _ _ _ _ hp
      exact ⟨⟨[], l1, rfl, rfl, fun text ht => ⟨text, rfl, ht⟩⟩, fun q hq x => l2 q x hq, .inl (put_ne_nil hp)⟩
  | done ok => exact ⟨h, fun q _ x => Iff.rfl, .inr (.inr ⟨_, rfl⟩)⟩
  | copying pos rest =>
    have hd' : j.dest ≠ [] := by
      rcases hd with hd | hd | ⟨ok, hd⟩
      · exact hd
      · cases hd
      · cases hd
    obtain ⟨c, h1, h2, h3, h4⟩ := h
    cases rest with
    | nil => exact ⟨⟨c, h1, h2, h3, h4⟩, fun q _ x => Iff.rfl, .inl hd'⟩
    | cons rw rest =>
      obtain ⟨⟨d, stop⟩, w⟩ := rw
      subst h2
      simp only [InsertJob.step]
      obtain ⟨g1, g2⟩ := writeAt_end hd' h1 (written d w)
      have hpre : c ++ written d w <+: readText j.source := by
        rw [h3]
        apply (List.prefix_append_right_inj c).2
        rw [readText]
        cases w with
        | none => simp only [written]; split; exacts [List.prefix_append _ _, List.prefix_refl _]
        | some k => simp only [written]; split; exacts [(List.take_prefix _ _).trans (List.prefix_append _ _), List.take_prefix _ _]
      split
      · rename_i hw
        refine ⟨⟨_, g1, hpre, fun text ht => ?_⟩, g2, .inl hd'⟩
        obtain ⟨text', -, ht'⟩ := h4 text ht
        cases ht' <;> exact absurd rfl hw.2
      · rename_i hw
        split
        · rename_i hs
          refine ⟨⟨_, g1, hpre, fun text ht => ?_⟩, g2, .inl hd'⟩
          obtain ⟨text', e, ht'⟩ := h4 text ht
          cases ht' with
          | last => exact e.symm
          | more => exact absurd rfl hs
        · rename_i hs
          have hs' : stop = none := by simpa using hs
          subst hs'
          have hb : written d w = d := by
            cases w with
            | none => rfl
            | some k => have : d = [] := by simpa using hw
                        simp [this, written]
          refine ⟨⟨_, g1, by simp, ?_, fun text ht => ?_⟩, g2, .inl hd'⟩
          · rw [h3, readText, if_pos rfl, hb, List.append_assoc]
          · obtain ⟨text', e, ht'⟩ := h4 text ht
            cases ht' with
            | more _ hm => exact ⟨_, by rw [e, List.append_assoc, hb], hm⟩

theorem runJobs_inv (jobs : List InsertJob) (hdis : ∀ (i j : Nat) (a b : InsertJob), jobs[i]? = some a → jobs[j]? = some b → i ≠ j → a.dest ≠ b.dest) (t0 : Node) :
    ∀ (is : List Nat) (s : Node × List Proc),
      (∀ (i : Nat) (j : InsertJob) (p : Proc), jobs[i]? = some j → s.2[i]? = some p → Inv t0 s.1 j p ∧ (j.dest ≠ [] ∨ p = .start ∨ ∃ ok, p = .done ok)) →
      (∀ q, (∀ j ∈ jobs, q ≠ j.dest) → SameFile t0 s.1 q) →
      (∀ (i : Nat) (j : InsertJob) (p : Proc), jobs[i]? = some j → (runJobs jobs is s).2[i]? = some p → Inv t0 (runJobs jobs is s).1 j p) ∧
      (∀ q, (∀ j ∈ jobs, q ≠ j.dest) → SameFile t0 (runJobs jobs is s).1 q)
  | [], s, h1, h2 => ⟨fun i j p hj hp => (h1 i j p hj hp).1, h2⟩
  | i :: is, s, h1, h2 => by
    rw [runJobs]
    split
    · rename_i j p hj hp
      obtain ⟨k1, k2⟩ := h1 i j p hj hp
      obtain ⟨g1, g2, g3⟩ := step_inv k2 k1
      refine runJobs_inv jobs hdis t0 is _ ?_ ?_
      · intro i' j' p' hj' hp'
        by_cases hi : i' = i
        · subst hi
          rw [hj] at hj'; cases hj'
          simp only [List.getElem?_set_self'] at hp'
          rw [hp] at hp'
          simp only [Option.map_eq_map, Option.map_some, Option.some.injEq] at hp'
          subst hp'
          exact ⟨g1, g3⟩
        · simp only [List.getElem?_set_ne (fun e => hi (Eq.symm e))] at hp'
          obtain ⟨m1, m2⟩ := h1 i' j' p' hj' hp'
          exact ⟨m1.other (g2 _ (hdis i' i j' j hj' hj hi)), m2⟩
      · intro q hq x
        exact (g2 q (hq j (List.mem_of_getElem? hj)) x).trans (h2 q hq x)
    · exact runJobs_inv jobs hdis t0 is s h1 h2

/-- **C119** (as far as it holds) Inserts of different entries at the same time, with any reads and writes, failing or not, and each killed at any point: no other file is changed;
what each program leaves of its entry is as `Left` says. -/
theorem C119_crash_partial (jobs : List InsertJob) (hdis : ∀ (i j : Nat) (a b : InsertJob), jobs[i]? = some a → jobs[j]? = some b → i ≠ j → a.dest ≠ b.dest) (tree : Node) (schedule : List Nat) :
    ∃ tree' procs, runJobs jobs schedule (tree, jobs.map fun _ => .start) = (tree', procs) ∧
      (∀ (i : Nat) (j : InsertJob) (p : Proc), jobs[i]? = some j → procs[i]? = some p → Left tree tree' j p) ∧
      ∀ path, (∀ j ∈ jobs, path ≠ j.dest) → SameFile tree tree' path := by
  refine ⟨_, _, rfl, ?_⟩
  obtain ⟨h1, h2⟩ := runJobs_inv jobs hdis tree schedule (tree, jobs.map fun _ => .start) (by
    intro i j p hj hp
    simp only [List.getElem?_map, hj, Option.map_some, Option.some.injEq] at hp
    subst hp
    exact ⟨fun x => Iff.rfl, .inr (.inl rfl)⟩) (fun q _ x => Iff.rfl)
  exact ⟨fun i j p hj hp => (h1 i j p hj hp).left, h2⟩

/-- An insert that nothing interferes with ends, and the entry is the text. -/
theorem C119_completes (j : InsertJob) (tree t' : Node) (text : Str) (hc : put tree j.dest [] = some t') (hp : joinPath j.root j.passName ≠ []) (ht : Delivers j.source text) :
    ∃ n tree', runJobs [j] (List.replicate n 0) (tree, [.start]) = (tree', [.done true]) ∧ lookupAt tree' j.dest = .node (.file text) := by
  have key : ∀ (rest : Source) (text : Str), Delivers rest text → ∀ pos tree, ∃ n tree', runJobs [j] (List.replicate n 0) (tree, [.copying pos rest]) = (tree', [.done true]) := by
    intro rest text hd
    induction hd with
    | last d rest =>
      intro pos tree
      exact ⟨1, _, by simp [runJobs, InsertJob.step, written]; rfl⟩
    | more d hd ih =>
      intro pos tree
      obtain ⟨n, tree', h⟩ := ih (pos + d.length) (writeAt tree j.dest pos d)
      refine ⟨n + 1, tree', ?_⟩
      rw [List.replicate_succ, runJobs]
      simpa [InsertJob.step, written] using h
  obtain ⟨n, tree', h⟩ := key j.source text ht 0 t'
  have hrun : runJobs [j] (List.replicate (n + 1) 0) (tree, [.start]) = (tree', [.done true]) := by
    rw [List.replicate_succ, runJobs]
    have : Cmds.insert ⟨tree, j.cwd⟩ j.root j.passName [] = some ⟨t', j.cwd⟩ := by
      unfold Cmds.insert
      dsimp only
      rw [if_neg hp]
      change (put tree j.dest []).map _ = _
      rw [hc]; rfl
    simpa [InsertJob.step, this] using h
  refine ⟨n + 1, tree', hrun, ?_⟩
  obtain ⟨t2, ps, e, h1, -⟩ := C119_crash_partial [j] (by
    intro a b x y hx hy hab
    have ha := (List.getElem?_eq_some_iff.1 hx).1
    have hb := (List.getElem?_eq_some_iff.1 hy).1
    simp only [List.length_singleton] at ha hb
    omega) tree (List.replicate (n + 1) 0)
  rw [List.map_cons, List.map_nil, hrun] at e
  injection e with e1 e2
  subst e1 e2
  obtain ⟨c, g1, -, g3⟩ := h1 0 j _ rfl rfl
  rw [g1, g3 text ht]

/-- The job of the counterexamples: the entry `sites/a.com` of the example store is replaced. -/
def exampleJob (source : Source) : InsertJob := ⟨[], lit "/v", lit "sites/a.com", source⟩

/-- **C119** is false: an insert that is killed after its first step has destroyed the entry that was there, and the new one is not there yet. -/
theorem C119_atomic_false : ∃ source text, Delivers source text ∧ text ≠ [] ∧
    exampleWorld.at (lit "/v/sites/a.com") = .node (.file (lit "s3\nenv: tok\n")) ∧
    ∃ tree' p, runJobs [exampleJob source] [0] (exampleWorld.tree, [.start]) = (tree', [p]) ∧ (⟨tree', []⟩ : World).at (lit "/v/sites/a.com") = .node (.file []) :=
  ⟨_, _, .more (lit "new") (.last [] []), by decide, rfl, _, _, rfl, rfl⟩

/-- **C119** is false: if the source cannot be read to its end, or the disk is full, a part of the text is the entry and success is reported. -/
theorem C119_error_hidden_false : ∀ source ∈ [[(⟨lit "ne", none⟩, none), (⟨[], some false⟩, none)], [(⟨lit "new", some true⟩, some 2)]],
    ∃ tree', runJobs [exampleJob source] [0, 0, 0] (exampleWorld.tree, [.start]) = (tree', [.done true]) ∧ (⟨tree', []⟩ : World).at (lit "/v/sites/a.com") = .node (.file (lit "ne")) := by
  intro source hs
  rcases List.mem_cons.1 hs with rfl | hs
  · exact ⟨_, rfl, rfl⟩
  · rw [List.mem_singleton] at hs; subst hs; exact ⟨_, rfl, rfl⟩

/-- **C119** is false of two inserts of the same entry at the same time: both succeed, and the entry is neither text. -/
theorem C119_mixed_false : ∃ tree', runJobs [exampleJob [(⟨lit "long text", some true⟩, none)], exampleJob [(⟨lit "new", some true⟩, none)]] [0, 1, 0, 1] (exampleWorld.tree, [.start, .start]) =
    (tree', [.done true, .done true]) ∧ (⟨tree', []⟩ : World).at (lit "/v/sites/a.com") = .node (.file (lit "newg text")) := ⟨_, rfl, rfl⟩

/-- **C119** is false of two inserts of the same entry at the same time: both succeed, and the entry has zero bytes that neither text has (so that `show` may take it for binary). -/
theorem C119_hole_false : ∃ tree', runJobs [exampleJob [(⟨lit "lo", none⟩, none), (⟨lit "ng", some true⟩, none)], exampleJob [(⟨lit "n", some true⟩, none)]] [0, 0, 1, 0, 1]
      (exampleWorld.tree, [.start, .start]) =
    (tree', [.done true, .done true]) ∧ (⟨tree', []⟩ : World).at (lit "/v/sites/a.com") = .node (.file (lit "n" ++ [0] ++ lit "ng")) := ⟨_, rfl, rfl⟩

/-- Two jobs with different entries, each interrupted. -/
example : (exampleJob []).dest ≠ (⟨[], lit "/v", lit "sites/n", [(⟨lit "x", none⟩, none)]⟩ : InsertJob).dest ∧ put exampleWorld.tree (exampleJob []).dest [] ≠ none := by decide

end Verif.Main
