import Verif.Main.Props
import Verif.Password.Ends
import Verif.FormGen.Props
import Verif.Repo.RootProps
import Verif.Closest.HistoryProps
/-
C140: every command ends, and when it crashes. (The models of the commands are relations between the arguments and the possible results; this says that there is
always a result.)
-/
namespace Verif.Main
open Repo Repo.Spec Closest Cmds Cmds.Spec Main.Spec

theorem addFiles_categories {n : Nat} : ∀ {l : List (Str × Str)} {files files' : Files}, addFiles n files l = some files' → (∀ d, files d ≠ [] → d ∈ categories) →
    ∀ d, files' d ≠ [] → d ∈ categories
  | [], files, files', h, hc => by
    simp only [addFiles, Option.some.injEq] at h; subst h; exact hc
  | (path, name) :: l, files, files', h, hc => by
    simp only [addFiles] at h
    cases hx : addFile n files path name with
    | none => rw [hx] at h; cases h
    | some f1 =>
      rw [hx] at h
      refine addFiles_categories (files := f1) h ?_
      unfold addFile at hx
      split at hx
      · cases hx
      · dsimp only at hx
        split at hx
        · simp only [Option.some.injEq] at hx; subst hx; exact hc
        · split at hx
          · rename_i hd
            simp only [Option.some.injEq] at hx
            subst hx
            intro d hd'
            by_cases e : d = dirOf (path.drop n)
            · rw [e]; exact hd
            · simp only [e, if_false] at hd'; exact hc d hd'
          · simp only [Option.some.injEq] at hx; subst hx; exact hc

theorem scan_categories {w : World} {root : Str} {files : Files} (h : scan w root = .ok files) : ∀ d, files d ≠ [] → d ∈ categories := by
  unfold scan at h
  split at h
  · cases h
  · cases h
  · split at h
    · cases h
    · rename_i hx
      simp only [Outcome.ok.injEq] at h
      subst h
      exact addFiles_categories hx (fun d hd => absurd rfl hd)

/-- The groups of a store can be visited in some order. -/
theorem groupOrder_exists {w : World} {root : Str} {files : Files} (h : scan w root = .ok files) : ∃ order, GroupOrder files order := by
  refine ⟨categories.filter fun d => !(files d).isEmpty, List.Nodup.filter _ (by decide), fun d => ?_⟩
  simp only [List.mem_filter, Bool.not_eq_true', List.isEmpty_eq_false_iff]
  exact ⟨fun hd => hd.2, fun hd => ⟨scan_categories h d hd, hd⟩⟩

theorem new_total (other : Str → Str) (ws : List Str) : ∃ cm, new other ws [2] = some cm ∧
    (∀ q, q ≠ [] → ¬ MatchPanics cm q ∧ (∃ out, Closest cm q out) ∧ ∀ n : Int, CanMake n → ∃ out, ClosestN cm q n out) := by
  obtain ⟨cm, e, h⟩ := C94_search other [2] ws []
  have e' : new other ws [2] = some cm := by simpa using e
  refine ⟨cm, e', fun q hq => ?_⟩
  have hn : ¬ MatchPanics cm q := by
    rw [C94_new_crashes_iff other [2] ws cm e' q]
    exact fun hh => hq hh.1
  obtain ⟨h1, -, -, -, h5⟩ := h q
  obtain ⟨h6, h7⟩ := h5 (fun hf => hn (h1.2 hf))
  refine ⟨hn, h6, fun n hm => ?_⟩
  obtain ⟨k, rfl⟩ := Int.eq_ofNat_of_zero_le hm.1
  exact h7 k (by have := hm.2; omega)

theorem list_ends (other expand : Str → Str) (w : World) (root sub : Str) : ∃ res, List' other expand w root sub res := by
  unfold List'
  cases hs : scan w (expand root) with
  | err => exact ⟨_, rfl⟩
  | fatal => exact ⟨_, rfl⟩
  | panic => exact ⟨_, rfl⟩
  | ok files =>
    obtain ⟨order, ho⟩ := groupOrder_exists hs
    dsimp only
    split
    · exact ⟨_, _, ⟨order, ho, rfl⟩, rfl⟩
    · rename_i hne
      obtain ⟨cm, hc, h⟩ := new_total other order
      obtain ⟨-, ⟨out, h2⟩, -⟩ := h sub hne
      exact ⟨_, order, cm, ho, hc, Or.inr ⟨out, h2, rfl⟩⟩

theorem show_ends (other expand : Str → Str) (w : World) (root : Str) (a : ShowArgs) : ∃ res, Show other expand w root a res := by
  unfold Show
  cases hs : scan w (expand root) with
  | err => exact ⟨_, rfl⟩
  | fatal => exact ⟨_, rfl⟩
  | panic => exact ⟨_, rfl⟩
  | ok files =>
    obtain ⟨order, ho⟩ := groupOrder_exists hs
    dsimp only
    split
    · rename_i hne
      obtain ⟨cm, hc, h⟩ := new_total other (order.flatMap files)
      obtain ⟨-, ⟨out, h2⟩, -⟩ := h a.passName hne
      exact ⟨_, some out, ⟨_, cm, ⟨order, ho, rfl⟩, hc, Or.inr ⟨out, h2, rfl⟩⟩, rfl⟩
    · exact ⟨_, rfl⟩

theorem grep_ends (expand : Str → Str) (w : World) (root g : Str) (p : Option (Str → Bool)) : ∃ res, Grep expand w root g p res := by
  unfold Grep
  cases hs : scan w (expand root) with
  | err => exact ⟨_, rfl⟩
  | fatal => exact ⟨_, rfl⟩
  | panic => exact ⟨_, rfl⟩
  | ok files =>
    obtain ⟨order, ho⟩ := groupOrder_exists hs
    dsimp only
    split
    · cases p with
      | none => exact ⟨_, rfl⟩
      | some p => exact ⟨_, _, ⟨order, ho, rfl⟩, rfl⟩
    · exact ⟨_, rfl⟩

theorem search_ends (other expand : Str → Str) (w : World) (root : Str) (k : Int) (s t : Str) : ∃ res, Search other expand w root k s t res := by
  unfold Search
  cases hs : scan w (expand root) with
  | err => exact ⟨_, rfl⟩
  | fatal => exact ⟨_, rfl⟩
  | panic => exact ⟨_, rfl⟩
  | ok files =>
    obtain ⟨order, ho⟩ := groupOrder_exists hs
    dsimp only
    split
    · rename_i hne
      obtain ⟨cm, hc, h⟩ := new_total other (order.flatMap files)
      obtain ⟨-, -, h3⟩ := h s hne
      by_cases hk : CanMake k
      · obtain ⟨out, h4⟩ := h3 k hk
        exact ⟨_, _, cm, ⟨order, ho, rfl⟩, hc, Or.inr ⟨out, h4, rfl⟩⟩
      · exact ⟨.panic, _, cm, ⟨order, ho, rfl⟩, hc, Or.inl ⟨Or.inl hk, rfl⟩⟩
    · exact ⟨_, rfl⟩

theorem setEnv_ends (otherUp expand : Str → Str) (w : World) (root n : Str) : ∃ r, SetEnv otherUp expand w root n r := by
  unfold SetEnv
  cases hs : scan w (expand root) with
  | err => exact ⟨_, rfl⟩
  | fatal => exact ⟨_, rfl⟩
  | panic => exact ⟨_, rfl⟩
  | ok files =>
    obtain ⟨order, ho⟩ := groupOrder_exists hs
    exact ⟨_, _, ⟨order, ho, rfl⟩, rfl⟩

theorem generateRun_noPanic (a : FormGen.GenerateCmd) (stream : Str) (fuel : Nat) : a.run fuel stream ≠ .panic := by
  cases hf : a.form with
  | none =>
    simp only [FormGen.GenerateCmd.run, hf, Password.generate]
    obtain ⟨v, hv, -⟩ := Password.C04_rules_total Password.defaultGenerator a.length a.numbers a.symbols (!a.mixed) (!a.unique)
    have h4 := Password.C04_rejections Password.defaultGenerator (by decide) fuel _ _ _ _ _ v hv stream
    cases v with
    | some e => dsimp only at h4; rw [h4]; simp
    | none =>
      dsimp only at h4
      rcases h4 with ⟨x, r', h4⟩ | h4 | h4 <;> rw [h4] <;> simp
  | some f => exact (FormGen.C10_form a f hf fuel stream).1

/-- The default generator ends on every source, in the way it ends with every larger bound on the retries. -/
theorem generateRun_ends (a : FormGen.GenerateCmd) (stream : Str) (fuel : Nat) (h : stream.length < fuel) :
    a.run fuel stream ≠ .nofuel ∧ ∀ fuel', fuel ≤ fuel' → a.run fuel' stream = a.run fuel stream := by
  have hg := fun l d s nu ar fuel' h' => Password.C140_generate Password.defaultGenerator (by decide) (by decide) (by decide) l d s nu ar stream fuel fuel' h h'
  refine ⟨?_, ?_⟩
  · cases hf : a.form with
    | none =>
      simp only [FormGen.GenerateCmd.run, hf]
      have := (hg a.length a.numbers a.symbols (!a.mixed) (!a.unique) fuel (Nat.le_refl _)).1
      unfold Password.generate
      split <;> simp_all
    | some f =>
      simp only [FormGen.GenerateCmd.run, hf]
      generalize FormGen.formRequest (FormGen.countForm f {}) = q
      have := (hg q.1 q.2.1 q.2.2 (!a.mixed) (!a.unique) fuel (Nat.le_refl _)).1
      unfold Password.generate
      split
      · split <;> simp
      all_goals simp_all
  · intro fuel' h'
    cases hf : a.form with
    | none =>
      simp only [FormGen.GenerateCmd.run, hf, Password.generate]
      rw [(hg a.length a.numbers a.symbols (!a.mixed) (!a.unique) fuel' h').2]
    | some f =>
      simp only [FormGen.GenerateCmd.run, hf, Password.generate]
      generalize FormGen.formRequest (FormGen.countForm f {}) = q
      rw [(hg q.1 q.2.1 q.2.2 (!a.mixed) (!a.unique) fuel' h').2]

/-- **C140** Every command ends: on every system, in every environment, with every tree of files, root and arguments there is a result. -/
theorem C140_ends (other otherUp : Str → Str) (goos : Str) (env : Env) (w : World) (flag : Str) (c : Cmd) : ∃ w' res, Run other otherUp goos env w flag c w' res := by
  cases c with
  | init s => exact ⟨w, _, rfl, rfl⟩
  | list s => obtain ⟨res, h⟩ := list_ends other (expandEnv env) w (rootOf goos flag) s; exact ⟨w, res, rfl, h⟩
  | setEnv n =>
    obtain ⟨r, h⟩ := setEnv_ends otherUp (expandEnv env) w (rootOf goos flag) n
    rcases r with _ | ⟨calls, b⟩
    · cases hs : scan w (expandEnv env (rootOf goos flag)) with
      | ok f => exact ⟨w, .err, rfl, none, h, by simp only [hs]⟩
      | err => exact ⟨w, .err, rfl, none, h, by simp only [hs]⟩
      | fatal => exact ⟨w, .fatal, rfl, none, h, by simp only [hs]⟩
      | panic => exact ⟨w, .panic, rfl, none, h, by simp only [hs]⟩
    · cases b
      · exact ⟨w, _, rfl, _, h, rfl⟩
      · exact ⟨w, _, rfl, _, h, rfl⟩
  | insert file n =>
    cases file with
    | none => exact ⟨w, _, rfl, rfl⟩
    | some file =>
      simp only [Run]
      cases sourceText w file (w.parts (joinPath (rootOf goos flag) n)) with
      | none => exact ⟨w, _, rfl, rfl⟩
      | some content =>
        dsimp only
        cases Cmds.insert w (rootOf goos flag) n content with
        | none => exact ⟨w, _, rfl, rfl⟩
        | some v => exact ⟨v, _, rfl, rfl⟩
  | «show» a => obtain ⟨res, h⟩ := show_ends other (expandEnv env) w (rootOf goos flag) a; exact ⟨w, res, rfl, h⟩
  | search k s t => obtain ⟨res, h⟩ := search_ends other (expandEnv env) w (rootOf goos flag) k s t; exact ⟨w, res, rfl, h⟩
  | grep g p => obtain ⟨res, h⟩ := grep_ends (expandEnv env) w (rootOf goos flag) g p; exact ⟨w, res, rfl, h⟩
  | generate a stream =>
    have h := (generateRun_ends a stream (stream.length + 1) (Nat.lt_succ_self _)).1
    cases hx : a.run (stream.length + 1) stream with
    | ok pw => exact ⟨w, _, rfl, stream.length + 1, by rw [hx]⟩
    | err e => exact ⟨w, .err, rfl, stream.length + 1, by rw [hx]⟩
    | panic => exact ⟨w, .panic, rfl, stream.length + 1, by rw [hx]⟩
    | nofuel => exact absurd hx h
  | remove r f n => exact ⟨w, _, rfl, rfl⟩
  | rename f o n => exact ⟨w, _, rfl, rfl⟩
  | copy f o n => exact ⟨w, _, rfl, rfl⟩

/-- **C140** So do several runs of the program, one after the other. -/
theorem C140_session (other otherUp : Str → Str) (goos : Str) (env : Env) : ∀ (calls : List Call) (w : World), ∃ w', Session other otherUp goos env w calls w'
  | [], w => ⟨w, .nil w⟩
  | c :: calls, w => by
    obtain ⟨w1, res, h⟩ := C140_ends other otherUp goos env { w with cwd := c.cwd } c.flag c.cmd
    obtain ⟨w2, h2⟩ := C140_session other otherUp goos env calls w1
    exact ⟨w2, .cons h h2⟩

/-- The store at `root` makes `Scan` crash: `root` is a file, or a directory not called `.git` with a file below it (outside `.git`) whose path, as `filepath.Walk` makes it,
is not longer than the root as it is written. -/
def StoreCrashes (w : World) (root : Str) : Prop := (∃ c, w.at root = .node (.file c)) ∨
  ∃ es, w.at root = .node (.dir es) ∧ baseName root ≠ lit ".git" ∧ ∃ ps, Reached es ps ∧ (walkedPath root ps).length ≤ root.length

/-- The store at `root` can be listed: `root` is a directory, and `Scan` does not crash. -/
def StoreListed (w : World) (root : Str) : Prop := (∃ es, w.at root = .node (.dir es)) ∧ ¬ StoreCrashes w root

theorem scan_panic_iff {w : World} {root : Str} (hwf : ∀ nd, w.at root = .node nd → nd.WF) : scan w root = .panic ↔ StoreCrashes w root := C81_panics_iff w root hwf

theorem scan_ok_iff {w : World} {root : Str} (hwf : ∀ nd, w.at root = .node nd → nd.WF) : (∃ files, scan w root = .ok files) ↔ StoreListed w root := by
  unfold StoreListed
  rw [← scan_panic_iff hwf]
  cases hw : w.at root with
  | noEnt => simp [scan, hw]
  | notDir => simp [scan, hw]
  | node nd =>
    cases nd with
    | file c =>
      have : scan w root = .panic := (scan_panic_iff hwf).2 (Or.inl ⟨c, hw⟩)
      simp [this]
    | dir es =>
      simp only [scan, hw]
      split <;> simp

/-- **C140** When a command crashes. The commands that do not read the store never do. `list`, `setenv`, `grep`, and `show` without a code, do exactly if `Scan` crashes on the
store; `search` also if a text is given and the number of results is negative or above 2^44. (For `show` with a code see C78.) -/
theorem C140_crashes (other otherUp : Str → Str) (goos : Str) (env : Env) (w : World) (flag : Str) (c : Cmd) (w' : World) (res : Res)
    (hwf : ∀ nd, w.at (expandEnv env (rootOf goos flag)) = .node nd → nd.WF) (h : Run other otherUp goos env w flag c w' res) :
    let root := expandEnv env (rootOf goos flag)
    match c with
    | .init _ | .insert _ _ | .generate _ _ | .remove _ _ _ | .rename _ _ _ | .copy _ _ _ => res ≠ .panic
    | .list _ | .setEnv _ | .grep _ _ => res = .panic ↔ StoreCrashes w root
    | .search k s _ => res = .panic ↔ StoreCrashes w root ∨ (StoreListed w root ∧ s ≠ [] ∧ ¬ (0 ≤ k ∧ k ≤ 2 ^ 44))
    | .show a => a.qrCode = false → (res = .panic ↔ StoreCrashes w root) := by
  intro root
  have hp := scan_panic_iff hwf
  have hk := scan_ok_iff hwf
  change scan w root = .panic ↔ _ at hp
  change (∃ files, scan w root = .ok files) ↔ _ at hk
  cases c with
  | init s => obtain ⟨-, rfl⟩ := h; simp
  | list s =>
    obtain ⟨-, h⟩ := h
    change List' other (expandEnv env) w (rootOf goos flag) s res at h
    dsimp only
    rw [← hp]
    unfold List' at h
    change (match scan w root with | .err => _ | .fatal => _ | .panic => _ | .ok files => _) at h
    cases hs : scan w root with
    | err => rw [hs] at h; subst h; simp
    | fatal => rw [hs] at h; subst h; simp
    | panic => rw [hs] at h; subst h; simp
    | ok files =>
      rw [hs] at h
      dsimp only at h
      split at h
      · obtain ⟨ws, -, rfl⟩ := h; simp
      · rename_i hne
        obtain ⟨order, cm, -, hc, h⟩ := h
        obtain ⟨cm', hc', h2⟩ := new_total other order
        rw [hc] at hc'; cases hc'
        rcases h with ⟨h, -⟩ | ⟨x, -, rfl⟩
        · exact absurd h (h2 s hne).1
        · simp
  | setEnv n =>
    obtain ⟨-, r, h, h2⟩ := h
    dsimp only
    rw [← hp]
    unfold SetEnv at h
    change (match scan w root with | .ok files => _ | _ => _) at h
    cases hs : scan w root with
    | err => rw [hs] at h; subst h; have hs' : scan w (expandEnv env (rootOf goos flag)) = .err := hs; simp only [hs'] at h2; subst h2; simp
    | fatal => rw [hs] at h; subst h; have hs' : scan w (expandEnv env (rootOf goos flag)) = .fatal := hs; simp only [hs'] at h2; subst h2; simp
    | panic => rw [hs] at h; subst h; have hs' : scan w (expandEnv env (rootOf goos flag)) = .panic := hs; simp only [hs'] at h2; subst h2; simp
    | ok files =>
      rw [hs] at h
      obtain ⟨ws, -, rfl⟩ := h
      generalize setEnvLoop otherUp w _ n ws [] = x at h2
      obtain ⟨calls, b⟩ := x
      cases b <;> (dsimp only at h2; subst h2; simp)
  | insert file n =>
    cases file with
    | none => obtain ⟨-, rfl⟩ := h; simp
    | some file =>
      simp only [Run] at h
      split at h
      · obtain ⟨-, rfl⟩ := h; simp
      · split at h <;> (obtain ⟨-, rfl⟩ := h; simp)
  | «show» a =>
    obtain ⟨-, h⟩ := h
    change Show other (expandEnv env) w (rootOf goos flag) a res at h
    intro hq
    have hfin : ∀ st, showFinish a st ≠ .panic := by
      intro st; unfold showFinish; rw [hq]; simp
    rw [← hp]
    unfold Show at h
    change (match scan w root with | .err => _ | .fatal => _ | .panic => _ | .ok files => _) at h
    cases hs : scan w root with
    | err => rw [hs] at h; subst h; simp
    | fatal => rw [hs] at h; subst h; simp
    | panic => rw [hs] at h; subst h; simp
    | ok files =>
      rw [hs] at h
      dsimp only at h
      split at h
      · rename_i hne
        obtain ⟨f, ⟨ws, cm, -, hc, hx⟩, h⟩ := h
        obtain ⟨cm', hc', h2⟩ := new_total other ws
        rw [hc] at hc'; cases hc'
        rcases hx with ⟨hx, -⟩ | ⟨x, -, rfl⟩
        · exact absurd hx (h2 _ hne).1
        · dsimp only at h
          subst h
          have : showFile w (expandEnv env (rootOf goos flag)) a x ≠ .panic := by
            unfold showFile
            split
            · dsimp only
              split
              · simp
              · exact hfin _
              · exact hfin _
            · exact hfin _
          simp [this]
      · subst h; simp [hfin]
  | search k s t =>
    obtain ⟨-, h⟩ := h
    change Search other (expandEnv env) w (rootOf goos flag) k s t res at h
    dsimp only
    rw [← hp, ← hk]
    unfold Search at h
    change (match scan w root with | .err => _ | .fatal => _ | .panic => _ | .ok files => _) at h
    cases hs : scan w root with
    | err => rw [hs] at h; subst h; simp
    | fatal => rw [hs] at h; subst h; simp
    | panic => rw [hs] at h; subst h; simp
    | ok files =>
      rw [hs] at h
      dsimp only at h
      split at h
      · rename_i hne
        obtain ⟨ws, cm, -, hc, h⟩ := h
        obtain ⟨cm', hc', h2⟩ := new_total other ws
        rw [hc] at hc'; cases hc'
        rcases h with ⟨h | h, rfl⟩ | ⟨x, hx, rfl⟩
        · exact ⟨fun _ => Or.inr ⟨⟨_, rfl⟩, hne, h⟩, fun _ => rfl⟩
        · exact absurd h (h2 _ hne).1
        · constructor
          · intro hh; cases hh
          · rintro (hh | ⟨-, -, hh⟩)
            · cases hh
            · exact absurd hx.1 hh
      · rename_i hne
        subst h
        simp only [not_not] at hne
        simp [hne]
  | grep g p =>
    obtain ⟨-, h⟩ := h
    change Grep (expandEnv env) w (rootOf goos flag) g p res at h
    dsimp only
    rw [← hp]
    unfold Grep at h
    change (match scan w root with | .err => _ | .fatal => _ | .panic => _ | .ok files => _) at h
    cases hs : scan w root with
    | err => rw [hs] at h; subst h; simp
    | fatal => rw [hs] at h; subst h; simp
    | panic => rw [hs] at h; subst h; simp
    | ok files =>
      rw [hs] at h
      dsimp only at h
      split at h
      · cases p with
        | none => dsimp only at h; subst h; simp
        | some p => obtain ⟨ws, -, rfl⟩ := h; simp
      · subst h; simp
  | generate a stream =>
    obtain ⟨-, fuel, h⟩ := h
    dsimp only
    split at h
    · subst h; simp
    · subst h; simp
    · rename_i hx
      exact absurd hx (generateRun_noPanic a stream fuel)
    · exact h.elim
  | remove r f n => obtain ⟨-, rfl⟩ := h; simp
  | rename f o n => obtain ⟨-, rfl⟩ := h; simp
  | copy f o n => obtain ⟨-, rfl⟩ := h; simp

/-- **C140** Without a store: if nothing has the path of the root, the commands that read the store end with an error; if a directory in the path is a file, the program ends
with a message (`log.Fatal`). The file system stays as it is. -/
theorem C140_no_store (other otherUp : Str → Str) (goos : Str) (env : Env) (w : World) (flag : Str) (c : Cmd)
    (hc : match c with | .list _ | .setEnv _ | .grep _ _ | .search _ _ _ | .show _ => True | _ => False)
    (w' : World) (res : Res) (h : Run other otherUp goos env w flag c w' res) :
    w' = w ∧ (w.at (expandEnv env (rootOf goos flag)) = .noEnt → res = .err) ∧ (w.at (expandEnv env (rootOf goos flag)) = .notDir → res = .fatal) := by
  have h1 : w.at (expandEnv env (rootOf goos flag)) = .noEnt → scan w (expandEnv env (rootOf goos flag)) = .err := fun h => by simp only [scan, h]
  have h2 : w.at (expandEnv env (rootOf goos flag)) = .notDir → scan w (expandEnv env (rootOf goos flag)) = .fatal := fun h => by simp only [scan, h]
  cases c with
  | list s =>
    obtain ⟨hw, h⟩ := h
    change List' other (expandEnv env) w (rootOf goos flag) s res at h
    refine ⟨hw, fun hh => ?_, fun hh => ?_⟩
    · unfold List' at h; rw [h1 hh] at h; exact h
    · unfold List' at h; rw [h2 hh] at h; exact h
  | setEnv n =>
    obtain ⟨hw, r, h, h3⟩ := h
    unfold SetEnv at h
    refine ⟨hw, fun hh => ?_, fun hh => ?_⟩
    · rw [h1 hh] at h; subst h; simp only [h1 hh] at h3; exact h3
    · rw [h2 hh] at h; subst h; simp only [h2 hh] at h3; exact h3
  | «show» a =>
    obtain ⟨hw, h⟩ := h
    change Show other (expandEnv env) w (rootOf goos flag) a res at h
    refine ⟨hw, fun hh => ?_, fun hh => ?_⟩
    · unfold Show at h; rw [h1 hh] at h; exact h
    · unfold Show at h; rw [h2 hh] at h; exact h
  | search k s t =>
    obtain ⟨hw, h⟩ := h
    change Search other (expandEnv env) w (rootOf goos flag) k s t res at h
    refine ⟨hw, fun hh => ?_, fun hh => ?_⟩
    · unfold Search at h; rw [h1 hh] at h; exact h
    · unfold Search at h; rw [h2 hh] at h; exact h
  | grep g p =>
    obtain ⟨hw, h⟩ := h
    change Grep (expandEnv env) w (rootOf goos flag) g p res at h
    refine ⟨hw, fun hh => ?_, fun hh => ?_⟩
    · unfold Grep at h; rw [h1 hh] at h; exact h
    · unfold Grep at h; rw [h2 hh] at h; exact h
  | _ => exact hc.elim

/-- The store of the example of C96 can be listed, so there `search` crashes exactly for a wrong number of results; with a file as the root every reading command crashes. -/
example : StoreListed homeWorld (lit "/h" ++ lit "/Documents/Vault") ∧ StoreCrashes ⟨.dir [(lit "f", .file [])], []⟩ (lit "/f") := by
  refine ⟨?_, Or.inl ⟨[], rfl⟩⟩
  obtain ⟨files, e, -⟩ := store_scan homeWorld_isStore
  refine (scan_ok_iff ?_).1 ⟨files, e⟩
  intro nd h
  rw [homeWorld_isStore.here] at h
  cases h
  exact homeWorld_isStore.wf

end Verif.Main
