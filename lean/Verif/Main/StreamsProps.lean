import Verif.Main.Streams
import Verif.Main.Props
import Verif.Cmds.ExactProps
import Verif.QR.CapacityProps
/-
C125: what a run of the program writes to standard output and to standard error, and how it ends.
-/
namespace Verif.Main
open Repo Repo.Spec Closest Cmds Cmds.Spec

/-! ### How `RunObs` and `Run` fit together -/

/-- An observation is one of a run with this result. -/
def Agrees (o : Obs) : Res → Prop
  | .ok out none => o.ends = .ok ∧ o.both = out
  | .ok out (some text) =>
    (QR.longest text .L < text.length ∧ o.ends = .panic ∧ o.both = out) ∨
    ∃ picture, QR.generate text .L = some picture ∧ o.ends = .ok ∧ o.both = out ++ picture
  | .err => o.ends = .error
  | .fatal => o.ends = .fatal
  | .panic => o.ends = .panic

theorem draw_agrees (printed text : Str) : Agrees (draw printed text) (.ok printed (some text)) := by
  unfold draw
  cases h : QR.generate text .L with
  | some p => exact Or.inr ⟨p, h, rfl, by simp [Obs.both, Write.text]⟩
  | none => exact Or.inl ⟨(QR.C110_crash_iff text _).1 h, rfl, by simp [Obs.both, Write.text]⟩

theorem showFinish_agrees (a : ShowArgs) (st : ShowSt) : Agrees (showFinishObs a st) (showFinish a st) := by
  unfold showFinishObs showFinish
  by_cases h1 : a.qrCode = true
  · simp only [h1, if_true]
    by_cases h2 : st.qrcode.length > 0
    · simp only [h2, if_true]
      by_cases h3 : st.qrcode.length < a.field.length
      · simp only [h3, if_true]; rfl
      · simp only [h3, if_false]; exact draw_agrees _ _
    · simp only [h2, if_false]
      by_cases h3 : st.fullQrCode.length > 0
      · simp only [h3, if_true]; exact draw_agrees _ _
      · simp only [h3, if_false]; exact ⟨rfl, by simp [Obs.both, Write.text]⟩
  · simp only [h1]; exact ⟨rfl, by simp [Obs.both, Write.text]⟩

theorem showFile_agrees (w : World) (root : Str) (a : ShowArgs) (f : Str) : Agrees (showFileObs w root a f) (showFile w root a f) := by
  unfold showFileObs showFile
  by_cases h : f.length > 0
  · simp only [h, if_true]
    cases w.at (joinPath root f) with
    | noEnt => rfl
    | node n => exact showFinish_agrees _ _
    | notDir => exact showFinish_agrees _ _
  · simp only [h, if_false]; exact showFinish_agrees _ _

/-- `a` holds of some result that fits the observation. -/
def Fits (A : Res → Prop) (o : Obs) : Prop := ∃ res, A res ∧ Agrees o res

theorem show_fits (other expand : Str → Str) (w : World) (root : Str) (a : ShowArgs) :
    (∀ o, ShowObs other expand w root a o → ∃ res, Show other expand w root a res ∧ Agrees o res) ∧
    (∀ res, Show other expand w root a res → ∃ o, ShowObs other expand w root a o ∧ Agrees o res) := by
  unfold ShowObs Show
  cases scan w (expand root) with
  | err => exact ⟨fun o h => ⟨_, rfl, by rw [h]; rfl⟩, fun r h => ⟨_, rfl, by rw [h]; rfl⟩⟩
  | fatal => exact ⟨fun o h => ⟨_, rfl, by rw [h]; rfl⟩, fun r h => ⟨_, rfl, by rw [h]; rfl⟩⟩
  | panic => exact ⟨fun o h => ⟨_, rfl, by rw [h]; rfl⟩, fun r h => ⟨_, rfl, by rw [h]; rfl⟩⟩
  | ok files =>
    simp only
    by_cases hp : a.passName ≠ []
    · simp only [if_pos hp]
      constructor
      · rintro o ⟨f, hf, h⟩
        cases f with
        | none => exact ⟨_, ⟨none, hf, rfl⟩, by simp only at h; rw [h]; rfl⟩
        | some x => exact ⟨_, ⟨some x, hf, rfl⟩, by simp only at h; rw [h]; exact showFile_agrees ..⟩
      · rintro r ⟨f, hf, h⟩
        cases f with
        | none => exact ⟨⟨[], .panic⟩, ⟨none, hf, rfl⟩, by simp only at h; rw [h]; rfl⟩
        | some x => exact ⟨_, ⟨some x, hf, rfl⟩, by simp only at h; rw [h]; exact showFile_agrees ..⟩
    · simp only [if_neg hp]
      exact ⟨fun o h => ⟨_, rfl, by rw [h]; exact showFinish_agrees ..⟩, fun r h => ⟨_, rfl, by rw [h]; exact showFinish_agrees ..⟩⟩

theorem both_outs {α} (l : List α) (g : α → Str) : (⟨l.map fun x => .out (g x), .ok⟩ : Obs).both = l.flatMap g := by
  simp [Obs.both, List.flatMap_map, Write.text]

theorem both_println (l : List Str) : (⟨l.map println, .ok⟩ : Obs).both = l.flatMap fun f => f ++ lit "\n" := by
  simp [Obs.both, List.flatMap_map, Write.text, println]

theorem grep_fits (expand : Str → Str) (w : World) (root grep : Str) (compiled : Option (Str → Bool)) :
    (∀ o, GrepObs expand w root grep compiled o → ∃ res, Grep expand w root grep compiled res ∧ Agrees o res) ∧
    (∀ res, Grep expand w root grep compiled res → ∃ o, GrepObs expand w root grep compiled o ∧ Agrees o res) := by
  unfold GrepObs Grep
  cases scan w (expand root) with
  | err => exact ⟨fun o h => ⟨_, rfl, by rw [h]; rfl⟩, fun r h => ⟨_, rfl, by rw [h]; rfl⟩⟩
  | fatal => exact ⟨fun o h => ⟨_, rfl, by rw [h]; rfl⟩, fun r h => ⟨_, rfl, by rw [h]; rfl⟩⟩
  | panic => exact ⟨fun o h => ⟨_, rfl, by rw [h]; rfl⟩, fun r h => ⟨_, rfl, by rw [h]; rfl⟩⟩
  | ok files =>
    simp only
    by_cases hp : grep ≠ []
    · simp only [if_pos hp]
      cases compiled with
      | none => exact ⟨fun o h => ⟨_, rfl, by simp only at h; rw [h]; rfl⟩, fun r h => ⟨⟨[], .error⟩, rfl, by simp only at h; rw [h]; rfl⟩⟩
      | some p =>
        constructor
        · rintro o ⟨ws, hw, h⟩
          exact ⟨_, ⟨ws, hw, rfl⟩, by rw [h]; exact ⟨rfl, both_outs _ _⟩⟩
        · rintro r ⟨ws, hw, h⟩
          exact ⟨_, ⟨ws, hw, rfl⟩, by rw [h]; exact ⟨rfl, both_outs _ _⟩⟩
    · simp only [if_neg hp]
      exact ⟨fun o h => ⟨_, rfl, by rw [h]; exact ⟨rfl, rfl⟩⟩, fun r h => ⟨⟨[], .ok⟩, rfl, by rw [h]; exact ⟨rfl, rfl⟩⟩⟩

theorem search_fits (other expand : Str → Str) (w : World) (root : Str) (k : Int) (s t : Str) :
    (∀ o, SearchObs other expand w root k s t o → ∃ res, Search other expand w root k s t res ∧ Agrees o res) ∧
    (∀ res, Search other expand w root k s t res → ∃ o, SearchObs other expand w root k s t o ∧ Agrees o res) := by
  unfold SearchObs Search
  cases scan w (expand root) with
  | err => exact ⟨fun o h => ⟨_, rfl, by rw [h]; rfl⟩, fun r h => ⟨_, rfl, by rw [h]; rfl⟩⟩
  | fatal => exact ⟨fun o h => ⟨_, rfl, by rw [h]; rfl⟩, fun r h => ⟨_, rfl, by rw [h]; rfl⟩⟩
  | panic => exact ⟨fun o h => ⟨_, rfl, by rw [h]; rfl⟩, fun r h => ⟨_, rfl, by rw [h]; rfl⟩⟩
  | ok files =>
    simp only
    have hb : ∀ (closest : List Str), (⟨closest.map fun f =>
          if t.length > 0 then .out (printMatches f (searchInFile w (joinPath (expand root) f) (compareWith (containsStr t)))) else println f, .ok⟩ : Obs).both =
        closest.flatMap fun f => if t.length > 0 then printMatches f (searchInFile w (joinPath (expand root) f) (compareWith (containsStr t))) else f ++ lit "\n" := by
      intro closest
      by_cases ht : t.length > 0
      · simp only [if_pos ht]; exact both_outs _ _
      · simp only [if_neg ht]; exact both_println _
    by_cases hp : s ≠ []
    · simp only [if_pos hp]
      constructor
      · rintro o ⟨ws, cm, hw, hn, ⟨h1, h2⟩ | ⟨closest, h1, h2⟩⟩
        · exact ⟨_, ⟨ws, cm, hw, hn, Or.inl ⟨h1, rfl⟩⟩, by rw [h2]; rfl⟩
        · exact ⟨_, ⟨ws, cm, hw, hn, Or.inr ⟨closest, h1, rfl⟩⟩, by rw [h2]; exact ⟨rfl, hb closest⟩⟩
      · rintro r ⟨ws, cm, hw, hn, ⟨h1, h2⟩ | ⟨closest, h1, h2⟩⟩
        · exact ⟨_, ⟨ws, cm, hw, hn, Or.inl ⟨h1, rfl⟩⟩, by rw [h2]; rfl⟩
        · exact ⟨_, ⟨ws, cm, hw, hn, Or.inr ⟨closest, h1, rfl⟩⟩, by rw [h2]; exact ⟨rfl, hb closest⟩⟩
    · simp only [if_neg hp]
      exact ⟨fun o h => ⟨_, rfl, by rw [h]; exact ⟨rfl, rfl⟩⟩, fun r h => ⟨⟨[], .ok⟩, rfl, by rw [h]; exact ⟨rfl, rfl⟩⟩⟩

theorem list_fits (other expand : Str → Str) (w : World) (root s : Str) :
    (∀ o, ListObs other expand w root s o → ∃ res, List' other expand w root s res ∧ Agrees o res) ∧
    (∀ res, List' other expand w root s res → ∃ o, ListObs other expand w root s o ∧ Agrees o res) := by
  unfold ListObs List'
  cases scan w (expand root) with
  | err => exact ⟨fun o h => ⟨_, rfl, by rw [h]; rfl⟩, fun r h => ⟨_, rfl, by rw [h]; rfl⟩⟩
  | fatal => exact ⟨fun o h => ⟨_, rfl, by rw [h]; rfl⟩, fun r h => ⟨_, rfl, by rw [h]; rfl⟩⟩
  | panic => exact ⟨fun o h => ⟨_, rfl, by rw [h]; rfl⟩, fun r h => ⟨_, rfl, by rw [h]; rfl⟩⟩
  | ok files =>
    simp only
    by_cases hp : s = []
    · simp only [if_pos hp]
      constructor
      · rintro o ⟨ws, hw, h⟩
        exact ⟨_, ⟨ws, hw, rfl⟩, by rw [h]; exact ⟨rfl, both_println _⟩⟩
      · rintro r ⟨ws, hw, h⟩
        exact ⟨_, ⟨ws, hw, rfl⟩, by rw [h]; exact ⟨rfl, both_println _⟩⟩
    · simp only [if_neg hp]
      constructor
      · rintro o ⟨ws, cm, hw, hn, ⟨h1, h2⟩ | ⟨closest, h1, h2⟩⟩
        · exact ⟨_, ⟨ws, cm, hw, hn, Or.inl ⟨h1, rfl⟩⟩, by rw [h2]; rfl⟩
        · exact ⟨_, ⟨ws, cm, hw, hn, Or.inr ⟨closest, h1, rfl⟩⟩, by rw [h2]; exact ⟨rfl, both_println _⟩⟩
      · rintro r ⟨ws, cm, hw, hn, ⟨h1, h2⟩ | ⟨closest, h1, h2⟩⟩
        · exact ⟨_, ⟨ws, cm, hw, hn, Or.inl ⟨h1, rfl⟩⟩, by rw [h2]; rfl⟩
        · exact ⟨_, ⟨ws, cm, hw, hn, Or.inr ⟨closest, h1, rfl⟩⟩, by rw [h2]; exact ⟨rfl, both_println _⟩⟩

/-- **C125** A run that can be observed is a run of `Run`, and the other way round: what C50, C72, C74, C78-C80, C96 say about results is what is seen on a terminal that shows both
streams (with the picture drawn after the text, or a crash instead of it). -/
theorem C125_agrees (other otherUp : Str → Str) (goos : Str) (env : Env) (w : World) (flag : Str) (c : Cmd) (w' : World) :
    (∀ o, RunObs other otherUp goos env w flag c w' o → ∃ res, Run other otherUp goos env w flag c w' res ∧ Agrees o res) ∧
    (∀ res, Run other otherUp goos env w flag c w' res → ∃ o, RunObs other otherUp goos env w flag c w' o ∧ Agrees o res) := by
  cases c with
  | init s => exact ⟨fun o h => ⟨_, ⟨h.1, rfl⟩, by rw [h.2]; exact ⟨rfl, by simp [Obs.both, Write.text]⟩⟩, fun r h => ⟨_, ⟨h.1, rfl⟩, by rw [h.2]; exact ⟨rfl, by simp [Obs.both, Write.text]⟩⟩⟩
  | list s =>
    obtain ⟨h1, h2⟩ := list_fits other (expandEnv env) w (rootOf goos flag) s
    exact ⟨fun o h => let ⟨r, a, b⟩ := h1 o h.2; ⟨r, ⟨h.1, a⟩, b⟩, fun r h => let ⟨o, a, b⟩ := h2 r h.2; ⟨o, ⟨h.1, a⟩, b⟩⟩
  | «show» a =>
    obtain ⟨h1, h2⟩ := show_fits other (expandEnv env) w (rootOf goos flag) a
    exact ⟨fun o h => let ⟨r, a, b⟩ := h1 o h.2; ⟨r, ⟨h.1, a⟩, b⟩, fun r h => let ⟨o, a, b⟩ := h2 r h.2; ⟨o, ⟨h.1, a⟩, b⟩⟩
  | search k s t =>
    obtain ⟨h1, h2⟩ := search_fits other (expandEnv env) w (rootOf goos flag) k s t
    exact ⟨fun o h => let ⟨r, a, b⟩ := h1 o h.2; ⟨r, ⟨h.1, a⟩, b⟩, fun r h => let ⟨o, a, b⟩ := h2 r h.2; ⟨o, ⟨h.1, a⟩, b⟩⟩
  | grep g p =>
    obtain ⟨h1, h2⟩ := grep_fits (expandEnv env) w (rootOf goos flag) g p
    exact ⟨fun o h => let ⟨r, a, b⟩ := h1 o h.2; ⟨r, ⟨h.1, a⟩, b⟩, fun r h => let ⟨o, a, b⟩ := h2 r h.2; ⟨o, ⟨h.1, a⟩, b⟩⟩
  | setEnv n =>
    have hb : ∀ (l : List (Str × Str)) e, (⟨l.map fun kv => .out (kv.1 ++ lit "=" ++ kv.2 ++ lit "\n"), e⟩ : Obs).both = printCalls l := by
      intro l e
      exact both_outs l _
    simp only [RunObs, Run, SetEnvObs, SetEnv]
    cases hsc : scan w (expandEnv env (rootOf goos flag)) with
    | err => exact ⟨fun o h => ⟨.err, ⟨h.1, none, rfl, rfl⟩, by rw [h.2]; rfl⟩, fun r h => by
        obtain ⟨h1, x, hx, h2⟩ := h
        simp only at hx
        subst hx
        exact ⟨_, ⟨h1, rfl⟩, by simp only at h2; rw [h2]; rfl⟩⟩
    | fatal => exact ⟨fun o h => ⟨.fatal, ⟨h.1, none, rfl, rfl⟩, by rw [h.2]; rfl⟩, fun r h => by
        obtain ⟨h1, x, hx, h2⟩ := h
        simp only at hx
        subst hx
        exact ⟨_, ⟨h1, rfl⟩, by simp only at h2; rw [h2]; rfl⟩⟩
    | panic => exact ⟨fun o h => ⟨.panic, ⟨h.1, none, rfl, rfl⟩, by rw [h.2]; rfl⟩, fun r h => by
        obtain ⟨h1, x, hx, h2⟩ := h
        simp only at hx
        subst hx
        exact ⟨_, ⟨h1, rfl⟩, by simp only at h2; rw [h2]; rfl⟩⟩
    | ok files =>
      simp only
      constructor
      · rintro o ⟨h1, ws, hw, h2⟩
        cases hl : setEnvLoop otherUp w (expandEnv env (rootOf goos flag)) n ws [] with
        | mk calls failed =>
          rw [hl] at h2
          cases failed with
          | false => exact ⟨_, ⟨h1, _, ⟨ws, hw, by rw [hl]⟩, rfl⟩, by rw [h2]; exact ⟨rfl, hb _ _⟩⟩
          | true => exact ⟨_, ⟨h1, _, ⟨ws, hw, by rw [hl]⟩, rfl⟩, by rw [h2]; rfl⟩
      · rintro r ⟨h1, x, ⟨ws, hw, rfl⟩, h2⟩
        refine ⟨_, ⟨h1, ws, hw, rfl⟩, ?_⟩
        cases hl : setEnvLoop otherUp w (expandEnv env (rootOf goos flag)) n ws [] with
        | mk calls failed =>
          rw [hl] at h2
          cases failed with
          | false => simp only at h2; rw [h2]; exact ⟨rfl, hb _ _⟩
          | true => simp only at h2; rw [h2]; rfl
  | insert file n =>
    cases file with
    | none => exact ⟨fun o h => ⟨_, ⟨h.1, rfl⟩, by rw [h.2]; exact ⟨rfl, by simp [Obs.both, Write.text]⟩⟩, fun r h => ⟨_, ⟨h.1, rfl⟩, by rw [h.2]; exact ⟨rfl, by simp [Obs.both, Write.text]⟩⟩⟩
    | some file =>
      simp only [RunObs, Run]
      cases sourceText w file (w.parts (joinPath (rootOf goos flag) n)) with
      | none => exact ⟨fun o h => ⟨_, ⟨h.1, rfl⟩, by rw [h.2]; rfl⟩, fun r h => ⟨⟨[], .error⟩, ⟨h.1, rfl⟩, by rw [h.2]; rfl⟩⟩
      | some content =>
        simp only
        cases insert w (rootOf goos flag) n content with
        | none => exact ⟨fun o h => ⟨_, ⟨h.1, rfl⟩, by rw [h.2]; rfl⟩, fun r h => ⟨⟨[], .error⟩, ⟨h.1, rfl⟩, by rw [h.2]; rfl⟩⟩
        | some v => exact ⟨fun o h => ⟨_, ⟨h.1, rfl⟩, by rw [h.2]; exact ⟨rfl, rfl⟩⟩, fun r h => ⟨⟨[], .ok⟩, ⟨h.1, rfl⟩, by rw [h.2]; exact ⟨rfl, rfl⟩⟩⟩
  | generate a stream =>
    simp only [RunObs, Run]
    constructor
    · rintro o ⟨h1, fuel, h⟩
      cases hr : a.run fuel stream <;> rw [hr] at h
      · exact ⟨_, ⟨h1, fuel, by rw [hr]⟩, by simp only at h; rw [h]; exact ⟨rfl, by simp [Obs.both, Write.text]⟩⟩
      · exact ⟨.err, ⟨h1, fuel, by rw [hr]⟩, by simp only at h; rw [h]; rfl⟩
      · exact ⟨.panic, ⟨h1, fuel, by rw [hr]⟩, by simp only at h; rw [h]; rfl⟩
      · exact h.elim
    · rintro r ⟨h1, fuel, h⟩
      cases hr : a.run fuel stream <;> rw [hr] at h
      · exact ⟨_, ⟨h1, fuel, by rw [hr]⟩, by simp only at h; rw [h]; exact ⟨rfl, by simp [Obs.both, Write.text]⟩⟩
      · exact ⟨⟨[], .error⟩, ⟨h1, fuel, by rw [hr]⟩, by simp only at h; rw [h]; rfl⟩
      · exact ⟨⟨[], .panic⟩, ⟨h1, fuel, by rw [hr]⟩, by simp only at h; rw [h]; rfl⟩
      · exact h.elim
  | remove r f n => exact ⟨fun o h => ⟨_, ⟨h.1, rfl⟩, by rw [h.2]; exact ⟨rfl, by simp [Obs.both, Write.text, lit]⟩⟩, fun r h => ⟨_, ⟨h.1, rfl⟩, by rw [h.2]; exact ⟨rfl, by simp [Obs.both, Write.text, lit]⟩⟩⟩
  | rename f p n => exact ⟨fun o h => ⟨_, ⟨h.1, rfl⟩, by rw [h.2]; exact ⟨rfl, by simp [Obs.both, Write.text, lit]⟩⟩, fun r h => ⟨_, ⟨h.1, rfl⟩, by rw [h.2]; exact ⟨rfl, by simp [Obs.both, Write.text, lit]⟩⟩⟩
  | copy f p n => exact ⟨fun o h => ⟨_, ⟨h.1, rfl⟩, by rw [h.2]; exact ⟨rfl, by simp [Obs.both, Write.text, lit]⟩⟩, fun r h => ⟨_, ⟨h.1, rfl⟩, by rw [h.2]; exact ⟨rfl, by simp [Obs.both, Write.text, lit]⟩⟩⟩

/-! ### Which stream -/

theorem showFinish_outs (a : ShowArgs) (st : ShowSt) : ∀ x ∈ (showFinishObs a st).writes, x.toErr = [] := by
  have hd : ∀ t, ∀ x ∈ (draw st.out t).writes, x.toErr = [] := by
    intro t x hx
    unfold draw at hx
    split at hx <;> simp at hx
    · rcases hx with rfl | rfl <;> rfl
    · subst hx; rfl
  have h1 : ∀ e, ∀ x ∈ (⟨[.out st.out], e⟩ : Obs).writes, x.toErr = [] := by
    intro e x hx
    simp at hx
    subst hx; rfl
  unfold showFinishObs
  split
  · split
    · split
      · exact h1 _
      · exact hd _
    · split
      · exact hd _
      · exact h1 _
  · exact h1 _

theorem stderr_nil {o : Obs} (h : ∀ x ∈ o.writes, x.toErr = []) : o.stderr = [] := by
  unfold Obs.stderr
  rw [List.flatMap_eq_nil_iff]
  exact h

theorem stdout_both {o : Obs} (h : ∀ x ∈ o.writes, x.toErr = []) : o.stdout = o.both := by
  unfold Obs.stdout Obs.both
  apply List.flatMap_congr
  intro x hx
  have := h x hx
  cases x with
  | out s => rfl
  | err s => exact this.symm

/-- The commands that print names: `list`, and `search` without a content. -/
def names : Cmd → Bool
  | .list _ => true
  | .search _ _ t => t.isEmpty
  | _ => false

/-- **C125** (as far as it holds) All that a command prints goes to standard output, except for `list` and for `search` without a content. -/
theorem C125_stdout_partial (other otherUp : Str → Str) (goos : Str) (env : Env) (w : World) (flag : Str) (c : Cmd) (w' : World) (o : Obs)
    (h : RunObs other otherUp goos env w flag c w' o) (hc : names c = false) : o.stderr = [] ∧ o.stdout = o.both := by
  suffices hx : ∀ x ∈ o.writes, x.toErr = [] from ⟨stderr_nil hx, stdout_both hx⟩
  have outs : ∀ {α} (l : List α) (g : α → Str) (e : End), ∀ x ∈ (⟨l.map fun y => .out (g y), e⟩ : Obs).writes, x.toErr = [] := by
    intro α l g e x hx
    obtain ⟨y, -, rfl⟩ := List.mem_map.1 hx
    rfl
  cases c with
  | list s => simp [names] at hc
  | init s => rw [h.2]; simp [Write.toErr]
  | setEnv n =>
    have h2 := h.2
    unfold SetEnvObs at h2
    split at h2
    · obtain ⟨ws, -, h2⟩ := h2
      simp only at h2
      rw [h2]; exact outs _ _ _
    · rw [h2]; nofun
  | insert file n =>
    cases file with
    | none => rw [h.2]; simp [Write.toErr]
    | some file =>
      unfold RunObs at h
      dsimp only at h
      cases hst : sourceText w file (w.parts (joinPath (rootOf goos flag) n)) with
      | none => rw [hst] at h; rw [h.2]; nofun
      | some content =>
        rw [hst] at h
        dsimp only at h
        cases hin : Cmds.insert w (rootOf goos flag) n content with
        | none => rw [hin] at h; rw [h.2]; nofun
        | some v => rw [hin] at h; rw [h.2]; nofun
  | «show» a =>
    have h2 := h.2
    unfold ShowObs at h2
    split at h2
    · split at h2
      · obtain ⟨f, -, h2⟩ := h2
        cases f with
        | none => simp only at h2; rw [h2]; nofun
        | some f =>
          simp only at h2
          rw [h2]
          unfold showFileObs
          split
          · simp only
            split
            · nofun
            · exact showFinish_outs _ _
            · exact showFinish_outs _ _
          · exact showFinish_outs _ _
      · rw [h2]; exact showFinish_outs _ _
    · rw [h2]; nofun
  | search k s t =>
    have ht : t.length > 0 := by cases t <;> simp_all [names]
    have h2 := h.2
    unfold SearchObs at h2
    split at h2
    · split at h2
      · obtain ⟨ws, cm, -, -, ⟨-, h2⟩ | ⟨closest, -, h2⟩⟩ := h2
        · rw [h2]; nofun
        · rw [h2]; exact outs _ _ _
      · rw [h2]; nofun
    · rw [h2]; nofun
  | grep g p =>
    have h2 := h.2
    unfold GrepObs at h2
    split at h2
    · split at h2
      · split at h2
        · rw [h2]; nofun
        · obtain ⟨ws, -, h2⟩ := h2
          rw [h2]; exact outs _ _ _
      · rw [h2]; nofun
    · rw [h2]; nofun
  | generate a stream =>
    obtain ⟨-, fuel, h2⟩ := h
    split at h2
    · rw [h2]; simp [Write.toErr]
    · rw [h2]; nofun
    · rw [h2]; nofun
    · exact h2.elim
  | remove r f n => rw [h.2]; simp [Write.toErr]
  | rename f p n => rw [h.2]; simp [Write.toErr]
  | copy f p n => rw [h.2]; simp [Write.toErr]

/-- **C125** is false of `list` and of `search` without a content: nothing goes to standard output, whatever the store has; the names are on standard error. -/
theorem C125_names_false (other otherUp : Str → Str) (goos : Str) (env : Env) (w : World) (flag : Str) (c : Cmd) (w' : World) (o : Obs)
    (h : RunObs other otherUp goos env w flag c w' o) (hc : names c = true) : o.stdout = [] ∧ o.stderr = o.both := by
  suffices hx : ∀ x ∈ o.writes, x.toOut = [] by
    refine ⟨?_, ?_⟩
    · unfold Obs.stdout
      rw [List.flatMap_eq_nil_iff]
      exact hx
    · unfold Obs.stderr Obs.both
      apply List.flatMap_congr
      intro x hx'
      have := hx x hx'
      cases x with
      | err s => rfl
      | out s => exact this.symm
  have lines : ∀ (l : List Str) (e : End), ∀ x ∈ (⟨l.map println, e⟩ : Obs).writes, x.toOut = [] := by
    intro l e x hx
    obtain ⟨y, -, rfl⟩ := List.mem_map.1 hx
    rfl
  cases c with
  | list s =>
    have h2 := h.2
    unfold ListObs at h2
    split at h2
    · split at h2
      · obtain ⟨ws, -, h2⟩ := h2
        rw [h2]; exact lines _ _
      · obtain ⟨ws, cm, -, -, ⟨-, h2⟩ | ⟨closest, -, h2⟩⟩ := h2
        · rw [h2]; nofun
        · rw [h2]; exact lines _ _
    · rw [h2]; nofun
  | search k s t =>
    have ht : ¬ t.length > 0 := by cases t <;> simp_all [names]
    have h2 := h.2
    unfold SearchObs at h2
    split at h2
    · split at h2
      · obtain ⟨ws, cm, -, -, ⟨-, h2⟩ | ⟨closest, -, h2⟩⟩ := h2
        · rw [h2]; nofun
        · rw [h2]; exact lines _ _
      · rw [h2]; nofun
    · rw [h2]; nofun
  | _ => simp [names] at hc

/-! ### Failing runs -/

/-- **C125** A command other than `setenv` and `show` that does not end well has written nothing. -/
theorem C125_failed_partial (other otherUp : Str → Str) (goos : Str) (env : Env) (w : World) (flag : Str) (c : Cmd) (w' : World) (o : Obs)
    (h : RunObs other otherUp goos env w flag c w' o) (hs : ∀ n, c ≠ .setEnv n) (hs' : ∀ a, c ≠ .show a) (he : o.ends ≠ .ok) : o.writes = [] := by
  cases c with
  | list s =>
    have h2 := h.2
    unfold ListObs at h2
    split at h2
    · split at h2
      · obtain ⟨ws, -, h2⟩ := h2
        rw [h2] at he; exact absurd rfl he
      · obtain ⟨ws, cm, -, -, ⟨-, h2⟩ | ⟨closest, -, h2⟩⟩ := h2
        · rw [h2]
        · rw [h2] at he; exact absurd rfl he
    · rw [h2]
  | init s => rw [h.2] at he; exact absurd rfl he
  | setEnv n => exact absurd rfl (hs n)
  | insert file n =>
    cases file with
    | none => rw [h.2] at he; exact absurd rfl he
    | some file =>
      unfold RunObs at h
      dsimp only at h
      cases hst : sourceText w file (w.parts (joinPath (rootOf goos flag) n)) with
      | none => rw [hst] at h; rw [h.2]
      | some content =>
        rw [hst] at h
        dsimp only at h
        cases hin : Cmds.insert w (rootOf goos flag) n content with
        | none => rw [hin] at h; rw [h.2]
        | some v => rw [hin] at h; rw [h.2]
  | «show» a => exact absurd rfl (hs' a)
  | search k s t =>
    have h2 := h.2
    unfold SearchObs at h2
    split at h2
    · split at h2
      · obtain ⟨ws, cm, -, -, ⟨-, h2⟩ | ⟨closest, -, h2⟩⟩ := h2
        · rw [h2]
        · rw [h2] at he; exact absurd rfl he
      · rw [h2]
    · rw [h2]
  | grep g p =>
    have h2 := h.2
    unfold GrepObs at h2
    split at h2
    · split at h2
      · split at h2
        · rw [h2]
        · obtain ⟨ws, -, h2⟩ := h2
          rw [h2] at he; exact absurd rfl he
      · rw [h2]
    · rw [h2]
  | generate a stream =>
    obtain ⟨-, fuel, h2⟩ := h
    split at h2
    · rw [h2] at he; exact absurd rfl he
    · rw [h2]
    · rw [h2]
    · exact h2.elim
  | remove r f n => rw [h.2] at he; exact absurd rfl he
  | rename f p n => rw [h.2] at he; exact absurd rfl he
  | copy f p n => rw [h.2] at he; exact absurd rfl he

/-! ### show and setenv on a store -/

/-- The text of which `show --qrcode` draws the code, if there is one (C78). -/
def Spec.wanted (a : ShowArgs) (ts : List Str) : Option Str :=
  if a.qrCode = true then
    if selected a.line a.field ts = [] then if ts = [] then none else some (ts.flatMap fun t => lit " / " ++ t)
    else some (afterFirst 58 (trimSpace ((selected a.line a.field ts).drop a.field.length)))
  else none

/-- The selected line is not empty and shorter than the field name. -/
def Spec.tooShort (a : ShowArgs) (ts : List Str) : Prop :=
  a.qrCode = true ∧ selected a.line a.field ts ≠ [] ∧ (selected a.line a.field ts).length < a.field.length

theorem showObs_any (other expand : Str → Str) (w : World) (root : Str) (es : List (Str × Node)) (hs : IsStore w (expand root) es) (a : ShowArgs)
    (hp : a.passName ≠ []) (o : Obs) (h : ShowObs other expand w root a o) :
    (o = showFinishObs a ⟨[], [], []⟩ ∧ NoMatch other es a.passName) ∨
    ∃ f text, Entry es f text ∧ BestMatch other es a.passName f ∧ ∀ ts b, Reads text ts b →
      ∃ st, o = showFinishObs a st ∧ st.out = shown a f ts b ∧
        (a.qrCode = true → st.qrcode = selected a.line a.field ts ∧ st.fullQrCode = ts.flatMap fun t => lit " / " ++ t) := by
  obtain ⟨files, e, hw, -, -⟩ := store_scan hs
  unfold ShowObs at h
  rw [e] at h
  simp only at h
  rw [if_pos hp] at h
  obtain ⟨f, hf, hres⟩ := h
  rcases findOne_spec hw hf with ⟨rfl, hno⟩ | ⟨x, text, rfl, hx, hb⟩
  · left
    exact ⟨hres, hno⟩
  · right
    refine ⟨x, text, hx, hb, ?_⟩
    intro ts b hts
    simp only at hres
    unfold showFileObs at hres
    rw [if_pos (List.length_pos_iff.2 (entry_ne_nil hx))] at hres
    dsimp only at hres
    rw [entry_at hs hx] at hres
    dsimp only at hres
    rw [read_any (showHandle_nil a) hs hx hts] at hres
    simp only at hres
    refine ⟨_, hres, ?_, ?_⟩
    · cases b
      · simp only [Bool.false_eq_true, if_false]
        rw [show_out, body_eq, shown]
        simp only [List.append_assoc, Bool.false_eq_true, if_false, List.append_nil]
        rfl
      · simp only [if_true]
        rw [show_out, body_eq, shown]
        simp only [List.append_assoc, if_true]
        rfl
    · intro hq
      have : ∀ st : ShowSt, (if b = true then { st with out := st.out ++ lit "Error: cannot show binary file\n" } else st).qrcode = st.qrcode ∧
          (if b = true then { st with out := st.out ++ lit "Error: cannot show binary file\n" } else st).fullQrCode = st.fullQrCode := by
        intro st; cases b <;> exact ⟨rfl, rfl⟩
      rw [(this _).1, (this _).2]
      exact ⟨by rw [show_qr a hq]; exact selected_eq a ts, by rw [show_full a hq]; rfl⟩

theorem draw_none {printed text : Str} (h : QR.longest text .L < text.length) : draw printed text = ⟨[.out printed], .panic⟩ := by
  have hg : QR.generate text .L = none := (QR.C110_crash_iff text _).2 h
  unfold draw
  rw [hg]

theorem draw_some {printed text picture : Str} (h : QR.generate text .L = some picture) : draw printed text = ⟨[.out printed, .out picture], .ok⟩ := by
  unfold draw
  rw [h]

/-- **C125** `show` on a store: the text of the entry is on standard output before anything can go wrong. With a code to draw, the picture follows it; the run crashes, after it has
printed the text, exactly if the selected line is shorter than the field name or the text to draw is too long for any code. Without a code it ends well. -/
theorem C125_show (other expand : Str → Str) (w : World) (root : Str) (es : List (Str × Node)) (hs : IsStore w (expand root) es) (a : ShowArgs)
    (hp : a.passName ≠ []) (o : Obs) (h : ShowObs other expand w root a o) :
    (o.stdout = [] ∧ o.ends = .ok ∧ NoMatch other es a.passName) ∨
    ∃ f text, Entry es f text ∧ BestMatch other es a.passName f ∧ ∀ ts b, Reads text ts b →
      (Main.Spec.tooShort a ts → o.stdout = shown a f ts b ∧ o.ends = .panic) ∧
      (¬ Main.Spec.tooShort a ts → Main.Spec.wanted a ts = none → o.stdout = shown a f ts b ∧ o.ends = .ok) ∧
      ∀ t, ¬ Main.Spec.tooShort a ts → Main.Spec.wanted a ts = some t →
        (QR.longest t .L < t.length → o.stdout = shown a f ts b ∧ o.ends = .panic) ∧
        (t.length ≤ QR.longest t .L → ∃ picture, QR.generate t .L = some picture ∧ o.stdout = shown a f ts b ++ picture ∧ o.ends = .ok) := by
  rcases showObs_any other expand w root es hs a hp o h with ⟨h1, h2⟩ | ⟨f, text, h1, h2, h3⟩
  · left
    have : o = ⟨[.out []], .ok⟩ := by rw [h1]; unfold showFinishObs; simp
    rw [this]
    exact ⟨rfl, rfl, h2⟩
  · right
    refine ⟨f, text, h1, h2, ?_⟩
    intro ts b hts
    obtain ⟨st, h4, h5, h6⟩ := h3 ts b hts
    have single : ∀ e, (⟨[.out st.out], e⟩ : Obs).stdout = shown a f ts b := by
      intro e; rw [← h5]; simp [Obs.stdout, Write.toOut]
    have drawn : ∀ t, (QR.longest t .L < t.length → (draw st.out t).stdout = shown a f ts b ∧ (draw st.out t).ends = .panic) ∧
        (t.length ≤ QR.longest t .L → ∃ picture, QR.generate t .L = some picture ∧ (draw st.out t).stdout = shown a f ts b ++ picture ∧ (draw st.out t).ends = .ok) := by
      intro t
      refine ⟨fun hl => ?_, fun hl => ?_⟩
      · rw [draw_none hl]; exact ⟨single _, rfl⟩
      · cases hg : QR.generate t .L with
        | none =>
          have hlt : QR.longest t .L < t.length := (QR.C110_crash_iff t _).1 hg
          omega
        | some p => refine ⟨p, rfl, ?_, ?_⟩ <;> rw [draw_some hg]; rw [← h5]; simp [Obs.stdout, Write.toOut]
    rw [h4]
    unfold showFinishObs Main.Spec.tooShort Main.Spec.wanted
    by_cases hq : a.qrCode = true
    · obtain ⟨h7, h8⟩ := h6 hq
      have hfull : st.fullQrCode.length > 0 ↔ ts ≠ [] := by
        rw [h8]
        cases ts with
        | nil => simp
        | cons t ts => simp [lit]
      simp only [hq, if_true, true_and]
      by_cases hl : selected a.line a.field ts = []
      · rw [h7, hl]
        simp only [List.length_nil, gt_iff_lt, Nat.lt_irrefl, if_false, if_true, ne_eq, not_true_eq_false, false_and, not_false_eq_true, false_imp_iff, true_imp_iff, true_and]
        by_cases ht : ts = []
        · rw [if_neg (fun hh => hfull.1 hh ht), if_pos ht]
          exact ⟨fun _ => ⟨single _, rfl⟩, fun t hh => by simp at hh⟩
        · rw [if_pos (hfull.2 ht), if_neg ht]
          refine ⟨fun hh => by simp at hh, ?_⟩
          intro t hh
          rw [h8, Option.some.inj hh]
          exact drawn t
      · rw [h7, if_pos (List.length_pos_iff.2 hl)]
        by_cases hlt : (selected a.line a.field ts).length < a.field.length
        · rw [if_pos hlt]
          exact ⟨fun _ => ⟨single _, rfl⟩, fun hh => absurd ⟨hl, hlt⟩ hh, fun t hh => absurd ⟨hl, hlt⟩ hh⟩
        · rw [if_neg hlt, if_neg hl]
          refine ⟨fun hh => absurd hh.2 hlt, fun _ hh => by simp at hh, ?_⟩
          intro t _ hh
          rw [← Option.some.inj hh]
          have : qrText a.field (selected a.line a.field ts) = afterFirst 58 (trimSpace ((selected a.line a.field ts).drop a.field.length)) := rfl
          rw [this]
          exact drawn _
    · rw [if_neg hq, if_neg hq]
      exact ⟨fun hh => absurd hh.1 hq, fun _ _ => ⟨single _, rfl⟩, fun t _ hh => by simp at hh⟩

/-- **C125** `setenv` on a store: each variable of the selected entries up to the first binary one is on standard output, as `NAME=value`; the run ends with an error exactly if one of
them is binary. -/
theorem C125_setenv (otherUp expand : Str → Str) (w : World) (root : Str) (es : List (Str × Node)) (hs : IsStore w (expand root) es) (passName : Str)
    (lines : Str → List Str) (binary : Str → Bool) (hlines : ReadsAll es lines binary) (o : Obs) (h : SetEnvObs otherUp expand w root passName o) :
    ∃ ws, AllEntries es ws ∧ let sel := ws.filter fun f => decide (passName = [] ∨ f = passName)
      o.stdout = ((sel.takeWhile fun f => !binary f).flatMap fun f => (exports otherUp (lines f)).flatMap fun kv => kv.1 ++ lit "=" ++ kv.2 ++ lit "\n") ∧
      o.stderr = [] ∧ (o.ends = .error ↔ ∃ f ∈ sel, binary f = true) ∧ (o.ends = .ok ↔ ∀ f ∈ sel, binary f = false) := by
  obtain ⟨files, e, hw, -, -⟩ := store_scan hs
  unfold SetEnvObs at h
  rw [e] at h
  simp only at h
  obtain ⟨ws, h1, h2⟩ := h
  refine ⟨ws, hw ws h1, ?_⟩
  rw [setEnvLoop_any otherUp hs passName lines binary hlines ws [] (fun f hf => ((hw ws h1).2 f).1 hf)] at h2
  dsimp only at h2 ⊢
  rw [h2]
  generalize hsel : (ws.filter fun f => decide (passName = [] ∨ f = passName)) = sel
  rw [← hsel]
  refine ⟨?_, ?_, ?_, ?_⟩
  · simp [Obs.stdout, List.flatMap_map, Write.toOut, List.flatMap_assoc]
  · unfold Obs.stderr
    rw [List.flatMap_eq_nil_iff]
    intro x hx
    obtain ⟨y, -, rfl⟩ := List.mem_map.1 hx
    rfl
  · rw [hsel]
    by_cases hb : sel.any binary = true
    · simp only [hb, if_true, true_iff]
      simpa using hb
    · simp only [hb]
      simpa using hb
  · rw [hsel]
    by_cases hb : sel.any binary = true
    · simp only [hb, if_true]
      simpa using hb
    · simp only [hb]
      simpa using hb

/-- **C125** `list` on a store can be run; it ends well, standard output stays empty, and the names of all entries are on standard error, one on a line. -/
theorem C125_list (other expand : Str → Str) (w : World) (root : Str) (es : List (Str × Node)) (hs : IsStore w (expand root) es) :
    (∃ o, ListObs other expand w root [] o) ∧
    ∀ o, ListObs other expand w root [] o → o.ends = .ok ∧ o.stdout = [] ∧ ∃ ws, AllEntries es ws ∧ o.stderr = ws.flatMap fun f => f ++ lit "\n" := by
  obtain ⟨files, e, hw, -, ws0, hw0⟩ := store_scan hs
  unfold ListObs
  rw [e]
  simp only [if_true]
  refine ⟨⟨_, ws0, hw0, rfl⟩, ?_⟩
  rintro o ⟨ws, h1, rfl⟩
  refine ⟨rfl, ?_, ws, hw ws h1, ?_⟩
  · unfold Obs.stdout
    rw [List.flatMap_eq_nil_iff]
    intro x hx
    obtain ⟨y, -, rfl⟩ := List.mem_map.1 hx
    rfl
  · simp [Obs.stderr, List.flatMap_map, Write.toErr, println]

/-- The status of a run (kong exits with 1 on an error): 0 exactly if it ended well. -/
theorem status_zero (e : End) : e.status = 0 ↔ e = .ok := by cases e <;> simp [End.status]

/-- A store to which these apply: `list` prints something, and not to standard output. -/
example (other : Str → Str) (o : Obs) (h : ListObs other id exampleWorld (lit "/v") [] o) : o.stdout = [] ∧ o.stderr ≠ [] ∧ o.ends.status = 0 := by
  obtain ⟨h1, h2, ws, h3, h4⟩ := (C125_list other id exampleWorld (lit "/v") exampleStore exampleStore_isStore).2 o h
  refine ⟨h2, ?_, by rw [h1]; rfl⟩
  have : lit "sites/a.com" ∈ ws := (h3.2 _).2 ⟨lit "s3\nenv: tok\n", lit "sites", by decide, lit "a.com", rfl, by decide, by decide⟩
  rw [h4]
  intro hc
  rw [List.flatMap_eq_nil_iff] at hc
  exact absurd (hc _ this) (by decide)

/-- `show --qrcode --field username --line 1` crashes after it has printed the entry; `wanted` of a field is the text after its colon. -/
example : Main.Spec.tooShort ⟨false, 1, lit "username", true, lit "a.com"⟩ [lit "s3", lit "env: tok"] ∧
    ¬ Main.Spec.tooShort ⟨false, 0, lit "env", true, lit "a.com"⟩ [lit "s3", lit "env: tok"] ∧
    Main.Spec.wanted ⟨false, 0, lit "env", true, lit "a.com"⟩ [lit "s3", lit "env: tok"] = some (lit " tok") ∧
    Main.Spec.wanted ⟨false, 0, [], true, lit "a.com"⟩ [lit "s3", lit "env: tok"] = some (lit " / s3 / env: tok") ∧
    Main.Spec.wanted ⟨false, 0, [], false, lit "a.com"⟩ [lit "s3", lit "env: tok"] = none := by
  unfold Main.Spec.tooShort
  decide

/-- Runs that fail without having printed exist: `insert` of a file that is not there. -/
example (other otherUp : Str → Str) : RunObs other otherUp (lit "linux") (fun _ => none) exampleWorld (lit "/v") (.insert (some (lit "/none")) (lit "x")) exampleWorld ⟨[], .error⟩ := by
  unfold RunObs
  dsimp only
  have : sourceText exampleWorld (lit "/none") (exampleWorld.parts (joinPath (rootOf (lit "linux") (lit "/v")) (lit "x"))) = none := by decide
  rw [this]
  exact ⟨rfl, rfl⟩

end Verif.Main
