import Verif.Clipboard.Exec
import Verif.Clipboard.Props
/-
What `Write` of the unix and darwin clipboards does with the copy command, whatever step fails.
-/
namespace Verif.Clipboard.Exec

namespace Spec

/-- The five steps of handing a text to a command, in order. -/
def steps (args : List String) (text : Str) : List Step := [.pipe, .start args, .input text, .close, .wait]

/-- The command runs: it was started successfully. -/
def Started (t : Trace) : Prop := ∃ args, (Step.start args, none) ∈ t

/-- The command's end was awaited. -/
def Awaited (t : Trace) : Prop := ∃ e, (Step.wait, e) ∈ t

/-- The input of the command was closed. -/
def InputClosed (t : Trace) : Prop := (Step.close, none) ∈ t

end Spec
open Spec

/-- **C88** Whatever fails: the steps are made in order up to the first that fails and no further; `Write` reports the error of that step, and success exactly if all five steps succeeded: the
command was started, read the whole text, saw its end and exited with success. -/
theorem C88_copy_command (os : Os) (args : List String) (text : Str) :
    ∃ e t, runCopy os args text = (e, t) ∧ t.map Prod.fst <+: steps args text ∧ (∀ x ∈ t.dropLast, x.2 = none) ∧ t.getLast?.map Prod.snd = some e ∧
      (e = none ↔ t = (steps args text).map fun s => (s, none)) := by
  refine ⟨(runCopy os args text).1, (runCopy os args text).2, rfl, ?_⟩
  unfold runCopy steps
  simp only
  cases h1 : os [] .pipe with
  | some e => simp
  | none =>
    simp only [Option.isSome_none, Bool.false_eq_true, if_false, List.cons_append, List.nil_append]
    cases h2 : os [(.pipe, none)] (.start args) with
    | some e => simp
    | none =>
      simp only [Option.isSome_none, Bool.false_eq_true, if_false]
      cases h3 : os [(.pipe, none), (.start args, none)] (.input text) with
      | some e => simp
      | none =>
        simp only [Option.isSome_none, Bool.false_eq_true, if_false]
        cases h4 : os [(.pipe, none), (.start args, none), (.input text, none)] .close with
        | some e => simp
        | none =>
          simp only [Option.isSome_none, Bool.false_eq_true, if_false]
          cases h5 : os [(.pipe, none), (.start args, none), (.input text, none), (.close, none)] .wait with
          | some e => simp
          | none => simp

/-- **C88** On darwin the command is always `pbcopy`, and what `Read` returns is the unchanged output of `pbpaste`. -/
theorem C88_darwin (os : Os) (text : Str) (output : List String → Except String Str) :
    (∀ args e, (Step.start args, e) ∈ (writeDarwin os text).2 → args = ["pbcopy"]) ∧ readDarwin output = output ["pbpaste"] := by
  constructor
  · intro args e h
    obtain ⟨e', t, h1, h2, -⟩ := C88_copy_command os ["pbcopy"] text
    unfold writeDarwin at h
    rw [h1] at h
    have := h2.subset (List.mem_map_of_mem (f := Prod.fst) h)
    simpa [steps] using this
  · unfold readDarwin; cases output ["pbpaste"] <;> rfl

/-- **C88** On the other systems no command is started unless the package variable allows it; if it does, the steps are those of the selected command, with its arguments
unless Primary is set. -/
theorem C88_unix (os : Os) (v : Vars) (text : Str) (name : String) (args : List String) (hv : v.copy = name :: args) :
    (v.unsupported = true → writeUnix os v text = (some missingCommands, [])) ∧
    (v.unsupported = false → writeUnix os v text = runCopy os (if v.primary then [name] else name :: args) text) := by
  unfold writeUnix command
  rw [hv]
  cases v.unsupported <;> cases v.primary <;> simp

/-- What C89 says: a command that was started is waited for. -/
def C89_claim : Prop := ∀ (os : Os) (args : List String) (text : Str), Started (runCopy os args text).2 → Awaited (runCopy os args text).2

/-- A system on which the command ends before it reads its input. -/
def brokenPipe : Os := fun _ s => match s with
  | .input _ => some "broken pipe"
  | _ => none

/-- C89 is false: if the command does not read its input `Write` returns while the command is neither waited for nor told the end of its input. -/
theorem C89_false : ¬ C89_claim := by
  intro h
  obtain ⟨e, he⟩ := h brokenPipe ["xclip"] [65] ⟨["xclip"], by simp [runCopy, brokenPipe]⟩
  simp [runCopy, brokenPipe] at he

/-- **C89** Exactly when: a started command is waited for if and only if the whole text was written and the input was closed. -/
theorem C89_waited_iff_partial (os : Os) (args : List String) (text : Str) :
    ∃ e t, runCopy os args text = (e, t) ∧ (Awaited t ↔ Started t ∧ (Step.input text, none) ∈ t ∧ InputClosed t) ∧
      (Started t ∧ ¬ Awaited t → ∃ m, e = some m ∧ ((Step.input text, some m) ∈ t ∨ (Step.close, some m) ∈ t)) := by
  refine ⟨(runCopy os args text).1, (runCopy os args text).2, rfl, ?_⟩
  unfold runCopy Awaited Started InputClosed
  simp only
  cases h1 : os [] .pipe with
  | some e => simp
  | none =>
    simp only [Option.isSome_none, Bool.false_eq_true, if_false, List.cons_append, List.nil_append]
    cases h2 : os [(.pipe, none)] (.start args) with
    | some e => simp
    | none =>
      simp only [Option.isSome_none, Bool.false_eq_true, if_false]
      cases h3 : os [(.pipe, none), (.start args, none)] (.input text) with
      | some e => simp
      | none =>
        simp only [Option.isSome_none, Bool.false_eq_true, if_false]
        cases h4 : os [(.pipe, none), (.start args, none), (.input text, none)] .close with
        | some e => simp
        | none =>
          simp only [Option.isSome_none, Bool.false_eq_true, if_false]
          cases h5 : os [(.pipe, none), (.start args, none), (.input text, none), (.close, none)] .wait with
          | some e => simp
          | none => simp

/-- A run in which everything succeeds, and one in which the command fails at the end. -/
example : (runCopy (fun _ _ => none) ["pbcopy"] (lit "s3")).1 = none ∧ Awaited (runCopy (fun _ _ => none) ["pbcopy"] (lit "s3")).2 ∧
    (runCopy (fun _ s => if s = .wait then some "exit status 1" else none) ["pbcopy"] (lit "s3")).1 = some "exit status 1" :=
  ⟨rfl, ⟨none, by simp [runCopy]⟩, rfl⟩

end Verif.Clipboard.Exec
