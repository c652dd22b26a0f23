import Verif.Main.Clip
import Verif.FormGen.FormProps
import Verif.Clipboard.Props
import Verif.Clipboard.ExecProps
import Verif.Clipboard.WindowsProps
/-
What `generate --clip` does (C116).
-/
namespace Verif.Main
open FormGen Password

/-- Printable ASCII. -/
def Printable (c : UInt8) : Prop := 33 ≤ c ∧ c ≤ 126

theorem any_printable (c : UInt8) (h : Any c) : Printable c :=
  byte_forall (fun c => (IsLower c ∨ IsUpper c ∨ IsDigit c ∨ IsSym c) → 33 ≤ c ∧ c ≤ 126) (by decide +kernel) c h

theorem sep_printable (c : UInt8) (h : c ∈ lit "-_/\\#") : Printable c :=
  byte_forall (fun c => c ∈ lit "-_/\\#" → 33 ≤ c ∧ c ≤ 126) (by decide +kernel) c h

theorem fits_printable {f out : Str} (h : Fits Any f out) : ∀ c ∈ out, Printable c := by
  induction h with
  | nil => simp
  | lower h _ ih => exact List.forall_mem_cons.2 ⟨any_printable _ (.inl h), ih⟩
  | upper h _ ih => exact List.forall_mem_cons.2 ⟨any_printable _ (.inr (.inl h)), ih⟩
  | digit h _ ih => exact List.forall_mem_cons.2 ⟨any_printable _ (.inr (.inr (.inl h))), ih⟩
  | symbol h _ ih => exact List.forall_mem_cons.2 ⟨any_printable _ (.inr (.inr (.inr h))), ih⟩
  | alpha h _ ih => exact List.forall_mem_cons.2 ⟨any_printable _ h, ih⟩
  | sep h _ ih => exact List.forall_mem_cons.2 ⟨sep_printable _ h, ih⟩
  | skip _ _ ih => exact ih

/-- Whatever the options are, what `generate` makes is printable ASCII without spaces. -/
theorem C116_printable (a : GenerateCmd) (fuel : Nat) (stream out : Str) (h : a.run fuel stream = .ok out) : ∀ c ∈ out, 33 ≤ c ∧ c ≤ 126 := by
  cases hf : a.form with
  | none =>
    obtain ⟨rest, hr⟩ := C10_no_form a hf fuel stream out h
    intro c hc
    exact any_printable c (run_chars hr c hc)
  | some f => exact fits_printable ((C10_form a f hf fuel stream).2 out h)

namespace Spec

/-- A step of the clipboard that is allowed while `text` is being copied: the only command is `pbcopy`, its input is the text; the only text copied into memory
is the text in UTF-16 (for ASCII one unit a byte) with its end mark. -/
def Copies (text : Str) : Event → Prop
  | .step (.start args) _ => args = ["pbcopy"]
  | .step (.input t) _ => t = text
  | .call (.strcpy _ src) _ => src = text.map UInt8.toNat ++ [0]
  | .print _ => False
  | _ => True

end Spec

theorem utf16_printable {text : Str} (h : ∀ c ∈ text, Printable c) :
    Clipboard.Windows.stringToUtf16 text = some (text.map UInt8.toNat ++ [0]) := by
  have ha : Ascii text := by
    intro c hc
    have := (h c hc).2
    rw [UInt8.le_iff_toNat_le] at this
    rw [UInt8.lt_iff_toNat_lt]
    exact Nat.lt_of_le_of_lt this (by decide)
  have hz : (0 : UInt8) ∉ text := by
    intro hc
    exact absurd (h 0 hc).1 (by decide)
  unfold Clipboard.Windows.stringToUtf16
  rw [if_neg hz, runesOf_ascii ha, List.flatMap_map]
  congr 2
  have : ∀ c : UInt8, Clipboard.Windows.utf16Rune c.toNat = [c.toNat] := by
    intro c
    unfold Clipboard.Windows.utf16Rune
    have := c.toNat_lt
    rw [if_pos (by omega)]
  simp only [this]
  rw [← List.map_eq_flatMap]

/-- Nothing but `data` is copied into memory. -/
def OnlyCopies (data : List Nat) (t : Clipboard.Windows.Trace) : Prop := ∀ d src r, (Clipboard.Windows.Call.strcpy d src, r) ∈ t → src = data

theorem OnlyCopies.call {data : List Nat} {t : Clipboard.Windows.Trace} (h : OnlyCopies data t) {c : Clipboard.Windows.Call} {r : Clipboard.Windows.Ret}
    (hc : ∀ d src, c = .strcpy d src → src = data) : OnlyCopies data (Clipboard.Windows.call t c r) := by
  intro d src r' hx
  rcases Clipboard.Windows.mem_call.1 hx with hx | hx
  · exact h d src r' hx
  · injection hx with hx _; exact hc d src hx.symm

/-- The rest of `write` is fine. -/
def LockedOk (data : List Nat) (e : Clipboard.Windows.End Unit × Nat × Clipboard.Windows.Trace) : Prop := e.1 ≠ .panic ∧ OnlyCopies data e.2.2

theorem locked_ok (os : Clipboard.Windows.Os) (h : Nat) (data : List Nat) (t : Clipboard.Windows.Trace) (ht : OnlyCopies data t) :
    LockedOk data (Clipboard.Windows.writeLocked os h data t) := by
  unfold Clipboard.Windows.writeLocked
  lift_lets
  intro l t1 r2 t2 r3 t3 r4 t4 closed t5
  have h1 : OnlyCopies data t1 := ht.call (by intro d s hc; cases hc)
  have h2 : OnlyCopies data t2 := h1.call (by intro d s hc; cases hc; rfl)
  have h3 : OnlyCopies data t3 := h2.call (by intro d s hc; cases hc)
  have h4 : OnlyCopies data t4 := h3.call (by intro d s hc; cases hc)
  have h5 : OnlyCopies data t5 := h4.call (by intro d s hc; cases hc)
  split
  · exact ⟨by simp, h1.call (by intro d s hc; cases hc)⟩
  split
  · exact ⟨by simp, h2.call (by intro d s hc; cases hc)⟩
  split
  · exact ⟨by simp, h3.call (by intro d s hc; cases hc)⟩
  split
  · exact ⟨by simp, h4.call (by intro d s hc; cases hc)⟩
  split
  · exact ⟨by simp, h5⟩
  · exact ⟨by simp, h5⟩

theorem windows_write {text : Str} {data : List Nat} (hd : Clipboard.Windows.stringToUtf16 text = some data) (os : Clipboard.Windows.Os) (tries : Nat) :
    (Clipboard.Windows.write os tries text).1 ≠ .panic ∧ OnlyCopies data (Clipboard.Windows.write os tries text).2 := by
  have hc := fun d src r => Clipboard.Windows.waitOpen_calls os tries none [] (.strcpy d src) r (by simp)
  unfold Clipboard.Windows.write
  generalize Clipboard.Windows.waitOpen os tries none [] = wo at hc
  obtain ⟨o, t⟩ := wo
  simp only [List.not_mem_nil, iff_false] at hc
  have h0 : OnlyCopies data t := fun d src r h => absurd h (hc d src r)
  cases o with
  | some e => exact ⟨by simp, h0⟩
  | none =>
    simp only [hd]
    split
    · exact ⟨by simp, (h0.call (by intro d s hc; cases hc)).call (by intro d s hc; cases hc)⟩
    split
    · exact ⟨by simp, ((h0.call (by intro d s hc; cases hc)).call (by intro d s hc; cases hc)).call (by intro d s hc; cases hc)⟩
    · have hl := locked_ok os (os (Clipboard.Windows.call t .emptyClipboard (os t .emptyClipboard)) (.alloc (data.length * 2))).value data
        (Clipboard.Windows.call (Clipboard.Windows.call t .emptyClipboard (os t .emptyClipboard)) (.alloc (data.length * 2))
          (os (Clipboard.Windows.call t .emptyClipboard (os t .emptyClipboard)) (.alloc (data.length * 2))))
        ((h0.call (by intro d s hc; cases hc)).call (by intro d s hc; cases hc))
      refine ⟨hl.1, ?_⟩
      split
      · exact hl.2.call (by intro d s hc; cases hc)
      · exact hl.2

/-- **C116** Whatever the options, the random bytes and the system are: `generate` with or without `--clip` fails exactly if no password can be generated, and then touches nothing;
otherwise it prints the password and a newline, once and last, whatever the clipboard does. Without `--clip`, and always on Unix (see C61), nothing else happens; on the other
systems the clipboard is offered this password and nothing else. -/
theorem C116_clip (p : Platform) (a : GenerateCmd) (clip : Bool) (fuel : Nat) (stream : Str) :
    ∃ evs, (match a.run fuel stream with
      | .ok pw => generateRun p a clip fuel stream = (evs ++ [.print (pw ++ lit "\n")], .ok ()) ∧ ∀ e ∈ evs, Spec.Copies pw e
      | .err e => generateRun p a clip fuel stream = ([], .err e)
      | .panic => generateRun p a clip fuel stream = ([], .panic)
      | .nofuel => generateRun p a clip fuel stream = ([], .nofuel)) ∧
      (clip = false → evs = []) ∧ ∀ e os, p = .unix e os → evs = [] := by
  unfold generateRun
  cases hr : a.run fuel stream with
  | err e => exact ⟨[], rfl, fun _ => rfl, fun _ _ _ => rfl⟩
  | panic => exact ⟨[], rfl, fun _ => rfl, fun _ _ _ => rfl⟩
  | nofuel => exact ⟨[], rfl, fun _ => rfl, fun _ _ _ => rfl⟩
  | ok pw =>
    have hp := C116_printable a fuel stream pw hr
    cases clip with
    | false => exact ⟨[], ⟨rfl, by simp⟩, fun _ => rfl, fun _ _ _ => rfl⟩
    | true =>
      cases p with
      | unix e os =>
        refine ⟨[], ⟨?_, by simp⟩, by simp, fun _ _ _ => rfl⟩
        simp [clipWrite, Clipboard.Exec.writeUnix, Clipboard.init_unsupported]
      | darwin os =>
        refine ⟨(clipWrite (.darwin os) pw).1, ⟨by simp [clipWrite], ?_⟩, by simp, by simp⟩
        intro ev hev
        simp only [clipWrite, List.mem_map] at hev
        obtain ⟨⟨s, er⟩, hx, rfl⟩ := hev
        obtain ⟨e', t, h1, h2, -⟩ := Clipboard.Exec.C88_copy_command os ["pbcopy"] pw
        unfold Clipboard.Exec.writeDarwin at hx
        rw [h1] at hx
        have hs : s ∈ Clipboard.Exec.Spec.steps ["pbcopy"] pw := h2.subset (List.mem_map.2 ⟨_, hx, rfl⟩)
        simp only [Clipboard.Exec.Spec.steps, List.mem_cons, List.not_mem_nil, or_false] at hs
        rcases hs with rfl | rfl | rfl | rfl | rfl <;> simp [Spec.Copies]
      | windows os tries =>
        obtain ⟨hw1, hw2⟩ := windows_write (utf16_printable hp) os tries
        refine ⟨(clipWrite (.windows os tries) pw).1, ⟨by simp [clipWrite, hw1], ?_⟩, by simp, by simp⟩
        intro ev hev
        simp only [clipWrite, List.mem_map] at hev
        obtain ⟨⟨c, r⟩, hx, rfl⟩ := hev
        cases c <;> simp only [Spec.Copies]
        exact hw2 _ _ _ hx

/-- **C116** On a system where nothing fails the password is handed over: to `pbcopy` on darwin, to the clipboard of Windows in one piece of memory of the right size. -/
theorem C116_delivered (a : GenerateCmd) (fuel : Nat) (stream pw : Str) (h : a.run fuel stream = .ok pw) :
    (∀ os, (∀ t s, os t s = none) → (generateRun (.darwin os) a true fuel stream).1 =
      [.step .pipe none, .step (.start ["pbcopy"]) none, .step (.input pw) none, .step .close none, .step .wait none, .print (pw ++ lit "\n")]) ∧
    (∀ os tries, 0 < tries → (∀ t c, (os t c).value ≠ 0) →
      ∃ r₀ r₁ r₂ r₃ r₄ r₅ r₆ r₇, (generateRun (.windows os tries) a true fuel stream).1 =
        [.call .openClipboard r₀, .call .emptyClipboard r₁, .call (.alloc ((pw.length + 1) * 2)) r₂, .call (.lock r₂.value) r₃,
          .call (.strcpy r₃.value (pw.map UInt8.toNat ++ [0])) r₄, .call (.unlock r₂.value) r₅, .call (.setData r₂.value) r₆, .call .closeClipboard r₇,
          .print (pw ++ lit "\n")]) := by
  have hp := C116_printable a fuel stream pw h
  constructor
  · intro os hos
    simp [generateRun, h, clipWrite, Clipboard.Exec.writeDarwin, Clipboard.Exec.runCopy, hos]
  · intro os tries ht hos
    obtain ⟨hw1, -⟩ := windows_write (utf16_printable hp) os tries
    obtain ⟨n, rfl⟩ : ∃ n, tries = n + 1 := ⟨tries - 1, by omega⟩
    simp only [generateRun, h, clipWrite, hw1, decide_false, Bool.false_eq_true, if_false, if_true]
    simp only [Clipboard.Windows.write, Clipboard.Windows.waitOpen, hos, if_false, utf16_printable hp, Clipboard.Windows.writeLocked, false_and, ne_eq, not_true_eq_false,
      Clipboard.Windows.call, List.length_append, List.length_map, List.length_cons, List.length_nil, List.map_cons, List.map_nil, List.nil_append, List.cons_append]
    exact ⟨_, _, _, _, _, _, _, _, rfl⟩

/-- A run in which the clipboard of Windows cannot be opened: the password is printed all the same. -/
example : ∃ stream, generateRun (.windows (fun _ _ => ⟨0, 5⟩) 2) ⟨0, 0, 0, false, false, some (lit "as")⟩ true 1 stream =
    ([.call .openClipboard ⟨0, 5⟩, .call .openClipboard ⟨0, 5⟩, .print (lit "!!\n")], .ok ()) := by
  obtain ⟨stream, hs⟩ := C11_counterexample
  refine ⟨stream, ?_⟩
  unfold generateRun
  rw [hs]
  decide

end Verif.Main
