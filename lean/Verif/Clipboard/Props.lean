import Verif.Clipboard.Model
namespace Verif.Clipboard

/-- A supported pair of tools, with the condition under which the package may use it, in the documented order of preference. -/
inductive Supported (e : Env) : List String × List String → Prop where
  | wl : e.wayland = true → e.onPath "wl-copy" = true → e.onPath "wl-paste" = true → Supported e wlArgs
  | xclip : e.onPath "xclip" = true → Supported e xclipArgs
  | xsel : e.onPath "xsel" = true → Supported e xselArgs
  | termux : e.onPath "termux-clipboard-set" = true → e.onPath "termux-clipboard-get" = true → Supported e termuxArgs
  | dos : e.onPath "clip.exe" = true → e.onPath "powershell.exe" = true → Supported e dosArgs

/-- What C61 says: if a supported tool is there, `Write` after the start of the program hands the text to it. -/
def C61_claim : Prop := ∀ (e : Env) (text : Str), (∃ a, Supported e a) → ∃ a, Supported e a ∧ (write e (init e) text).started = [(a.1, text)]

theorem init_unsupported (e : Env) : (init e).unsupported = true := by
  unfold init; simp only; repeat' split
  all_goals rfl

theorem init_primary (e : Env) : (init e).primary = false := by
  unfold init; simp only; repeat' split
  all_goals rfl

/-- C61 does not hold, in any environment: no tool is ever started, `Write` and `Read` always fail with "No clipboard utilities available". -/
theorem C61_always_fails (e : Env) (text : Str) :
    (write e (init e) text).started = [] ∧ (write e (init e) text).err = some missingCommands ∧ read e (init e) = .error missingCommands := by
  unfold write read; rw [init_unsupported]; exact ⟨rfl, rfl, rfl⟩

/-- An environment in which xclip is installed. -/
def withXclip : Env where
  wayland := false
  onPath n := n == "xclip"
  run _ _ := none
  output _ := .ok []

/-- C61 is false. -/
theorem C61_false : ¬ C61_claim := by
  intro h
  obtain ⟨a, _, h2⟩ := h withXclip [] ⟨_, .xclip (by rfl)⟩
  rw [(C61_always_fails withXclip []).1] at h2
  cases h2

/-- What holds of the selection: for a program that sets the exported variable Unsupported to false, `Write` hands the text, unchanged, to a supported
tool if there is one, and `Read` asks the same pair. -/
theorem C61_selected_tool_partial (e : Env) (text : Str) (h : ∃ a, Supported e a) :
    ∃ a, Supported e a ∧ (write e { init e with unsupported := false } text).started = [(a.1, text)] ∧
      (write e { init e with unsupported := false } text).err = e.run a.1 text ∧ (init e).paste = a.2 := by
  have key : ∃ a, Supported e a ∧ (init e).copy = a.1 ∧ (init e).paste = a.2 := by
    unfold init
    simp only
    split
    · rename_i hw
      simp only [Bool.and_eq_true] at hw
      exact ⟨_, .wl hw.1.1 hw.1.2 hw.2, rfl, rfl⟩
    rename_i hw
    split
    · rename_i hx; exact ⟨_, .xclip hx, rfl, rfl⟩
    rename_i hx
    split
    · rename_i hs; exact ⟨_, .xsel hs, rfl, rfl⟩
    rename_i hs
    split
    · rename_i ht
      simp only [Bool.and_eq_true] at ht
      exact ⟨_, .termux ht.1 ht.2, rfl, rfl⟩
    rename_i ht
    split
    · rename_i hd
      simp only [Bool.and_eq_true] at hd
      exact ⟨_, .dos hd.1 hd.2, rfl, rfl⟩
    rename_i hd
    obtain ⟨a, ha⟩ := h
    cases ha <;> simp_all
  obtain ⟨a, h1, h2, h3⟩ := key
  refine ⟨a, h1, ?_, ?_, h3⟩
  · simp [write, command, init_primary, h2]
  · simp [write, command, init_primary, h2]

example : ∃ a, Supported withXclip a := ⟨_, .xclip (by rfl)⟩

/-- On the DOS pair the last two bytes of what is pasted are cut, also when they are not a line end: text is lost. -/
theorem C61_read_cuts (e : Env) (v : Vars) (hu : v.unsupported = false) (hd : v.trimDos = true) (out : Str) (ho : e.output (command v v.paste) = .ok out)
    (hl : 1 < out.length) : read e v = .ok (out.take (out.length - 2)) := by
  simp [read, hu, hd, ho, hl]

end Verif.Clipboard
