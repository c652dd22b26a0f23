import Verif.Clipboard.Session
import Mathlib.Data.List.Induction
/-
C105: which clipboard commands a program on a Unix system starts.
-/
namespace Verif.Clipboard.Session

/-- A pair of clipboard commands; `dos` if what it pastes ends in a DOS line end. -/
structure Tool where
  copy : List String
  paste : List String
  dos : Bool

/-- The tools in the order of preference, each with the condition for choosing it. -/
def tools (e : Env) : List (Prop × Tool) :=
  [(e.wayland = true ∧ e.onPath "wl-copy" = true ∧ e.onPath "wl-paste" = true, ⟨["wl-copy"], ["wl-paste", "--no-newline"], false⟩),
   (e.onPath "xclip" = true, ⟨["xclip", "-in", "-selection", "clipboard"], ["xclip", "-out", "-selection", "clipboard"], false⟩),
   (e.onPath "xsel" = true, ⟨["xsel", "--input", "--clipboard"], ["xsel", "--output", "--clipboard"], false⟩),
   (e.onPath "termux-clipboard-set" = true ∧ e.onPath "termux-clipboard-get" = true, ⟨["termux-clipboard-set"], ["termux-clipboard-get"], false⟩),
   (True, ⟨["clip.exe"], ["powershell.exe", "Get-Clipboard"], true⟩)]

/-- The tool is the first one whose condition holds. -/
def Chosen (e : Env) (tool : Tool) : Prop := ∃ before after p, tools e = before ++ (p, tool) :: after ∧ p ∧ ∀ x ∈ before, ¬ x.1

/-- The value of `Unsupported`: true until the program sets it. -/
def off : List Op → Bool
  | [] => true
  | ops => ops.foldl (fun b op => match op with | .setUnsupported b' => b' | _ => b) true

/-- The value of `Primary`: false until the program sets it. -/
def primary : List Op → Bool
  | [] => false
  | ops => ops.foldl (fun b op => match op with | .setPrimary b' => b' | _ => b) false

/-- At some time so far `Write` was called while `Primary` was set and `Unsupported` was not. -/
def WrotePrimary (ops : List Op) : Prop := ∃ p t err q, ops = p ++ .write t err :: q ∧ off p = false ∧ primary p = true

/-- At some time so far `Read` was called while `Primary` was set and `Unsupported` was not. -/
def ReadPrimary (ops : List Op) : Prop := ∃ p out q, ops = p ++ .read out :: q ∧ off p = false ∧ primary p = true

theorem off_snoc (ops : List Op) (op : Op) : off (ops ++ [op]) = match op with | .setUnsupported b => b | _ => off ops := by
  cases ops with
  | nil => cases op <;> rfl
  | cons a ops =>
    simp only [off, List.cons_append, List.foldl_cons, List.foldl_append, List.foldl_nil]
    try cases op <;> rfl

theorem primary_snoc (ops : List Op) (op : Op) : primary (ops ++ [op]) = match op with | .setPrimary b => b | _ => primary ops := by
  cases ops with
  | nil => cases op <;> rfl
  | cons a ops =>
    simp only [primary, List.cons_append, List.foldl_cons, List.foldl_append, List.foldl_nil]
    try cases op <;> rfl

theorem snoc_split {α : Type} {l p q : List α} {a b : α} (h : l ++ [a] = p ++ b :: q) : (q = [] ∧ p = l ∧ a = b) ∨ ∃ q', q = q' ++ [a] ∧ l = p ++ b :: q' := by
  rcases List.eq_nil_or_concat q with rfl | ⟨q', x, rfl⟩
  · have := List.append_inj' h rfl
    simp at this
    exact Or.inl ⟨rfl, this.1.symm, this.2⟩
  · have h' : l ++ [a] = (p ++ b :: q') ++ [x] := by simpa using h
    have := List.append_inj' h' rfl
    simp at this
    exact Or.inr ⟨q', by simp [this.2], by simp [this.1]⟩

theorem wrotePrimary_snoc (ops : List Op) (op : Op) :
    WrotePrimary (ops ++ [op]) ↔ WrotePrimary ops ∨ ((∃ t err, op = .write t err) ∧ off ops = false ∧ primary ops = true) := by
  constructor
  · rintro ⟨p, t, err, q, h, h1, h2⟩
    rcases snoc_split h with ⟨rfl, rfl, rfl⟩ | ⟨q', rfl, rfl⟩
    · exact Or.inr ⟨⟨t, err, rfl⟩, h1, h2⟩
    · exact Or.inl ⟨p, t, err, q', rfl, h1, h2⟩
  · rintro (⟨p, t, err, q, rfl, h1, h2⟩ | ⟨⟨t, err, rfl⟩, h1, h2⟩)
    · exact ⟨p, t, err, q ++ [op], by simp, h1, h2⟩
    · exact ⟨ops, t, err, [], rfl, h1, h2⟩

theorem readPrimary_snoc (ops : List Op) (op : Op) :
    ReadPrimary (ops ++ [op]) ↔ ReadPrimary ops ∨ ((∃ out, op = .read out) ∧ off ops = false ∧ primary ops = true) := by
  constructor
  · rintro ⟨p, out, q, h, h1, h2⟩
    rcases snoc_split h with ⟨rfl, rfl, rfl⟩ | ⟨q', rfl, rfl⟩
    · exact Or.inr ⟨⟨out, rfl⟩, h1, h2⟩
    · exact Or.inl ⟨p, out, q', rfl, h1, h2⟩
  · rintro (⟨p, out, q, rfl, h1, h2⟩ | ⟨⟨out, rfl⟩, h1, h2⟩)
    · exact ⟨p, out, q ++ [op], by simp, h1, h2⟩
    · exact ⟨ops, out, [], rfl, h1, h2⟩

theorem chosen_init (e : Env) : ∃ tool, Chosen e tool ∧ (init e).copy = tool.copy ∧ (init e).paste = tool.paste ∧ (init e).trimDos = tool.dos ∧
    (init e).unsupported = true ∧ (init e).primary = false := by
  unfold init
  simp only
  split
  · rename_i hw
    simp only [Bool.and_eq_true, and_assoc] at hw
    exact ⟨_, ⟨[], _, _, rfl, hw, by simp⟩, rfl, rfl, rfl, rfl, rfl⟩
  rename_i hw
  simp only [Bool.and_eq_true, and_assoc] at hw
  split
  · rename_i hx
    exact ⟨_, ⟨[_], _, _, rfl, hx, by simp only [List.mem_singleton, forall_eq]; exact hw⟩, rfl, rfl, rfl, rfl, rfl⟩
  rename_i hx
  split
  · rename_i hs
    exact ⟨_, ⟨[_, _], _, _, rfl, hs, by simp only [List.mem_cons, List.not_mem_nil, or_false, forall_eq_or_imp, forall_eq]; exact ⟨hw, hx⟩⟩, rfl, rfl, rfl, rfl, rfl⟩
  rename_i hs
  split
  · rename_i ht
    simp only [Bool.and_eq_true] at ht
    exact ⟨_, ⟨[_, _, _], _, _, rfl, ht, by simp only [List.mem_cons, List.not_mem_nil, or_false, forall_eq_or_imp, forall_eq]; exact ⟨hw, hx, hs⟩⟩, rfl, rfl, rfl, rfl, rfl⟩
  rename_i ht
  simp only [Bool.and_eq_true] at ht
  refine ⟨_, ⟨[_, _, _, _], _, _, rfl, trivial, by simp only [List.mem_cons, List.not_mem_nil, or_false, forall_eq_or_imp, forall_eq]; exact ⟨hw, hx, hs, ht⟩⟩, ?_⟩
  split <;> exact ⟨rfl, rfl, rfl, rfl, rfl⟩

open Classical in
theorem after_vars (e : Env) (ops : List Op) : ∃ tool, Chosen e tool ∧ (after e ops).unsupported = off ops ∧ (after e ops).primary = primary ops ∧
    (after e ops).copy = (if WrotePrimary ops then tool.copy.take 1 else tool.copy) ∧
    (after e ops).paste = (if ReadPrimary ops then tool.paste.take 1 else tool.paste) ∧ (after e ops).trimDos = tool.dos := by
  induction ops using List.reverseRecOn with
  | nil =>
    obtain ⟨tool, h, h1, h2, h3, h4, h5⟩ := chosen_init e
    refine ⟨tool, h, h4, h5, ?_, ?_, h3⟩
    · rw [if_neg (by rintro ⟨p, t, err, q, h, _⟩; simp at h)]; exact h1
    · rw [if_neg (by rintro ⟨p, out, q, h, _⟩; simp at h)]; exact h2
  | append_singleton ops op ih =>
    obtain ⟨tool, h, h1, h2, h3, h4, h5⟩ := ih
    refine ⟨tool, h, ?_⟩
    have he : after e (ops ++ [op]) = (step (after e ops) op).1 := by simp [after]
    rw [he, off_snoc, primary_snoc]
    simp only [wrotePrimary_snoc, readPrimary_snoc]
    have htt : ∀ l : List String, (l.take 1).take 1 = l.take 1 := by intro l; rw [List.take_take]; rfl
    cases op with
    | setUnsupported b => simp [step, h2, h3, h4, h5]
    | setPrimary b => simp [step, h1, h3, h4, h5]
    | write t err =>
      unfold step cutCopy
      simp only [h1, h2]
      cases e1 : off ops <;> cases e2 : primary ops <;> simp [h1, h2, h3, h4, h5, e1, e2]
      split <;> simp [htt]
    | read out =>
      unfold step cutPaste
      simp only [h1, h2]
      cases e1 : off ops <;> cases e2 : primary ops <;> simp [h1, h2, h3, h4, h5, e1, e2]
      split <;> simp [htt]

theorem chosen_unique {e : Env} {t t' : Tool} (h : Chosen e t) (h' : Chosen e t') : t = t' := by
  obtain ⟨b, a, p, h1, h2, h3⟩ := h
  obtain ⟨b', a', p', h1', h2', h3'⟩ := h'
  rw [h1] at h1'
  rcases List.append_eq_append_iff.1 h1' with ⟨c, hc, hd⟩ | ⟨c, hc, hd⟩
  · cases c with
    | nil => simp at hd; exact hd.1.2
    | cons x c =>
      simp at hd
      exact absurd h2 (h3' (p, t) (by rw [hc, hd.1]; simp))
  · cases c with
    | nil => simp at hd; exact hd.1.2.symm
    | cons x c =>
      simp at hd
      exact absurd h2' (h3 (p', t') (by rw [hc, hd.1]; simp))

/-- **C105** On a Unix system, for any program that sets `Unsupported` and `Primary` and calls `Write` and `Read` in any order, and for anything the
commands do: the tool is the first one of the list whose condition held when the program was started. `Write` and `Read` fail without starting a
command as long as `Unsupported` has its first value, or is set. Otherwise `Write` starts the copy command of the tool with the text as its
input, and returns its error, and `Read` starts the paste command and returns its error or output, for the DOS tool without the last two bytes of
an output that has two. The arguments of the copy command are dropped from the first `Write` with `Primary` on, also after `Primary` is cleared;
those of the paste command from the first `Read`. -/
theorem C105_session (e : Env) (tool : Tool) (ht : Chosen e tool) (ops : List Op) :
    (∀ text err, (off ops = true → sees e ops (.write text err) = .failed missingCommands) ∧
      (off ops = false →
        (primary ops = true ∨ WrotePrimary ops → sees e ops (.write text err) = .wrote (tool.copy.take 1) text err) ∧
        (¬ (primary ops = true ∨ WrotePrimary ops) → sees e ops (.write text err) = .wrote tool.copy text err))) ∧
    (∀ out, (off ops = true → sees e ops (.read out) = .failed missingCommands) ∧
      (off ops = false → ∃ res,
        (primary ops = true ∨ ReadPrimary ops → sees e ops (.read out) = .got (tool.paste.take 1) res) ∧
        (¬ (primary ops = true ∨ ReadPrimary ops) → sees e ops (.read out) = .got tool.paste res) ∧
        (∀ m, out = .error m → res = .error m) ∧
        (∀ s, out = .ok s → (tool.dos = true → 2 ≤ s.length → ∃ a b, res = .ok (s.take (s.length - 2)) ∧ s = s.take (s.length - 2) ++ [a, b]) ∧
          (¬ (tool.dos = true ∧ 2 ≤ s.length) → res = .ok s)))) := by
  obtain ⟨tool', h, h1, h2, h3, h4, h5⟩ := after_vars e ops
  obtain rfl := chosen_unique h ht
  have htt : ∀ l : List String, (l.take 1).take 1 = l.take 1 := by intro l; rw [List.take_take]; rfl
  refine ⟨fun text err => ⟨fun ho => ?_, fun ho => ⟨fun hp => ?_, fun hp => ?_⟩⟩, fun out => ⟨fun ho => ?_, fun ho => ?_⟩⟩
  · simp [sees, step, h1, ho]
  · simp only [sees, step, h1, ho, Bool.false_eq_true, if_false, cutCopy, h2]
    by_cases hw : WrotePrimary ops
    · rw [if_pos hw] at h3
      split <;> simp [h3, htt]
    · rw [if_neg hw] at h3
      rw [if_pos (by rcases hp with hp | hp; exact hp; exact absurd hp hw)]
      simp [h3]
  · rw [not_or] at hp
    simp only [sees, step, h1, ho, Bool.false_eq_true, if_false, cutCopy, h2]
    rw [if_neg hp.1, h3, if_neg hp.2]
  · simp [sees, step, h1, ho]
  · refine ⟨match out with
        | .error m => .error m
        | .ok out => .ok (if tool'.dos && decide (out.length > 1) then out.take (out.length - 2) else out), fun hp => ?_, fun hp => ?_, ?_, ?_⟩
    · simp only [sees, step, h1, ho, Bool.false_eq_true, if_false, cutPaste, h2]
      by_cases hw : ReadPrimary ops
      · rw [if_pos hw] at h4
        split <;> cases out <;> simp [h4, h5, htt]
      · rw [if_neg hw] at h4
        rw [if_pos (by rcases hp with hp | hp; exact hp; exact absurd hp hw)]
        cases out <;> simp [h4, h5]
    · rw [not_or] at hp
      simp only [sees, step, h1, ho, Bool.false_eq_true, if_false, cutPaste, h2]
      rw [if_neg hp.1, h4, if_neg hp.2, h5]
      cases out <;> rfl
    · rintro m rfl; rfl
    · rintro s rfl
      refine ⟨fun hd hl => ?_, fun hd => ?_⟩
      · obtain ⟨a, b, hab⟩ : ∃ a b, s.drop (s.length - 2) = [a, b] := by
          have : (s.drop (s.length - 2)).length = 2 := by simp; omega
          match s.drop (s.length - 2), this with
          | [a, b], _ => exact ⟨a, b, rfl⟩
        refine ⟨a, b, ?_, ?_⟩
        · dsimp only
          rw [if_pos (by simp [hd]; omega)]
        · rw [← hab, List.take_append_drop]
      · dsimp only
        rw [if_neg]
        simp only [Bool.and_eq_true, decide_eq_true_eq]
        intro hc
        exact hd ⟨hc.1, by omega⟩

/-- Every environment has a tool. -/
theorem C105_chosen (e : Env) : ∃ tool, Chosen e tool := (chosen_init e).imp fun _ h => h.1

/-- With xclip installed: after `Unsupported = false`, `Primary = true`, `Write`, `Primary = false` the arguments stay dropped. -/
example : let e : Env := ⟨false, fun n => n == "xclip", fun _ _ => none, fun _ => .ok []⟩
    let ops : List Op := [.setUnsupported false, .setPrimary true, .write (lit "a") none, .setPrimary false]
    sees e [.setUnsupported false] (.write (lit "b") none) = .wrote ["xclip", "-in", "-selection", "clipboard"] (lit "b") none ∧
    sees e ops (.write (lit "b") none) = .wrote ["xclip"] (lit "b") none ∧
    sees e ops (.read (.ok (lit "b"))) = .got ["xclip", "-out", "-selection", "clipboard"] (.ok (lit "b")) ∧
    sees e [] (.write (lit "b") none) = .failed missingCommands := ⟨rfl, rfl, rfl, rfl⟩

end Verif.Clipboard.Session
