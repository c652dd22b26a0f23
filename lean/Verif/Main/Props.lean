import Verif.Main.ExpandProps
import Verif.Cmds.InsertProps
/-
C96 and C97: which store the program works on, and what the commands do there.
-/
namespace Verif.Main
open Repo Repo.Spec Closest Cmds Cmds.Spec Main.Spec

/-- What a command other than `insert` does, if the root it gets leads to a store. -/
theorem run_does (other otherUp : Str → Str) (goos : Str) (env : Env) (w : World) (flag : Str) (es : List (Str × Node))
    (hs : IsStore w (expandEnv env (rootOf goos flag)) es) (c : Cmd) (hc : inserts c = false) (w' : World) (res : Res)
    (h : Run other otherUp goos env w flag c w' res) : w' = w ∧ Does other otherUp es c res := by
  cases c with
  | init s => exact h
  | list sub =>
    obtain ⟨h1, h2⟩ := h
    refine ⟨h1, ?_⟩
    obtain ⟨h3, h4⟩ := C74_list other _ w _ es hs sub res h2
    refine ⟨h3, ?_⟩
    intro hsub
    obtain ⟨cats, g1, g2, g3⟩ := h4 hsub
    refine ⟨cats, g1, g2, ?_⟩
    rcases g3 with g3 | ⟨d, l, k1, k2, k3⟩
    · exact Or.inl g3
    · exact Or.inr ⟨d, l, ⟨k1, k2⟩, k3⟩
  | setEnv n =>
    obtain ⟨h1, r, h2, h3⟩ := h
    refine ⟨h1, ?_⟩
    intro lines binary hl
    obtain ⟨ws, g1, g2⟩ := C80_setenv otherUp _ w _ es hs n lines binary hl r h2
    refine ⟨ws, g1, ?_⟩
    dsimp only at g2 ⊢
    subst g2
    generalize ws.filter (fun f => decide (n = [] ∨ f = n)) = sel at h3 ⊢
    cases hb : sel.any binary with
    | true =>
      rw [hb] at h3
      simp only at h3
      rw [if_pos rfl]; exact h3
    | false =>
      rw [hb] at h3
      simp only at h3
      rw [if_neg (by simp), h3]
      have : sel.takeWhile (fun f => !binary f) = sel := by
        rw [List.takeWhile_eq_self_iff]
        intro f hf
        have := List.any_eq_false.1 hb f hf
        simpa using this
      rw [this, printCalls, List.flatMap_assoc]
  | insert f n =>
    cases f with
    | none => exact h
    | some f => cases hc
  | «show» a =>
    obtain ⟨h1, h2⟩ := h
    refine ⟨h1, ?_⟩
    by_cases hp : a.passName = []
    · left
      refine ⟨hp, ?_⟩
      obtain ⟨files, e, -⟩ := store_scan hs
      unfold Show at h2
      rw [e] at h2
      simp only [hp, ne_eq, not_true_eq_false, if_false] at h2
      rw [h2]
      unfold showFinish
      simp
    · right
      cases hq : a.qrCode with
      | false =>
        rcases C50_show other _ w _ es hs a hp hq res h2 with ⟨g1, g2⟩ | ⟨f, text, g1, g2, g3⟩
        · exact Or.inl ⟨hp, g1, g2⟩
        · refine Or.inr ⟨hp, f, text, g1, g2, ?_⟩
          intro ts b hr
          dsimp only
          rw [if_pos rfl]; exact g3 ts b hr
      | true =>
        rcases C78_show_qrcode other _ w _ es hs a hp hq res h2 with ⟨g1, g2⟩ | ⟨f, text, g1, g2, g3⟩
        · exact Or.inl ⟨hp, g1, g2⟩
        · refine Or.inr ⟨hp, f, text, g1, g2, ?_⟩
          intro ts b hr
          dsimp only
          rw [if_neg (by simp)]; exact g3 ts b hr
  | search k s t =>
    obtain ⟨h1, h2⟩ := h
    refine ⟨h1, ?_⟩
    unfold Does
    dsimp only
    by_cases hp : s = []
    · rw [if_pos hp]
      obtain ⟨files, e, -⟩ := store_scan hs
      unfold Search at h2
      rw [e] at h2
      simpa [hp] using h2
    · rw [if_neg hp]
      by_cases hk : k < 0 ∨ 2 ^ 44 < k
      · rw [if_pos hk]
        obtain ⟨lines, binary, hl⟩ := readsAll_exists hs
        exact (C79_search other _ w _ es hs k s hp t lines binary hl res h2).1.2 hk
      · rw [if_neg hk]
        intro lines binary hl
        exact (C79_search other _ w _ es hs k s hp t lines binary hl res h2).2 (by omega)
  | grep g p =>
    obtain ⟨h1, h2⟩ := h
    refine ⟨h1, ?_⟩
    unfold Does
    dsimp only
    by_cases hp : g = []
    · rw [if_pos hp]
      obtain ⟨files, e, -⟩ := store_scan hs
      unfold Grep at h2
      rw [e] at h2
      simpa [hp] using h2
    · rw [if_neg hp]
      cases p with
      | none =>
        obtain ⟨files, e, -⟩ := store_scan hs
        unfold Grep at h2
        rw [e] at h2
        simpa [hp] using h2
      | some p =>
        intro lines binary hl
        exact C72_grep_prints _ w _ es hs g hp p lines binary hl res h2
  | generate a stream => exact h
  | remove r f n => exact h
  | rename f o n => exact h
  | copy f o n => exact h

theorem entry_lookup {es : List (Str × Node)} (hwf : (Node.dir es).WF) {d n : Str} (hd : slash ∉ d) (hn : slash ∉ n) {text : Str}
    (h : Entry es (d ++ lit "/" ++ n) text) : lookupAt (.dir es) [d, n] = .node (.file text) := by
  obtain ⟨d', hd', n', g1, g2, e⟩ := h
  obtain ⟨i1, i2⟩ := isEntry_good hwf (d := d') (n := n') ⟨⟨text, g1⟩, g2⟩
  have : splitSlash (d ++ slash :: n) = splitSlash (d' ++ slash :: n') := by rw [← slash_eq, ← slash_eq, e]
  rw [splitSlash_append, splitSlash_append, splitSlash_noslash hd, splitSlash_noslash hn, splitSlash_noslash i1.2.2.2, splitSlash_noslash i2.2.2.2] at this
  simp only [List.cons_append, List.nil_append, List.cons.injEq, and_true] at this
  rw [this.1, this.2]; exact g1

theorem expands_plain (val : Str → Str) : ∀ {s : Str}, 36 ∉ s → Expands val s s
  | [], _ => .nil
  | b :: s, h => by
    rw [List.mem_cons, not_or] at h
    exact .char (Ne.symm h.1) (expands_plain val h.2)

theorem expand_home (env : Env) : expandEnv env (lit "$HOME/Documents/Vault") = vault (value env (lit "HOME")) := by
  rw [expandEnv_iff]
  have := Expands.name (val := value env) (n := lit "HOME") (s := lit "/Documents/Vault") (by decide) (by unfold NameChar; decide)
    (by unfold Special; decide) (by unfold NameChar; decide) (expands_plain _ (by decide))
  exact this

/-- **C96** On linux and darwin every command other than `insert` does what it should on the store at `$HOME/Documents/Vault` (the value of the variable is taken as it is), in
every environment, with every `--root`, and leaves the file system as it is. -/
theorem C96_store (other otherUp : Str → Str) (goos : Str) (hgoos : goos = lit "linux" ∨ goos = lit "darwin") (env : Env) (home : Str) (hhome : env (lit "HOME") = some home)
    (w : World) (es : List (Str × Node)) (hs : IsStore w (home ++ lit "/Documents/Vault") es) (flag : Str) (c : Cmd) (hc : inserts c = false) (w' : World) (res : Res)
    (h : Run other otherUp goos env w flag c w' res) : w' = w ∧ Does other otherUp es c res := by
  apply run_does other otherUp goos env w flag es ?_ c hc w' res h
  have : rootOf goos flag = lit "$HOME/Documents/Vault" := by
    unfold rootOf
    rcases hgoos with rfl | rfl <;> rw [if_neg (by decide), if_pos (by decide)]
  rw [this, expand_home, value, hhome]
  exact hs

/-- An account with a store. -/
def homeWorld : World := ⟨.dir [(lit "h", .dir [(lit "Documents", .dir [(lit "Vault", .dir exampleStore)])]), (lit "v", .dir [(lit "sites", .dir [(lit "z", .file [])])])], [lit "h"]⟩

theorem homeWorld_isStore : IsStore homeWorld (lit "/h" ++ lit "/Documents/Vault") exampleStore :=
  ⟨⟨by decide, by decide, by decide⟩, rfl, exampleStore_wf, by decide⟩

/-- The environment of the examples. -/
def homeEnv : Env := fun k => if k = lit "HOME" then some (lit "/h") else none

/-- The program does end on this account: `list` has a result. -/
example (other otherUp : Str → Str) : ∃ res, Run other otherUp (lit "linux") homeEnv homeWorld (lit "/v") (.list []) homeWorld res := by
  have hr : expandEnv homeEnv (rootOf (lit "linux") (lit "/v")) = lit "/h" ++ lit "/Documents/Vault" := by
    rw [show rootOf (lit "linux") (lit "/v") = lit "$HOME/Documents/Vault" by decide, expand_home]; decide
  obtain ⟨files, e, -, -, ws, hws⟩ := store_scan homeWorld_isStore
  have : List' other (expandEnv homeEnv) homeWorld (rootOf (lit "linux") (lit "/v")) [] (.ok (ws.flatMap fun f => f ++ lit "\n") none) := by
    unfold List'
    rw [hr, e]
    exact ⟨ws, hws, rfl⟩
  exact ⟨_, rfl, this⟩

/-- **C97** (as far as it holds) On a system other than windows, linux and darwin every command other than `insert` works on the store at the path given by `--root`, with its
variables replaced. On the others `--root` has no effect (`C97_root_ignored_false`). -/
theorem C97_root_partial (other otherUp : Str → Str) (goos : Str) (h1 : goos ≠ lit "windows") (h2 : goos ≠ lit "linux") (h3 : goos ≠ lit "darwin") (env : Env)
    (w : World) (flag root : Str) (hr : Expands (value env) flag root) (es : List (Str × Node)) (hs : IsStore w root es) (c : Cmd) (hc : inserts c = false) (w' : World) (res : Res)
    (h : Run other otherUp goos env w flag c w' res) : w' = w ∧ Does other otherUp es c res := by
  apply run_does other otherUp goos env w flag es ?_ c hc w' res h
  have : rootOf goos flag = flag := by
    unfold rootOf
    rw [if_neg h1, if_neg (by rintro (h | h); exacts [h2 h, h3 h])]
  rw [this, (expandEnv_iff env flag root).2 hr]
  exact hs

example : Expands (value homeEnv) (lit "${HOME}/$x$/v$") (lit "/h/$/v$") := by
  rw [← expandEnv_iff]
  simp [lit, expandEnv, expandWith, getShellName, getShellName.scanBrace, isShellSpecialVar, isAlphaNum, homeEnv]

/-- **C97** is false on linux: with `--root /v` the entry of the store `/v` is not listed; those of the other store are. -/
theorem C97_root_ignored_false (other otherUp : Str → Str) : (∃ es, IsStore homeWorld (lit "/v") es ∧ Entry es (lit "sites/z") []) ∧
    ∀ w' res, Run other otherUp (lit "linux") homeEnv homeWorld (lit "/v") (.list []) w' res →
      ∃ ws : List Str, lit "sites/z" ∉ ws ∧ lit "sites/a.com" ∈ ws ∧ res = .ok (ws.flatMap fun f => f ++ lit "\n") none := by
  constructor
  · refine ⟨[(lit "sites", .dir [(lit "z", .file [])])], ⟨⟨by decide, by decide, by decide⟩, rfl, ?_, by decide⟩, lit "sites", by decide, lit "z", rfl, by decide, by decide⟩
    simp only [Node.WF, WFList, WFPair]
    decide
  · intro w' res h
    obtain ⟨-, h⟩ := C96_store other otherUp (lit "linux") (Or.inl rfl) homeEnv (lit "/h") (by decide) homeWorld exampleStore homeWorld_isStore (lit "/v") (.list []) rfl w' res h
    obtain ⟨ws, h1, h2⟩ := h.1 rfl
    refine ⟨ws, ?_, ?_, h2⟩
    · intro hc
      obtain ⟨text, ht⟩ := (h1.2 _).1 hc
      exact absurd (entry_lookup exampleStore_wf (d := lit "sites") (n := lit "z") (by decide) (by decide) ht) nofun
    · exact (h1.2 _).2 ⟨_, lit "sites", by decide, lit "a.com", rfl, by decide, by decide⟩

end Verif.Main
