import Verif.Main.Props
import Verif.Repo.RootProps
/-
C98 to C101: what `insert` and sessions of several runs do to the store.
-/
namespace Verif.Main
open Repo Repo.Spec Closest Cmds Cmds.Spec Main.Spec

/-! ### Paths -/

theorem push_reverse (st stk : List Str) (p : Str) (hs : ∀ q ∈ stk, q ≠ [] ∧ q ≠ lit ".") :
    (pushPart false stk p).reverse.foldl (pushPart true) st = pushPart true (stk.reverse.foldl (pushPart true) st) p := by
  by_cases h1 : p = [] ∨ p = lit "."
  · unfold pushPart; rw [if_pos h1, if_pos h1]
  · by_cases h2 : p = lit ".."
    · cases stk with
      | nil =>
        rw [show pushPart false [] p = [p] by unfold pushPart; rw [if_neg h1, if_pos h2]; rfl]
        rfl
      | cons q stk =>
        by_cases h3 : q = lit ".."
        · rw [show pushPart false (q :: stk) p = p :: q :: stk by unfold pushPart; rw [if_neg h1, if_pos h2]; simp only; rw [if_pos h3]]
          rw [List.reverse_cons, List.foldl_append]; rfl
        · rw [show pushPart false (q :: stk) p = stk by unfold pushPart; rw [if_neg h1, if_pos h2]; simp only; rw [if_neg h3]]
          rw [List.reverse_cons, List.foldl_append, List.foldl_cons, List.foldl_nil]
          generalize stk.reverse.foldl (pushPart true) st = X
          obtain ⟨g1, g2⟩ := hs q (by simp)
          rw [show pushPart true X q = q :: X by unfold pushPart; rw [if_neg (by rintro (h | h); exacts [g1 h, g2 h]), if_neg h3]]
          unfold pushPart; rw [if_neg h1, if_pos h2]; simp only; rw [if_neg h3]
    · rw [show pushPart false stk p = p :: stk by unfold pushPart; rw [if_neg h1, if_neg h2]]
      rw [List.reverse_cons, List.foldl_append]; rfl

theorem pushPart_mem {r : Bool} {stk : List Str} {p : Str} (hs : ∀ q ∈ stk, q ≠ [] ∧ q ≠ lit ".") : ∀ q ∈ pushPart r stk p, q ≠ [] ∧ q ≠ lit "." := by
  unfold pushPart
  split
  · exact hs
  · rename_i h1
    rw [not_or] at h1
    split
    · split
      · split
        · simp
        · intro q hq; rw [List.mem_singleton] at hq; rw [hq]; exact h1
      · split
        · intro q hq
          rcases List.mem_cons.1 hq with rfl | hq
          · exact h1
          · exact hs q hq
        · intro q hq; exact hs q (by simp [hq])
    · intro q hq
      rcases List.mem_cons.1 hq with rfl | hq
      · exact h1
      · exact hs q hq

theorem foldl_reverse (st : List Str) : ∀ (l stk : List Str), (∀ q ∈ stk, q ≠ [] ∧ q ≠ lit ".") →
    (l.foldl (pushPart false) stk).reverse.foldl (pushPart true) st = l.foldl (pushPart true) (stk.reverse.foldl (pushPart true) st)
  | [], _, _ => rfl
  | p :: l, stk, h => by
    rw [List.foldl_cons, foldl_reverse st l _ (pushPart_mem h), push_reverse st stk p h]; rfl

theorem cleanParts_append_clean (cwd ps : List Str) : cleanParts true (cwd ++ cleanParts false ps) = cleanParts true (cwd ++ ps) := by
  unfold cleanParts
  rw [List.foldl_append, List.foldl_append, foldl_reverse _ ps [] (by simp)]; rfl

theorem parts_clean (w : World) (p : Str) (hp : p ≠ []) : w.parts (clean p) = w.parts p := by
  have hm := isCleanParts (isRooted p) p
  unfold World.parts clean
  cases hr : isRooted p with
  | true =>
    rw [hr] at hm
    have e1 : isRooted (renderPath true (cleanParts true (splitSlash p))) = true := by unfold renderPath isRooted; simp
    rw [e1]
    simp only [if_true, List.nil_append]
    have e2 : renderPath true (cleanParts true (splitSlash p)) = [] ++ slash :: joinSlash (cleanParts true (splitSlash p)) := by unfold renderPath; simp
    rw [e2, splitSlash_append]
    have : ∀ l : List Str, cleanParts true (splitSlash [] ++ l) = cleanParts true l := by
      intro l
      unfold cleanParts
      rw [List.foldl_append]; rfl
    rw [this]
    by_cases he : cleanParts true (splitSlash p) = []
    · rw [he]; rfl
    · rw [splitSlash_join _ he (fun q hq => (hm.mem q hq).2.2), hm.fix]
  | false =>
    rw [hr] at hm
    by_cases he : cleanParts false (splitSlash p) = []
    · rw [he]
      rw [show renderPath false [] = lit "." from rfl, show isRooted (lit ".") = false from rfl, show splitSlash (lit ".") = [lit "."] from by decide]
      simp only [Bool.false_eq_true, if_false]
      rw [← cleanParts_append_clean, ← cleanParts_append_clean _ (splitSlash p), he]
      rfl
    · have e1 : renderPath false (cleanParts false (splitSlash p)) = joinSlash (cleanParts false (splitSlash p)) := by
        unfold renderPath; rw [if_neg (by simp), if_neg he]
      have e2 : isRooted (joinSlash (cleanParts false (splitSlash p))) = false := by
        cases hc : cleanParts false (splitSlash p) with
        | nil => rfl
        | cons q qs =>
          obtain ⟨g1, -, g3⟩ := hm.mem q (by rw [hc]; simp)
          cases q with
          | nil => exact absurd rfl g1
          | cons b q =>
            have : (joinSlash ((b :: q) :: qs)) = b :: (joinSlash ((b :: q) :: qs)).tail := by cases qs <;> rfl
            rw [this]
            unfold isRooted
            rw [List.mem_cons, not_or] at g3
            simp only [beq_eq_false_iff_ne]
            exact fun e => g3.1 e.symm
      rw [e1, e2]
      simp only [Bool.false_eq_true, if_false]
      rw [splitSlash_join _ he (fun q hq => (hm.mem q hq).2.2), cleanParts_append_clean]

theorem parts_join (w : World) {root : Str} (h : root ≠ []) (n : Str) : w.parts (joinPath root n) = w.parts (root ++ slash :: n) := by
  unfold joinPath
  rw [if_neg h, parts_clean w _ (by simp)]

theorem cleanParts_plain (cwd : List Str) (hc : ∀ p ∈ cwd, GoodName p) : ∀ (l : List Str), lit ".." ∉ l → (∀ p ∈ l, slash ∉ p) →
    cleanParts true (cwd ++ l) = cwd ++ l.filter fun p => !decide (p = [] ∨ p = lit ".") := by
  intro l
  induction l using List.reverseRecOn with
  | nil => intro _ _; simp [cleanParts_good true cwd hc]
  | append_singleton l p ih =>
    intro h1 h2
    have ih := ih (fun h => h1 (by simp [h])) (fun q hq => h2 q (by simp [hq]))
    rw [← List.append_assoc, List.filter_append]
    by_cases hp : p = [] ∨ p = lit "."
    · rw [show cleanParts true (cwd ++ l ++ [p]) = cleanParts true (cwd ++ l) by
        unfold cleanParts; rw [List.foldl_append, List.foldl_cons, List.foldl_nil]; unfold pushPart; rw [if_pos hp]]
      rw [ih, List.filter_cons_of_neg (by simpa [or_iff_not_imp_left] using hp)]; simp
    · have hg : GoodName p := by
        rw [not_or] at hp
        exact ⟨hp.1, hp.2, fun e => h1 (by simp [e]), h2 p (by simp)⟩
      rw [cleanParts_snoc hg, ih, List.filter_cons_of_pos (by simpa using hp)]; simp

/-! ### Creating a file -/

theorem put_wf (c : Str) : ∀ (ps : List Str) (t t' : Node), (∀ p ∈ ps, GoodName p) → t.WF → put t ps c = some t' → t'.WF
  | [], .file _, t', _, _, h => by simp [put] at h
  | [], .dir _, t', _, _, h => by simp [put] at h
  | _ :: _, .file _, t', _, _, h => by simp [put] at h
  | [n], .dir es, t', hg, hw, h => by
    rw [put] at h
    split at h
    · cases h
    · injection h with h
      rw [← h]
      exact wf_setEntry hw (hg n (by simp)) trivial
  | p :: q :: ps, .dir es, t', hg, hw, h => by
    rw [put] at h
    cases he : entry es p with
    | none => rw [he] at h; cases h
    | some nd =>
      rw [he] at h
      simp only at h
      cases hp : put nd (q :: ps) c with
      | none => rw [hp] at h; cases h
      | some nd' =>
        rw [hp] at h
        simp only [Option.map_some, Option.some.injEq] at h
        have := hw
        rw [Node.WF] at this
        have := put_wf c (q :: ps) nd nd' (fun x hx => hg x (by simp at hx ⊢; right; exact hx)) (entry_good this.2 he).2 hp
        rw [← h]
        exact wf_setEntry hw (hg p (by simp)) this

theorem put_dir (c : Str) : ∀ (ps qs : List Str) (t t' : Node) (es : List (Str × Node)), put t ps c = some t' → lookupAt t qs = .node (.dir es) →
    ∃ es', lookupAt t' qs = .node (.dir es')
  | [], _, .file _, t', _, h, _ => by simp [put] at h
  | [], _, .dir _, t', _, h, _ => by simp [put] at h
  | _ :: _, _, .file _, t', _, h, _ => by simp [put] at h
  | [n], qs, .dir ds, t', es, h, hl => by
    rw [put] at h
    split at h
    · cases h
    · rename_i hnd
      injection h with h
      subst h
      cases qs with
      | nil => exact ⟨_, rfl⟩
      | cons q qs =>
        rw [lookupAt] at hl ⊢
        rw [entry_setEntry]
        by_cases hq : q = n
        · subst hq
          exfalso
          cases he : entry ds q with
          | none => rw [he] at hl; cases hl
          | some nd =>
            cases nd with
            | dir x => exact hnd x he
            | file x => rw [he] at hl; cases qs <;> simp [lookupAt] at hl
        · rw [if_neg hq]; exact ⟨es, hl⟩
  | p :: p' :: ps, qs, .dir ds, t', es, h, hl => by
    rw [put] at h
    cases he : entry ds p with
    | none => rw [he] at h; cases h
    | some nd =>
      rw [he] at h
      simp only at h
      cases hp : put nd (p' :: ps) c with
      | none => rw [hp] at h; cases h
      | some nd' =>
        rw [hp] at h
        simp only [Option.map_some, Option.some.injEq] at h
        subst h
        cases qs with
        | nil => exact ⟨_, rfl⟩
        | cons q qs =>
          rw [lookupAt] at hl ⊢
          rw [entry_setEntry]
          by_cases hq : q = p
          · subst hq
            rw [if_pos rfl]
            rw [he] at hl
            exact put_dir c (p' :: ps) qs nd nd' es hp hl
          · rw [if_neg hq]; exact ⟨es, hl⟩

theorem wf_lookup : ∀ {ps : List Str} {t nd : Node}, t.WF → lookupAt t ps = .node nd → nd.WF
  | [], t, nd, h, hl => by rw [lookupAt] at hl; injection hl with hl; rw [← hl]; exact h
  | p :: ps, .file _, nd, h, hl => by cases hl
  | p :: ps, .dir es, nd, h, hl => by
    rw [lookupAt] at hl
    cases he : entry es p with
    | none => rw [he] at hl; cases hl
    | some x =>
      rw [he] at hl
      rw [Node.WF] at h
      exact wf_lookup (entry_good h.2 he).2 hl

theorem parts_good (w : World) (hg : ∀ p ∈ w.cwd, GoodName p) (path : Str) : ∀ p ∈ w.parts path, GoodName p := by
  have : CleanStack true (((if isRooted path then [] else w.cwd) ++ splitSlash path).foldl (pushPart true) []) := by
    refine cleanStack_foldl _ _ ?_ ⟨[], 0, rfl, by simp, fun _ => rfl⟩
    intro p hp
    rcases List.mem_append.1 hp with hp | hp
    · split at hp
      · cases hp
      · exact (hg p hp).2.2.2
    · exact splitSlash_mem path p hp
  obtain ⟨gs, k, e, h1, h2⟩ := this
  intro p hp
  unfold World.parts cleanParts at hp
  rw [List.mem_reverse, e, h2 rfl] at hp
  exact h1 p (by simpa using hp)

theorem mem_cleanParts {r : Bool} {p : Str} : ∀ (l st : List Str), p ∈ l.foldl (pushPart r) st → p ∈ l ∨ p ∈ st
  | [], _, h => Or.inr h
  | q :: l, st, h => by
    rcases mem_cleanParts l _ h with h | h
    · exact Or.inl (by simp [h])
    · have : p = q ∨ p ∈ st := by
        unfold pushPart at h
        split at h
        · exact Or.inr h
        · split at h
          · split at h
            · split at h
              · cases h
              · exact Or.inl (by simpa using h)
            · split at h
              · simpa using h
              · exact Or.inr (by simp [h])
          · simpa using h
      rcases this with rfl | h
      · exact Or.inl (by simp)
      · exact Or.inr h

/-- Where `insert` writes on linux and darwin. -/
theorem insert_parts (w : World) (hg : ∀ p ∈ w.cwd, GoodName p) (n : Str) (hn : lit ".." ∉ splitSlash n) :
    ∃ rest, w.parts (joinPath (lit "$HOME/Documents/Vault") n) = (w.cwd ++ [lit "$HOME"]) ++ lit "Documents" :: lit "Vault" :: rest := by
  rw [parts_join w (by decide)]
  unfold World.parts
  rw [isRooted_append (by decide), show isRooted (lit "$HOME/Documents/Vault") = false by decide, splitSlash_append,
    show splitSlash (lit "$HOME/Documents/Vault") = [lit "$HOME", lit "Documents", lit "Vault"] by decide]
  simp only [Bool.false_eq_true, if_false]
  rw [cleanParts_plain w.cwd hg]
  · refine ⟨(splitSlash n).filter fun p => !decide (p = [] ∨ p = lit "."), ?_⟩
    rw [List.filter_append, show [lit "$HOME", lit "Documents", lit "Vault"].filter (fun p => !decide (p = [] ∨ p = lit ".")) = [lit "$HOME", lit "Documents", lit "Vault"] by decide]
    simp
  · rw [List.mem_append, not_or]
    exact ⟨by decide, hn⟩
  · intro p hp
    rcases List.mem_append.1 hp with hp | hp
    · exact (by decide : ∀ p ∈ [lit "$HOME", lit "Documents", lit "Vault"], slash ∉ p) p hp
    · exact splitSlash_mem n p hp

/-- A step of a session that is not an insert. -/
theorem run_same {other otherUp : Str → Str} {goos : Str} {env : Env} {w : World} {flag : Str} {c : Cmd} (hc : inserts c = false) {w' : World} {res : Res}
    (h : Run other otherUp goos env w flag c w' res) : w' = w := by
  cases c with
  | insert f n => cases f with
    | none => exact h.1
    | some f => cases hc
  | _ => exact h.1

/-- One run on linux or darwin. -/
theorem run_keeps {other otherUp : Str → Str} {goos : Str} (hgoos : goos = lit "linux" ∨ goos = lit "darwin") {env : Env} {w : World} (hcwd : ∀ p ∈ w.cwd, GoodName p)
    (hwf : w.tree.WF) {P : List Str} (hP : lit "$HOME" ∉ P) {es : List (Str × Node)} (hl : lookupAt w.tree P = .node (.dir es)) {flag : Str} {c : Cmd}
    (hins : ∀ f n, c = .insert (some f) n → lit ".." ∉ splitSlash n) {w' : World} {res : Res} (h : Run other otherUp goos env w flag c w' res) :
    w'.tree.WF ∧ ∃ es', lookupAt w'.tree P = .node (.dir es') ∧ ∀ f text, Entry es' f text ↔ Entry es f text := by
  by_cases hc : inserts c = false
  · rw [run_same hc h]; exact ⟨hwf, es, hl, fun _ _ => Iff.rfl⟩
  · cases c with
    | insert f n => cases f with
      | none => exact absurd rfl hc
      | some f =>
        have hroot : rootOf goos flag = lit "$HOME/Documents/Vault" := by
          unfold rootOf
          rcases hgoos with rfl | rfl <;> rw [if_neg (by decide), if_pos (by decide)]
        unfold Run at h
        dsimp only at h
        rw [hroot] at h
        split at h
        · rw [h.1]; exact ⟨hwf, es, hl, fun _ _ => Iff.rfl⟩
        · rename_i content _
          split at h
          · rename_i v hv
            rw [h.1]
            unfold Cmds.insert at hv
            dsimp only at hv
            split at hv
            · cases hv
            · obtain ⟨rest, hp⟩ := insert_parts w hcwd n (hins f n rfl)
              have hgood := parts_good w hcwd (joinPath (lit "$HOME/Documents/Vault") n)
              rw [hp] at hv hgood
              cases hput : put w.tree (w.cwd ++ [lit "$HOME"] ++ lit "Documents" :: lit "Vault" :: rest) content with
              | none => rw [hput] at hv; cases hv
              | some t =>
                rw [hput] at hv
                simp only [Option.map_some, Option.some.injEq] at hv
                subst hv
                refine ⟨put_wf content _ _ _ hgood hwf hput, ?_⟩
                obtain ⟨es', he'⟩ := put_dir content _ P _ _ es hput hl
                refine ⟨es', he', ?_⟩
                have key : ∀ d m text, lookupAt (.dir es') [d, m] = .node (.file text) ↔ lookupAt (.dir es) [d, m] = .node (.file text) := by
                  intro d m text
                  have h1 : lookupAt t (P ++ [d, m]) = lookupAt (.dir es') [d, m] := by rw [lookupAt_append, he']
                  have h2 : lookupAt w.tree (P ++ [d, m]) = lookupAt (.dir es) [d, m] := by rw [lookupAt_append, hl]
                  rw [← h1, ← h2]
                  apply (put_lookup content _ _ _ hput).2
                  intro e
                  have hlen := congrArg List.length e
                  simp only [List.length_append, List.length_cons, List.length_nil] at hlen
                  have hpre : (w.cwd ++ [lit "$HOME"]) <+: P := by
                    apply List.prefix_of_prefix_length_le (l₃ := P ++ [d, m])
                    · rw [e]; exact List.prefix_append ..
                    · exact List.prefix_append ..
                    · simp only [List.length_append, List.length_cons, List.length_nil]; omega
                  exact hP (hpre.subset (by simp))
                intro f text
                constructor
                · rintro ⟨d, hd, m, g1, g2, g3⟩
                  exact ⟨d, hd, m, (key d m text).1 g1, g2, g3⟩
                · rintro ⟨d, hd, m, g1, g2, g3⟩
                  exact ⟨d, hd, m, (key d m text).2 g1, g2, g3⟩
          · rw [h.1]; exact ⟨hwf, es, hl, fun _ _ => Iff.rfl⟩
    | _ => exact absurd rfl hc

/-- **C99** On linux and darwin the entries of the store at `$HOME/Documents/Vault` are never changed by the program: after any number of runs, from any working directories, with any
commands and arguments, the store is there with the same entries with the same texts; only the names given to `insert` must not contain `..` elements, and no directory on the
way to the store may really be called `$HOME`. -/
theorem C99_store_unchanged (other otherUp : Str → Str) (goos : Str) (hgoos : goos = lit "linux" ∨ goos = lit "darwin") (env : Env) (home : Str) (habs : isRooted home = true)
    (hno : lit "$HOME" ∉ splitSlash home) : ∀ (calls : List Call) (w w' : World) (es : List (Str × Node)), w.tree.WF → IsStore w (home ++ lit "/Documents/Vault") es →
    (∀ c ∈ calls, ∀ p ∈ c.cwd, GoodName p) → (∀ c ∈ calls, ∀ f n, c.cmd = .insert (some f) n → lit ".." ∉ splitSlash n) → Session other otherUp goos env w calls w' →
    ∃ es', IsStore w' (home ++ lit "/Documents/Vault") es' ∧ ∀ f text, Entry es' f text ↔ Entry es f text := by
  have hne : home ≠ [] := by rintro rfl; cases habs
  have hparts : ∀ w : World, w.parts (home ++ lit "/Documents/Vault") = cleanParts true (splitSlash (home ++ lit "/Documents/Vault")) := by
    intro w
    unfold World.parts
    rw [isRooted_append hne, habs]; rfl
  have hP : lit "$HOME" ∉ cleanParts true (splitSlash (home ++ lit "/Documents/Vault")) := by
    intro h
    unfold cleanParts at h
    rw [List.mem_reverse] at h
    rcases mem_cleanParts _ _ h with h | h
    · rw [show lit "/Documents/Vault" = slash :: lit "Documents/Vault" by decide, splitSlash_append, List.mem_append] at h
      rcases h with h | h
      · exact hno h
      · exact absurd h (by decide)
    · cases h
  intro calls
  induction calls with
  | nil =>
    intro w w' es _ hs _ _ h
    cases h
    exact ⟨es, hs, fun _ _ => Iff.rfl⟩
  | cons c cs ih =>
    intro w w' es hwf hs hcwd hins h
    cases h with
    | @cons _ w₁ _ _ _ res hr hrest =>
      obtain ⟨h0, hl⟩ := at_dir.1 hs.here
      rw [hparts] at hl
      obtain ⟨hwf₁, es₁, hl₁, he₁⟩ := run_keeps (w := { w with cwd := c.cwd }) hgoos (hcwd c (by simp)) hwf hP hl (hins c (by simp)) hr
      have hs₁ : IsStore w₁ (home ++ lit "/Documents/Vault") es₁ :=
        ⟨hs.clean, at_dir.2 ⟨h0, by rw [hparts]; exact hl₁⟩, wf_lookup hwf₁ hl₁, hs.notGit⟩
      obtain ⟨es', i1, i2⟩ := ih w₁ w' es₁ hwf₁ hs₁ (fun c' h' => hcwd c' (by simp [h'])) (fun c' h' => hins c' (by simp [h'])) hrest
      exact ⟨es', i1, fun f text => (i2 f text).trans (he₁ f text)⟩

/-- **C101** `remove`, `rename`, `copy` and `init` (and all commands but `insert`) change nothing: after any number of runs on any system the file system is what it was. -/
theorem C101_unchanged (other otherUp : Str → Str) (goos : Str) (env : Env) : ∀ (calls : List Call) (w w' : World), (∀ c ∈ calls, inserts c.cmd = false) →
    Session other otherUp goos env w calls w' → w'.tree = w.tree
  | [], w, w', _, h => by cases h; rfl
  | c :: cs, w, w', hc, h => by
    cases h with
    | cons hr hrest =>
      rw [C101_unchanged other otherUp goos env cs _ w' (fun c' h' => hc c' (by simp [h'])) hrest, run_same (hc c (by simp)) hr]

/-- **C101** ... and `remove`, `rename`, `copy` always report success. -/
theorem C101_success (other otherUp : Str → Str) (goos : Str) (env : Env) (w w' : World) (flag : Str) (res : Res) (r f : Bool) (m n : Str)
    (h : Run other otherUp goos env w flag (.remove r f n) w' res ∨ Run other otherUp goos env w flag (.rename f m n) w' res ∨ Run other otherUp goos env w flag (.copy f m n) w' res) :
    w' = w ∧ ∃ out, res = .ok out none := by
  rcases h with h | h | h <;> exact ⟨h.1, _, h.2⟩

/-! ### insert -/

/-- **C100** (as far as it holds) If `insert --file` succeeds, and the given file is not the one that is written, the entry gets the text of the file, and no other file of the
file system changes. -/
theorem C100_copies_partial (other otherUp : Str → Str) (goos : Str) (env : Env) (w w' : World) (flag file n out : Str) (qr : Option Str) (text : Str)
    (hsrc : w.at file = .node (.file text)) (hother : w.parts file ≠ w.parts (joinPath (rootOf goos flag) n))
    (h : Run other otherUp goos env w flag (.insert (some file) n) w' (.ok out qr)) :
    lookupAt w'.tree (w.parts (joinPath (rootOf goos flag) n)) = .node (.file text) ∧
    ∀ path x, path ≠ w.parts (joinPath (rootOf goos flag) n) → (lookupAt w'.tree path = .node (.file x) ↔ lookupAt w.tree path = .node (.file x)) := by
  unfold Run at h
  dsimp only at h
  have e : sourceText w file (w.parts (joinPath (rootOf goos flag) n)) = some text := by
    unfold sourceText
    rw [hsrc]; simp only; rw [if_neg hother]
  rw [e] at h
  simp only at h
  split at h
  · rename_i v hv
    rw [h.1]
    unfold Cmds.insert at hv
    dsimp only at hv
    split at hv
    · cases hv
    · cases hput : put w.tree (w.parts (joinPath (rootOf goos flag) n)) text with
      | none => rw [hput] at hv; cases hv
      | some t =>
        rw [hput] at hv
        simp only [Option.map_some, Option.some.injEq] at hv
        subst hv
        exact ⟨(put_lookup text _ _ _ hput).1, (put_lookup text _ _ _ hput).2⟩
  · exact absurd h.2 nofun

/-- **C100** is false if the given file is the entry itself: it becomes empty, and success is reported. -/
theorem C100_self_false (other otherUp : Str → Str) : exampleWorld.at (lit "/v/sites/a.com") = .node (.file (lit "s3\nenv: tok\n")) ∧
    ∃ w', Run other otherUp (lit "freebsd") (fun _ => none) exampleWorld (lit "/v") (.insert (some (lit "/v/sites/a.com")) (lit "sites/a.com")) w' (.ok [] none) ∧
      w'.at (lit "/v/sites/a.com") = .node (.file []) :=
  ⟨rfl, _, ⟨rfl, rfl⟩, rfl⟩

/-- **C100** is false for a directory: success is reported, and the entry is created without any text. -/
theorem C100_directory_false (other otherUp : Str → Str) : exampleWorld.at (lit "/v/sites") = .node (.dir [(lit "a.com", .file (lit "s3\nenv: tok\n")), (lit "old", .dir [(lit "b.com", .file [])])]) ∧
    exampleWorld.at (lit "/v/sites/n") = .noEnt ∧
    ∃ w', Run other otherUp (lit "freebsd") (fun _ => none) exampleWorld (lit "/v") (.insert (some (lit "/v/sites")) (lit "sites/n")) w' (.ok [] none) ∧
      w'.at (lit "/v/sites/n") = .node (.file []) :=
  ⟨rfl, rfl, _, ⟨rfl, rfl⟩, rfl⟩

example : ∃ w', Run id id (lit "freebsd") (fun _ => none) exampleWorld (lit "/v") (.insert (some (lit "/v/notes")) (lit "sites/n")) w' (.ok [] none) ∧
    exampleWorld.at (lit "/v/notes") = .node (.file []) ∧ exampleWorld.parts (lit "/v/notes") ≠ exampleWorld.parts (joinPath (rootOf (lit "freebsd") (lit "/v")) (lit "sites/n")) :=
  ⟨_, ⟨rfl, rfl⟩, rfl, by decide⟩

/-- **C98** (as far as it holds) On a system other than windows, linux and darwin, with a root without variables: what is inserted (under a proper name, into a category that
has a directory, from another file) is then an entry of the store, next to the entries that were there, and all commands work on the new store; `list` prints it. -/
theorem C98_insert_found_partial (other otherUp : Str → Str) (goos : Str) (h1 : goos ≠ lit "windows") (h2 : goos ≠ lit "linux") (h3 : goos ≠ lit "darwin") (env : Env)
    (w : World) (root : Str) (hroot : 36 ∉ root) (es : List (Str × Node)) (hs : IsStore w root es) (d n file text : Str)
    (hd : d ∈ [lit "people", lit "email", lit "phone", lit "sites", lit "devices", lit "bank"]) (hn : GoodName n) (hds : n ≠ lit ".DS_Store")
    (ds : List (Str × Node)) (hdir : lookupAt (.dir es) [d] = .node (.dir ds)) (hfree : ∀ x, lookupAt (.dir es) [d, n] ≠ .node (.dir x))
    (hsrc : w.at file = .node (.file text)) (hother : w.parts file ≠ w.parts (root ++ lit "/" ++ d ++ lit "/" ++ n)) :
    ∃ w' es', (∀ v res, Run other otherUp goos env w root (.insert (some file) (d ++ lit "/" ++ n)) v res ↔ v = w' ∧ res = .ok [] none) ∧
      IsStore w' root es' ∧ Entry es' (d ++ lit "/" ++ n) text ∧ (∀ f x, f ≠ d ++ lit "/" ++ n → (Entry es' f x ↔ Entry es f x)) ∧
      (∀ c v res, inserts c = false → Run other otherUp goos env w' root c v res → v = w' ∧ Does other otherUp es' c res) ∧
      (∀ v res, Run other otherUp goos env w' root (.list []) v res → ∃ ws : List Str, d ++ lit "/" ++ n ∈ ws ∧ res = .ok (ws.flatMap fun f => f ++ lit "\n") none) := by
  have hr : rootOf goos root = root := by
    unfold rootOf
    rw [if_neg h1, if_neg (by rintro (h | h); exacts [h2 h, h3 h])]
  obtain ⟨w', es', g1, g2, g3, g4, -⟩ := C52_insert_partial w root es hs d n text hd hn hds ds hdir hfree
  have hdg : GoodName d := (by decide : ∀ d ∈ categories, GoodName d) d hd
  have hall : ∀ c v res, inserts c = false → Run other otherUp goos env w' root c v res → v = w' ∧ Does other otherUp es' c res := fun c v res hc hrun =>
    C97_root_partial other otherUp goos h1 h2 h3 env w' root root (expands_plain _ hroot) es' g2 c hc v res hrun
  refine ⟨w', es', ?_, g2, g3, g4, hall, ?_⟩
  · intro v res
    have e : sourceText w file (w.parts (joinPath root (d ++ lit "/" ++ n))) = some text := by
      unfold sourceText
      rw [hsrc]; simp only
      rw [if_neg]
      rw [join_entry hs.clean hdg hn]
      rwa [show root ++ lit "/" ++ d ++ lit "/" ++ n = root ++ slash :: d ++ slash :: n by
        rw [show lit "/" = [slash] from rfl]; simp] at hother
    unfold Run
    dsimp only
    rw [hr, e]
    simp only
    rw [g1]
  · intro v res hrun
    obtain ⟨-, hdoes⟩ := hall (.list []) v res rfl hrun
    obtain ⟨ws, k1, k2⟩ := hdoes.1 rfl
    exact ⟨ws, (k1.2 _).2 ⟨text, g3⟩, k2⟩

example : 36 ∉ lit "/v" ∧ IsStore exampleWorld (lit "/v") exampleStore ∧ exampleWorld.at (lit "/v/notes") = .node (.file []) ∧ GoodName (lit "c.com") ∧
    exampleWorld.parts (lit "/v/notes") ≠ exampleWorld.parts (lit "/v" ++ lit "/" ++ lit "sites" ++ lit "/" ++ lit "c.com") :=
  ⟨by decide, exampleStore_isStore, rfl, by decide, by decide⟩

/-- An account whose working directory has a directory that is really called `$HOME`. -/
def dollarWorld : World :=
  ⟨.dir [(lit "h", .dir [(lit "$HOME", .dir [(lit "Documents", .dir [(lit "Vault", .dir [(lit "sites", .dir [])])])]), (lit "Documents", .dir [(lit "Vault", .dir exampleStore)]),
    (lit "new", .file (lit "pw"))])], [lit "h"]⟩

/-- **C98** is false on linux: an insert succeeds, and `list` does not print the entry. -/
theorem C98_not_listed_false (other otherUp : Str → Str) : ∃ w', Run other otherUp (lit "linux") homeEnv dollarWorld [] (.insert (some (lit "new")) (lit "sites/new")) w' (.ok [] none) ∧
    ∀ v res, Run other otherUp (lit "linux") homeEnv w' [] (.list []) v res → ∃ ws : List Str, lit "sites/new" ∉ ws ∧ res = .ok (ws.flatMap fun f => f ++ lit "\n") none := by
  refine ⟨_, ⟨rfl, rfl⟩, ?_⟩
  intro v res h
  obtain ⟨-, h⟩ := C96_store other otherUp (lit "linux") (Or.inl rfl) homeEnv (lit "/h") (by decide) _ exampleStore
    ⟨⟨by decide, by decide, by decide⟩, rfl, exampleStore_wf, by decide⟩ [] (.list []) rfl v res h
  obtain ⟨ws, g1, g2⟩ := h.1 rfl
  refine ⟨ws, ?_, g2⟩
  intro hc
  obtain ⟨text, ht⟩ := (g1.2 _).1 hc
  exact absurd (entry_lookup exampleStore_wf (d := lit "sites") (n := lit "new") (by decide) (by decide) ht) nofun

/-- **C98** is false on linux and darwin: unless the working directory has a directory that is really called `$HOME`, no entry can be inserted. -/
theorem C98_insert_fails (other otherUp : Str → Str) (goos : Str) (hgoos : goos = lit "linux" ∨ goos = lit "darwin") (env : Env) (w : World)
    (hg : ∀ p ∈ w.cwd, GoodName p) (hno : lookupAt w.tree (w.cwd ++ [lit "$HOME"]) = .noEnt) (flag file d n : Str) (hd : GoodName d) (hn : GoodName n) (w' : World) (res : Res)
    (h : Run other otherUp goos env w flag (.insert (some file) (d ++ lit "/" ++ n)) w' res) : w' = w ∧ res = .err := by
  have hroot : rootOf goos flag = lit "$HOME/Documents/Vault" := by
    unfold rootOf
    rcases hgoos with rfl | rfl <;> rw [if_neg (by decide), if_pos (by decide)]
  unfold Run at h
  dsimp only at h
  rw [hroot] at h
  split at h
  · exact h
  · rw [C52_default_root_fails w hg hno d n _ hd hn] at h
    exact h

/-- The store of the example, a run that changes a file elsewhere and runs that change nothing. -/
example : dollarWorld.tree.WF ∧ IsStore dollarWorld (lit "/h" ++ lit "/Documents/Vault") exampleStore ∧ isRooted (lit "/h") = true ∧ lit "$HOME" ∉ splitSlash (lit "/h") ∧
    lit ".." ∉ splitSlash (lit "sites/new") ∧
    ∃ w', Session id id (lit "linux") homeEnv dollarWorld [⟨[lit "h"], [], .insert (some (lit "new")) (lit "sites/new")⟩, ⟨[], [], .remove true true (lit "sites/a.com")⟩] w' := by
  refine ⟨?_, ⟨⟨by decide, by decide, by decide⟩, rfl, exampleStore_wf, by decide⟩, by decide, by decide, by decide, _, .cons ⟨rfl, rfl⟩ (.cons ⟨rfl, rfl⟩ (.nil _))⟩
  simp only [dollarWorld, exampleStore, Node.WF, WFList, WFPair]
  decide

end Verif.Main
