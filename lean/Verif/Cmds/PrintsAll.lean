import Verif.Cmds.Prints
/-
C166 for `grep` and C167: what `set-env` can set.
-/
namespace Verif.Cmds
open Repo Repo.Spec Closest Spec

namespace Spec

/-- `names` gives for each category its entries, in the order of their names. -/
def ByCategory (es : List (Str × Node)) (names : Str → List Str) : Prop :=
  (∀ d, (names d).Pairwise fun a b => strLt a b = true) ∧ ∀ d f, f ∈ names d ↔ d ∈ categories ∧ ∃ n, IsEntry (.dir es) d n ∧ f = d ++ lit "/" ++ n

/-- `cats` lists the categories that have entries, each once. -/
def CategoryOrder (es : List (Str × Node)) (cats : List Str) : Prop := cats.Nodup ∧ ∀ d, d ∈ cats ↔ d ∈ categories ∧ ∃ n, IsEntry (.dir es) d n

end Spec

theorem words_iff {w : World} {root : Str} {es : List (Str × Node)} (hs : IsStore w root es) {names : Str → List Str} (hn : ByCategory es names) :
    ∃ files, scan w root = .ok files ∧ ∀ ws, Words files ws ↔ ∃ cats, CategoryOrder es cats ∧ ws = cats.flatMap names := by
  obtain ⟨hsort, hmem⟩ := hn
  obtain ⟨files, e, h1, h2⟩ := C43_scan_lists_entries w root es hs.clean hs.here hs.wf hs.notGit
  have hfn : files = names := by
    funext d
    exact Closest.Json.sorted_unique (R := fun a b : Str => strLt a b = true) (fun a h => strLt_ne h rfl) (fun _ _ _ => strLt_trans) (h2 d) (hsort d)
      (fun f => by rw [h1, hmem]; exact Iff.rfl)
  subst hfn
  have hne : ∀ d, files d ≠ [] ↔ d ∈ categories ∧ ∃ n, IsEntry (.dir es) d n := by
    intro d
    constructor
    · intro h
      obtain ⟨f, hf⟩ := List.exists_mem_of_ne_nil _ h
      obtain ⟨k1, n, k2, -⟩ := (hmem d f).1 hf
      exact ⟨k1, n, k2⟩
    · rintro ⟨k1, n, k2⟩
      exact List.ne_nil_of_mem ((hmem d _).2 ⟨k1, n, k2, rfl⟩)
  refine ⟨files, e, fun ws => ?_⟩
  unfold Words GroupOrder
  constructor
  · rintro ⟨order, ⟨k1, k2⟩, rfl⟩
    exact ⟨order, ⟨k1, fun d => (k2 d).trans (hne d)⟩, rfl⟩
  · rintro ⟨cats, ⟨k1, k2⟩, rfl⟩
    exact ⟨cats, ⟨k1, fun d => (k2 d).trans (hne d).symm⟩, rfl⟩

theorem byCategory_entry {es : List (Str × Node)} {names : Str → List Str} (hn : ByCategory es names) {cats : List Str} {f : Str} (h : f ∈ cats.flatMap names) : ∃ text, Entry es f text := by
  obtain ⟨d, -, h1⟩ := List.mem_flatMap.1 h
  obtain ⟨h2, n, h3, h4⟩ := (hn.2 d f).1 h1
  exact entry_isEntry.2 ⟨d, h2, n, h3, h4⟩

/-- **C166** What `grep` can print: for any order of the categories, the matching lines of all entries of each category in the order of their names; and nothing else. -/
theorem C166_grep (expand : Str → Str) (w : World) (root : Str) (es : List (Str × Node)) (hs : IsStore w (expand root) es) (names : Str → List Str) (hn : ByCategory es names) (grep : Str)
    (hg : grep ≠ []) (p : Str → Bool) (lines : Str → List Str) (binary : Str → Bool) (hlines : ReadsAll es lines binary) (res : Res) :
    Grep expand w root grep (some p) res ↔ ∃ cats, CategoryOrder es cats ∧
      res = .ok ((cats.flatMap names).flatMap fun f => matchLines f ((numbered (lines f)).filter fun m => p m.2)) none := by
  obtain ⟨files, e, hw⟩ := words_iff hs hn
  have key : ∀ cats : List Str, ((cats.flatMap names).flatMap fun f => printMatches f (searchInFile w (joinPath (expand root) f) (compareWith p))) =
      (cats.flatMap names).flatMap fun f => matchLines f ((numbered (lines f)).filter fun m => p m.2) := by
    intro cats
    apply List.flatMap_congr
    intro f hf
    obtain ⟨text, ht⟩ := byCategory_entry hn hf
    rw [search_any hs ht (hlines f text ht), printMatches_eq]
  unfold Grep
  rw [e]
  simp only
  rw [if_pos hg]
  constructor
  · rintro ⟨ws, h1, rfl⟩
    obtain ⟨cats, h2, rfl⟩ := (hw ws).1 h1
    exact ⟨cats, h2, by rw [key]⟩
  · rintro ⟨cats, h2, rfl⟩
    exact ⟨_, (hw _).2 ⟨cats, h2, rfl⟩, by rw [key]⟩

/-- **C167** What `set-env` can do: for any order of the categories, the exports of the selected entries, category by category and in the order of the names, up to the first binary entry. -/
theorem C167_setenv (otherUp expand : Str → Str) (w : World) (root : Str) (es : List (Str × Node)) (hs : IsStore w (expand root) es) (names : Str → List Str) (hn : ByCategory es names) (passName : Str)
    (lines : Str → List Str) (binary : Str → Bool) (hlines : ReadsAll es lines binary) (res : Option (List (Str × Str) × Bool)) :
    SetEnv otherUp expand w root passName res ↔ ∃ cats, CategoryOrder es cats ∧ let sel := (cats.flatMap names).filter fun f => decide (passName = [] ∨ f = passName)
      res = some ((sel.takeWhile fun f => !binary f).flatMap fun f => exports otherUp (lines f), sel.any binary) := by
  obtain ⟨files, e, hw⟩ := words_iff hs hn
  unfold SetEnv
  rw [e]
  simp only
  constructor
  · rintro ⟨ws, h1, rfl⟩
    obtain ⟨cats, h2, rfl⟩ := (hw ws).1 h1
    refine ⟨cats, h2, ?_⟩
    rw [setEnvLoop_any otherUp hs passName lines binary hlines _ [] (fun f hf => byCategory_entry hn hf)]
    rfl
  · rintro ⟨cats, h2, rfl⟩
    refine ⟨_, (hw _).2 ⟨cats, h2, rfl⟩, ?_⟩
    rw [setEnvLoop_any otherUp hs passName lines binary hlines _ [] (fun f hf => byCategory_entry hn hf)]
    rfl

/-- **C167** With a name `set-env` always does the same. -/
theorem C167_named (otherUp expand : Str → Str) (w : World) (root : Str) (es : List (Str × Node)) (hs : IsStore w (expand root) es) (passName : Str) (hp : passName ≠ [])
    (res res' : Option (List (Str × Str) × Bool)) (h : SetEnv otherUp expand w root passName res) (h' : SetEnv otherUp expand w root passName res') : res = res' := by
  obtain ⟨lines, binary, hlines⟩ := readsAll_exists hs
  obtain ⟨ws, h1, h2⟩ := C80_setenv otherUp expand w root es hs passName lines binary hlines res h
  obtain ⟨ws', h1', h2'⟩ := C80_setenv otherUp expand w root es hs passName lines binary hlines res' h'
  have hp2 : ws.Perm ws' := allEntries_perm h1 h1'
  have key : ∀ l : List Str, l.Nodup → l.filter (fun f => decide (passName = [] ∨ f = passName)) = if passName ∈ l then [passName] else [] := by
    intro l hl
    have e : (fun f => decide (passName = [] ∨ f = passName)) = fun f => decide (f = passName) := by
      funext f
      simp [hp]
    rw [e]
    by_cases hm : passName ∈ l
    · rw [if_pos hm]
      refine List.perm_singleton.1 ((List.perm_ext_iff_of_nodup (hl.filter _) (by simp)).2 fun f => ?_)
      simp only [List.mem_filter, decide_eq_true_eq, List.mem_singleton]
      exact ⟨fun h => h.2, fun h => ⟨h ▸ hm, h⟩⟩
    · rw [if_neg hm]
      refine List.filter_eq_nil_iff.2 fun f hf => ?_
      simp only [decide_eq_true_eq]
      rintro rfl
      exact hm hf
  dsimp only at h2 h2'
  rw [h2, h2', key ws h1.1, key ws' h1'.1]
  simp only [hp2.mem_iff]

theorem flatMap_one {α β : Type} [DecidableEq α] {g : α → List β} {d : α} : ∀ {l : List α}, l.Nodup → (∀ x ∈ l, x ≠ d → g x = []) → l.flatMap g = if d ∈ l then g d else []
  | [], _, _ => rfl
  | x :: l, hn, h => by
    obtain ⟨h1, h2⟩ := List.nodup_cons.1 hn
    rw [List.flatMap_cons, flatMap_one h2 fun y hy => h y (List.mem_cons_of_mem _ hy)]
    by_cases e : x = d
    · subst e
      rw [if_neg h1, List.append_nil, if_pos (by simp)]
    · rw [h x (by simp) e, List.nil_append]
      simp [Ne.symm e]

/-- **C167** Without a name, and if no entry is binary: a variable that only entries of one category export has the same value after every run. -/
theorem C167_variable (otherUp expand : Str → Str) (w : World) (root : Str) (es : List (Str × Node)) (hs : IsStore w (expand root) es) (lines : Str → List Str) (binary : Str → Bool)
    (hlines : ReadsAll es lines binary) (hb : ∀ f text, Entry es f text → binary f = false) (k d : Str)
    (hk : ∀ d' n, d' ∈ categories → d' ≠ d → IsEntry (.dir es) d' n → ∀ kv ∈ exports otherUp (lines (d' ++ lit "/" ++ n)), kv.1 ≠ k)
    (calls calls' : List (Str × Str)) (failed failed' : Bool) (h : SetEnv otherUp expand w root [] (some (calls, failed))) (h' : SetEnv otherUp expand w root [] (some (calls', failed'))) (env : Env) :
    failed = false ∧ failed' = false ∧ calls.foldl setenv env k = calls'.foldl setenv env k := by
  obtain ⟨names, hn⟩ := names_exist hs
  have hn : ByCategory es names := hn
  have key : ∀ calls failed, SetEnv otherUp expand w root [] (some (calls, failed)) → failed = false ∧
      calls.filter (fun kv => decide (kv.1 = k ∧ (0 : UInt8) ∉ kv.2)) = ((names d).flatMap fun f => exports otherUp (lines f)).filter (fun kv => decide (kv.1 = k ∧ (0 : UInt8) ∉ kv.2)) := by
    intro calls failed h
    obtain ⟨cats, ⟨h1, h2⟩, h3⟩ := (C167_setenv otherUp expand w root es hs names hn [] lines binary hlines _).1 h
    have hbin : ∀ f ∈ cats.flatMap names, binary f = false := fun f hf => by
      obtain ⟨t, ht⟩ := byCategory_entry hn hf
      exact hb f t ht
    have e1 : (cats.flatMap names).filter (fun f => decide (([] : Str) = [] ∨ f = [])) = cats.flatMap names := List.filter_eq_self.2 (by simp)
    rw [e1] at h3
    simp only [Option.some.injEq, Prod.mk.injEq] at h3
    obtain ⟨rfl, rfl⟩ := h3
    refine ⟨?_, ?_⟩
    · rw [List.any_eq_false]
      intro f hf
      rw [hbin f hf]
      decide
    · rw [List.takeWhile_eq_self_iff.2 (fun f hf => by rw [hbin f hf]; rfl), List.flatMap_assoc, List.filter_flatMap]
      rw [flatMap_one (d := d) h1 ?_]
      · split
        · rfl
        · rename_i hd
          have : names d = [] := by
            by_contra hne
            obtain ⟨f, hf⟩ := List.exists_mem_of_ne_nil _ hne
            obtain ⟨k1, n, k2, -⟩ := (hn.2 d f).1 hf
            exact hd ((h2 d).2 ⟨k1, n, k2⟩)
          rw [this]
          rfl
      · intro d' hd' hne
        rw [List.filter_eq_nil_iff]
        intro kv hkv
        obtain ⟨f, hf, hm⟩ := List.mem_flatMap.1 hkv
        obtain ⟨k1, n, k2, rfl⟩ := (hn.2 d' f).1 hf
        have := hk d' n k1 hne k2 kv hm
        simp [this]
  obtain ⟨a1, a2⟩ := key calls failed h
  obtain ⟨b1, b2⟩ := key calls' failed' h'
  refine ⟨a1, b1, ?_⟩
  rw [setenv_each, setenv_each, a2, b2]

/-- The hypothesis is met: only entries of `sites` export something here. -/
example (otherUp : Str → Str) (lines : Str → List Str) (k : Str) : ∀ d' n, d' ∈ categories → d' ≠ lit "sites" →
    IsEntry (.dir (sitesStore [(lit "a", lit "p1\nenv: X\n"), (lit "b", lit "p2\nenv: X\n")])) d' n → ∀ kv ∈ exports otherUp (lines (d' ++ lit "/" ++ n)), kv.1 ≠ k := by
  rintro d n - hd ⟨⟨c, h⟩, -⟩
  simp [lookupAt, sitesStore, entry, Ne.symm hd] at h

/-- A store with entries in two categories that export the same variable. -/
def envStore : List (Str × Node) := [(lit "email", .dir [(lit "b", .file (lit "p2\nenv: X\n"))]), (lit "sites", .dir [(lit "a", .file (lit "p1\nenv: X\n"))])]

theorem envStore_entry (d n : Str) : IsEntry (.dir envStore) d n ↔ (d = lit "email" ∧ n = lit "b") ∨ (d = lit "sites" ∧ n = lit "a") := by
  have a1 : lit "email" ≠ lit "sites" := by decide
  have a2 : lit "b" ≠ lit ".DS_Store" := by decide
  have a3 : lit "a" ≠ lit ".DS_Store" := by decide
  unfold IsEntry
  constructor
  · rintro ⟨⟨c, h⟩, -⟩
    by_cases e1 : lit "email" = d
    · subst e1
      by_cases e2 : lit "b" = n
      · exact Or.inl ⟨rfl, e2.symm⟩
      · simp [lookupAt, envStore, entry, e2] at h
    · by_cases e2 : lit "sites" = d
      · subst e2
        by_cases e3 : lit "a" = n
        · exact Or.inr ⟨rfl, e3.symm⟩
        · simp [lookupAt, envStore, entry, e3, a1] at h
      · simp [lookupAt, envStore, entry, e1, e2] at h
  · rintro (⟨rfl, rfl⟩ | ⟨rfl, rfl⟩)
    · exact ⟨⟨_, rfl⟩, a2⟩
    · exact ⟨⟨_, rfl⟩, a3⟩

/-- **C167** is false for other variables: here `X` gets the one password or the other, depending on the order of the map of the categories. -/
theorem C167_false (otherUp : Str → Str) (env : Env) : let w : World := ⟨.dir [(lit "v", .dir envStore)], []⟩
    ∃ calls calls', SetEnv otherUp id w (lit "/v") [] (some (calls, false)) ∧ SetEnv otherUp id w (lit "/v") [] (some (calls', false)) ∧
      calls.foldl setenv env (lit "X") = some (lit "p1") ∧ calls'.foldl setenv env (lit "X") = some (lit "p2") := by
  intro w
  have hst : ∀ (l : Str), l.getLast? ≠ some 13 → Stripped l l := fun l h => Or.inr ⟨rfl, fun t' e => h (by rw [e]; simp)⟩
  have hs : IsStore w (id (lit "/v")) envStore :=
    ⟨⟨by decide, by decide, by decide⟩, rfl, by simp only [Node.WF, envStore, WFList, WFPair]; decide, by decide⟩
  obtain ⟨names, hn⟩ := names_exist hs
  have hn : ByCategory envStore names := hn
  have a0 : lit "email" ≠ lit "sites" := by decide
  have c1 : lit "email" ∈ categories := by decide
  have c2 : lit "sites" ∈ categories := by decide
  have hnd : ∀ d, (names d).Nodup := fun d => (hn.1 d).imp fun h => strLt_ne h
  have n1 : names (lit "email") = [lit "email/b"] := by
    refine List.perm_singleton.1 ((List.perm_ext_iff_of_nodup (hnd _) (by simp)).2 fun f => ?_)
    have e : lit "email" ++ lit "/" ++ lit "b" = lit "email/b" := by decide
    rw [hn.2, List.mem_singleton, ← e]
    simp only [envStore_entry, true_and, a0, false_and, or_false, exists_eq_left, c1]
  have n2 : names (lit "sites") = [lit "sites/a"] := by
    refine List.perm_singleton.1 ((List.perm_ext_iff_of_nodup (hnd _) (by simp)).2 fun f => ?_)
    have e : lit "sites" ++ lit "/" ++ lit "a" = lit "sites/a" := by decide
    rw [hn.2, List.mem_singleton, ← e]
    simp only [envStore_entry, true_and, a0.symm, false_and, false_or, exists_eq_left, c2]
  have hcat : ∀ d, (d ∈ categories ∧ ∃ n, IsEntry (.dir envStore) d n) ↔ d = lit "email" ∨ d = lit "sites" := by
    intro d
    simp only [envStore_entry]
    constructor
    · rintro ⟨-, n, ⟨h, -⟩ | ⟨h, -⟩⟩
      · exact Or.inl h
      · exact Or.inr h
    · rintro (rfl | rfl)
      · exact ⟨c1, _, Or.inl ⟨rfl, rfl⟩⟩
      · exact ⟨c2, _, Or.inr ⟨rfl, rfl⟩⟩
  have o1 : CategoryOrder envStore [lit "email", lit "sites"] := ⟨by simp [a0], fun d => by rw [hcat]; simp⟩
  have o2 : CategoryOrder envStore [lit "sites", lit "email"] := ⟨by simp [a0.symm], fun d => by rw [hcat]; simp [or_comm]⟩
  have b0 : lit "sites/a" ≠ lit "email/b" := by decide
  have hl : ReadsAll envStore (fun f => if f = lit "email/b" then [lit "p2", lit "env: X"] else [lit "p1", lit "env: X"]) (fun _ => false) := by
    rintro f text ⟨d, -, n, h1, h2, rfl⟩
    rcases (envStore_entry d n).1 ⟨⟨text, h1⟩, h2⟩ with ⟨rfl, rfl⟩ | ⟨rfl, rfl⟩
    · have e : lit "email" ++ lit "/" ++ lit "b" = lit "email/b" := by decide
      have et : text = lit "p2\nenv: X\n" := by
        have e3 : lookupAt (.dir envStore) [lit "email", lit "b"] = .node (.file (lit "p2\nenv: X\n")) := rfl
        rw [e3] at h1
        injection h1 with h1
        injection h1 with h1
        exact h1.symm
      rw [e, et]
      dsimp only
      rw [if_pos rfl]
      exact ⟨[lit "p2", lit "env: X"], [lit "p2", lit "env: X"], ⟨by decide, Or.inl (by decide)⟩, .cons (hst _ (by decide)) (.cons (hst _ (by decide)) .nil),
        Or.inr ⟨by intro t ht; cases ht; decide, rfl, rfl⟩⟩
    · have e : lit "sites" ++ lit "/" ++ lit "a" = lit "sites/a" := by decide
      have et : text = lit "p1\nenv: X\n" := by
        have e3 : lookupAt (.dir envStore) [lit "sites", lit "a"] = .node (.file (lit "p1\nenv: X\n")) := rfl
        rw [e3] at h1
        injection h1 with h1
        injection h1 with h1
        exact h1.symm
      rw [e, et]
      dsimp only
      rw [if_neg b0]
      exact ⟨[lit "p1", lit "env: X"], [lit "p1", lit "env: X"], ⟨by decide, Or.inl (by decide)⟩, .cons (hst _ (by decide)) (.cons (hst _ (by decide)) .nil),
        Or.inr ⟨by intro t ht; cases ht; decide, rfl, rfl⟩⟩
  have hx : ∀ p, exports otherUp [p, lit "env: X"] = [(lit "X", p)] := by
    intro p
    have e1 : (lit "env:").isPrefixOf (lit "env: X") = true := by decide
    have e2 : toUpper otherUp (trimSpace ((lit "env: X").drop 4)) = lit "X" := by
      have e3 : trimSpace ((lit "env: X").drop 4) = lit "X" := by decide
      rw [e3]
      unfold toUpper
      rw [if_pos (by decide)]
      decide
    simp only [exports, List.filter_cons, e1, if_true, List.filter_nil, List.map_cons, List.map_nil, e2]
  have key : ∀ l l' : List Str, l.map (fun f => if f = lit "email/b" then lit "p2" else lit "p1") = l' →
      (l.flatMap fun f => exports otherUp (if f = lit "email/b" then [lit "p2", lit "env: X"] else [lit "p1", lit "env: X"])) = l'.map fun p => (lit "X", p) := by
    rintro l _ rfl
    induction l with
    | nil => rfl
    | cons f l ih =>
      rw [List.flatMap_cons, ih]
      by_cases e : f = lit "email/b"
      · rw [if_pos e, hx, List.map_cons, if_pos e]; rfl
      · rw [if_neg e, hx, List.map_cons, if_neg e]; rfl
  refine ⟨[(lit "X", lit "p2"), (lit "X", lit "p1")], [(lit "X", lit "p1"), (lit "X", lit "p2")],
    (C167_setenv otherUp id w (lit "/v") envStore hs names hn [] _ _ hl _).2 ⟨_, o1, ?_⟩, (C167_setenv otherUp id w (lit "/v") envStore hs names hn [] _ _ hl _).2 ⟨_, o2, ?_⟩, ?_, ?_⟩
  · simp only [List.flatMap_cons, List.flatMap_nil, n1, n2, List.append_nil, List.cons_append, List.nil_append, true_or, decide_true, List.filter_true, Bool.not_false]
    rw [List.takeWhile_eq_self_iff.2 (by simp), key _ [lit "p2", lit "p1"] (by simp [b0])]
    rfl
  · simp only [List.flatMap_cons, List.flatMap_nil, n1, n2, List.append_nil, List.cons_append, List.nil_append, true_or, decide_true, List.filter_true, Bool.not_false]
    rw [List.takeWhile_eq_self_iff.2 (by simp), key _ [lit "p1", lit "p2"] (by simp [b0])]
    rfl
  · rw [setenv_each, if_neg (by decide)]
    have : ([(lit "X", lit "p2"), (lit "X", lit "p1")].filter fun kv => decide (kv.1 = lit "X" ∧ (0 : UInt8) ∉ kv.2)) = [(lit "X", lit "p2"), (lit "X", lit "p1")] := by decide
    rw [this]
    rfl
  · rw [setenv_each, if_neg (by decide)]
    have : ([(lit "X", lit "p1"), (lit "X", lit "p2")].filter fun kv => decide (kv.1 = lit "X" ∧ (0 : UInt8) ∉ kv.2)) = [(lit "X", lit "p1"), (lit "X", lit "p2")] := by decide
    rw [this]
    rfl

end Verif.Cmds
