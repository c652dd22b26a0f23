import Verif.Cmds.Props
/-
C49: setenv.
-/
namespace Verif.Cmds
open Repo Repo.Spec Closest Spec

/-! ## C49: setenv -/

theorem setEnvHandle_nil (otherUp : Str → Str) (st : EnvSt) (n : Nat) (l : Str) : (setEnvHandle otherUp st n l).2 = .nil := by
  unfold setEnvHandle; split
  · rfl
  · split <;> rfl

theorem setEnv_rest (otherUp : Str → Str) : ∀ (ts : List Str) (n : Nat) (st : EnvSt), 2 ≤ n →
    ((ts.zipIdx n).foldl (fun st p => (setEnvHandle otherUp st p.2 p.1).1) st).calls =
      st.calls ++ (ts.filter fun t => (lit "env:").isPrefixOf t).map fun t => (toUpper otherUp (trimSpace (t.drop 4)), st.pw)
  | [], n, st, _ => by simp
  | t :: ts, n, st, hn => by
    rw [List.zipIdx_cons, List.foldl_cons, setEnv_rest otherUp ts (n + 1) _ (by omega)]
    unfold setEnvHandle
    simp only
    rw [if_neg (by omega)]
    unfold hasPrefix
    by_cases h : (lit "env:").isPrefixOf t = true
    · rw [if_pos h, List.filter_cons_of_pos h, List.map_cons]
      simp
    · rw [if_neg h, List.filter_cons_of_neg h]

theorem setEnv_entry (otherUp : Str → Str) (ts : List Str) (calls : List (Str × Str)) :
    ((ts.zipIdx 1).foldl (fun st p => (setEnvHandle otherUp st p.2 p.1).1) ⟨[], calls⟩).calls = calls ++ exports otherUp ts := by
  cases ts with
  | nil => simp [exports]
  | cons pw ts =>
    rw [List.zipIdx_cons, List.foldl_cons, setEnv_rest otherUp ts 2 _ (Nat.le_refl _)]
    rfl

theorem setEnvLoop_spec (otherUp : Str → Str) {w : World} {root : Str} {es : List (Str × Node)} (hs : IsStore w root es) (passName : Str) (lines : Str → List Str)
    (hlines : ∀ f text, Entry es f text → passName = [] ∨ f = passName → TextLines text (lines f)) : ∀ (ws : List Str) (calls : List (Str × Str)),
    (∀ f ∈ ws, ∃ text, Entry es f text) →
    setEnvLoop otherUp w root passName ws calls =
      (calls ++ (ws.filter fun f => decide (passName = [] ∨ f = passName)).flatMap fun f => exports otherUp (lines f), false)
  | [], calls, _ => by simp [setEnvLoop]
  | f :: ws, calls, h => by
    rw [setEnvLoop]
    have ih := fun c => setEnvLoop_spec otherUp hs passName lines hlines ws c (fun g hg => h g (List.mem_cons_of_mem _ hg))
    obtain ⟨text, ht⟩ := h f (List.mem_cons_self ..)
    by_cases hc : passName = [] ∨ f = passName
    · have hc' : f = passName ∨ passName.length = 0 := by
        rcases hc with hc | hc
        · exact Or.inr (by rw [hc]; rfl)
        · exact Or.inl hc
      rw [if_pos hc', List.filter_cons_of_pos (by simpa using hc), List.flatMap_cons]
      dsimp only
      rw [read_entry (setEnvHandle_nil otherUp) hs ht (hlines f text ht hc), setEnv_entry, if_neg (by simp), ih, List.append_assoc]
    · have hc' : ¬ (f = passName ∨ passName.length = 0) := by
        rintro (hc' | hc')
        · exact hc (Or.inr hc')
        · exact hc (Or.inl (List.length_eq_zero_iff.1 hc'))
      rw [if_neg hc', List.filter_cons_of_neg (by simpa using hc), ih]

/-- **C49** (for entries that are text) `setenv` exports exactly the variables of the selected entries (the named one, or all), each with the
first line of its entry. Missing: an entry that cannot be read as text ends the command, see `C49_binary_false`. -/
theorem C49_setenv_partial (otherUp expand : Str → Str) (w : World) (root : Str) (es : List (Str × Node)) (hs : IsStore w (expand root) es) (passName : Str)
    (lines : Str → List Str) (hlines : ∀ f text, Entry es f text → passName = [] ∨ f = passName → TextLines text (lines f))
    (res : Option (List (Str × Str) × Bool)) (h : SetEnv otherUp expand w root passName res) :
    ∃ ws, AllEntries es ws ∧
      res = some ((ws.filter fun f => decide (passName = [] ∨ f = passName)).flatMap fun f => exports otherUp (lines f), false) := by
  obtain ⟨files, e, hw, -, -⟩ := store_scan hs
  unfold SetEnv at h
  rw [e] at h
  simp only at h
  obtain ⟨ws, h1, h2⟩ := h
  refine ⟨ws, hw ws h1, ?_⟩
  rw [h2, setEnvLoop_spec otherUp hs passName lines hlines ws [] (fun f hf => ((hw ws h1).2 f).1 hf)]
  rfl

/-- `setenv` of the example. -/
example : exports id [lit "s3", lit "env: tok"] = [(lit "TOK", lit "s3")] := by decide

/-- What the calls do to the environment: a variable gets the value of the last call that names it, and no other changes. -/
theorem setenv_calls (calls : List (Str × Str)) : ∀ (env : Env) (k : Str), k ≠ [] → 61 ∉ k → 0 ∉ k → (∀ kv ∈ calls, (0 : UInt8) ∉ kv.2) →
    calls.foldl setenv env k = match (calls.filter fun kv => kv.1 = k).getLast? with
      | some kv => some kv.2
      | none => env k := by
  induction calls with
  | nil => intro env k _ _ _ _; rfl
  | cons kv calls ih =>
    intro env k h1 h2 h3 h4
    rw [List.foldl_cons, ih _ k h1 h2 h3 (fun x hx => h4 x (List.mem_cons_of_mem _ hx))]
    have h0 := h4 kv (List.mem_cons_self ..)
    by_cases hk : kv.1 = k
    · rw [List.filter_cons_of_pos (by simpa using hk)]
      have : setenv env kv k = some kv.2 := by
        unfold setenv
        rw [if_neg (by rw [hk]; simp only [h1, h2, h3, h0, or_self, not_false_eq_true]), if_pos hk.symm]
      cases hf : calls.filter (fun kv => kv.1 = k) with
      | nil => simp [this]
      | cons x xs => rw [List.getLast?_cons_cons]; cases hx : (x :: xs).getLast? with
        | none => simp at hx
        | some y => rfl
    · rw [List.filter_cons_of_neg (by simpa using hk)]
      have : setenv env kv k = env k := by
        unfold setenv
        split
        · rfl
        · exact if_neg (fun hc => hk hc.symm)
      rw [this]

/-- **C49** (for one named text entry) After `setenv f`, every variable (a name without `=` and NUL) has the first line of the entry as its
value if a later line `env: NAME` names it, and is unchanged otherwise. -/
theorem C49_environment_partial (otherUp expand : Str → Str) (w : World) (root : Str) (es : List (Str × Node)) (hs : IsStore w (expand root) es) (f text pw : Str)
    (he : Entry es f text) (rest : List Str) (hlines : TextLines text (pw :: rest))
    (calls : List (Str × Str)) (failed : Bool) (h : SetEnv otherUp expand w root f (some (calls, failed))) (env : Env) (k : Str) (hk : k ≠ []) (hk1 : 61 ∉ k) (hk2 : 0 ∉ k) :
    failed = false ∧
    ((∃ t ∈ rest, lit "env:" <+: t ∧ k = toUpper otherUp (trimSpace (t.drop 4))) → calls.foldl setenv env k = some pw) ∧
    ((¬ ∃ t ∈ rest, lit "env:" <+: t ∧ k = toUpper otherUp (trimSpace (t.drop 4))) → calls.foldl setenv env k = env k) := by
  have hne := entry_ne_nil he
  obtain ⟨ws, ha, e⟩ := C49_setenv_partial otherUp expand w root es hs f (fun _ => pw :: rest)
    (by rintro g t hg (hf | rfl)
        · exact absurd hf hne
        · rwa [entry_unique hs hg he]) _ h
  have hfil : ws.filter (fun g => decide (f = [] ∨ g = f)) = [f] := by
    have : ws.filter (fun g => decide (f = [] ∨ g = f)) = ws.filter (fun g => g == f) := by
      congr 1; funext g
      simp [hne, beq_eq_decide]
    rw [this, List.filter_beq, List.count_eq_one_of_mem ha.1 ((ha.2 f).2 ⟨text, he⟩)]
    rfl
  rw [hfil] at e
  injection e with e
  simp only [List.flatMap_cons, List.flatMap_nil, List.append_nil, Prod.mk.injEq] at e
  obtain ⟨rfl, hfail⟩ := e
  have h0 : (0 : UInt8) ∉ pw := hlines.choose_spec.2.2.2 pw rfl
  have hval : ∀ kv ∈ exports otherUp (pw :: rest), kv.2 = pw := by
    intro kv hkv
    unfold exports at hkv
    rw [List.mem_map] at hkv
    obtain ⟨t, -, rfl⟩ := hkv
    rfl
  have key := setenv_calls (exports otherUp (pw :: rest)) env k hk hk1 hk2 (fun kv hkv => by rw [hval kv hkv]; exact h0)
  refine ⟨hfail, ?_, ?_⟩
  · rintro ⟨t, ht, hp, hkt⟩
    rw [key]
    have hmem : (k, pw) ∈ (exports otherUp (pw :: rest)).filter fun kv => kv.1 = k := by
      rw [List.mem_filter]
      refine ⟨?_, by simp⟩
      unfold exports
      rw [List.mem_map]
      exact ⟨t, List.mem_filter.2 ⟨ht, List.isPrefixOf_iff_prefix.2 hp⟩, by rw [hkt]⟩
    cases hl : ((exports otherUp (pw :: rest)).filter fun kv => kv.1 = k).getLast? with
    | none => rw [List.getLast?_eq_none_iff] at hl; rw [hl] at hmem; cases hmem
    | some kv =>
      have := (List.mem_filter.1 (List.mem_of_getLast? hl)).1
      simp only [hval kv this]
  · intro hno
    rw [key]
    have : (exports otherUp (pw :: rest)).filter (fun kv => kv.1 = k) = [] := by
      rw [List.filter_eq_nil_iff]
      intro kv hkv hkk
      simp only [decide_eq_true_eq] at hkk
      unfold exports at hkv
      rw [List.mem_map] at hkv
      obtain ⟨t, ht, rfl⟩ := hkv
      obtain ⟨ht1, ht2⟩ := List.mem_filter.1 ht
      exact hno ⟨t, ht1, List.isPrefixOf_iff_prefix.1 ht2, hkk.symm⟩
    rw [this]; rfl

/-- A store with a binary entry before one that names a variable. -/
def binaryStore : List (Str × Node) := [(lit "sites", .dir [(lit "a", .file [0]), (lit "b", .file (lit "pw\nenv: x\n"))])]

theorem binaryStore_isStore : IsStore ⟨.dir [(lit "v", .dir binaryStore)], []⟩ (lit "/v") binaryStore :=
  ⟨⟨by decide, by decide, by decide⟩, rfl, by simp only [Node.WF, binaryStore, WFList, WFPair]; decide, by decide⟩

/-- **C49** is false for stores with an entry that is not text: `setenv` of all entries stops there with an error, and the variables of the
entries behind it are not exported. -/
theorem C49_binary_false (otherUp : Str → Str) (res : Option (List (Str × Str) × Bool))
    (h : SetEnv otherUp id ⟨.dir [(lit "v", .dir binaryStore)], []⟩ (lit "/v") [] res) :
    Entry binaryStore (lit "sites/b") (lit "pw\nenv: x\n") ∧ res = some ([], true) := by
  refine ⟨⟨lit "sites", by decide, lit "b", rfl, by decide, by decide⟩, ?_⟩
  have hs := binaryStore_isStore
  obtain ⟨files, e, hw, hmem, -⟩ := store_scan hs
  unfold SetEnv at h
  rw [show id (lit "/v") = lit "/v" from rfl, e] at h
  simp only at h
  obtain ⟨ws, ⟨order, ⟨hn, ho⟩, rfl⟩, h2⟩ := h
  have hfiles : files (lit "sites") = [lit "sites/a", lit "sites/b"] ∧ ∀ d, d ≠ lit "sites" → files d = [] := by
    have : scan ⟨.dir [(lit "v", .dir binaryStore)], []⟩ (lit "/v") = .ok files := e
    have e2 : ∃ g, scan ⟨.dir [(lit "v", .dir binaryStore)], []⟩ (lit "/v") = .ok g ∧ g (lit "sites") = [lit "sites/a", lit "sites/b"] := ⟨_, rfl, by decide⟩
    obtain ⟨g, hg, hg2⟩ := e2
    rw [e] at hg
    injection hg with hg
    refine ⟨by rw [hg]; exact hg2, ?_⟩
    intro d hd
    by_contra hne
    obtain ⟨f, hf⟩ := List.exists_mem_of_ne_nil _ hne
    obtain ⟨-, n, ⟨⟨c, hc⟩, -⟩, -⟩ := (hmem d f).1 hf
    simp only [lookupAt, binaryStore, entry] at hc
    rw [if_neg (fun e => hd e.symm)] at hc
    cases hc
  have hord : order = [lit "sites"] := by
    have hall : ∀ d ∈ order, d = lit "sites" := by
      intro d hd
      by_contra hne
      exact (ho d).1 hd (hfiles.2 d hne)
    have hin : lit "sites" ∈ order := (ho _).2 (by rw [hfiles.1]; simp)
    cases order with
    | nil => cases hin
    | cons a l =>
      have ha := hall a (List.mem_cons_self ..)
      cases l with
      | nil => rw [ha]
      | cons b l =>
        have hb := hall b (by simp)
        rw [ha, hb] at hn
        simp at hn
  rw [h2, hord, List.flatMap_cons, List.flatMap_nil, List.append_nil, hfiles.1]
  rfl

/-- The name of a variable given in ASCII is exported with each of its letters 'a' to 'z' replaced by the capital letter at the same place of
the alphabet, and everything else as it is. -/
theorem C80_name_upper (otherUp : Str → Str) (s : Str) (hs : ∀ b ∈ s, b < 0x80) (i : Nat) (c : UInt8) (hi : s[i]? = some c) :
    (toUpper otherUp s).length = s.length ∧
    (∀ k < 26, (lit "abcdefghijklmnopqrstuvwxyz")[k]? = some c → (toUpper otherUp s)[i]? = (lit "ABCDEFGHIJKLMNOPQRSTUVWXYZ")[k]?) ∧
    (c ∉ lit "abcdefghijklmnopqrstuvwxyz" → (toUpper otherUp s)[i]? = some c) := by
  have e : toUpper otherUp s = s.map upperByte := by
    unfold toUpper
    rw [if_pos (by simpa using hs)]
  have h1 : ∀ k : Fin 26, ∀ c ∈ (lit "abcdefghijklmnopqrstuvwxyz")[k.1]?, some (upperByte c) = (lit "ABCDEFGHIJKLMNOPQRSTUVWXYZ")[k.1]? := by decide +kernel
  have h2 : ∀ x : Fin 256, UInt8.ofNat x.1 ∉ lit "abcdefghijklmnopqrstuvwxyz" → upperByte (UInt8.ofNat x.1) = UInt8.ofNat x.1 := by decide +kernel
  rw [e]
  refine ⟨List.length_map .., fun k hk hc => ?_, fun hc => ?_⟩
  · rw [List.getElem?_map, hi, Option.map_some]
    exact h1 ⟨k, hk⟩ c hc
  · rw [List.getElem?_map, hi, Option.map_some]
    have hx : UInt8.ofNat c.toNat = c := by simp
    have := h2 ⟨c.toNat, c.toNat_lt⟩
    dsimp only at this
    rw [hx] at this
    rw [this hc]

/-- "Db_2z" is exported as "DB_2Z". -/
example : toUpper id (lit "Db_2z") = lit "DB_2Z" := by decide

end Verif.Cmds
