import Verif.Cmds.EnvProps
import Verif.Repo.ReadProps
/-
What the commands do for entries of every content: binary entries and entries with lines of 65536 bytes or more included.
-/
namespace Verif.Cmds
open Repo Repo.Spec Closest Spec

theorem handleAll_nil {σ : Type} {handle : σ → Nat → Str → σ × CbErr} (hh : ∀ st n l, (handle st n l).2 = .nil) : ∀ (ts : List Str) (k : Nat) (st : σ),
    handleAll handle ((ts.zipIdx k).map fun p => (p.2 + 1, p.1)) st = (ts.zipIdx (k + 1)).foldl (fun st p => (handle st p.2 p.1).1) st
  | [], k, st => rfl
  | t :: ts, k, st => by
    rw [List.zipIdx_cons, List.map_cons, handleAll, List.zipIdx_cons, List.foldl_cons]
    have := hh st (k + 1) t
    cases e : handle st (k + 1) t with
    | mk st' r =>
      rw [e] at this
      simp only at this
      subst this
      exact handleAll_nil hh ts (k + 1) st'

/-- Reading any entry line by line. -/
theorem read_any {σ : Type} {handle : σ → Nat → Str → σ × CbErr} (hh : ∀ st n l, (handle st n l).2 = .nil) {w : World} {root : Str} {es : List (Str × Node)}
    (hs : IsStore w root es) {f text : Str} (he : Entry es f text) {ts : List Str} {b : Bool} (ht : Reads text ts b) (st : σ) :
    getFileContentByLine w (joinPath root f) handle st = ((ts.zipIdx 1).foldl (fun st p => (handle st p.2 p.1).1) st, b) := by
  rw [C76_get_content w _ text (entry_at hs he) ht]
  unfold numbered
  rw [handleAll_nil hh ts 0 st]

theorem search_any {w : World} {root : Str} {es : List (Str × Node)} (hs : IsStore w root es) {f text : Str} (he : Entry es f text) {ts : List Str} {b : Bool}
    (ht : Reads text ts b) (p : Str → Bool) : searchInFile w (joinPath root f) (compareWith p) = (numbered ts).filter fun m => p m.2 :=
  C76_search w _ text (entry_at hs he) ht p

/-! ## show -/

/-- What `show` prints about an entry: its name, what was asked for of the lines that are read, and a message if the entry is binary. -/
def Spec.shown (a : ShowArgs) (f : Str) (ts : List Str) (binary : Bool) : Str :=
  lit "Pass '" ++ f ++ lit "'\n\n" ++ body a.lineNumbers a.line ts ++ if binary then lit "Error: cannot show binary file\n" else []

theorem show_any (other expand : Str → Str) (w : World) (root : Str) (es : List (Str × Node)) (hs : IsStore w (expand root) es) (a : ShowArgs)
    (hp : a.passName ≠ []) (res : Res) (h : Show other expand w root a res) :
    (res = showFinish a ⟨[], [], []⟩ ∧ NoMatch other es a.passName) ∨
    ∃ f text, Entry es f text ∧ BestMatch other es a.passName f ∧ ∀ ts b, Reads text ts b →
      ∃ st, res = showFinish a st ∧ st.out = shown a f ts b ∧
        (a.qrCode = true → st.qrcode = selected a.line a.field ts ∧ st.fullQrCode = ts.flatMap fun t => lit " / " ++ t) := by
  obtain ⟨files, e, hw, -, -⟩ := store_scan hs
  unfold Show at h
  rw [e] at h
  simp only at h
  rw [if_pos hp] at h
  obtain ⟨f, hf, hres⟩ := h
  rcases findOne_spec hw hf with ⟨rfl, hno⟩ | ⟨x, text, rfl, hx, hb⟩
  · left
    exact ⟨hres, hno⟩
  · right
    refine ⟨x, text, hx, hb, ?_⟩
    intro ts b hts
    simp only at hres
    unfold showFile at hres
    rw [if_pos (List.length_pos_iff.2 (entry_ne_nil hx))] at hres
    dsimp only at hres
    rw [entry_at hs hx] at hres
    dsimp only at hres
    rw [read_any (showHandle_nil a) hs hx hts] at hres
    simp only at hres
    refine ⟨_, hres, ?_, ?_⟩
    · cases b
      · simp only [Bool.false_eq_true, if_false]
        rw [show_out, body_eq, shown]
        simp only [List.append_assoc, Bool.false_eq_true, if_false, List.append_nil]
        rfl
      · simp only [if_true]
        rw [show_out, body_eq, shown]
        simp only [List.append_assoc, if_true]
        rfl
    · intro hq
      have : ∀ st : ShowSt, (if b = true then { st with out := st.out ++ lit "Error: cannot show binary file\n" } else st).qrcode = st.qrcode ∧
          (if b = true then { st with out := st.out ++ lit "Error: cannot show binary file\n" } else st).fullQrCode = st.fullQrCode := by
        intro st; cases b <;> exact ⟨rfl, rfl⟩
      rw [(this _).1, (this _).2]
      exact ⟨by rw [show_qr a hq]; exact selected_eq a ts, by rw [show_full a hq]; rfl⟩

/-- **C50** For every store and every content of its entries: `show` prints the name of an entry that is a best match and then all the lines that are read of it, or all
with their numbers, or the requested one, and a message if the entry is binary; if no entry has anything in common with the name, it prints nothing. It does not crash. -/
theorem C50_show (other expand : Str → Str) (w : World) (root : Str) (es : List (Str × Node)) (hs : IsStore w (expand root) es) (a : ShowArgs)
    (hp : a.passName ≠ []) (hq : a.qrCode = false) (res : Res) (h : Show other expand w root a res) :
    (res = .ok [] none ∧ NoMatch other es a.passName) ∨
    ∃ f text, Entry es f text ∧ BestMatch other es a.passName f ∧ ∀ ts b, Reads text ts b → res = .ok (shown a f ts b) none := by
  have hfin : ∀ st, showFinish a st = .ok st.out none := by intro st; unfold showFinish; rw [hq]; rfl
  rcases show_any other expand w root es hs a hp res h with ⟨h1, h2⟩ | ⟨f, text, h1, h2, h3⟩
  · left; exact ⟨by rw [h1, hfin], h2⟩
  · right
    refine ⟨f, text, h1, h2, ?_⟩
    intro ts b hts
    obtain ⟨st, h4, h5, -⟩ := h3 ts b hts
    rw [h4, hfin, h5]

example : shown ⟨true, 0, [], false, lit "a.com"⟩ (lit "sites/a.com") [lit "s3", lit "env: tok"] false = lit "Pass 'sites/a.com'\n\n1: s3\n2: env: tok\n" ∧
    shown ⟨true, 0, [], false, lit "a.com"⟩ (lit "sites/a.com") [] true = lit "Pass 'sites/a.com'\n\nError: cannot show binary file\n" := by decide

/-- **C78** For every store and every content of its entries: `show --qrcode` draws the code of exactly this text. If a line is selected by the number or the field (the
last such line), it is the line without as many bytes as the field name has, without white space around it and without what is before and with its first colon; it crashes
exactly if the selected line is not empty and shorter than the field name. If no line is selected, or an empty one, it is all lines with ` / ` before each, and there is no
code for an entry of which no line is read. -/
theorem C78_show_qrcode (other expand : Str → Str) (w : World) (root : Str) (es : List (Str × Node)) (hs : IsStore w (expand root) es) (a : ShowArgs)
    (hp : a.passName ≠ []) (hq : a.qrCode = true) (res : Res) (h : Show other expand w root a res) :
    (res = .ok [] none ∧ NoMatch other es a.passName) ∨
    ∃ f text, Entry es f text ∧ BestMatch other es a.passName f ∧ ∀ ts b, Reads text ts b →
      let line := selected a.line a.field ts
      res = if line = [] then .ok (shown a f ts b) (if ts = [] then none else some (ts.flatMap fun t => lit " / " ++ t))
        else if line.length < a.field.length then .panic
        else .ok (shown a f ts b) (some (afterFirst 58 (trimSpace (line.drop a.field.length)))) := by
  rcases show_any other expand w root es hs a hp res h with ⟨h1, h2⟩ | ⟨f, text, h1, h2, h3⟩
  · left
    refine ⟨?_, h2⟩
    rw [h1]; unfold showFinish; simp
  · right
    refine ⟨f, text, h1, h2, ?_⟩
    intro ts b hts
    obtain ⟨st, h4, h5, h6⟩ := h3 ts b hts
    obtain ⟨h7, h8⟩ := h6 hq
    dsimp only
    rw [← h5, ← h7, ← h8, h4]
    unfold showFinish
    rw [hq, if_pos rfl]
    have hfull : st.fullQrCode.length > 0 ↔ ts ≠ [] := by
      rw [h8]
      cases ts with
      | nil => simp
      | cons t ts =>
        rw [List.flatMap_cons, List.length_append, List.length_append]
        have : (lit " / ").length = 3 := rfl
        simp only [ne_eq, reduceCtorEq, not_false_eq_true, iff_true]
        omega
    by_cases he : st.qrcode = []
    · rw [he]
      simp only [List.length_nil, gt_iff_lt, Nat.lt_irrefl, if_false, if_true]
      by_cases e : ts = []
      · rw [if_neg (fun hc => (hfull.1 hc) e), if_pos e]
      · rw [if_pos (hfull.2 e), if_neg e]
    · rw [if_pos (List.length_pos_iff.2 he), if_neg he]
      rfl

/-- `show` without a line that is shorter than the field does not crash; with one it does. -/
example : selected 1 (lit "username") [lit "s3", lit "env: tok"] = lit "s3" ∧ (lit "s3").length < (lit "username").length ∧
    selected 0 (lit "user") [lit "s3", lit "user: me"] = lit "user: me" ∧ afterFirst 58 (trimSpace ((lit "user: me").drop 4)) = lit " me" := by decide

/-! ## grep, search -/

/-- The lines `grep` and `search` print about an entry: nothing without matches. -/
def Spec.matchLines (f : Str) (ms : List (Nat × Str)) : Str :=
  if ms = [] then [] else lit "Matches found in '" ++ f ++ lit "'\n" ++ ms.flatMap fun m => decimal m.1 ++ lit ": " ++ m.2 ++ lit "\n"

theorem printMatches_eq (f : Str) (ms : List (Nat × Str)) : printMatches f ms = matchLines f ms := by
  unfold printMatches matchLines
  by_cases e : ms = []
  · rw [if_pos e, e]; rfl
  · rw [if_neg e, if_pos (List.length_pos_iff.2 e)]

/-- For every entry of the store what is read of it. -/
def Spec.ReadsAll (es : List (Str × Node)) (lines : Str → List Str) (binary : Str → Bool) : Prop :=
  ∀ f text, Entry es f text → Reads text (lines f) (binary f)

/-- There is always such a function. -/
theorem readsAll_exists {w : World} {root : Str} {es : List (Str × Node)} (hs : IsStore w root es) : ∃ lines binary, ReadsAll es lines binary := by
  classical
  have h : ∀ f, ∃ tb : List Str × Bool, ∀ text, Entry es f text → Reads text tb.1 tb.2 := by
    intro f
    by_cases hf : ∃ text, Entry es f text
    · obtain ⟨text, hf⟩ := hf
      obtain ⟨ts, b, hr⟩ := reads_exists text
      exact ⟨(ts, b), fun t ht => by rw [← entry_unique hs hf ht]; exact hr⟩
    · exact ⟨([], false), fun t ht => absurd ⟨t, ht⟩ hf⟩
  choose g hg using h
  exact ⟨fun f => (g f).1, fun f => (g f).2, fun f text he => hg f text he⟩

/-- **C72** For every store and every content of its entries: `grep` prints, for every entry that has matching lines among those that are read of it, its name and exactly
these lines with their numbers, and nothing for the others. -/
theorem C72_grep_prints (expand : Str → Str) (w : World) (root : Str) (es : List (Str × Node)) (hs : IsStore w (expand root) es) (grep : Str) (hg : grep ≠ [])
    (p : Str → Bool) (lines : Str → List Str) (binary : Str → Bool) (hlines : ReadsAll es lines binary) (res : Res) (h : Grep expand w root grep (some p) res) :
    ∃ ws, AllEntries es ws ∧ res = .ok (ws.flatMap fun f => matchLines f ((numbered (lines f)).filter fun m => p m.2)) none := by
  obtain ⟨files, e, hw, -, -⟩ := store_scan hs
  unfold Grep at h
  rw [e] at h
  simp only at h
  rw [if_pos hg] at h
  obtain ⟨ws, h1, h2⟩ := h
  refine ⟨ws, hw ws h1, ?_⟩
  rw [h2]
  congr 1
  apply List.flatMap_congr
  intro f hf
  obtain ⟨text, ht⟩ := ((hw ws h1).2 f).1 hf
  rw [search_any hs ht (hlines f text ht), printMatches_eq]

example : matchLines (lit "sites/a.com") ((numbered [lit "s3", lit "env: tok"]).filter fun m => (lit "env").isPrefixOf m.2) =
    lit "Matches found in 'sites/a.com'\n2: env: tok\n" := by decide

/-- **C79** For every store, every content of its entries and every number of results: `search` crashes exactly if the number is negative or more than 2^44; otherwise it prints the first
`fuzzy` entries of a list that contains exactly the entries that have a fragment in common with the text, best first; with a content, it prints of these entries the lines
that contain it. -/
theorem C79_search (other expand : Str → Str) (w : World) (root : Str) (es : List (Str × Node)) (hs : IsStore w (expand root) es) (fuzzy : Int)
    (search : Str) (hne : search ≠ []) (content : Str) (lines : Str → List Str) (binary : Str → Bool) (hlines : ReadsAll es lines binary) (res : Res)
    (h : Search other expand w root fuzzy search content res) :
    (res = .panic ↔ fuzzy < 0 ∨ 2 ^ 44 < fuzzy) ∧ (0 ≤ fuzzy ∧ fuzzy ≤ 2 ^ 44 →
    ∃ (ws all : List Str), AllEntries es ws ∧ all.Nodup ∧ (∀ f, f ∈ all ↔ Closest.Spec.Shares other [2] ws search f) ∧
      all.Pairwise (fun a b => Closest.Spec.score other [2] ws search b ≤ Closest.Spec.score other [2] ws search a) ∧
      res = .ok ((all.take fuzzy.toNat).flatMap fun f =>
        if content = [] then f ++ lit "\n" else matchLines f ((numbered (lines f)).filter fun m => containsStr content m.2)) none) := by
  have key : 0 ≤ fuzzy ∧ fuzzy ≤ 2 ^ 44 → ∃ (ws all : List Str), AllEntries es ws ∧ all.Nodup ∧ (∀ f, f ∈ all ↔ Closest.Spec.Shares other [2] ws search f) ∧
      all.Pairwise (fun a b => Closest.Spec.score other [2] ws search b ≤ Closest.Spec.score other [2] ws search a) ∧
      res = .ok ((all.take fuzzy.toNat).flatMap fun f =>
        if content = [] then f ++ lit "\n" else matchLines f ((numbered (lines f)).filter fun m => containsStr content m.2)) none := by
    intro hf
    obtain ⟨files, e, hw, -, -⟩ := store_scan hs
    unfold Search at h
    rw [e] at h
    simp only at h
    rw [if_pos hne] at h
    obtain ⟨ws, cm, h1, h2, h3⟩ := h
    have ha := hw ws h1
    obtain ⟨cm', e', hnp, -⟩ := C41_no_crash_partial other ws [2] (words_nil ha) search
    have : cm = cm' := by
      have e2 : some cm = some cm' := h2.symm.trans e'
      injection e2
    subst this
    rcases h3 with ⟨h3 | h3, -⟩ | ⟨closest, h3, h4⟩
    · exact absurd hf h3
    · exact absurd h3 hnp
    · obtain ⟨-, all, k1, k2, k3, rfl⟩ := C37_closestN_is_sorted other ws [2] cm e' search fuzzy closest h3
      refine ⟨ws, all, ha, k1, k2, k3, ?_⟩
      rw [h4]
      congr 1
      apply List.flatMap_congr
      intro f hfm
      have hf := ((k2 f).1 (List.mem_of_mem_take hfm)).1
      obtain ⟨text, ht⟩ := (ha.2 f).1 hf
      by_cases hc : content = []
      · rw [if_pos hc, if_neg (by rw [hc]; simp)]
      · rw [if_neg hc, if_pos (List.length_pos_iff.2 hc), search_any hs ht (hlines f text ht), printMatches_eq]
  refine ⟨⟨fun hres => ?_, fun hf => C73_negative_panics other expand w root es hs fuzzy hf search hne content res h⟩, key⟩
  by_contra hf
  obtain ⟨ws, all, -, -, -, -, h5⟩ := key (by omega)
  rw [hres] at h5
  cases h5

/-! ## setenv -/

theorem setEnvLoop_any (otherUp : Str → Str) {w : World} {root : Str} {es : List (Str × Node)} (hs : IsStore w root es) (passName : Str) (lines : Str → List Str)
    (binary : Str → Bool) (hlines : ReadsAll es lines binary) : ∀ (ws : List Str) (calls : List (Str × Str)), (∀ f ∈ ws, ∃ text, Entry es f text) →
    setEnvLoop otherUp w root passName ws calls =
      (calls ++ (((ws.filter fun f => decide (passName = [] ∨ f = passName)).takeWhile fun f => !binary f).flatMap fun f => exports otherUp (lines f)),
        (ws.filter fun f => decide (passName = [] ∨ f = passName)).any binary)
  | [], calls, _ => by simp [setEnvLoop]
  | f :: ws, calls, h => by
    rw [setEnvLoop]
    have ih := fun c => setEnvLoop_any otherUp hs passName lines binary hlines ws c (fun g hg => h g (List.mem_cons_of_mem _ hg))
    obtain ⟨text, ht⟩ := h f (List.mem_cons_self ..)
    by_cases hc : passName = [] ∨ f = passName
    · have hc' : f = passName ∨ passName.length = 0 := by
        rcases hc with hc | hc
        · exact Or.inr (by rw [hc]; rfl)
        · exact Or.inl hc
      rw [if_pos hc', List.filter_cons_of_pos (by simpa using hc)]
      dsimp only
      have hr := hlines f text ht
      rw [read_any (setEnvHandle_nil otherUp) hs ht hr, setEnv_entry]
      by_cases hb : binary f = true
      · rw [if_pos hb, List.takeWhile_cons_of_neg (by simp [hb]), List.any_cons, hb]
        rw [hb] at hr
        have : lines f = [] := by
          rcases reads_scanner hr with ⟨-, h, -⟩ | ⟨h, -⟩
          · exact h
          · cases h
        rw [this]; simp [exports]
      · rw [if_neg hb, ih, List.takeWhile_cons_of_pos (by simpa using hb), List.flatMap_cons, List.any_cons, List.append_assoc]
        simp [hb]
    · have hc' : ¬ (f = passName ∨ passName.length = 0) := by
        rintro (hc' | hc')
        · exact hc (Or.inr hc')
        · exact hc (Or.inl (List.length_eq_zero_iff.1 hc'))
      rw [if_neg hc', List.filter_cons_of_neg (by simpa using hc), ih]

/-- **C80** For every store and every content of its entries: `setenv` goes through the selected entries (the named one, or all in some order) and exports exactly the
variables that they name, each with the first line of its entry, up to the first binary entry; it reports an error exactly if one of them is binary. -/
theorem C80_setenv (otherUp expand : Str → Str) (w : World) (root : Str) (es : List (Str × Node)) (hs : IsStore w (expand root) es) (passName : Str)
    (lines : Str → List Str) (binary : Str → Bool) (hlines : ReadsAll es lines binary)
    (res : Option (List (Str × Str) × Bool)) (h : SetEnv otherUp expand w root passName res) :
    ∃ ws, AllEntries es ws ∧ let sel := ws.filter fun f => decide (passName = [] ∨ f = passName)
      res = some ((sel.takeWhile fun f => !binary f).flatMap fun f => exports otherUp (lines f), sel.any binary) := by
  obtain ⟨files, e, hw, -, -⟩ := store_scan hs
  unfold SetEnv at h
  rw [e] at h
  simp only at h
  obtain ⟨ws, h1, h2⟩ := h
  refine ⟨ws, hw ws h1, ?_⟩
  rw [h2, setEnvLoop_any otherUp hs passName lines binary hlines ws [] (fun f hf => ((hw ws h1).2 f).1 hf)]
  rfl

/-- What calls of `os.Setenv` do to one variable: a name that is empty or has `=` or NUL never changes; another one gets the value of the last call for it whose value has no NUL. -/
theorem setenv_each (env : Env) (k : Str) (calls : List (Str × Str)) : calls.foldl setenv env k =
    if k = [] ∨ 61 ∈ k ∨ 0 ∈ k then env k else ((calls.filter fun kv => decide (kv.1 = k ∧ (0 : UInt8) ∉ kv.2)).getLast?.map Prod.snd).or (env k) := by
  induction calls using List.reverseRecOn with
  | nil => simp
  | append_singleton calls kv ih =>
    rw [List.foldl_append, List.filter_append]
    simp only [List.foldl_cons, List.foldl_nil]
    rw [setenv]
    by_cases hk : kv.1 = k
    · by_cases hb : k = [] ∨ 61 ∈ k ∨ 0 ∈ k
      · rw [if_pos (by rw [hk]; tauto), ih, if_pos hb, if_pos hb]
      · rw [if_neg hb]
        rw [if_neg hb] at ih
        by_cases h0 : (0 : UInt8) ∈ kv.2
        · rw [if_pos (by tauto), ih, List.filter_cons_of_neg (by simp [h0])]
          simp
        · rw [if_neg (by rw [hk]; tauto), if_pos hk.symm, List.filter_cons_of_pos (by simp [h0, hk])]
          simp
    · have e : (if kv.1 = [] ∨ 61 ∈ kv.1 ∨ 0 ∈ kv.1 ∨ 0 ∈ kv.2 then calls.foldl setenv env else fun k => if k = kv.1 then some kv.2 else calls.foldl setenv env k) k =
          calls.foldl setenv env k := by
        split
        · rfl
        · exact if_neg fun h => hk h.symm
      rw [e, ih, List.filter_cons_of_neg (by simp [hk])]
      simp

/-- **C80** What `setenv` leaves in the environment: a name that is empty or contains `=` or NUL keeps its value; another one has the first line, if it has no NUL, of the last
of the selected entries before the first binary one that names it, and keeps its value if there is none. -/
theorem C80_variables (otherUp expand : Str → Str) (w : World) (root : Str) (es : List (Str × Node)) (hs : IsStore w (expand root) es) (passName : Str)
    (lines : Str → List Str) (binary : Str → Bool) (hlines : ReadsAll es lines binary) (calls : List (Str × Str)) (failed : Bool)
    (h : SetEnv otherUp expand w root passName (some (calls, failed))) :
    ∃ ws, AllEntries es ws ∧ let sel := (ws.filter fun f => decide (passName = [] ∨ f = passName)).takeWhile fun f => !binary f
      ∀ env k, calls.foldl setenv env k = if k = [] ∨ 61 ∈ k ∨ 0 ∈ k then env k
        else (((sel.flatMap fun f => exports otherUp (lines f)).filter fun kv => decide (kv.1 = k ∧ (0 : UInt8) ∉ kv.2)).getLast?.map Prod.snd).or (env k) := by
  obtain ⟨ws, h1, h2⟩ := C80_setenv otherUp expand w root es hs passName lines binary hlines _ h
  refine ⟨ws, h1, ?_⟩
  injection h2 with h2
  injection h2 with h2 h3
  intro sel env k
  rw [setenv_each, h2]

/-- Names with `=` stay, others are set. -/
example : [(lit "A=B", lit "x"), (lit "C", lit "y")].foldl setenv (fun _ => none) (lit "A=B") = none ∧
    [(lit "A=B", lit "x"), (lit "C", lit "y")].foldl setenv (fun _ => none) (lit "C") = some (lit "y") := by decide

/-- A store with a binary and a text entry. -/
example : ReadsAll binaryStore (fun f => if f = lit "sites/b" then [lit "pw", lit "env: x"] else []) (fun f => f == lit "sites/a") := by
  have hs : ∀ (l : Str), l.getLast? ≠ some 13 → Stripped l l := fun l h => Or.inr ⟨rfl, fun t' e => h (by rw [e]; simp)⟩
  rintro f text ⟨d, hd, n, h1, h2, rfl⟩
  simp only [lookupAt, binaryStore, entry] at h1
  split at h1
  · cases h1
  · rename_i nd e1
    split at e1
    · rename_i e2
      injection e1 with e1
      subst e1 e2
      simp only [lookupAt, entry] at h1
      split at h1
      · cases h1
      · rename_i nd e3
        split at e3
        · rename_i e4
          injection e3 with e3
          subst e3 e4
          injection h1 with h1
          injection h1 with h1
          subst h1
          exact ⟨[[0]], [[0]], ⟨by decide, Or.inr ⟨[], [0], rfl, by decide, rfl⟩⟩, .cons (hs _ (by decide)) .nil, Or.inl ⟨⟨[0], rfl, by decide⟩, rfl, rfl⟩⟩
        · split at e3
          · rename_i e4
            injection e3 with e3
            subst e3 e4
            injection h1 with h1
            injection h1 with h1
            subst h1
            exact ⟨[lit "pw", lit "env: x"], [lit "pw", lit "env: x"], ⟨by decide, Or.inl (by decide)⟩, .cons (hs _ (by decide)) (.cons (hs _ (by decide)) .nil),
              Or.inr ⟨by decide, rfl, rfl⟩⟩
          · cases e3
    · cases e1

end Verif.Cmds
