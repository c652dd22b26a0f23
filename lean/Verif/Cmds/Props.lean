import Verif.Cmds.Model
import Verif.Cmds.Spec
import Verif.Repo.Props
import Verif.Closest.Props
/-
C49-C52, C72-C74: the commands.
-/
namespace Verif.Cmds
open Repo Repo.Spec Closest Spec

theorem slash_eq (d n : Str) : d ++ lit "/" ++ n = d ++ slash :: n := by rw [List.append_assoc]; rfl

theorem entry_isEntry {es : List (Str × Node)} {f : Str} : (∃ text, Entry es f text) ↔ ∃ d ∈ categories, ∃ n, IsEntry (.dir es) d n ∧ f = d ++ lit "/" ++ n := by
  constructor
  · rintro ⟨text, d, hd, n, h1, h2, h3⟩
    exact ⟨d, hd, n, ⟨⟨text, h1⟩, h2⟩, h3⟩
  · rintro ⟨d, hd, n, ⟨⟨text, h1⟩, h2⟩, h3⟩
    exact ⟨text, d, hd, n, h1, h2, h3⟩

/-- A scan of a store, and the words it gives. -/
theorem store_scan {w : World} {root : Str} {es : List (Str × Node)} (hs : IsStore w root es) :
    ∃ files, scan w root = .ok files ∧ (∀ ws, Words files ws → AllEntries es ws) ∧ (∀ d f, f ∈ files d ↔ d ∈ categories ∧ ∃ n, IsEntry (.dir es) d n ∧ f = d ++ lit "/" ++ n) ∧
      ∃ ws, Words files ws := by
  obtain ⟨files, e, hmem, hsort⟩ := C43_scan_lists_entries w root es hs.clean hs.here hs.wf hs.notGit
  refine ⟨files, e, ?_, hmem, ?_⟩
  · rintro ws ⟨order, ⟨hn, ho⟩, rfl⟩
    constructor
    · rw [List.nodup_flatMap]
      refine ⟨fun d _ => (hsort d).imp (fun h => strLt_ne h), hn.imp ?_⟩
      intro a b hab x hx hy
      obtain ⟨-, n, h1, h2⟩ := (hmem a x).1 hx
      obtain ⟨-, n', h3, h4⟩ := (hmem b x).1 hy
      obtain ⟨g1, g2⟩ := isEntry_good hs.wf h1
      obtain ⟨g3, g4⟩ := isEntry_good hs.wf h3
      exact hab (isEntry_unique g1 g3 g2 g4 (h2.symm.trans h4)).1
    · intro f
      rw [entry_isEntry, List.mem_flatMap]
      constructor
      · rintro ⟨d, -, hd⟩
        obtain ⟨h1, h2⟩ := (hmem d f).1 hd
        exact ⟨d, h1, h2⟩
      · rintro ⟨d, h1, h2⟩
        have := (hmem d f).2 ⟨h1, h2⟩
        exact ⟨d, (ho d).2 (List.ne_nil_of_mem this), this⟩
  · refine ⟨_, categories.filter (fun d => decide (files d ≠ [])), ⟨?_, ?_⟩, rfl⟩
    · exact List.Nodup.filter _ (by decide)
    · intro d
      rw [List.mem_filter, decide_eq_true_eq]
      constructor
      · exact fun h => h.2
      · intro h
        obtain ⟨f, hf⟩ := List.exists_mem_of_ne_nil _ h
        exact ⟨((hmem d f).1 hf).1, h⟩

theorem entry_ne_nil {es : List (Str × Node)} {f text : Str} (h : Entry es f text) : f ≠ [] := by
  obtain ⟨d, hd, n, -, -, rfl⟩ := h
  intro e
  rw [slash_eq] at e
  simp at e

/-- Opening an entry. -/
theorem entry_at {w : World} {root : Str} {es : List (Str × Node)} (hs : IsStore w root es) {f text : Str} (h : Entry es f text) :
    w.at (joinPath root f) = .node (.file text) := by
  obtain ⟨d, hd, n, h1, h2, rfl⟩ := h
  obtain ⟨g1, g2⟩ := isEntry_good hs.wf ⟨⟨text, h1⟩, h2⟩
  have : joinPath root (d ++ lit "/" ++ n) = root ++ slash :: d ++ slash :: n := by
    rw [slash_eq]
    unfold joinPath
    rw [if_neg hs.clean.ne_nil]
    have := ((hs.clean.snoc g1).snoc g2).1
    rw [← this]
    congr 1
    simp
  rw [this, at_below w hs.here g1 g2, h1]

theorem entry_unique {w : World} {root : Str} {es : List (Str × Node)} (hs : IsStore w root es) {f t t' : Str} (h : Entry es f t) (h' : Entry es f t') : t = t' := by
  have h1 := entry_at hs h
  rw [entry_at hs h'] at h1
  injection h1 with h1
  injection h1 with h1
  exact h1.symm

theorem scannerLines_eq {text : Str} {ts : List Str} (h : TextLines text ts) : scannerLines text = ts := by
  obtain ⟨ls, hls, hts, hshort, -⟩ := h
  unfold scannerLines
  rw [rawLines_spec hls, List.takeWhile_eq_self_iff.2, stripped_unique hts]
  intro l hl
  have := hshort l hl
  simp only [decide_eq_true_eq]; omega

theorem lineLoop_nil {σ : Type} {handle : σ → Nat → Str → σ × CbErr} (hh : ∀ st n l, (handle st n l).2 = .nil) : ∀ (ts : List Str) (n : Nat) (st : σ),
    (n = 1 → ∀ t, ts.head? = some t → (0 : UInt8) ∉ t) → 1 ≤ n →
    lineLoop handle n ts st = ((ts.zipIdx n).foldl (fun st p => (handle st p.2 p.1).1) st, false)
  | [], n, st, _, _ => rfl
  | t :: ts, n, st, h0, hn => by
    have h0' : ¬ (n = 1 ∧ (0 : UInt8) ∈ t) := fun h => h0 h.1 t rfl h.2
    rw [lineLoop, if_neg h0', List.zipIdx_cons, List.foldl_cons]
    have := hh st n t
    cases e : handle st n t with
    | mk st' r =>
      rw [e] at this
      simp only at this
      subst this
      simp only
      exact lineLoop_nil hh ts (n + 1) st' (by omega) (by omega)

/-- Reading an entry line by line. -/
theorem read_entry {σ : Type} {handle : σ → Nat → Str → σ × CbErr} (hh : ∀ st n l, (handle st n l).2 = .nil) {w : World} {root : Str} {es : List (Str × Node)}
    (hs : IsStore w root es) {f text : Str} (he : Entry es f text) {ts : List Str} (ht : TextLines text ts) (st : σ) :
    getFileContentByLine w (joinPath root f) handle st = ((ts.zipIdx 1).foldl (fun st p => (handle st p.2 p.1).1) st, false) := by
  unfold getFileContentByLine
  rw [entry_at hs he]
  simp only
  rw [scannerLines_eq ht, lineLoop_nil hh ts 1 st (fun _ => ht.choose_spec.2.2.2) (Nat.le_refl _)]

theorem search_entry {w : World} {root : Str} {es : List (Str × Node)} (hs : IsStore w root es) {f text : Str} (he : Entry es f text) {ts : List Str}
    (ht : TextLines text ts) (p : Str → Bool) : searchInFile w (joinPath root f) (compareWith p) = (numbered ts).filter fun m => p m.2 := by
  obtain ⟨ls, h1, h2, h3, h4⟩ := ht
  exact C46_search_in_file_partial w _ text (entry_at hs he) ls ts h1 h2 h3 h4 p

/-! ## C50, C51: show -/

theorem showHandle_nil (a : ShowArgs) (st : ShowSt) (n : Nat) (l : Str) : (showHandle a st n l).2 = .nil := rfl

theorem show_out (a : ShowArgs) : ∀ (ts : List Str) (n : Nat) (st : ShowSt),
    ((ts.zipIdx n).foldl (fun st p => (showHandle a st p.2 p.1).1) st).out = st.out ++ (ts.zipIdx n).flatMap fun p =>
      if a.lineNumbers then decimal p.2 ++ lit ": " ++ p.1 ++ lit "\n"
      else if a.line > 0 then (if a.line = (p.2 : Int) then p.1 ++ lit "\n" else [])
      else p.1 ++ lit "\n"
  | [], n, st => by simp
  | t :: ts, n, st => by
    rw [List.zipIdx_cons, List.foldl_cons, show_out a ts (n + 1), List.flatMap_cons]
    unfold showHandle
    simp only
    rw [List.append_assoc]
    congr 1
    split <;> rfl

theorem body_eq (a : ShowArgs) (ts : List Str) : ((ts.zipIdx 1).flatMap fun p =>
      if a.lineNumbers then decimal p.2 ++ lit ": " ++ p.1 ++ lit "\n"
      else if a.line > 0 then (if a.line = (p.2 : Int) then p.1 ++ lit "\n" else [])
      else p.1 ++ lit "\n") = body a.lineNumbers a.line ts := by
  unfold body
  by_cases h1 : a.lineNumbers = true
  · simp only [h1, if_true]
    generalize decimal = decimal
    unfold numbered
    rw [List.flatMap_map]
    have : ∀ (ts : List Str) (k : Nat), ((ts.zipIdx (k + 1)).flatMap fun p => decimal p.2 ++ lit ": " ++ p.1 ++ lit "\n") =
        (ts.zipIdx k).flatMap fun p => decimal (p.2 + 1) ++ lit ": " ++ p.1 ++ lit "\n" := by
      intro ts
      induction ts with
      | nil => intro k; rfl
      | cons t ts ih => intro k; rw [List.zipIdx_cons, List.zipIdx_cons, List.flatMap_cons, List.flatMap_cons, ih]
    exact this ts 0
  · simp only [h1, if_false, Bool.false_eq_true]
    by_cases h2 : 0 < a.line
    · simp only [gt_iff_lt, h2, if_true]
      have : ∀ (ts : List Str) (k : Nat), ((ts.zipIdx k).flatMap fun p => if a.line = (p.2 : Int) then p.1 ++ lit "\n" else []) =
          if (k : Int) ≤ a.line then (match ts[a.line.toNat - k]? with
            | some t => t ++ lit "\n"
            | none => []) else [] := by
        intro ts
        induction ts with
        | nil => intro k; simp
        | cons t ts ih =>
          intro k
          rw [List.zipIdx_cons, List.flatMap_cons, ih]
          simp only
          by_cases e : a.line = (k : Int)
          · rw [if_pos e, if_neg (by push_cast; omega), if_pos (by omega), show a.line.toNat - k = 0 by omega]
            simp
          · rw [if_neg e, List.nil_append]
            by_cases e2 : (k : Int) ≤ a.line
            · rw [if_pos e2, if_pos (by push_cast; omega), show a.line.toNat - k = (a.line.toNat - (k + 1)) + 1 by omega, List.getElem?_cons_succ]
            · rw [if_neg e2, if_neg (by push_cast; omega)]
      rw [this ts 1, if_pos (by push_cast; omega)]
      cases ts[a.line.toNat - 1]? <;> rfl
    · simp only [gt_iff_lt, h2, if_false]
      have : ∀ (ts : List Str) (k : Nat), ((ts.zipIdx k).flatMap fun p => p.1 ++ lit "\n") = ts.flatMap fun t => t ++ lit "\n" := by
        intro ts
        induction ts with
        | nil => intro k; rfl
        | cons t ts ih => intro k; rw [List.zipIdx_cons, List.flatMap_cons, List.flatMap_cons, ih]
      exact this ts 1

theorem show_qr (a : ShowArgs) (hq : a.qrCode = true) : ∀ (ts : List Str) (n : Nat) (st : ShowSt),
    ((ts.zipIdx n).foldl (fun st p => (showHandle a st p.2 p.1).1) st).qrcode =
      ((((ts.zipIdx n).filter fun p => (p.2 : Int) = a.line || (!a.field.isEmpty && a.field.isPrefixOf p.1)).getLast?).map Prod.fst).getD st.qrcode
  | [], n, st => by simp
  | t :: ts, n, st => by
    rw [List.zipIdx_cons, List.foldl_cons, show_qr a hq ts (n + 1)]
    have hsel : (showHandle a st n t).1.qrcode = if ((n : Int) = a.line || (!a.field.isEmpty && a.field.isPrefixOf t)) then t else st.qrcode := by
      unfold showHandle hasPrefix
      simp only [hq, if_true]
      by_cases h1 : (n : Int) = a.line
      · simp [h1]
      · by_cases h2 : a.field = []
        · simp [h1, h2]
        · have : 0 < a.field.length := List.length_pos_iff.2 h2
          simp [h1, h2, this]
    by_cases h : ((n : Int) = a.line || (!a.field.isEmpty && a.field.isPrefixOf t)) = true
    · rw [List.filter_cons_of_pos (by simpa using h), hsel, if_pos h]
      cases hf : List.filter (fun p : Str × Nat => (p.2 : Int) = a.line || (!a.field.isEmpty && a.field.isPrefixOf p.1)) (ts.zipIdx (n + 1)) with
      | nil => simp
      | cons x xs => rw [List.getLast?_cons_cons]; cases hx : (x :: xs).getLast? with
        | none => simp at hx
        | some y => rfl
    · rw [List.filter_cons_of_neg (by simpa using h), hsel, if_neg h]

theorem selected_eq (a : ShowArgs) (ts : List Str) :
    ((((ts.zipIdx 1).filter fun p => (p.2 : Int) = a.line || (!a.field.isEmpty && a.field.isPrefixOf p.1)).getLast?).map Prod.fst).getD [] =
      selected a.line a.field ts := by
  unfold selected numbered
  have : ∀ (ts : List Str) (k : Nat), ((ts.zipIdx (k + 1)).filter fun p => (p.2 : Int) = a.line || (!a.field.isEmpty && a.field.isPrefixOf p.1)).map (fun p => (p.2, p.1)) =
      ((ts.zipIdx k).map fun p => (p.2 + 1, p.1)).filter fun m : Nat × Str => (m.1 : Int) = a.line || (!a.field.isEmpty && a.field.isPrefixOf m.2) := by
    intro ts
    induction ts with
    | nil => intro k; rfl
    | cons t ts ih =>
      intro k
      rw [List.zipIdx_cons, List.zipIdx_cons, List.map_cons]
      by_cases h : (((k + 1 : Nat) : Int) = a.line || (!a.field.isEmpty && a.field.isPrefixOf t)) = true
      · rw [List.filter_cons_of_pos (by simpa using h), List.filter_cons_of_pos (by simpa using h), List.map_cons, ih]
      · rw [List.filter_cons_of_neg (by simpa using h), List.filter_cons_of_neg (by simpa using h), ih]
  rw [← this ts 0, List.getLast?_map, Option.map_map]
  rfl

theorem show_full (a : ShowArgs) (hq : a.qrCode = true) : ∀ (ts : List Str) (n : Nat) (st : ShowSt),
    ((ts.zipIdx n).foldl (fun st p => (showHandle a st p.2 p.1).1) st).fullQrCode = st.fullQrCode ++ ts.flatMap fun t => lit " / " ++ t
  | [], n, st => by simp
  | t :: ts, n, st => by
    rw [List.zipIdx_cons, List.foldl_cons, show_full a hq ts (n + 1), List.flatMap_cons]
    unfold showHandle
    simp only [hq, if_true, List.append_assoc]

theorem words_nil {es : List (Str × Node)} {ws : List Str} (h : AllEntries es ws) : [] ∉ ws := by
  intro hc
  obtain ⟨text, ht⟩ := (h.2 []).1 hc
  exact entry_ne_nil ht rfl

/-- The fuzzy search for an entry. -/
theorem findOne_spec {other : Str → Str} {es : List (Str × Node)} {files : Files} (hw : ∀ ws, Words files ws → AllEntries es ws) {q : Str} {f : Option Str}
    (h : FindOne other files q f) : (f = some [] ∧ NoMatch other es q) ∨ ∃ x text, f = some x ∧ Entry es x text ∧ BestMatch other es q x := by
  obtain ⟨ws, cm, h1, h2, h3⟩ := h
  have ha := hw ws h1
  obtain ⟨cm', e, hnp, -⟩ := C41_no_crash_partial other ws [2] (words_nil ha) q
  have : cm = cm' := by
    have e2 : some cm = some cm' := h2.symm.trans e
    injection e2
  subst this
  rcases h3 with ⟨hp, -⟩ | ⟨x, hx, rfl⟩
  · exact absurd hp hnp
  · rcases C37_closest_is_best other ws [2] cm e q x hx with ⟨hsh, hmax⟩ | ⟨hxe, hno⟩
    · right
      obtain ⟨text, ht⟩ := (ha.2 x).1 hsh.1
      exact ⟨x, text, rfl, ht, ws, ha, hsh, hmax⟩
    · left
      exact ⟨by rw [hxe], ws, ha, hno⟩

/-- What `show` does, without the QR code. -/
theorem show_spec (other expand : Str → Str) (w : World) (root : Str) (es : List (Str × Node)) (hs : IsStore w (expand root) es) (a : ShowArgs)
    (hp : a.passName ≠ []) (res : Res) (h : Show other expand w root a res) :
    (res = showFinish a ⟨[], [], []⟩ ∧ NoMatch other es a.passName) ∨
    ∃ f text, Entry es f text ∧ BestMatch other es a.passName f ∧ ∀ ts, TextLines text ts →
      ∃ st, res = showFinish a st ∧ st.out = lit "Pass '" ++ f ++ lit "'\n\n" ++ body a.lineNumbers a.line ts ∧
        (a.qrCode = true → st.qrcode = selected a.line a.field ts ∧ st.fullQrCode = ts.flatMap fun t => lit " / " ++ t) := by
  obtain ⟨files, e, hw, -, -⟩ := store_scan hs
  unfold Show at h
  rw [e] at h
  simp only at h
  rw [if_pos hp] at h
  obtain ⟨f, hf, hres⟩ := h
  rcases findOne_spec hw hf with ⟨rfl, hno⟩ | ⟨x, text, rfl, hx, hb⟩
  · left
    exact ⟨hres, hno⟩
  · right
    refine ⟨x, text, hx, hb, ?_⟩
    intro ts hts
    simp only at hres
    unfold showFile at hres
    rw [if_pos (List.length_pos_iff.2 (entry_ne_nil hx))] at hres
    dsimp only at hres
    rw [entry_at hs hx] at hres
    dsimp only at hres
    rw [read_entry (showHandle_nil a) hs hx hts] at hres
    simp only [Bool.false_eq_true, if_false] at hres
    refine ⟨_, hres, ?_, ?_⟩
    · rw [show_out, body_eq]
      simp only [List.append_assoc]
      rfl
    · intro hq
      exact ⟨by rw [show_qr a hq]; exact selected_eq a ts, by rw [show_full a hq]; rfl⟩

/-- **C50** `show` prints the name of an entry that is a best match and then all its lines, or all its lines with numbers, or the requested line;
if no entry has anything in common with the name, it prints nothing. It does not crash. -/
theorem C50_show_prints (other expand : Str → Str) (w : World) (root : Str) (es : List (Str × Node)) (hs : IsStore w (expand root) es) (a : ShowArgs)
    (hp : a.passName ≠ []) (hq : a.qrCode = false) (res : Res) (h : Show other expand w root a res) :
    (res = .ok [] none ∧ NoMatch other es a.passName) ∨
    ∃ f text, Entry es f text ∧ BestMatch other es a.passName f ∧ ∀ ts, TextLines text ts →
      res = .ok (lit "Pass '" ++ f ++ lit "'\n\n" ++ body a.lineNumbers a.line ts) none := by
  have hfin : ∀ st, showFinish a st = .ok st.out none := by intro st; unfold showFinish; rw [hq]; rfl
  rcases show_spec other expand w root es hs a hp res h with ⟨h1, h2⟩ | ⟨f, text, h1, h2, h3⟩
  · left; exact ⟨by rw [h1, hfin], h2⟩
  · right
    refine ⟨f, text, h1, h2, ?_⟩
    intro ts hts
    obtain ⟨st, h4, h5, -⟩ := h3 ts hts
    rw [h4, hfin, h5]

/-- A store with entries. -/
theorem exampleStore_isStore : IsStore exampleWorld (lit "/v") exampleStore :=
  ⟨⟨by decide, by decide, by decide⟩, rfl, exampleStore_wf, by decide⟩

example : Entry exampleStore (lit "sites/a.com") (lit "s3\nenv: tok\n") ∧ TextLines (lit "s3\nenv: tok\n") [lit "s3", lit "env: tok"] ∧
    body false 2 [lit "s3", lit "env: tok"] = lit "env: tok\n" := by
  refine ⟨⟨lit "sites", by decide, lit "a.com", rfl, by decide, by decide⟩, ⟨[lit "s3", lit "env: tok"], ⟨by decide, Or.inl (by decide)⟩, ?_, by decide, by decide⟩, by decide⟩
  have hs : ∀ (l : Str), l.getLast? ≠ some 13 → Stripped l l := by
    intro l h
    exact Or.inr ⟨rfl, fun t' e => h (by rw [e]; simp)⟩
  exact .cons (hs _ (by decide)) (.cons (hs _ (by decide)) .nil)

/-- **C51** (as far as it holds) The exact text of the QR code, and when `show --qrcode` crashes: exactly if the selected line is not empty and
shorter than the field name. This cannot happen unless both a line number and a field are given. -/
theorem C51_qr_text_partial (other expand : Str → Str) (w : World) (root : Str) (es : List (Str × Node)) (hs : IsStore w (expand root) es) (a : ShowArgs)
    (hp : a.passName ≠ []) (hq : a.qrCode = true) (res : Res) (h : Show other expand w root a res) :
    (res = .ok [] none ∧ NoMatch other es a.passName) ∨
    ∃ f text, Entry es f text ∧ BestMatch other es a.passName f ∧ ∀ ts, TextLines text ts →
      let out := lit "Pass '" ++ f ++ lit "'\n\n" ++ body a.lineNumbers a.line ts
      (selected a.line a.field ts = [] → res = .ok out (if ts = [] then none else some (ts.flatMap fun t => lit " / " ++ t))) ∧
      (selected a.line a.field ts ≠ [] → a.field.length ≤ (selected a.line a.field ts).length →
        res = .ok out (some (afterFirst 58 (trimSpace ((selected a.line a.field ts).drop a.field.length))))) ∧
      (res = .panic ↔ selected a.line a.field ts ≠ [] ∧ (selected a.line a.field ts).length < a.field.length) ∧
      (a.field = [] ∨ a.line ≤ 0 → res ≠ .panic) := by
  rcases show_spec other expand w root es hs a hp res h with ⟨h1, h2⟩ | ⟨f, text, h1, h2, h3⟩
  · left
    refine ⟨?_, h2⟩
    rw [h1]; unfold showFinish; simp
  · right
    refine ⟨f, text, h1, h2, ?_⟩
    intro ts hts
    obtain ⟨st, h4, h5, h6⟩ := h3 ts hts
    obtain ⟨h7, h8⟩ := h6 hq
    dsimp only
    rw [← h5, ← h7, ← h8]
    have hfull : st.fullQrCode.length > 0 ↔ ts ≠ [] := by
      rw [h8]
      cases ts with
      | nil => simp
      | cons t ts =>
        rw [List.flatMap_cons, List.length_append, List.length_append]
        have : (lit " / ").length = 3 := rfl
        simp only [ne_eq, reduceCtorEq, not_false_eq_true, iff_true]
        omega
    have hpan : res = .panic ↔ st.qrcode ≠ [] ∧ st.qrcode.length < a.field.length := by
      rw [h4]
      unfold showFinish
      rw [hq, if_pos rfl]
      by_cases hne : st.qrcode = []
      · simp only [hne, List.length_nil, gt_iff_lt, Nat.lt_irrefl, if_false, ne_eq, not_true_eq_false, false_and, iff_false]
        split <;> simp
      · rw [if_pos (List.length_pos_iff.2 hne)]
        split
        · rename_i hl; simp [hne, hl]
        · rename_i hl; simp [hl]
    refine ⟨?_, ?_, hpan, ?_⟩
    · intro he
      rw [h4]
      unfold showFinish
      rw [hq, if_pos rfl, he]
      simp only [List.length_nil, gt_iff_lt, Nat.lt_irrefl, if_false]
      by_cases e : ts = []
      · rw [if_neg (fun hc => (hfull.1 hc) e), if_pos e]
      · rw [if_pos (hfull.2 e), if_neg e]
    · intro hne hl
      rw [h4]
      unfold showFinish
      rw [hq, if_pos rfl, if_pos (List.length_pos_iff.2 hne), if_neg (by omega)]
      rfl
    · intro hc hpanic
      obtain ⟨k1, k2⟩ := hpan.1 hpanic
      rcases hc with hc | hc
      · rw [hc] at k2; simp at k2
      · rw [h7] at k1 k2
        unfold selected at k1 k2
        cases hl : ((numbered ts).filter fun m => (m.1 : Int) = a.line || (!a.field.isEmpty && a.field.isPrefixOf m.2)).getLast? with
        | none => rw [hl] at k1; simp at k1
        | some m =>
          rw [hl] at k2
          have hm := List.mem_of_getLast? hl
          rw [List.mem_filter] at hm
          obtain ⟨hm1, hm2⟩ := hm
          have hpos : 1 ≤ m.1 := by
            unfold numbered at hm1
            rw [List.mem_map] at hm1
            obtain ⟨q, -, rfl⟩ := hm1
            simp
          simp only [Bool.or_eq_true, decide_eq_true_eq, Bool.and_eq_true] at hm2
          rcases hm2 with hm2 | ⟨-, hm2⟩
          · omega
          · have := (List.isPrefixOf_iff_prefix.1 hm2).length_le
            simp only [Option.map_some, Option.getD_some] at k2
            omega

/-- **C51** is false: with a line number and a field, a line shorter than the field name crashes the command. -/
theorem C51_short_line_panics : showFile exampleWorld (lit "/v") ⟨false, 1, lit "username", true, lit "a.com"⟩ (lit "sites/a.com") = .panic := by
  rfl

/-- **C51** is false: the text of a line is cut at its first colon, although it is not a field: the code of the password `a:b` shows `b`. -/
theorem C51_colon_cut : qrText [] (lit "a:b") = lit "b" := by decide

/-- With a field, a space stays before the text. -/
theorem C51_space_left : qrText (lit "url") (lit "url: x") = lit " x" := by decide

/-! ## C72: grep -/

/-- **C72** `grep` prints, for every entry that has matching lines, its name and exactly these lines with their numbers, and nothing for the
others. -/
theorem C72_grep (expand : Str → Str) (w : World) (root : Str) (es : List (Str × Node)) (hs : IsStore w (expand root) es) (grep : Str) (hg : grep ≠ [])
    (p : Str → Bool) (lines : Str → List Str) (hlines : ∀ f text, Entry es f text → TextLines text (lines f)) (res : Res)
    (h : Grep expand w root grep (some p) res) :
    ∃ ws, AllEntries es ws ∧ res = .ok (ws.flatMap fun f =>
      let ms := (numbered (lines f)).filter fun m => p m.2
      if ms = [] then [] else lit "Matches found in '" ++ f ++ lit "'\n" ++ ms.flatMap fun m => decimal m.1 ++ lit ": " ++ m.2 ++ lit "\n") none := by
  obtain ⟨files, e, hw, -, -⟩ := store_scan hs
  unfold Grep at h
  rw [e] at h
  simp only at h
  rw [if_pos hg] at h
  obtain ⟨ws, h1, h2⟩ := h
  refine ⟨ws, hw ws h1, ?_⟩
  rw [h2]
  congr 1
  apply List.flatMap_congr
  intro f hf
  obtain ⟨text, ht⟩ := ((hw ws h1).2 f).1 hf
  rw [search_entry hs ht (hlines f text ht)]
  unfold printMatches
  dsimp only
  by_cases e : (numbered (lines f)).filter (fun m => p m.2) = []
  · rw [if_pos e, e]; rfl
  · rw [if_neg e, if_pos (List.length_pos_iff.2 e)]

/-! ## C73: search -/

/-- **C73** `search` prints the first `fuzzy` entries of a list that contains exactly the entries that have a fragment in common with the text,
best first; with a content, it prints of these entries the lines that contain it. It does not crash for `fuzzy` from 0 to 2^44. -/
theorem C73_search_partial (other expand : Str → Str) (w : World) (root : Str) (es : List (Str × Node)) (hs : IsStore w (expand root) es) (fuzzy : Int) (hf : 0 ≤ fuzzy ∧ fuzzy ≤ 2 ^ 44)
    (search : Str) (hne : search ≠ []) (content : Str) (lines : Str → List Str) (hlines : ∀ f text, Entry es f text → TextLines text (lines f)) (res : Res)
    (h : Search other expand w root fuzzy search content res) :
    ∃ (ws all : List Str), AllEntries es ws ∧ all.Nodup ∧ (∀ f, f ∈ all ↔ Closest.Spec.Shares other [2] ws search f) ∧
      all.Pairwise (fun a b => Closest.Spec.score other [2] ws search b ≤ Closest.Spec.score other [2] ws search a) ∧
      res = .ok ((all.take fuzzy.toNat).flatMap fun f =>
        if content = [] then f ++ lit "\n"
        else
          let ms := (numbered (lines f)).filter fun m => containsStr content m.2
          if ms = [] then [] else lit "Matches found in '" ++ f ++ lit "'\n" ++ ms.flatMap fun m => decimal m.1 ++ lit ": " ++ m.2 ++ lit "\n") none := by
  obtain ⟨files, e, hw, -, -⟩ := store_scan hs
  unfold Search at h
  rw [e] at h
  simp only at h
  rw [if_pos hne] at h
  obtain ⟨ws, cm, h1, h2, h3⟩ := h
  have ha := hw ws h1
  obtain ⟨cm', e', hnp, -⟩ := C41_no_crash_partial other ws [2] (words_nil ha) search
  have : cm = cm' := by
    have e2 : some cm = some cm' := h2.symm.trans e'
    injection e2
  subst this
  rcases h3 with ⟨h3 | h3, -⟩ | ⟨closest, h3, h4⟩
  · exact absurd hf h3
  · exact absurd h3 hnp
  · obtain ⟨-, all, k1, k2, k3, rfl⟩ := C37_closestN_is_sorted other ws [2] cm e' search fuzzy closest h3
    refine ⟨ws, all, ha, k1, k2, k3, ?_⟩
    rw [h4]
    congr 1
    apply List.flatMap_congr
    intro f hfm
    have hf := ((k2 f).1 (List.mem_of_mem_take hfm)).1
    obtain ⟨text, ht⟩ := (ha.2 f).1 hf
    by_cases hc : content = []
    · rw [if_pos hc, if_neg (by rw [hc]; simp)]
    · rw [if_neg hc, if_pos (List.length_pos_iff.2 hc), search_entry hs ht (hlines f text ht)]
      unfold printMatches
      dsimp only
      by_cases e : (numbered (lines f)).filter (fun m => containsStr content m.2) = []
      · rw [if_pos e, e]; rfl
      · rw [if_neg e, if_pos (List.length_pos_iff.2 e)]

/-- `search` with a negative number of results, or one of more than 2^44, crashes. -/
theorem C73_negative_panics (other expand : Str → Str) (w : World) (root : Str) (es : List (Str × Node)) (hs : IsStore w (expand root) es) (fuzzy : Int) (hf : fuzzy < 0 ∨ 2 ^ 44 < fuzzy)
    (search : Str) (hne : search ≠ []) (content : Str) (res : Res) (h : Search other expand w root fuzzy search content res) : res = .panic := by
  obtain ⟨files, e, hw, -, -⟩ := store_scan hs
  unfold Search at h
  rw [e] at h
  simp only at h
  rw [if_pos hne] at h
  obtain ⟨ws, cm, h1, h2, ⟨-, h3⟩ | ⟨closest, h3, h4⟩⟩ := h
  · exact h3
  · exact absurd h3.1 (by unfold CanMake; omega)

/-! ## C74: list -/

/-- **C74** `list` prints every entry once; `list sub` prints the entries of one category that is a best match for `sub` among the categories that
have entries, in the order of the names, or nothing if no such category has a fragment in common with `sub`. -/
theorem C74_list (other expand : Str → Str) (w : World) (root : Str) (es : List (Str × Node)) (hs : IsStore w (expand root) es) (sub : Str) (res : Res)
    (h : List' other expand w root sub res) :
    (sub = [] → ∃ ws, AllEntries es ws ∧ res = .ok (ws.flatMap fun f => f ++ lit "\n") none) ∧
    (sub ≠ [] → ∃ cats : List Str, cats.Nodup ∧ (∀ d, d ∈ cats ↔ d ∈ categories ∧ ∃ n, IsEntry (.dir es) d n) ∧
      ((res = .ok [] none ∧ ∀ d, ¬ Closest.Spec.Shares other [2] cats sub d) ∨
        ∃ (d : Str) (l : List Str), Closest.Spec.Shares other [2] cats sub d ∧
          (∀ k, Closest.Spec.Shares other [2] cats sub k → Closest.Spec.score other [2] cats sub k ≤ Closest.Spec.score other [2] cats sub d) ∧
          l.Pairwise (fun a b => strLt a b = true) ∧ (∀ f, f ∈ l ↔ ∃ n, IsEntry (.dir es) d n ∧ f = d ++ lit "/" ++ n) ∧
          res = .ok (l.flatMap fun f => f ++ lit "\n") none)) := by
  obtain ⟨files, e, hw, hmem, -⟩ := store_scan hs
  have hsort : ∀ d, (files d).Pairwise (fun a b => strLt a b = true) := by
    obtain ⟨files', e', -, hsort⟩ := C43_scan_lists_entries w (expand root) es hs.clean hs.here hs.wf hs.notGit
    rw [e] at e'
    injection e' with e'
    rw [e']; exact hsort
  unfold List' at h
  rw [e] at h
  simp only at h
  constructor
  · intro hsub
    rw [if_pos hsub] at h
    obtain ⟨ws, h1, h2⟩ := h
    exact ⟨ws, hw ws h1, h2⟩
  · intro hsub
    rw [if_neg hsub] at h
    obtain ⟨order, cm, ⟨hn, ho⟩, h2, h3⟩ := h
    have hcats : ∀ d, d ∈ order ↔ d ∈ categories ∧ ∃ n, IsEntry (.dir es) d n := by
      intro d
      rw [ho]
      constructor
      · intro hne
        obtain ⟨f, hf⟩ := List.exists_mem_of_ne_nil _ hne
        obtain ⟨h1, n, h2, -⟩ := (hmem d f).1 hf
        exact ⟨h1, n, h2⟩
      · rintro ⟨h1, n, h2⟩
        exact List.ne_nil_of_mem ((hmem d _).2 ⟨h1, n, h2, rfl⟩)
    refine ⟨order, hn, hcats, ?_⟩
    have hnil : [] ∉ order := by
      intro hc
      exact absurd ((hcats []).1 hc).1 (by decide)
    obtain ⟨cm', e', hnp, -⟩ := C41_no_crash_partial other order [2] hnil sub
    have : cm = cm' := by
      have e2 : some cm = some cm' := h2.symm.trans e'
      injection e2
    subst this
    rcases h3 with ⟨h3, -⟩ | ⟨closest, h3, h4⟩
    · exact absurd h3 hnp
    · rcases C37_closest_is_best other order [2] cm e' sub closest h3 with ⟨hsh, hmax⟩ | ⟨hxe, hno⟩
      · right
        refine ⟨closest, files closest, hsh, hmax, hsort closest, ?_, h4⟩
        intro f
        rw [hmem]
        have := ((hcats closest).1 hsh.1).1
        simp [this]
      · left
        refine ⟨?_, hno⟩
        rw [h4, hxe]
        have : files [] = [] := by
          by_contra hne
          exact hnil ((ho []).2 hne)
        rw [this]; rfl

end Verif.Cmds
