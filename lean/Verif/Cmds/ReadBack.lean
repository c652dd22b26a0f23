import Verif.Cmds.ExactProps
import Verif.QR.WordsMain
/-
C162: what can be read back from the output of `list` and of `grep`.
-/
namespace Verif.Cmds
open Repo Repo.Spec Closest Spec

/-! ## Names -/

/-- The name of an entry has exactly one slash, and the newline is not before it. -/
theorem entry_shape {w : World} {root : Str} {es : List (Str × Node)} (hs : IsStore w root es) {f : Str} (h : ∃ text, Entry es f text) :
    ∃ d n : Str, f = d ++ 47 :: n ∧ 47 ∉ d ∧ 10 ∉ d ∧ 47 ∉ n := by
  obtain ⟨text, d, hd, n, h1, h2, rfl⟩ := h
  obtain ⟨-, g2⟩ := isEntry_good hs.wf ⟨⟨text, h1⟩, h2⟩
  have hd' : ∀ d ∈ [lit "people", lit "email", lit "phone", lit "sites", lit "devices", lit "bank"], (47 : UInt8) ∉ d ∧ 10 ∉ d := by decide
  refine ⟨d, n, ?_, (hd' d hd).1, (hd' d hd).2, g2.2.2.2⟩
  have : lit "/" = [47] := by decide
  rw [this, List.append_assoc]
  rfl

/-- A text of the form of a name. -/
def Shaped (f : Str) : Prop := ∃ d n : Str, f = d ++ 47 :: n ∧ 47 ∉ d ∧ 10 ∉ d ∧ 47 ∉ n

theorem shaped_count {f : Str} (h : Shaped f) : f.count 47 = 1 := by
  obtain ⟨d, n, rfl, h1, -, h3⟩ := h
  rw [List.count_append, List.count_cons_self, List.count_eq_zero_of_not_mem h1, List.count_eq_zero_of_not_mem h3]

/-- If a name and a newline are a beginning of a text of names with newlines, then the text starts with this name. -/
theorem names_head {f f' : Str} {fs fs' : List Str} (hf' : Shaped f') (hf : Shaped f) (hfs : ∀ x ∈ fs, Shaped x)
    (e : f ++ 10 :: fs.flatMap (· ++ [10]) = f' ++ 10 :: fs'.flatMap (· ++ [10])) (hle : f.length ≤ f'.length) : f = f' := by
  rcases List.append_eq_append_iff.1 e with ⟨a, h1, h2⟩ | ⟨a, h1, h2⟩
  · rcases a with _ | ⟨b, u⟩
    · rw [h1, List.append_nil]
    · exfalso
      rw [List.cons_append] at h2
      injection h2 with h2 h3
      subst h2
      cases fs with
      | nil => simp at h3
      | cons g gs =>
        obtain ⟨d, n, rfl, k1, k2, k3⟩ := hfs g (List.mem_cons_self ..)
        rw [List.flatMap_cons] at h3
        simp only [List.append_assoc, List.cons_append] at h3
        have hu : (47 : UInt8) ∈ u := by
          rcases List.append_eq_append_iff.1 h3 with ⟨a, q1, q2⟩ | ⟨a, q1, q2⟩
          · rcases a with _ | ⟨c, a⟩
            · simp at q2
            · rw [List.cons_append] at q2
              injection q2 with q2 q3
              rw [q1, ← q2]
              simp
          · rcases a with _ | ⟨c, a⟩
            · simp at q2
            · rw [List.cons_append] at q2
              injection q2 with q2 q3
              exact absurd (show (10 : UInt8) ∈ d by rw [q1, ← q2]; simp) k2
        have c1 := shaped_count hf'
        rw [h1, List.count_append, shaped_count hf, List.count_cons_of_ne (by decide)] at c1
        have := List.count_pos_iff.2 hu
        omega
  · rcases a with _ | ⟨b, u⟩
    · rw [h1, List.append_nil]
    · rw [h1] at hle
      simp only [List.length_append, List.length_cons] at hle
      omega

theorem names_inj : ∀ {fs fs' : List Str}, (∀ x ∈ fs, Shaped x) → (∀ x ∈ fs', Shaped x) → fs.flatMap (· ++ [10]) = fs'.flatMap (· ++ [(10 : UInt8)]) → fs = fs'
  | [], [], _, _, _ => rfl
  | [], _ :: _, _, _, e => by simp at e
  | _ :: _, [], _, _, e => by simp at e
  | f :: fs, f' :: fs', h, h', e => by
    rw [List.flatMap_cons, List.flatMap_cons] at e
    simp only [List.append_assoc, List.cons_append, List.nil_append] at e
    have hh : f = f' := by
      rcases Nat.le_total f.length f'.length with hl | hl
      · exact names_head (h' _ (List.mem_cons_self ..)) (h _ (List.mem_cons_self ..)) (fun x hx => h x (List.mem_cons_of_mem _ hx)) e hl
      · exact (names_head (h _ (List.mem_cons_self ..)) (h' _ (List.mem_cons_self ..)) (fun x hx => h' x (List.mem_cons_of_mem _ hx)) e.symm hl).symm
    subst hh
    rw [List.append_cancel_left_eq, List.cons.injEq] at e
    rw [names_inj (fun x hx => h x (List.mem_cons_of_mem _ hx)) (fun x hx => h' x (List.mem_cons_of_mem _ hx)) e.2]

/-- **C162** The output of `list` tells the names of all entries, whatever characters they contain (also newlines): two stores for which it prints the same have the same entries. -/
theorem C162_list (other expand : Str → Str) (w w' : World) (root root' : Str) (es es' : List (Str × Node)) (hs : IsStore w (expand root) es) (hs' : IsStore w' (expand root') es')
    (out : Str) (h : List' other expand w root [] (.ok out none)) (h' : List' other expand w' root' [] (.ok out none)) (f : Str) :
    (∃ text, Entry es f text) ↔ ∃ text, Entry es' f text := by
  obtain ⟨ws, h1, h2⟩ := (C74_list other expand w root es hs [] _ h).1 rfl
  obtain ⟨ws', h1', h2'⟩ := (C74_list other expand w' root' es' hs' [] _ h').1 rfl
  injection h2 with h2
  injection h2' with h2'
  have hn : lit "\n" = [10] := by decide
  rw [hn] at h2 h2'
  have := names_inj (fun x hx => entry_shape hs ((h1.2 x).1 hx)) (fun x hx => entry_shape hs' ((h1'.2 x).1 hx)) (h2.symm.trans h2')
  rw [← h1.2, ← h1'.2, this]

/-! ## Lines -/

theorem lines_inj : ∀ {ls ls' : List Str}, (∀ x ∈ ls, (10 : UInt8) ∉ x) → (∀ x ∈ ls', (10 : UInt8) ∉ x) → ls.flatMap (· ++ [10]) = ls'.flatMap (· ++ [(10 : UInt8)]) → ls = ls'
  | [], [], _, _, _ => rfl
  | [], _ :: _, _, _, e => by simp at e
  | _ :: _, [], _, _, e => by simp at e
  | f :: fs, f' :: fs', h, h', e => by
    rw [List.flatMap_cons, List.flatMap_cons] at e
    simp only [List.append_assoc, List.cons_append, List.nil_append] at e
    have hf := h f (List.mem_cons_self ..)
    have hf' := h' f' (List.mem_cons_self ..)
    have hh : f = f' := by
      rcases List.append_eq_append_iff.1 e with ⟨a, h1, h2⟩ | ⟨a, h1, h2⟩
      · rcases a with _ | ⟨b, u⟩
        · rw [h1, List.append_nil]
        · rw [List.cons_append] at h2
          injection h2 with h2 _
          exact absurd (show (10 : UInt8) ∈ f' by rw [h1, ← h2]; simp) hf'
      · rcases a with _ | ⟨b, u⟩
        · rw [h1, List.append_nil]
        · rw [List.cons_append] at h2
          injection h2 with h2 _
          exact absurd (show (10 : UInt8) ∈ f by rw [h1, ← h2]; simp) hf
    subst hh
    rw [List.append_cancel_left_eq, List.cons.injEq] at e
    rw [lines_inj (fun x hx => h x (List.mem_cons_of_mem _ hx)) (fun x hx => h' x (List.mem_cons_of_mem _ hx)) e.2]

/-- The first line about an entry. -/
def headLine (f : Str) : Str := lit "Matches found in '" ++ f ++ lit "'"

/-- The line about a match. -/
def matchLine (m : Nat × Str) : Str := decimal m.1 ++ lit ": " ++ m.2

/-- The lines about an entry with matches. -/
def block (b : Str × List (Nat × Str)) : List Str := headLine b.1 :: b.2.map matchLine

theorem headLine_inj {f f' : Str} (h : headLine f = headLine f') : f = f' := by
  unfold headLine at h
  rw [List.append_assoc, List.append_assoc, List.append_cancel_left_eq, List.append_cancel_right_eq] at h
  exact h

theorem headLine_head (f : Str) : ∃ t, headLine f = 77 :: t := by
  have : lit "Matches found in '" = 77 :: lit "atches found in '" := by decide
  unfold headLine
  rw [this]
  exact ⟨_, rfl⟩

theorem matchLine_head (m : Nat × Str) : ∃ d t, matchLine m = d :: t ∧ d ≠ 77 := by
  unfold matchLine
  cases e : decimal m.1 with
  | nil => exact absurd e (QR.Words.decimal_ne_nil _)
  | cons d t =>
    have := QR.Words.digit_byte (n := m.1) (b := d) (by rw [e]; simp)
    refine ⟨d, _, rfl, ?_⟩
    rintro rfl
    exact absurd this (by decide)

theorem head_ne_match (f : Str) (m : Nat × Str) : headLine f ≠ matchLine m := by
  obtain ⟨t, e⟩ := headLine_head f
  obtain ⟨d, t', e', h⟩ := matchLine_head m
  rw [e, e']
  intro hc
  injection hc with hc _
  exact h hc.symm

theorem matchLine_inj {m m' : Nat × Str} (h : matchLine m = matchLine m') : m = m' := by
  have hc : lit ": " = [58, 32] := by decide
  have key : ∀ (a b s t : Str), (58 : UInt8) ∉ a → 58 ∉ b → a ++ 58 :: s = b ++ 58 :: t → a = b ∧ s = t := by
    intro a b s t ha hb e
    rcases List.append_eq_append_iff.1 e with ⟨u, h1, h2⟩ | ⟨u, h1, h2⟩
    · rcases u with _ | ⟨c, u⟩
      · rw [List.append_nil] at h1
        refine ⟨h1.symm, ?_⟩
        simpa using h2
      · rw [List.cons_append] at h2
        injection h2 with h2 _
        exact absurd (show (58 : UInt8) ∈ b by rw [h1, ← h2]; simp) hb
    · rcases u with _ | ⟨c, u⟩
      · rw [List.append_nil] at h1
        refine ⟨h1, ?_⟩
        simpa using h2.symm
      · rw [List.cons_append] at h2
        injection h2 with h2 _
        exact absurd (show (58 : UInt8) ∈ a by rw [h1, ← h2]; simp) ha
  have hd : ∀ n, (58 : UInt8) ∉ decimal n := by
    intro n hn
    exact absurd (QR.Words.digit_byte hn) (by decide)
  unfold matchLine at h
  rw [hc] at h
  simp only [List.append_assoc, List.cons_append, List.nil_append] at h
  obtain ⟨h1, h2⟩ := key _ _ _ _ (hd _) (hd _) h
  injection h2 with _ h2
  exact Prod.ext (QR.Words.decimal_inj h1) h2

theorem blocks_inj : ∀ {bs bs' : List (Str × List (Nat × Str))}, bs.flatMap block = bs'.flatMap block → bs = bs'
  | [], [], _ => rfl
  | [], _ :: _, e => by simp [block] at e
  | _ :: _, [], e => by simp [block] at e
  | b :: bs, b' :: bs', e => by
    rw [List.flatMap_cons, List.flatMap_cons, block, block, List.cons_append, List.cons_append, List.cons.injEq] at e
    have hf := headLine_inj e.1
    have key : ∀ {ms ms' : List (Nat × Str)}, ms.map matchLine ++ bs.flatMap block = ms'.map matchLine ++ bs'.flatMap block → ms = ms' ∧ bs.flatMap block = bs'.flatMap block := by
      intro ms
      induction ms with
      | nil =>
        intro ms' h
        cases ms' with
        | nil => exact ⟨rfl, h⟩
        | cons m ms' =>
          exfalso
          cases bs with
          | nil => simp at h
          | cons c bs =>
            rw [List.flatMap_cons, block, List.map_nil, List.nil_append, List.cons_append, List.map_cons, List.cons_append, List.cons.injEq] at h
            exact head_ne_match _ _ h.1
      | cons m ms ih =>
        intro ms' h
        cases ms' with
        | nil =>
          exfalso
          cases bs' with
          | nil => simp at h
          | cons c bs' =>
            rw [List.flatMap_cons, block, List.map_nil, List.nil_append, List.cons_append, List.map_cons, List.cons_append, List.cons.injEq] at h
            exact head_ne_match _ _ h.1.symm
        | cons m' ms' =>
          rw [List.map_cons, List.map_cons, List.cons_append, List.cons_append, List.cons.injEq] at h
          obtain ⟨h1, h2⟩ := ih h.2
          exact ⟨by rw [matchLine_inj h.1, h1], h2⟩
    obtain ⟨h1, h2⟩ := key e.2
    rw [blocks_inj h2, Prod.ext hf h1]

/-- The matching lines of an entry. -/
def matchesOf (lines : Str → List Str) (p : Str → Bool) (f : Str) : List (Nat × Str) := (numbered (lines f)).filter fun m => p m.2

theorem grep_lines (lines : Str → List Str) (p : Str → Bool) (ws : List Str) : (ws.flatMap fun f => matchLines f (matchesOf lines p f)) =
    (((ws.map fun f => (f, matchesOf lines p f)).filter fun b => !b.2.isEmpty).flatMap block).flatMap (· ++ [10]) := by
  have hn : lit "\n" = [10] := by decide
  have hn' : lit "'\n" = lit "'" ++ [10] := by decide
  induction ws with
  | nil => rfl
  | cons f ws ih =>
    rw [List.flatMap_cons, ih, List.map_cons, matchLines]
    by_cases e : matchesOf lines p f = []
    · rw [if_pos e, List.filter_cons_of_neg (by simp [e])]
      rfl
    · rw [if_neg e, List.filter_cons_of_pos (by simpa using e), List.flatMap_cons, List.flatMap_append]
      congr 1
      rw [block, List.flatMap_cons, headLine, hn, hn', List.flatMap_map]
      simp only [matchLine, List.append_assoc]

/-- The line number `n` of the entry `f` is `t`, and matches. -/
def Spec.Match (es : List (Str × Node)) (lines : Str → List Str) (p : Str → Bool) (f : Str) (n : Nat) (t : Str) : Prop :=
  (∃ text, Entry es f text) ∧ (n, t) ∈ numbered (lines f) ∧ p t = true

theorem reads_no_newline {text : Str} {ts : List Str} {b : Bool} (h : Reads text ts b) : ∀ t ∈ ts, (10 : UInt8) ∉ t := by
  obtain ⟨ls, us, hl, hu, h⟩ := h
  have key : ∀ {ls us : List Str}, List.Forall₂ Stripped ls us → (∀ l ∈ ls, (10 : UInt8) ∉ l) → ∀ t ∈ us, (10 : UInt8) ∉ t := by
    intro ls us hf
    induction hf with
    | nil => intro _ t ht; cases ht
    | cons hs _ ih =>
      intro hl t ht
      rcases List.mem_cons.1 ht with rfl | ht
      · have := hl _ (List.mem_cons_self ..)
        rcases hs with rfl | ⟨rfl, -⟩
        · exact fun hc => this (List.mem_append_left _ hc)
        · exact this
      · exact ih (fun l h => hl l (List.mem_cons_of_mem _ h)) t ht
  rcases h with ⟨-, rfl, -⟩ | ⟨-, rfl, -⟩
  · intro t ht; cases ht
  · exact key hu fun l hl' => hl.1 l ((List.takeWhile_sublist _).subset hl')

theorem grep_blocks {expand : Str → Str} {w : World} {root : Str} {es : List (Str × Node)} (hs : IsStore w (expand root) es) {grep : Str} (hg : grep ≠ [])
    {p : Str → Bool} {lines : Str → List Str} {binary : Str → Bool} (hlines : ReadsAll es lines binary) {out : Str} (h : Grep expand w root grep (some p) (.ok out none))
    (hnl : ∀ f text, Entry es f text → (10 : UInt8) ∉ f) :
    ∃ bs : List (Str × List (Nat × Str)), out = (bs.flatMap block).flatMap (· ++ [10]) ∧ (∀ l ∈ bs.flatMap block, (10 : UInt8) ∉ l) ∧
      ∀ f n t, Match es lines p f n t ↔ ∃ ms, (f, ms) ∈ bs ∧ (n, t) ∈ ms := by
  obtain ⟨ws, h1, h2⟩ := C72_grep_prints expand w root es hs grep hg p lines binary hlines _ h
  injection h2 with h2
  refine ⟨(ws.map fun f => (f, matchesOf lines p f)).filter fun b => !b.2.isEmpty, h2.trans (grep_lines lines p ws), ?_, ?_⟩
  · intro l hl
    obtain ⟨b, hb, hl⟩ := List.mem_flatMap.1 hl
    obtain ⟨f, hf, rfl⟩ := List.mem_map.1 (List.mem_filter.1 hb).1
    obtain ⟨text, ht⟩ := (h1.2 f).1 hf
    rcases List.mem_cons.1 hl with rfl | hl
    · unfold headLine
      have a1 : (10 : UInt8) ∉ lit "Matches found in '" := by decide
      have a2 : (10 : UInt8) ∉ lit "'" := by decide
      simp only [List.mem_append, not_or]
      exact ⟨⟨a1, hnl f text ht⟩, a2⟩
    · obtain ⟨m, hm, rfl⟩ := List.mem_map.1 hl
      have hm := (List.mem_filter.1 hm).1
      have a1 : (10 : UInt8) ∉ lit ": " := by decide
      unfold matchLine
      simp only [List.mem_append, not_or]
      refine ⟨⟨fun hc => absurd (QR.Words.digit_byte hc) (by decide), a1⟩, ?_⟩
      unfold numbered at hm
      obtain ⟨q, hq, rfl⟩ := List.mem_map.1 hm
      exact reads_no_newline (hlines f text ht) _ (List.fst_mem_of_mem_zipIdx hq)
  · intro f n t
    constructor
    · rintro ⟨hf, hm, hp⟩
      have hm' : (n, t) ∈ matchesOf lines p f := List.mem_filter.2 ⟨hm, hp⟩
      refine ⟨_, List.mem_filter.2 ⟨List.mem_map.2 ⟨f, (h1.2 f).2 hf, rfl⟩, ?_⟩, hm'⟩
      have := List.ne_nil_of_mem hm'
      simpa using this
    · rintro ⟨ms, hb, hm⟩
      obtain ⟨g, hg, e⟩ := List.mem_map.1 (List.mem_filter.1 hb).1
      injection e with e1 e2
      subst e1 e2
      obtain ⟨k1, k2⟩ := List.mem_filter.1 hm
      exact ⟨(h1.2 g).1 hg, k1, k2⟩

/-- **C162** (for stores whose names have no newline) The output of `grep` tells the matches: if it is the same for two stores, also with different patterns, then the same lines of the same
entries match, with the same numbers. -/
theorem C162_grep_partial (expand : Str → Str) (w w' : World) (root root' : Str) (es es' : List (Str × Node)) (hs : IsStore w (expand root) es) (hs' : IsStore w' (expand root') es')
    (grep grep' : Str) (hg : grep ≠ []) (hg' : grep' ≠ []) (p p' : Str → Bool) (lines lines' : Str → List Str) (binary binary' : Str → Bool)
    (hlines : ReadsAll es lines binary) (hlines' : ReadsAll es' lines' binary') (out : Str)
    (h : Grep expand w root grep (some p) (.ok out none)) (h' : Grep expand w' root' grep' (some p') (.ok out none))
    (hnl : ∀ f text, Entry es f text → (10 : UInt8) ∉ f) (hnl' : ∀ f text, Entry es' f text → (10 : UInt8) ∉ f) (f : Str) (n : Nat) (t : Str) :
    Match es lines p f n t ↔ Match es' lines' p' f n t := by
  obtain ⟨bs, a1, a2, a3⟩ := grep_blocks hs hg hlines h hnl
  obtain ⟨bs', b1, b2, b3⟩ := grep_blocks hs' hg' hlines' h' hnl'
  rw [a3, b3, blocks_inj (lines_inj a2 b2 (a1.symm.trans b1))]

/-- A store with one entry. -/
def oneStore (n c : Str) : List (Str × Node) := [(lit "sites", .dir [(n, .file c)])]

theorem oneStore_entry {n c : Str} (hn : n ≠ lit ".DS_Store") (f text : Str) : Entry (oneStore n c) f text ↔ f = lit "sites/" ++ n ∧ text = c := by
  have e : lit "sites/" = lit "sites" ++ lit "/" := by decide
  rw [e]
  constructor
  · rintro ⟨d, hd, m, h1, h2, rfl⟩
    simp only [lookupAt, oneStore, entry] at h1
    split at h1
    · cases h1
    · rename_i nd e1
      split at e1
      · rename_i e2
        injection e1 with e1
        subst e1 e2
        simp only [lookupAt, entry] at h1
        split at h1
        · cases h1
        · rename_i nd e3
          split at e3
          · rename_i e4
            injection e3 with e3
            subst e3 e4
            injection h1 with h1
            injection h1 with h1
            exact ⟨rfl, h1.symm⟩
          · cases e3
      · cases e1
  · rintro ⟨rfl, rfl⟩
    refine ⟨lit "sites", by decide, n, ?_, hn, rfl⟩
    simp [lookupAt, oneStore, entry]

theorem oneStore_grep {n c : Str} (hn : n ≠ lit ".DS_Store") (hs : IsStore ⟨.dir [(lit "v", .dir (oneStore n c))], []⟩ (lit "/v") (oneStore n c)) (p : Str → Bool) (ts : List Str) (b : Bool)
    (hr : Reads c ts b) :
    Grep id ⟨.dir [(lit "v", .dir (oneStore n c))], []⟩ (lit "/v") (lit ".") (some p) (.ok (matchLines (lit "sites/" ++ n) ((numbered ts).filter fun m => p m.2)) none) := by
  obtain ⟨files, e, hw, -, ws, hws⟩ := store_scan hs
  obtain ⟨hnd, hmem⟩ := hw ws hws
  have hone : ws = [lit "sites/" ++ n] := by
    have hall : ∀ f ∈ ws, f = lit "sites/" ++ n := fun f hf => by
      obtain ⟨t, ht⟩ := (hmem f).1 hf
      exact ((oneStore_entry hn f t).1 ht).1
    have hin : lit "sites/" ++ n ∈ ws := (hmem _).2 ⟨c, (oneStore_entry hn _ c).2 ⟨rfl, rfl⟩⟩
    cases ws with
    | nil => cases hin
    | cons a l =>
      have ha := hall a (List.mem_cons_self ..)
      cases l with
      | nil => rw [ha]
      | cons b l =>
        have hb := hall b (by simp)
        rw [ha, hb] at hnd
        simp at hnd
  unfold Grep
  rw [show id (lit "/v") = lit "/v" from rfl, e]
  simp only
  rw [if_pos (by decide)]
  refine ⟨ws, hws, ?_⟩
  rw [hone, List.flatMap_cons, List.flatMap_nil, List.append_nil, search_any hs ((oneStore_entry hn _ c).2 ⟨rfl, rfl⟩) hr, printMatches_eq]

/-- **C162** is false for `grep` with a newline in a name: a store with the entry `a'\n1: x` and one with the entry `a` give the same output for the same pattern, but the first one has
no entry `a`. -/
theorem C162_grep_false : ∃ (p : Str → Bool) (out : Str),
    Grep id ⟨.dir [(lit "v", .dir (oneStore (lit "a'\n1: x") (lit "\ny\n")))], []⟩ (lit "/v") (lit ".") (some p) (.ok out none) ∧
    Grep id ⟨.dir [(lit "v", .dir (oneStore (lit "a") (lit "x'\ny\n")))], []⟩ (lit "/v") (lit ".") (some p) (.ok out none) ∧
    (∃ text, Entry (oneStore (lit "a") (lit "x'\ny\n")) (lit "sites/a") text) ∧ ¬ ∃ text, Entry (oneStore (lit "a'\n1: x") (lit "\ny\n")) (lit "sites/a") text := by
  have hst : ∀ (l : Str), l.getLast? ≠ some 13 → Stripped l l := fun l h => Or.inr ⟨rfl, fun t' e => h (by rw [e]; simp)⟩
  have s1 : IsStore ⟨.dir [(lit "v", .dir (oneStore (lit "a'\n1: x") (lit "\ny\n")))], []⟩ (lit "/v") (oneStore (lit "a'\n1: x") (lit "\ny\n")) :=
    ⟨⟨by decide, by decide, by decide⟩, rfl, by simp only [Node.WF, oneStore, WFList, WFPair]; decide, by decide⟩
  have s2 : IsStore ⟨.dir [(lit "v", .dir (oneStore (lit "a") (lit "x'\ny\n")))], []⟩ (lit "/v") (oneStore (lit "a") (lit "x'\ny\n")) :=
    ⟨⟨by decide, by decide, by decide⟩, rfl, by simp only [Node.WF, oneStore, WFList, WFPair]; decide, by decide⟩
  have r1 : Reads (lit "\ny\n") [[], lit "y"] false :=
    ⟨[[], lit "y"], [[], lit "y"], ⟨by decide, Or.inl (by decide)⟩, .cons (hst _ (by decide)) (.cons (hst _ (by decide)) .nil), Or.inr ⟨by intro t ht; cases ht; decide, rfl, rfl⟩⟩
  have r2 : Reads (lit "x'\ny\n") [lit "x'", lit "y"] false :=
    ⟨[lit "x'", lit "y"], [lit "x'", lit "y"], ⟨by decide, Or.inl (by decide)⟩, .cons (hst _ (by decide)) (.cons (hst _ (by decide)) .nil),
      Or.inr ⟨by intro t ht; cases ht; decide, rfl, rfl⟩⟩
  have g1 := oneStore_grep (by decide) s1 (fun l => !l.isEmpty) _ _ r1
  have g2 := oneStore_grep (by decide) s2 (fun l => !l.isEmpty) _ _ r2
  have e : matchLines (lit "sites/" ++ lit "a'\n1: x") ((numbered [[], lit "y"]).filter fun m => (fun l : Str => !l.isEmpty) m.2) =
      matchLines (lit "sites/" ++ lit "a") ((numbered [lit "x'", lit "y"]).filter fun m => (fun l : Str => !l.isEmpty) m.2) := by decide
  rw [e] at g1
  refine ⟨_, _, g1, g2, ⟨_, (oneStore_entry (by decide) _ _).2 ⟨by decide, rfl⟩⟩, ?_⟩
  rintro ⟨text, ht⟩
  exact absurd ((oneStore_entry (by decide) _ _).1 ht).1 (by decide)

/-- The hypotheses are met: `grep` of a store with one entry prints its match. -/
example : ∃ out, Grep id ⟨.dir [(lit "v", .dir (oneStore (lit "a") (lit "x'\ny\n")))], []⟩ (lit "/v") (lit ".") (some fun l => l == lit "y") (.ok out none) ∧
    out = lit "Matches found in 'sites/a'\n2: y\n" ∧ ∀ f text, Entry (oneStore (lit "a") (lit "x'\ny\n")) f text → (10 : UInt8) ∉ f := by
  have hst : ∀ (l : Str), l.getLast? ≠ some 13 → Stripped l l := fun l h => Or.inr ⟨rfl, fun t' e => h (by rw [e]; simp)⟩
  have s2 : IsStore ⟨.dir [(lit "v", .dir (oneStore (lit "a") (lit "x'\ny\n")))], []⟩ (lit "/v") (oneStore (lit "a") (lit "x'\ny\n")) :=
    ⟨⟨by decide, by decide, by decide⟩, rfl, by simp only [Node.WF, oneStore, WFList, WFPair]; decide, by decide⟩
  have r2 : Reads (lit "x'\ny\n") [lit "x'", lit "y"] false :=
    ⟨[lit "x'", lit "y"], [lit "x'", lit "y"], ⟨by decide, Or.inl (by decide)⟩, .cons (hst _ (by decide)) (.cons (hst _ (by decide)) .nil),
      Or.inr ⟨by intro t ht; cases ht; decide, rfl, rfl⟩⟩
  refine ⟨_, oneStore_grep (by decide) s2 (fun l => l == lit "y") _ _ r2, by decide, ?_⟩
  intro f text h
  rw [((oneStore_entry (by decide) _ _).1 h).1]
  decide

/-- Names with newlines are listed, too: their lines without a slash belong to the line before. -/
example : Shaped (lit "sites/a'\n1: x") ∧ Shaped (lit "bank/b") ∧ [lit "sites/a'\n1: x", lit "bank/b"].flatMap (· ++ [10]) = lit "sites/a'\n1: x\nbank/b\n" :=
  ⟨⟨lit "sites", lit "a'\n1: x", by decide⟩, ⟨lit "bank", lit "b", by decide⟩, by decide⟩

/-! ## show -/

/-- The lines `show` prints about a text entry. -/
def showLines (lineNumbers : Bool) (f : Str) (ts : List Str) : List Str :=
  (lit "Pass '" ++ f ++ lit "'") :: [] :: if lineNumbers then (numbered ts).map matchLine else ts

theorem numbered_inj {ts ts' : List Str} (h : numbered ts = numbered ts') : ts = ts' := by
  have : ∀ ts : List Str, (numbered ts).map Prod.snd = ts := by
    intro ts
    unfold numbered
    rw [List.map_map]
    show ts.zipIdx.map (fun p => p.1) = ts
    exact List.zipIdx_map_fst 0 ts
  rw [← this ts, h, this]

theorem showLines_inj {b : Bool} {f f' : Str} {ts ts' : List Str} (h : showLines b f ts = showLines b f' ts') : f = f' ∧ ts = ts' := by
  unfold showLines at h
  injection h with h1 h2
  injection h2 with _ h2
  rw [List.append_assoc, List.append_assoc, List.append_cancel_left_eq, List.append_cancel_right_eq] at h1
  refine ⟨h1, ?_⟩
  cases b
  · simpa using h2
  · simp only [if_true] at h2
    exact numbered_inj (List.map_injective_iff.2 (fun _ _ => matchLine_inj) h2)

theorem shown_lines {a : ShowArgs} (ha : a.lineNumbers = true ∨ a.line ≤ 0) (f : Str) (ts : List Str) : shown a f ts false = (showLines a.lineNumbers f ts).flatMap (· ++ [10]) := by
  have hn : lit "\n" = [10] := by decide
  have hn' : lit "'\n\n" = lit "'" ++ [10] ++ [10] := by decide
  unfold shown body showLines
  rw [List.flatMap_cons, List.flatMap_cons, hn, hn']
  cases e : a.lineNumbers with
  | true =>
    simp only [if_true, Bool.false_eq_true, if_false, List.append_nil, List.flatMap_map, matchLine, List.append_assoc, List.nil_append]
  | false =>
    have h0 : ¬ 0 < a.line := by
      rcases ha with ha | ha
      · rw [e] at ha; cases ha
      · omega
    simp only [Bool.false_eq_true, if_false, List.append_nil, List.append_assoc, List.nil_append, h0]

theorem showLines_newline {b : Bool} {f : Str} {ts : List Str} (hf : (10 : UInt8) ∉ f) (ht : ∀ t ∈ ts, (10 : UInt8) ∉ t) : ∀ l ∈ showLines b f ts, (10 : UInt8) ∉ l := by
  intro l hl
  unfold showLines at hl
  rcases List.mem_cons.1 hl with rfl | hl
  · have a1 : (10 : UInt8) ∉ lit "Pass '" := by decide
    have a2 : (10 : UInt8) ∉ lit "'" := by decide
    simp only [List.mem_append, not_or]
    exact ⟨⟨a1, hf⟩, a2⟩
  rcases List.mem_cons.1 hl with rfl | hl
  · simp
  cases b
  · exact ht l (by simpa using hl)
  · simp only [if_true] at hl
    obtain ⟨m, hm, rfl⟩ := List.mem_map.1 hl
    have a1 : (10 : UInt8) ∉ lit ": " := by decide
    unfold matchLine
    simp only [List.mem_append, not_or]
    refine ⟨⟨fun hc => absurd (QR.Words.digit_byte hc) (by decide), a1⟩, ?_⟩
    unfold numbered at hm
    obtain ⟨q, hq, rfl⟩ := List.mem_map.1 hm
    exact ht _ (List.fst_mem_of_mem_zipIdx hq)

/-- **C162** (for stores of text entries whose names have no newline) The output of `show` without a line number tells the entry and all the lines that are read of it: if it is the same
for two stores, also with different names, then the same entry is shown, with the same lines. -/
theorem C162_show_partial (other expand : Str → Str) (w w' : World) (root root' : Str) (es es' : List (Str × Node)) (hs : IsStore w (expand root) es) (hs' : IsStore w' (expand root') es')
    (a a' : ShowArgs) (hp : a.passName ≠ []) (hp' : a'.passName ≠ []) (hq : a.qrCode = false) (hq' : a'.qrCode = false) (hl : a.lineNumbers = true ∨ a.line ≤ 0)
    (hl' : a'.lineNumbers = true ∨ a'.line ≤ 0) (hsame : a.lineNumbers = a'.lineNumbers) (lines lines' : Str → List Str)
    (hlines : ReadsAll es lines fun _ => false) (hlines' : ReadsAll es' lines' fun _ => false) (out : Str) (hne : out ≠ [])
    (h : Show other expand w root a (.ok out none)) (h' : Show other expand w' root' a' (.ok out none))
    (hnl : ∀ f text, Entry es f text → (10 : UInt8) ∉ f) (hnl' : ∀ f text, Entry es' f text → (10 : UInt8) ∉ f) :
    ∃ f, BestMatch other es a.passName f ∧ BestMatch other es' a'.passName f ∧ lines f = lines' f := by
  rcases C50_show other expand w root es hs a hp hq _ h with ⟨h1, -⟩ | ⟨f, text, h1, h2, h3⟩
  · injection h1 with h1
    exact absurd h1 hne
  rcases C50_show other expand w' root' es' hs' a' hp' hq' _ h' with ⟨h1', -⟩ | ⟨f', text', h1', h2', h3'⟩
  · injection h1' with h1'
    exact absurd h1' hne
  have e := h3 _ _ (hlines f text h1)
  have e' := h3' _ _ (hlines' f' text' h1')
  injection e with e
  injection e' with e'
  rw [shown_lines hl] at e
  rw [shown_lines hl', ← hsame] at e'
  have := lines_inj (showLines_newline (hnl f text h1) (reads_no_newline (hlines f text h1))) (showLines_newline (hnl' f' text' h1') (reads_no_newline (hlines' f' text' h1')))
    (e.symm.trans e')
  obtain ⟨k1, k2⟩ := showLines_inj this
  subst k1
  exact ⟨f, h2, h2', k2⟩

end Verif.Cmds
