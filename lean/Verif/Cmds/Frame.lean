import Verif.Cmds.FullName
/-
C165: adding or removing entries that have nothing in common with the name does not change what `show` prints.
-/
namespace Verif.Cmds
open Repo Repo.Spec Closest Spec
open Closest.Spec (frags holders score points Shares)

namespace Spec
open Closest.Spec (frags)

/-- The name `q` and the entry `k` (in lower case) have a fragment of two bytes in common. -/
def Related (other : Str → Str) (q k : Str) : Prop := ∃ x ∈ frags [2] q, x ∈ frags [2] (toLower other k)

/-- Two stores have the same entries among those that are related to the name: with the same texts. -/
def SameFor (other : Str → Str) (es es' : List (Str × Node)) (q : Str) : Prop := ∀ f, Related other q f → ∀ text, Entry es f text ↔ Entry es' f text

end Spec

theorem entriesWith_related {other : Str → Str} {ws ws' : List Str} (hn : ws.Nodup) (hn' : ws'.Nodup) {q x : Str} (hx : x ∈ frags [2] q)
    (h : ∀ f, Related other q f → (f ∈ ws ↔ f ∈ ws')) : entriesWith other ws x = entriesWith other ws' x := by
  unfold entriesWith
  refine (List.Perm.length_eq ((List.perm_ext_iff_of_nodup (hn.filter _) (hn'.filter _)).2 ?_))
  intro f
  simp only [List.mem_filter, decide_eq_true_eq]
  constructor
  · rintro ⟨h1, h2⟩
    exact ⟨(h f ⟨x, hx, h2⟩).1 h1, h2⟩
  · rintro ⟨h1, h2⟩
    exact ⟨(h f ⟨x, hx, h2⟩).2 h1, h2⟩

theorem value_related {other : Str → Str} {ws ws' : List Str} (hn : ws.Nodup) (hn' : ws'.Nodup) {q : Str} (h : ∀ f, Related other q f → (f ∈ ws ↔ f ∈ ws')) (k : Str) :
    value other ws q k = value other ws' q k := by
  unfold value
  apply Finset.sum_congr rfl
  intro x hx
  rw [entriesWith_related hn hn' (Finset.mem_inter.1 hx).1 h]

theorem sameFor_mem {other : Str → Str} {es es' : List (Str × Node)} {q : Str} (h : SameFor other es es' q) {ws ws' : List Str} (hw : AllEntries es ws) (hw' : AllEntries es' ws') (f : Str)
    (hf : Related other q f) : f ∈ ws ↔ f ∈ ws' := by
  rw [hw.2, hw'.2]
  exact ⟨fun ⟨t, ht⟩ => ⟨t, (h f hf t).1 ht⟩, fun ⟨t, ht⟩ => ⟨t, (h f hf t).2 ht⟩⟩

theorem best_related {other : Str → Str} {es es' : List (Str × Node)} {q : Str} (h : SameFor other es es' q) {ws' : List Str} (hw' : AllEntries es' ws') {f : Str}
    (hb : BestMatch other es q f) : BestMatch other es' q f := by
  obtain ⟨ws, hw, ⟨h1, h2⟩, h3⟩ := hb
  have hm := sameFor_mem h hw hw'
  have h1' : f ∈ ws' := (hm f h2).1 h1
  refine ⟨ws', hw', ⟨h1', h2⟩, ?_⟩
  rintro k ⟨k1, k2⟩
  have k1' : k ∈ ws := (hm k k2).2 k1
  have := h3 k ⟨k1', k2⟩
  rw [score_value hw.1 k1', score_value hw.1 h1, value_related hw.1 hw'.1 hm, value_related hw.1 hw'.1 hm] at this
  rw [score_value hw'.1 k1, score_value hw'.1 h1']
  exact this

theorem sameFor_symm {other : Str → Str} {es es' : List (Str × Node)} {q : Str} (h : SameFor other es es' q) : SameFor other es' es q := fun f hf t => (h f hf t).symm

/-- **C165** Which entries are best matches, and whether there is one, depends only on the entries that are related to the name. -/
theorem C165_match (other : Str → Str) (es es' : List (Str × Node)) (ws ws' : List Str) (hw : AllEntries es ws) (hw' : AllEntries es' ws') (q : Str) (h : SameFor other es es' q) :
    (∀ f, BestMatch other es q f ↔ BestMatch other es' q f) ∧ (NoMatch other es q ↔ NoMatch other es' q) := by
  have key : ∀ {es es' : List (Str × Node)} {ws ws' : List Str}, AllEntries es ws → AllEntries es' ws' → SameFor other es es' q → NoMatch other es q → NoMatch other es' q := by
    rintro es es' ws ws' hw hw' h ⟨us, h1, h2⟩
    refine ⟨ws', hw', ?_⟩
    rintro k ⟨k1, k2⟩
    exact h2 k ⟨(sameFor_mem h h1 hw' k k2).2 k1, k2⟩
  exact ⟨fun f => ⟨best_related h hw', best_related (sameFor_symm h) hw⟩, key hw hw' h, key hw' hw (sameFor_symm h)⟩

theorem store_all {w : World} {root : Str} {es : List (Str × Node)} (hs : IsStore w root es) : ∃ ws, AllEntries es ws := by
  obtain ⟨files, -, h1, -, ws, h2⟩ := store_scan hs
  exact ⟨ws, h1 ws h2⟩

/-- **C165** `show` on a store that has the same entries among those related to the name prints what it may print on the first store: a best match of the first store, with the text it has there,
or nothing if there is none. -/
theorem C165_show (other expand : Str → Str) (w w' : World) (root root' : Str) (es es' : List (Str × Node)) (hs : IsStore w (expand root) es) (hs' : IsStore w' (expand root') es') (a : ShowArgs)
    (hp : a.passName ≠ []) (hq : a.qrCode = false) (h : SameFor other es es' a.passName) (res : Res) (hres : Show other expand w' root' a res) :
    (res = .ok [] none ∧ NoMatch other es a.passName) ∨
    ∃ f text, Entry es f text ∧ BestMatch other es a.passName f ∧ ∀ ts b, Reads text ts b → res = .ok (shown a f ts b) none := by
  obtain ⟨ws, hw⟩ := store_all hs
  obtain ⟨ws', hw'⟩ := store_all hs'
  obtain ⟨hb, hn⟩ := C165_match other es es' ws ws' hw hw' a.passName h
  rcases C50_show other expand w' root' es' hs' a hp hq res hres with ⟨h1, h2⟩ | ⟨f, text, h1, h2, h3⟩
  · exact Or.inl ⟨h1, hn.2 h2⟩
  · have h4 := (hb f).2 h2
    refine Or.inr ⟨f, text, (h f ?_ text).2 h1, h4, h3⟩
    obtain ⟨us, -, ⟨-, h5⟩, -⟩ := h4
    exact h5

/-- **C165** If the first store has only one best match, or none, `show` prints the same on both. -/
theorem C165_show_same (other expand : Str → Str) (w w' : World) (root root' : Str) (es es' : List (Str × Node)) (hs : IsStore w (expand root) es) (hs' : IsStore w' (expand root') es') (a : ShowArgs)
    (hp : a.passName ≠ []) (hq : a.qrCode = false) (h : SameFor other es es' a.passName) (hone : ∀ f g, BestMatch other es a.passName f → BestMatch other es a.passName g → f = g)
    (res res' : Res) (hres : Show other expand w root a res) (hres' : Show other expand w' root' a res') : res = res' := by
  have key : NoMatch other es a.passName → ∀ f, ¬ BestMatch other es a.passName f := by
    rintro ⟨us, h1, h2⟩ f ⟨vs, h3, ⟨h4, h5⟩, -⟩
    exact h2 f ⟨(h1.2 f).2 ((h3.2 f).1 h4), h5⟩
  rcases C50_show other expand w root es hs a hp hq res hres with ⟨h1, h2⟩ | ⟨f, text, h1, h2, h3⟩
  · rcases C165_show other expand w w' root root' es es' hs hs' a hp hq h res' hres' with ⟨k1, k2⟩ | ⟨g, text', k1, k2, k3⟩
    · rw [h1, k1]
    · exact absurd k2 (key h2 g)
  · rcases C165_show other expand w w' root root' es es' hs hs' a hp hq h res' hres' with ⟨k1, k2⟩ | ⟨g, text', k1, k2, k3⟩
    · exact absurd h2 (key k2 f)
    · have e := hone f g h2 k2
      subst e
      have e := entry_unique hs h1 k1
      subst e
      obtain ⟨ts, b, hr⟩ := reads_exists text
      rw [h3 ts b hr, k3 ts b hr]

/-- **C165** `search` on a store that has the same entries among those related to the text prints what it may print on the first store: the first `fuzzy` of its related entries, ordered by
their values there. -/
theorem C165_search (other expand : Str → Str) (w w' : World) (root root' : Str) (es es' : List (Str × Node)) (hs : IsStore w (expand root) es) (hs' : IsStore w' (expand root') es') (fuzzy : Int)
    (hf : 0 ≤ fuzzy ∧ fuzzy ≤ 2 ^ 44) (q : Str) (hne : q ≠ []) (content : Str) (h : SameFor other es es' q) (lines : Str → List Str) (binary : Str → Bool) (hlines : ReadsAll es lines binary)
    (res : Res) (hres : Search other expand w' root' fuzzy q content res) (ws : List Str) (hw : AllEntries es ws) :
    ∃ all : List Str, all.Nodup ∧ (∀ f, f ∈ all ↔ f ∈ ws ∧ Related other q f) ∧ all.Pairwise (fun a b => value other ws q b ≤ value other ws q a) ∧
      res = .ok ((all.take fuzzy.toNat).flatMap fun f =>
        if content = [] then f ++ lit "\n" else matchLines f ((numbered (lines f)).filter fun m => containsStr content m.2)) none := by
  classical
  obtain ⟨lines', binary', hl'⟩ := readsAll_exists hs'
  have hl : ReadsAll es' (fun f => if Related other q f then lines f else lines' f) (fun f => if Related other q f then binary f else binary' f) := by
    intro f text hx
    dsimp only
    split
    · rename_i hr
      exact hlines f text ((h f hr text).2 hx)
    · exact hl' f text hx
  obtain ⟨ws', all, h1, h2, h3, h4, h5⟩ := (C79_search other expand w' root' es' hs' fuzzy q hne content _ _ hl res hres).2 hf
  have hm := sameFor_mem h hw h1
  have hall : ∀ f, f ∈ all ↔ f ∈ ws ∧ Related other q f := by
    intro f
    rw [h3]
    exact ⟨fun ⟨a, b⟩ => ⟨(hm f b).2 a, b⟩, fun ⟨a, b⟩ => ⟨(hm f b).1 a, b⟩⟩
  refine ⟨all, h2, hall, ?_, ?_⟩
  · refine h4.imp_of_mem ?_
    intro a b ha hb hab
    rw [score_value h1.1 ((h3 _).1 ha).1, score_value h1.1 ((h3 _).1 hb).1, ← value_related hw.1 h1.1 hm, ← value_related hw.1 h1.1 hm] at hab
    exact hab
  · rw [h5]
    congr 1
    apply List.flatMap_congr
    intro f hx
    rw [if_pos ((hall f).1 (List.mem_of_mem_take hx)).2]

/-- A store with entries in one category. -/
def sitesStore (l : List (Str × Str)) : List (Str × Node) := [(lit "sites", .dir (l.map fun p => (p.1, .file p.2)))]

theorem entry_files {l : List (Str × Str)} (hn : (l.map Prod.fst).Nodup) (n : Str) (nd : Node) : entry (l.map fun p => (p.1, Node.file p.2)) n = some nd ↔ ∃ c, (n, c) ∈ l ∧ nd = .file c := by
  induction l with
  | nil => simp [entry]
  | cons p l ih =>
    rw [List.map_cons, List.nodup_cons] at hn
    simp only [List.map_cons, entry, List.mem_cons]
    split
    · rename_i e
      subst e
      constructor
      · intro e
        injection e with e
        exact ⟨p.2, Or.inl rfl, e.symm⟩
      · rintro ⟨c, h | h, rfl⟩
        · rw [← h]
        · exact absurd (List.mem_map.2 ⟨_, h, rfl⟩) hn.1
    · rename_i e
      rw [ih hn.2]
      constructor
      · rintro ⟨c, h, rfl⟩
        exact ⟨c, Or.inr h, rfl⟩
      · rintro ⟨c, h | h, rfl⟩
        · exact absurd (by rw [← h]) e
        · exact ⟨c, h, rfl⟩

theorem sitesStore_entry {l : List (Str × Str)} (hn : (l.map Prod.fst).Nodup) (hd : ∀ p ∈ l, p.1 ≠ lit ".DS_Store") (f text : Str) :
    Entry (sitesStore l) f text ↔ ∃ n, (n, text) ∈ l ∧ f = lit "sites/" ++ n := by
  have e : lit "sites/" = lit "sites" ++ lit "/" := by decide
  rw [e]
  constructor
  · rintro ⟨d, hd', m, h1, h2, rfl⟩
    simp only [lookupAt, sitesStore, entry] at h1
    split at h1
    · cases h1
    · rename_i nd e1
      split at e1
      · rename_i e2
        injection e1 with e1
        subst e1 e2
        simp only [lookupAt] at h1
        split at h1
        · cases h1
        · rename_i nd e3
          injection h1 with h1
          subst h1
          obtain ⟨c, h3, h4⟩ := (entry_files hn _ _).1 e3
          injection h4 with h4
          subst h4
          exact ⟨m, h3, rfl⟩
      · cases e1
  · rintro ⟨n, h1, rfl⟩
    refine ⟨lit "sites", by decide, n, ?_, hd _ h1, rfl⟩
    simp only [lookupAt, sitesStore, entry, if_pos]
    rw [(entry_files hn n (.file text)).2 ⟨text, h1, rfl⟩]

theorem sitesStore_all {l : List (Str × Str)} (hn : (l.map Prod.fst).Nodup) (hd : ∀ p ∈ l, p.1 ≠ lit ".DS_Store") : AllEntries (sitesStore l) (l.map fun p => lit "sites/" ++ p.1) := by
  refine ⟨?_, ?_⟩
  · have e : (l.map fun p => lit "sites/" ++ p.1) = (l.map Prod.fst).map fun n => lit "sites/" ++ n := by rw [List.map_map]; rfl
    rw [e]
    exact hn.map (fun a b h => List.append_cancel_left h)
  · intro f
    simp only [sitesStore_entry hn hd, List.mem_map]
    constructor
    · rintro ⟨p, h1, rfl⟩
      exact ⟨p.2, p.1, h1, rfl⟩
    · rintro ⟨text, n, h1, rfl⟩
      exact ⟨(n, text), h1, rfl⟩

/-- **C165** does not hold for entries that are related to the name, even if they are not printed: with the entries `sites/xab` and `sites/xcd1`, `show abcd` prints `sites/xab`; if
`sites/xxab` is added, it prints `sites/xcd1`. -/
theorem C165_related_false (other : Str → Str) (c c' c'' : Str) :
    OnlyMatch other (sitesStore [(lit "xab", c), (lit "xcd1", c')]) (lit "abcd") (lit "sites/xab") ∧
    OnlyMatch other (sitesStore [(lit "xab", c), (lit "xcd1", c'), (lit "xxab", c'')]) (lit "abcd") (lit "sites/xcd1") := by
  have t1 : toLower other (lit "sites/xab") = lit "sites/xab" := by unfold toLower; rw [if_pos (by decide)]; decide
  have t2 : toLower other (lit "sites/xcd1") = lit "sites/xcd1" := by unfold toLower; rw [if_pos (by decide)]; decide
  have t3 : toLower other (lit "sites/xxab") = lit "sites/xxab" := by unfold toLower; rw [if_pos (by decide)]; decide
  have e1 : lit "sites/" ++ lit "xab" = lit "sites/xab" := by decide
  have e2 : lit "sites/" ++ lit "xcd1" = lit "sites/xcd1" := by decide
  have e3 : lit "sites/" ++ lit "xxab" = lit "sites/xxab" := by decide
  constructor
  · have hall : AllEntries (sitesStore [(lit "xab", c), (lit "xcd1", c')]) [lit "sites/xab", lit "sites/xcd1"] := by
      rw [← e1, ← e2]
      exact sitesStore_all (l := [(lit "xab", c), (lit "xcd1", c')]) (by simp only [List.map]; decide) (by simp only [List.forall_mem_cons]; exact ⟨by decide, by decide, nofun⟩)
    rw [C164_only other _ _ hall, t1]
    refine ⟨⟨by decide, lit "ab", by decide, by decide⟩, ?_⟩
    have v1 : value other [lit "sites/xab", lit "sites/xcd1"] (lit "abcd") (lit "sites/xab") = 1112 := by
      unfold value entriesWith
      simp only [List.filter, t1, t2]
      decide
    have v2 : value other [lit "sites/xab", lit "sites/xcd1"] (lit "abcd") (lit "sites/xcd1") = 1101 := by
      unfold value entriesWith
      simp only [List.filter, t1, t2]
      decide
    rw [v1]
    intro g hg hne
    rcases List.mem_cons.1 hg with rfl | hg
    · exact absurd rfl hne
    · rw [List.mem_singleton.1 hg, v2]
      decide
  · have hall : AllEntries (sitesStore [(lit "xab", c), (lit "xcd1", c'), (lit "xxab", c'')]) [lit "sites/xab", lit "sites/xcd1", lit "sites/xxab"] := by
      rw [← e1, ← e2, ← e3]
      exact sitesStore_all (l := [(lit "xab", c), (lit "xcd1", c'), (lit "xxab", c'')]) (by simp only [List.map]; decide)
        (by simp only [List.forall_mem_cons]; exact ⟨by decide, by decide, by decide, nofun⟩)
    rw [C164_only other _ _ hall, t2]
    refine ⟨⟨by decide, lit "cd", by decide, by decide⟩, ?_⟩
    have v1 : value other [lit "sites/xab", lit "sites/xcd1", lit "sites/xxab"] (lit "abcd") (lit "sites/xab") = 612 := by
      unfold value entriesWith
      simp only [List.filter, t1, t2, t3]
      decide
    have v2 : value other [lit "sites/xab", lit "sites/xcd1", lit "sites/xxab"] (lit "abcd") (lit "sites/xcd1") = 1101 := by
      unfold value entriesWith
      simp only [List.filter, t1, t2, t3]
      decide
    have v3 : value other [lit "sites/xab", lit "sites/xcd1", lit "sites/xxab"] (lit "abcd") (lit "sites/xxab") = 601 := by
      unfold value entriesWith
      simp only [List.filter, t1, t2, t3]
      decide
    rw [v2]
    intro g hg hne
    rcases List.mem_cons.1 hg with rfl | hg
    · rw [v1]; decide
    rcases List.mem_cons.1 hg with rfl | hg
    · exact absurd rfl hne
    · rw [List.mem_singleton.1 hg, v3]
      decide

theorem not_related {other : Str → Str} {q k k' : Str} (e : toLower other k = k') (h : Disjoint (frags [2] q) (frags [2] k')) : ¬ Related other q k := by
  rintro ⟨x, k1, k2⟩
  rw [e] at k2
  exact Finset.disjoint_left.1 h k1 k2

theorem bank_not_related (other : Str → Str) : ¬ Related other (lit "a.c") (lit "sites/bank.org") :=
  not_related (k' := lit "sites/bank.org") (by unfold toLower; rw [if_pos (by decide)]; decide) (by decide)

/-- The hypotheses are met: `sites/bank.org` is not related to `a.c`. -/
example (other : Str → Str) (c c' : Str) : SameFor other (sitesStore [(lit "a.com", c)]) (sitesStore [(lit "a.com", c), (lit "bank.org", c')]) (lit "a.c") := by
  have e1 : lit "sites/" ++ lit "bank.org" = lit "sites/bank.org" := by decide
  have hb := bank_not_related other
  rw [← e1] at hb
  have n1 : ([(lit "a.com", c)].map Prod.fst).Nodup := by simp
  have n2 : ([(lit "a.com", c), (lit "bank.org", c')].map Prod.fst).Nodup := by simp only [List.map]; decide
  have d1 : lit "a.com" ≠ lit ".DS_Store" := by decide
  have d2 : lit "bank.org" ≠ lit ".DS_Store" := by decide
  intro f hf text
  rw [sitesStore_entry n1 (by simp only [List.forall_mem_cons]; exact ⟨d1, nofun⟩), sitesStore_entry n2 (by simp only [List.forall_mem_cons]; exact ⟨d1, d2, nofun⟩)]
  generalize lit "sites/" = p at *
  generalize lit "bank.org" = x at *
  generalize lit "a.com" = y at *
  simp only [List.mem_cons, List.not_mem_nil, or_false, Prod.mk.injEq]
  constructor
  · rintro ⟨n, h1, h2⟩
    exact ⟨n, Or.inl h1, h2⟩
  · rintro ⟨n, h1 | h1, h2⟩
    · exact ⟨n, h1, h2⟩
    · rw [h2, h1.1] at hf
      exact absurd hf hb

end Verif.Cmds
