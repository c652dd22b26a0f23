import Verif.Cmds.Tie
import Verif.Closest.JsonProps
/-
C166 for `search` and `list`: exactly what they can print.
-/
namespace Verif.Cmds
open Repo Repo.Spec Closest Spec
open Closest.Spec (frags holders score points Shares)

theorem closestN_any {other : Str → Str} {ws : List Str} {cm : CM} (hcm : new other ws [2] = some cm) (hw : [] ∉ ws) {q : Str} {n : Int} (hn : 0 ≤ n ∧ n ≤ 2 ^ 44) {all : List Str} (h1 : all.Nodup)
    (h2 : ∀ k, k ∈ all ↔ Shares other [2] ws q k) (h3 : all.Pairwise fun a b => score other [2] ws q b ≤ score other [2] ws q a) : ClosestN cm q n (all.take n.toNat) := by
  have hm := match_exists other ws [2] cm hcm hw q
  have hval : ∀ k v, specScores other [2] ws q k = some v ↔ Shares other [2] ws q k ∧ score other [2] ws q k = v := by
    intro k v; unfold specScores; split <;> simp [*]
  have e : (all.map fun k => (k, score other [2] ws q k)).map Prod.fst = all := by rw [List.map_map]; simp [Function.comp_def]
  refine ⟨hn, _, all.map fun k => (k, score other [2] ws q k), hm, ⟨by rw [e]; exact h1, ?_, ?_⟩, ?_⟩
  · intro k v
    rw [hval, List.mem_map]
    constructor
    · rintro ⟨k', h, e⟩
      obtain ⟨rfl, rfl⟩ := Prod.mk.inj e
      exact ⟨(h2 _).1 h, rfl⟩
    · rintro ⟨h, rfl⟩
      exact ⟨k, (h2 _).2 h, rfl⟩
  · rw [List.pairwise_map]
    exact h3
  · rw [takeLoop_eq, e]
    simp

/-- **C166** What `search` can print (for a number of results it accepts): the first `fuzzy` entries of any list of the related entries in which the values do not rise, or the matching lines of
these entries; and nothing else. -/
theorem C166_search (other expand : Str → Str) (w : World) (root : Str) (es : List (Str × Node)) (hs : IsStore w (expand root) es) (fuzzy : Int)
    (hf : 0 ≤ fuzzy ∧ fuzzy ≤ 2 ^ 44) (q : Str) (hne : q ≠ []) (content : Str) (lines : Str → List Str) (binary : Str → Bool) (hlines : ReadsAll es lines binary) (ws : List Str)
    (hw : AllEntries es ws) (res : Res) :
    Search other expand w root fuzzy q content res ↔
    ∃ all : List Str, all.Nodup ∧ (∀ f, f ∈ all ↔ f ∈ ws ∧ Related other q f) ∧ all.Pairwise (fun a b => value other ws q b ≤ value other ws q a) ∧
      res = .ok ((all.take fuzzy.toNat).flatMap fun f =>
        if content = [] then f ++ lit "\n" else matchLines f ((numbered (lines f)).filter fun m => containsStr content m.2)) none := by
  constructor
  · intro h
    exact C165_search other expand w w root root es es hs hs fuzzy hf q hne content (fun _ _ _ => Iff.rfl) lines binary hlines res h ws hw
  · rintro ⟨all, h1, h2, h3, rfl⟩
    obtain ⟨files, e, hwd, -, us, hus⟩ := store_scan hs
    have ha := hwd us hus
    obtain ⟨cm, hcm, -⟩ := C41_no_crash_partial other us [2] (words_nil ha) q
    have hcm : new other us [2] = some cm := hcm
    have hm : ∀ f, f ∈ ws ↔ f ∈ us := fun f => by rw [hw.2, ha.2]
    unfold Search
    rw [e]
    simp only
    rw [if_pos hne]
    refine ⟨us, cm, hus, hcm, Or.inr ⟨all.take fuzzy.toNat, closestN_any hcm (words_nil ha) hf h1 ?_ ?_, ?_⟩⟩
    · intro k
      rw [h2, hm]
      exact Iff.rfl
    · refine h3.imp_of_mem ?_
      intro a b hxa hxb hab
      have m1 := (hm a).1 ((h2 a).1 hxa).1
      have m2 := (hm b).1 ((h2 b).1 hxb).1
      have hv := value_related (other := other) hw.1 ha.1 (q := q) (fun f _ => hm f)
      rw [score_value ha.1 m1, score_value ha.1 m2, ← hv, ← hv]
      exact hab
    · congr 1
      apply List.flatMap_congr
      intro f hx
      obtain ⟨text, ht⟩ := (hw.2 f).1 ((h2 f).1 (List.mem_of_mem_take hx)).1
      by_cases hc : content = []
      · rw [if_pos hc, if_neg (by rw [hc]; simp)]
      · rw [if_neg hc, if_pos (List.length_pos_iff.2 hc), search_any hs ht (hlines f text ht), printMatches_eq]

/-- **C166** What `list` can print: the categories that have entries, in any order, and for each of them all its entries in the order of their names; and nothing else. -/
theorem C166_list (other expand : Str → Str) (w : World) (root : Str) (es : List (Str × Node)) (hs : IsStore w (expand root) es) (names : Str → List Str)
    (hsort : ∀ d, (names d).Pairwise fun a b => strLt a b = true) (hmem : ∀ d f, f ∈ names d ↔ d ∈ categories ∧ ∃ n, IsEntry (.dir es) d n ∧ f = d ++ lit "/" ++ n) (res : Res) :
    List' other expand w root [] res ↔ ∃ cats : List Str, cats.Nodup ∧ (∀ d, d ∈ cats ↔ d ∈ categories ∧ ∃ n, IsEntry (.dir es) d n) ∧
      res = .ok ((cats.flatMap names).flatMap fun f => f ++ lit "\n") none := by
  obtain ⟨files, e, h1, h2⟩ := C43_scan_lists_entries w (expand root) es hs.clean hs.here hs.wf hs.notGit
  have hfn : files = names := by
    funext d
    exact Closest.Json.sorted_unique (R := fun a b : Str => strLt a b = true) (fun a h => strLt_ne h rfl) (fun _ _ _ => strLt_trans) (h2 d) (hsort d) (fun f => by rw [h1, hmem]; exact Iff.rfl)
  subst hfn
  unfold List'
  rw [e]
  simp only [if_true]
  unfold Words GroupOrder
  have hne : ∀ d, files d ≠ [] ↔ d ∈ categories ∧ ∃ n, IsEntry (.dir es) d n := by
    intro d
    constructor
    · intro h
      obtain ⟨f, hf⟩ := List.exists_mem_of_ne_nil _ h
      obtain ⟨k1, n, k2, -⟩ := (hmem d f).1 hf
      exact ⟨k1, n, k2⟩
    · rintro ⟨k1, n, k2⟩
      exact List.ne_nil_of_mem ((hmem d _).2 ⟨k1, n, k2, rfl⟩)
  constructor
  · rintro ⟨ws, ⟨order, ⟨k1, k2⟩, rfl⟩, rfl⟩
    exact ⟨order, k1, fun d => (k2 d).trans (hne d), rfl⟩
  · rintro ⟨cats, k1, k2, rfl⟩
    exact ⟨_, ⟨cats, ⟨k1, fun d => (k2 d).trans (hne d).symm⟩, rfl⟩, rfl⟩

/-- Every store has such lists of names, for example this one. -/
theorem names_exist {w : World} {root : Str} {es : List (Str × Node)} (hs : IsStore w root es) : ∃ names : Str → List Str,
    (∀ d, (names d).Pairwise fun a b => strLt a b = true) ∧ ∀ d f, f ∈ names d ↔ d ∈ categories ∧ ∃ n, IsEntry (.dir es) d n ∧ f = d ++ lit "/" ++ n := by
  obtain ⟨files, -, h1, h2⟩ := C43_scan_lists_entries w root es hs.clean hs.here hs.wf hs.notGit
  exact ⟨files, h2, h1⟩

example : ∃ names : Str → List Str, (∀ d, (names d).Pairwise fun a b => strLt a b = true) ∧
    (∀ d f, f ∈ names d ↔ d ∈ categories ∧ ∃ n, IsEntry (.dir exampleStore) d n ∧ f = d ++ lit "/" ++ n) ∧ lit "sites/a.com" ∈ names (lit "sites") := by
  obtain ⟨names, h1, h2⟩ := names_exist exampleStore_isStore
  exact ⟨names, h1, h2, (h2 _ _).2 ⟨by decide, lit "a.com", ⟨⟨_, rfl⟩, by decide⟩, by decide⟩⟩

end Verif.Cmds
