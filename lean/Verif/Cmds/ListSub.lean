import Verif.Cmds.EnvVal
/-
C166 for `list` with a category.
-/
namespace Verif.Cmds
open Repo Repo.Spec Closest Spec
open Closest.Spec (frags holders score points Shares)

/-- **C166** What `list` with a text can print: for each category with entries that has a fragment in common with the text and no smaller value than any other, all its entries in the order of their
names; nothing, if no category has a fragment in common with it; and nothing else. The value is that of C164, among the categories that have entries. -/
theorem C166_list_category (other expand : Str → Str) (w : World) (root : Str) (es : List (Str × Node)) (hs : IsStore w (expand root) es) (names : Str → List Str) (hn : ByCategory es names)
    (cats : List Str) (hc : CategoryOrder es cats) (sub : Str) (hsub : sub ≠ []) (res : Res) :
    List' other expand w root sub res ↔ (res = .ok [] none ∧ ∀ d ∈ cats, ¬ Related other sub d) ∨
      ∃ d ∈ cats, Related other sub d ∧ (∀ k ∈ cats, value other cats sub k ≤ value other cats sub d) ∧ res = .ok ((names d).flatMap fun f => f ++ lit "\n") none := by
  obtain ⟨files, e, h1, h2⟩ := C43_scan_lists_entries w (expand root) es hs.clean hs.here hs.wf hs.notGit
  have hfn : files = names := by
    funext d
    exact Closest.Json.sorted_unique (R := fun a b : Str => strLt a b = true) (fun a h => strLt_ne h rfl) (fun _ _ _ => strLt_trans) (h2 d) (hn.1 d)
      (fun f => by rw [h1, hn.2]; exact Iff.rfl)
  subst hfn
  have hne : ∀ d, files d ≠ [] ↔ d ∈ categories ∧ ∃ n, IsEntry (.dir es) d n := by
    intro d
    constructor
    · intro h
      obtain ⟨f, hf⟩ := List.exists_mem_of_ne_nil _ h
      obtain ⟨k1, n, k2, -⟩ := (hn.2 d f).1 hf
      exact ⟨k1, n, k2⟩
    · rintro ⟨k1, n, k2⟩
      exact List.ne_nil_of_mem ((hn.2 d _).2 ⟨k1, n, k2, rfl⟩)
  have hnil : ∀ order, GroupOrder files order → [] ∉ order := by
    intro order ho h
    have := ((hne _).1 ((ho.2 _).1 h)).1
    exact absurd this (by decide)
  have hgo : GroupOrder files cats := ⟨hc.1, fun d => (hc.2 d).trans (hne d).symm⟩
  have hzero : ∀ k, ¬ Related other sub k → value other cats sub k = 0 := by
    intro k h
    unfold value
    rw [Finset.eq_empty_of_forall_notMem (s := frags [2] sub ∩ frags [2] (toLower other k)) (fun x hx => h ⟨x, (Finset.mem_inter.1 hx).1, (Finset.mem_inter.1 hx).2⟩), Finset.sum_empty]
  unfold List'
  rw [e]
  simp only
  rw [if_neg hsub]
  constructor
  · rintro ⟨order, cm, ho, hcm, h⟩
    obtain ⟨cm', e', hnp, -⟩ := C41_no_crash_partial other order [2] (hnil order ho) sub
    have e2 : some cm = some cm' := hcm.symm.trans e'
    injection e2 with e2
    subst e2
    have hm : ∀ d, d ∈ order ↔ d ∈ cats := fun d => by rw [ho.2, hgo.2]
    rcases h with ⟨h, -⟩ | ⟨out, h, rfl⟩
    · exact absurd h hnp
    · rcases C37_closest_is_best other order [2] cm e' sub out h with ⟨h3, h4⟩ | ⟨rfl, h4⟩
      · right
        refine ⟨out, (hm out).1 h3.1, h3.2, ?_, rfl⟩
        intro k hk
        by_cases hr : Related other sub k
        · have := h4 k ⟨(hm k).2 hk, hr⟩
          have hv := value_related (other := other) ho.1 hc.1 (q := sub) (fun f _ => hm f)
          rw [score_value ho.1 ((hm k).2 hk), score_value ho.1 h3.1, hv, hv] at this
          exact this
        · rw [hzero k hr]
          exact Nat.zero_le _
      · left
        have : files [] = [] := by
          by_contra hx
          exact absurd ((hne []).1 hx).1 (by decide)
        rw [this]
        exact ⟨rfl, fun d hd hr => h4 d ⟨(hm d).2 hd, hr⟩⟩
  · obtain ⟨cm, hcm, -⟩ := C41_no_crash_partial other cats [2] (hnil cats hgo) sub
    have hcm : new other cats [2] = some cm := hcm
    rintro (⟨rfl, h⟩ | ⟨d, h3, h4, h5, rfl⟩)
    · refine ⟨cats, cm, hgo, hcm, Or.inr ⟨[], closest_none hcm (hnil cats hgo) (fun k hk => h k hk.1 hk.2), ?_⟩⟩
      have : files [] = [] := by
        by_contra hx
        exact absurd ((hne []).1 hx).1 (by decide)
      rw [this]
      rfl
    · refine ⟨cats, cm, hgo, hcm, Or.inr ⟨d, closest_any hcm (hnil cats hgo) ⟨h3, h4⟩ ?_, rfl⟩⟩
      intro k hk
      rw [score_value hc.1 hk.1, score_value hc.1 h3]
      exact h5 k hk.1

/-- With entries in two categories, `list site` prints those of `sites`. -/
example : Related id (lit "site") (lit "sites") ∧ ¬ Related id (lit "site") (lit "email") ∧
    value id [lit "email", lit "sites"] (lit "site") (lit "email") < value id [lit "email", lit "sites"] (lit "site") (lit "sites") := by
  refine ⟨⟨lit "si", by decide, by decide⟩, not_related (k' := lit "email") (by decide) (by decide), by decide +kernel⟩

end Verif.Cmds
