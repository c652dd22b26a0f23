import Verif.Cmds.PrintsAll
/-
C167: the possible values of a variable after `set-env`.
-/
namespace Verif.Cmds
open Repo Repo.Spec Closest Spec

/-- What the entries of a category export for the variable `k` last (values with NUL bytes cannot be set). -/
def Spec.lastExport (otherUp : Str → Str) (lines : Str → List Str) (names : List Str) (k : Str) : Option Str :=
  (((names.flatMap fun f => exports otherUp (lines f)).filter fun kv => decide (kv.1 = k ∧ (0 : UInt8) ∉ kv.2)).getLast?).map Prod.snd

theorem getLast_flatMap {α β : Type} {g : α → List β} : ∀ {l : List α} {x : β}, (l.flatMap g).getLast? = some x → ∃ d ∈ l, (g d).getLast? = some x
  | [], x, h => by cases h
  | d :: l, x, h => by
    rw [List.flatMap_cons, List.getLast?_append] at h
    cases e : (l.flatMap g).getLast? with
    | none =>
      rw [e, Option.none_or] at h
      exact ⟨d, by simp, h⟩
    | some y =>
      rw [e, Option.some_or] at h
      obtain ⟨d', h1, h2⟩ := getLast_flatMap (e.trans h)
      exact ⟨d', List.mem_cons_of_mem _ h1, h2⟩

/-- **C167** The possible values of a variable after `set-env` without a name, if no entry is binary: exactly the last exports of the categories that export it; its old value if there are none. So its
value is determined exactly if the last exports of all categories that export it agree. -/
theorem C167_values (otherUp expand : Str → Str) (w : World) (root : Str) (es : List (Str × Node)) (hs : IsStore w (expand root) es) (names : Str → List Str) (hn : ByCategory es names)
    (lines : Str → List Str) (binary : Str → Bool) (hlines : ReadsAll es lines binary) (hb : ∀ f text, Entry es f text → binary f = false) (env : Env) (k : Str)
    (hk : ¬ (k = [] ∨ 61 ∈ k ∨ 0 ∈ k)) (v : Option Str) :
    (∃ calls failed, SetEnv otherUp expand w root [] (some (calls, failed)) ∧ calls.foldl setenv env k = v) ↔
      (∃ d x, lastExport otherUp lines (names d) k = some x ∧ v = some x) ∨ ((∀ d, lastExport otherUp lines (names d) k = none) ∧ v = env k) := by
  have hcalls : ∀ cats : List Str, let sel := (cats.flatMap names).filter fun f => decide (([] : Str) = [] ∨ f = [])
      (sel.takeWhile fun f => !binary f).flatMap (fun f => exports otherUp (lines f)) = (cats.flatMap names).flatMap fun f => exports otherUp (lines f) := by
    intro cats sel
    have hbin : ∀ f ∈ cats.flatMap names, binary f = false := fun f hf => by
      obtain ⟨t, ht⟩ := byCategory_entry hn hf
      exact hb f t ht
    have e1 : sel = cats.flatMap names := List.filter_eq_self.2 (by simp)
    rw [e1, List.takeWhile_eq_self_iff.2 (fun f hf => by rw [hbin f hf]; rfl)]
  have hlast : ∀ cats : List Str, (((cats.flatMap names).flatMap fun f => exports otherUp (lines f)).filter fun kv => decide (kv.1 = k ∧ (0 : UInt8) ∉ kv.2)) =
      cats.flatMap fun d => ((names d).flatMap fun f => exports otherUp (lines f)).filter fun kv => decide (kv.1 = k ∧ (0 : UInt8) ∉ kv.2) := by
    intro cats
    rw [List.flatMap_assoc, List.filter_flatMap]
  have hsome : ∀ d x, lastExport otherUp lines (names d) k = some x → d ∈ categories ∧ ∃ n, IsEntry (.dir es) d n := by
    intro d x h
    have hne : names d ≠ [] := by
      intro e
      rw [e] at h
      cases h
    obtain ⟨f, hf⟩ := List.exists_mem_of_ne_nil _ hne
    obtain ⟨k1, n, k2, -⟩ := (hn.2 d f).1 hf
    exact ⟨k1, n, k2⟩
  have hnone : (∀ d, lastExport otherUp lines (names d) k = none) → ∀ cats : List Str,
      (cats.flatMap fun d => ((names d).flatMap fun f => exports otherUp (lines f)).filter fun kv => decide (kv.1 = k ∧ (0 : UInt8) ∉ kv.2)) = [] := by
    intro h cats
    rw [List.flatMap_eq_nil_iff]
    intro d _
    have := h d
    unfold lastExport at this
    rw [Option.map_eq_none_iff, List.getLast?_eq_none_iff] at this
    exact this
  obtain ⟨files, e, hw⟩ := words_iff hs hn
  have hord : ∃ cats, CategoryOrder es cats := by
    refine ⟨categories.filter fun d => decide (names d ≠ []), ?_, ?_⟩
    · exact (by decide : categories.Nodup).filter _
    · intro d
      rw [List.mem_filter, decide_eq_true_eq]
      refine and_congr_right fun hd => ?_
      constructor
      · intro h
        obtain ⟨f, hf⟩ := List.exists_mem_of_ne_nil _ h
        obtain ⟨-, n, k2, -⟩ := (hn.2 d f).1 hf
        exact ⟨n, k2⟩
      · rintro ⟨n, k2⟩
        exact List.ne_nil_of_mem ((hn.2 d _).2 ⟨hd, n, k2, rfl⟩)
  obtain ⟨cats0, h01, h02⟩ := hord
  constructor
  · rintro ⟨calls, failed, h, rfl⟩
    obtain ⟨cats, hc, h3⟩ := (C167_setenv otherUp expand w root es hs names hn [] lines binary hlines _).1 h
    have h3 := (Prod.mk.inj (Option.some.inj h3)).1
    rw [hcalls] at h3
    rw [setenv_each, if_neg hk, h3, hlast]
    cases el : (cats.flatMap fun d => ((names d).flatMap fun f => exports otherUp (lines f)).filter fun kv => decide (kv.1 = k ∧ (0 : UInt8) ∉ kv.2)).getLast? with
    | none =>
      by_cases hex : ∀ d, lastExport otherUp lines (names d) k = none
      · exact Or.inr ⟨hex, by simp⟩
      · exfalso
        obtain ⟨d, hd⟩ := not_forall.1 hex
        obtain ⟨x, hx⟩ := Option.ne_none_iff_exists'.1 hd
        rw [List.getLast?_eq_none_iff, List.flatMap_eq_nil_iff] at el
        have := el d ((hc.2 d).2 (hsome d x hx))
        unfold lastExport at hd
        rw [this] at hd
        exact hd rfl
    | some kv =>
      obtain ⟨d, -, hd⟩ := getLast_flatMap el
      refine Or.inl ⟨d, kv.2, ?_, rfl⟩
      unfold lastExport
      rw [hd]
      rfl
  · rintro (⟨d, x, h1, rfl⟩ | ⟨h1, rfl⟩)
    · have hd : d ∈ cats0 := (h02 d).2 (hsome d x h1)
      have ho : CategoryOrder es (cats0.erase d ++ [d]) := by
        have hp : (cats0.erase d ++ [d]).Perm cats0 := (List.perm_append_singleton _ _).trans (List.perm_cons_erase hd).symm
        exact ⟨hp.nodup_iff.2 h01, fun d' => hp.mem_iff.trans (h02 d')⟩
      refine ⟨_, _, (C167_setenv otherUp expand w root es hs names hn [] lines binary hlines _).2 ⟨_, ho, rfl⟩, ?_⟩
      rw [hcalls, setenv_each, if_neg hk, hlast, List.flatMap_append, List.getLast?_append]
      unfold lastExport at h1
      rw [Option.map_eq_some_iff] at h1
      obtain ⟨kv, h2, rfl⟩ := h1
      rw [List.flatMap_cons, List.flatMap_nil, List.append_nil, h2]
      rfl
    · refine ⟨_, _, (C167_setenv otherUp expand w root es hs names hn [] lines binary hlines _).2 ⟨cats0, ⟨h01, h02⟩, rfl⟩, ?_⟩
      rw [hcalls, setenv_each, if_neg hk, hlast, hnone h1]
      rfl

/-- A category where a variable is exported twice. -/
example (otherUp : Str → Str) : lastExport otherUp (fun f => if f = lit "sites/a" then [lit "p1", lit "env: 1"] else [lit "p2", lit "env: 1"]) [lit "sites/a", lit "sites/b"] (lit "1") = some (lit "p2") := by
  have e1 : toUpper otherUp (lit "1") = lit "1" := by unfold toUpper; rw [if_pos (by decide)]; decide
  have e2 : trimSpace ((lit "env: 1").drop 4) = lit "1" := by decide
  have e3 : (lit "env:").isPrefixOf (lit "env: 1") = true := by decide
  have e4 : lit "sites/b" ≠ lit "sites/a" := by decide
  have e5 : (0 : UInt8) ∉ lit "p1" ∧ (0 : UInt8) ∉ lit "p2" := by decide
  simp [lastExport, exports, e1, e2, e3, e4, e5]

end Verif.Cmds
