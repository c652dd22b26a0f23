import Verif.Repo.ChangingProps
import Verif.Repo.RootProps
/-
C123 and C143 for every way to write the root.
-/
namespace Verif.Repo
open Spec

namespace Spec

/-- The names lead from a directory with the given entries to a file or link, and none of the directories on the way is called `.git`. -/
def ReachedX (es : List (Str × XNode)) (ps : List Str) : Prop := (xlookup es ps = some .file ∨ xlookup es ps = some .link) ∧ lit ".git" ∉ ps.dropLast

end Spec

theorem lookupAt_flat (ps : List Str) : ∀ (n : Str) (es : List (Str × XNode)), (∃ c, lookupAt (.dir (flatList es)) (n :: ps) = .node (.file c)) ↔
    xlookup es (n :: ps) = some .file ∨ xlookup es (n :: ps) = some .link ∨ xlookup es (n :: ps) = some .gone := by
  induction ps with
  | nil =>
    intro n es
    rw [lookupAt, entry_flatList, xlookup]
    cases es.lookup n with
    | none => simp
    | some c => cases c <;> simp [XNode.flat, lookupAt]
  | cons p ps ih =>
    intro n es
    rw [lookupAt, entry_flatList, xlookup]
    cases es.lookup n with
    | none => simp
    | some c =>
      cases c with
      | dir r ds => simp only [Option.map_some, XNode.flat]; exact ih p ds
      | _ => simp [XNode.flat, lookupAt]

theorem reached_flat {es : List (Str × XNode)} (h : ¬ Unreadable es) (ps : List Str) : Reached (flatList es) ps ↔ ReachedX es ps := by
  cases ps with
  | nil =>
    constructor
    · intro hr; exact absurd rfl (reached_file_nil hr)
    · rintro ⟨h | h, -⟩ <;> cases h
  | cons n ps =>
    unfold Reached ReachedX
    rw [lookupAt_flat]
    constructor
    · rintro ⟨h1 | h1 | h1, h2⟩
      · exact ⟨Or.inl h1, h2⟩
      · exact ⟨Or.inr h1, h2⟩
      · exact absurd ⟨n :: ps, .gone, h1, Or.inl rfl, h2⟩ h
    · rintro ⟨h1 | h1, h2⟩
      · exact ⟨Or.inl h1, h2⟩
      · exact ⟨Or.inr (Or.inl h1), h2⟩

/-- **C123** For every way to write the root (not empty, last element not `.git`) of a readable directory: if everything outside `.git` can be read, `Scan` crashes if a path is not longer
than the root as it is written, and otherwise lists, for a fixed order of the files and links that are reached, those whose path, cut after the length of the root and one more byte, lies in
a category; if something cannot be read, `Scan` does not return. -/
theorem C123_any_root (root : Str) (es : List (Str × XNode)) (hroot : root ≠ []) (hwf : (XNode.dir true es).WF) (hgit : ¬ LastElement root (lit ".git")) :
    (¬ Unreadable es → ∃ l : List (List Str), l.Nodup ∧ (∀ ps, ps ∈ l ↔ ReachedX es ps) ∧
      ((∃ ps, ReachedX es ps ∧ (walkedPath root ps).length ≤ root.length) → scanLinks root (true, .dir true es) = .panic) ∧
      ((∀ ps, ReachedX es ps → root.length < (walkedPath root ps).length) →
        scanLinks root (true, .dir true es) = .ok fun d => if d ∈ categories then
          (l.filter fun ps => decide (ps.getLast? ≠ some (lit ".DS_Store") ∧ dirOf (cutPath root ps) = d)).map (cutPath root) else [])) ∧
    (Unreadable es → scanLinks root (true, .dir true es) = .fatal ∨ scanLinks root (true, .dir true es) = .panic) := by
  have hb := (C44_root_name root).2 hgit
  have hw := hwf
  rw [XNode.WF] at hw
  have he := error_xwalkList root es hw.1 hw.2
  have hxw : xwalk root (baseName root) (.dir true es) = xwalkList root es := by rw [xwalk, if_neg (by simp), if_neg hb]
  constructor
  · intro h
    have hne : Visit.error ∉ xwalkList root es := fun h' => h (he.1 h')
    have hfw := flat_wf _ hwf
    rw [XNode.flat] at hfw
    obtain ⟨w, hat⟩ := world_at root hroot (flatList es)
    obtain ⟨l, h1, h2, h3, h4⟩ := C81_scan_any_root w root (flatList es) hat hfw hb
    have hscan : scanLinks root (true, .dir true es) = scan w root := by
      rw [scanLinks, if_neg (by simp), hxw, xwalkList_flat root es hne, visitAll_files]
      unfold scan
      rw [hat]
      simp only
      rw [walk, if_neg hb]
      rfl
    refine ⟨l, h1, fun ps => (h2 ps).trans (reached_flat h ps), ?_, ?_⟩
    · rintro ⟨ps, a, b⟩
      rw [hscan]
      exact h3 ⟨ps, (reached_flat h ps).2 a, b⟩
    · intro ha
      rw [hscan]
      exact h4 fun ps hp => ha ps ((reached_flat h ps).1 hp)
  · intro h
    rw [scanLinks, if_neg (by simp), hxw]
    have hm := he.2 h
    generalize xwalkList root es = l at hm
    have : ∀ f : Files, visitAll (root.length + 1) f l = .fatal ∨ visitAll (root.length + 1) f l = .panic := by
      induction l with
      | nil => cases hm
      | cons v l ih =>
        intro f
        cases v with
        | error => exact Or.inl rfl
        | file p n =>
          rw [visitAll]
          cases addFile (root.length + 1) f p n with
          | none => exact Or.inr rfl
          | some f' => exact ih ((List.mem_cons.1 hm).resolve_left (by simp)) f'
    exact this _

/-- **C123** All other roots: one that does not exist; one that cannot be looked at or read; a file or a link; a readable directory named `.git`. -/
theorem C123_other_roots (root : Str) (nd : XNode) :
    scanLinks root (false, nd) = .err ∧
    (nd = .gone ∨ (∃ es, nd = .dir false es) → scanLinks root (true, nd) = .fatal) ∧
    (nd = .file ∨ nd = .link → scanLinks root (true, nd) = .panic) ∧
    (∀ es, nd = .dir true es → LastElement root (lit ".git") → scanLinks root (true, nd) = .ok fun _ => []) := by
  refine ⟨by rw [scanLinks, if_pos rfl], ?_, ?_, ?_⟩
  · rintro (rfl | ⟨es, rfl⟩)
    · rw [scanLinks, if_neg (by simp), xwalk, visitAll]
    · rw [scanLinks, if_neg (by simp), xwalk, if_pos rfl, visitAll]
  · rintro (rfl | rfl)
    · rw [scanLinks, if_neg (by simp), xwalk, visitAll]
      unfold addFile
      rw [if_pos (by omega)]
    · exact (C123_root_link_false root).1
  · rintro es rfl hg
    have hb : baseName root = lit ".git" := by
      by_contra hb
      exact (C44_root_name root).1 hb hg
    rw [scanLinks, if_neg (by simp), xwalk, if_neg (by simp), if_pos hb, visitAll]

/-- **C143** For every way to write the root: if `Scan` ends normally while the store changes, the outcome is that of `Scan` in a store that does not change and consists of what was seen:
every directory in it was found to be one and then read, giving exactly these names; after that, each of these was looked at and was what it is in that store. -/
theorem C143_snapshot (h : Hist) (root : Str) (t t' : Nat) (files : Files) (hwf : h.WF) (hs : Scans h root t (.ok files) t') :
    ∃ nd : XNode, nd.WF ∧ Seen h t t' [] (baseName root) nd ∧ scanLinks root (true, nd) = .ok files := by
  generalize ho : Outcome.ok files = out at hs
  cases hs with
  | missing => cases ho
  | @walk s l _ hts hp hw =>
    have hne : Visit.error ∉ l := by
      intro he
      have : ∀ (l : List Visit) (f : Files), Visit.error ∈ l → ∀ g, visitAll (root.length + 1) f l ≠ .ok g := by
        intro l
        induction l with
        | nil => intro _ he; cases he
        | cons v l ih =>
          intro f he g
          cases v with
          | error => rw [visitAll]; simp
          | file p n =>
            rw [visitAll]
            cases addFile (root.length + 1) f p n with
            | none => simp
            | some f' => exact ih f' ((List.mem_cons.1 he).resolve_left (by simp)) g
      exact this l _ he files ho.symm
    obtain ⟨nd, n1, n2, n3⟩ := hw.done hwf hne
    exact ⟨nd, n1, n3.mono (Nat.le_of_lt hts) (Nat.le_refl _), by rw [scanLinks, if_neg (by simp), n2]⟩

/-- The store of C123 under a root with a slash at its end: the first byte of every path is cut off. -/
example : lit "/v/" ≠ [] ∧ ¬ LastElement (lit "/v/") (lit ".git") ∧ ReachedX linkedStore [lit "email", lit "home"] ∧
    cutPath (lit "/v/") [lit "email", lit "home"] = lit "mail/home" :=
  ⟨by decide, (C44_root_name _).1 (by decide), ⟨Or.inr rfl, by decide⟩, by decide⟩

end Verif.Repo
