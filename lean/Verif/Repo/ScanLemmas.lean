import Verif.Repo.Spec
/-
Facts about Walk and Scan.
-/
namespace Verif.Repo
open Spec

mutual
/-- The name lists of the files reached. -/
def walkR (name : Str) : Node → List (List Str)
  | .file _ => [[]]
  | .dir es => if name = lit ".git" then [] else walkRList es
def walkRList : List (Str × Node) → List (List Str)
  | [] => []
  | e :: es => walkRPair e ++ walkRList es
def walkRPair : Str × Node → List (List Str)
  | (n, c) => (walkR n c).map (n :: ·)
end

/-- Names appended to a path. -/
def suffix (ps : List Str) : Str := ps.flatMap fun p => slash :: p

theorem suffix_eq : ∀ {ps : List Str}, ps ≠ [] → suffix ps = slash :: joinSlash ps
  | [], h => absurd rfl h
  | [p], _ => by simp [suffix, joinSlash]
  | p :: q :: ps, _ => by
    have := suffix_eq (ps := q :: ps) (by simp)
    unfold suffix at *
    rw [List.flatMap_cons, this]; rfl

mutual
theorem walk_eq (path name : Str) : ∀ nd : Node, CleanDir path → nd.WF →
    walk path name nd = (walkR name nd).map fun ps => (path ++ suffix ps, ps.getLastD name)
  | .file c, _, _ => by simp [walk, walkR, suffix]
  | .dir es, hp, hw => by
    rw [Node.WF] at hw
    rw [walk, walkR]
    split
    · rfl
    · exact walkList_eq path name es hp hw.2
theorem walkList_eq (path name : Str) : ∀ es : List (Str × Node), CleanDir path → WFList es →
    walkList path es = (walkRList es).map fun ps => (path ++ suffix ps, ps.getLastD name)
  | [], _, _ => rfl
  | (n, c) :: es, hp, hw => by
    rw [WFList, WFPair] at hw
    rw [walkList, walkPair, walkRList, walkRPair, List.map_append, walkList_eq path name es hp hw.2, hp.join hw.1.1,
      walk_eq (path ++ slash :: n) n c (hp.snoc hw.1.1) hw.1.2, List.map_map]
    congr 1
    apply List.map_congr_left
    intro ps _
    simp only [Function.comp, suffix, List.flatMap_cons, List.append_assoc, List.cons_append]
    cases ps <;> rfl
end

mutual
theorem walkR_good (name : Str) : ∀ nd : Node, nd.WF → ∀ ps ∈ walkR name nd, ∀ p ∈ ps, GoodName p
  | .file c, _, ps, h => by
    rw [walkR, List.mem_singleton] at h
    subst h; simp
  | .dir es, hw, ps, h => by
    rw [walkR] at h
    split at h
    · cases h
    · rw [Node.WF] at hw
      exact walkRList_good es hw.2 ps h
theorem walkRList_good : ∀ es : List (Str × Node), WFList es → ∀ ps ∈ walkRList es, ∀ p ∈ ps, GoodName p
  | [], _, ps, h => by cases h
  | (n, c) :: es, hw, ps, h => by
    rw [WFList, WFPair] at hw
    rw [walkRList, walkRPair, List.mem_append, List.mem_map] at h
    rcases h with ⟨qs, hq, rfl⟩ | h
    · intro p hp
      rcases List.mem_cons.1 hp with rfl | hp
      · exact hw.1.1
      · exact walkR_good n c hw.1.2 qs hq p hp
    · exact walkRList_good es hw.2 ps h
end

theorem walkRList_ne_nil : ∀ (es : List (Str × Node)), ∀ ps ∈ walkRList es, ps ≠ []
  | [], ps, h => by cases h
  | (n, c) :: es, ps, h => by
    rw [walkRList, walkRPair, List.mem_append, List.mem_map] at h
    rcases h with ⟨qs, hq, rfl⟩ | h
    · simp
    · exact walkRList_ne_nil es ps h

/-- The path of an entry, if the names are those of an entry in `d`. -/
def entryOf (d : Str) : List Str → Option Str
  | [d', n] => if d' = d ∧ n ≠ lit ".DS_Store" then some (d ++ slash :: n) else none
  | _ => none

theorem entryOf_two (d d' n : Str) : entryOf d [d', n] = if d' = d ∧ n ≠ lit ".DS_Store" then some (d ++ slash :: n) else none := rfl

theorem category_noslash : ∀ d ∈ categories, slash ∉ d := by decide

theorem dirOf_names {ps : List Str} (hne : ps ≠ []) (hg : ∀ p ∈ ps, GoodName p) (d : Str) (hd : d ∈ categories) :
    dirOf (joinSlash ps) = d ↔ ∃ n, ps = [d, n] := by
  induction ps using List.reverseRecOn with
  | nil => exact absurd rfl hne
  | append_singleton qs n _ =>
    have hn := hg n (by simp)
    have hq : ∀ p ∈ qs, GoodName p := fun p hp => hg p (by simp [hp])
    by_cases e : qs = []
    · subst e
      constructor
      · intro h
        rw [List.nil_append, joinSlash, dirOf_single hn.2.2.2] at h
        rw [← h] at hd; exact absurd hd (by decide)
      · rintro ⟨n', h⟩; cases h
    · rw [dirOf_join e hq hn]
      constructor
      · intro h
        have h2 := splitSlash_join qs e (fun p hp => (hq p hp).2.2.2)
        rw [h, splitSlash_noslash (category_noslash d hd)] at h2
        rw [← h2]; exact ⟨n, rfl⟩
      · rintro ⟨n', h⟩
        have : qs = [d] := by
          have := congrArg List.dropLast h
          simpa using this
        rw [this]; rfl

theorem addFiles_eq (root : Str) (name : Str) : ∀ (l : List (List Str)) (files : Files), (∀ ps ∈ l, ps ≠ [] ∧ ∀ p ∈ ps, GoodName p) →
    addFiles (root.length + 1) files (l.map fun ps => (root ++ suffix ps, ps.getLastD name)) =
      some fun d => if d ∈ categories then files d ++ l.filterMap (entryOf d) else files d
  | [], files, _ => by
    simp only [List.map_nil, addFiles, List.filterMap_nil, List.append_nil, ite_self]
  | ps :: l, files, h => by
    obtain ⟨hne, hg⟩ := h ps List.mem_cons_self
    rw [List.map_cons, addFiles]
    have hfp : (root ++ suffix ps).drop (root.length + 1) = joinSlash ps := by
      rw [suffix_eq hne, ← List.drop_drop, List.drop_left]; rfl
    have hlen : ¬ (root ++ suffix ps).length < root.length + 1 := by
      rw [suffix_eq hne, List.length_append, List.length_cons]; omega
    unfold addFile
    rw [if_neg hlen, hfp]
    dsimp only
    have hrec := fun files' => addFiles_eq root name l files' (fun qs hq => h qs (List.mem_cons_of_mem _ hq))
    by_cases hds : ps.getLastD name = lit ".DS_Store"
    · rw [if_pos hds, Option.bind_some, hrec]
      congr 1
      funext d
      split
      · congr 1
        rw [List.filterMap_cons_none]
        unfold entryOf
        split
        · rw [if_neg]
          rintro ⟨-, h2⟩
          exact h2 hds
        · rfl
      · rfl
    · rw [if_neg hds]
      by_cases hc : dirOf (joinSlash ps) ∈ categories
      · rw [if_pos hc, Option.bind_some, hrec]
        obtain ⟨n, hps⟩ := (dirOf_names hne hg _ hc).1 rfl
        have hdir : dirOf (joinSlash ps) = dirOf (joinSlash ps) := rfl
        generalize dirOf (joinSlash ps) = c at *
        subst hps
        have hn : n ≠ lit ".DS_Store" := hds
        congr 1
        funext d
        split
        · by_cases e : d = c
          · subst e
            rw [if_pos rfl, List.filterMap_cons_some (b := joinSlash [d, n])]
            · simp
            · rw [entryOf_two, if_pos ⟨rfl, hn⟩]; rfl
          · rw [if_neg e, List.filterMap_cons_none]
            rw [entryOf_two, if_neg]
            rintro ⟨h, -⟩; exact e h.symm
        · rename_i hd
          rw [if_neg]
          rintro rfl; exact hd hc
      · rw [if_neg hc, Option.bind_some, hrec]
        congr 1
        funext d
        split
        · rename_i hd
          congr 1
          rw [List.filterMap_cons_none]
          unfold entryOf
          split
          · rename_i d' n
            rw [if_neg]
            rintro ⟨rfl, -⟩
            exact hc (by rw [(dirOf_names hne hg _ hd).2 ⟨n, rfl⟩]; exact hd)
          · rfl
        · rfl

/-- The listed files of a category directory. -/
def listing (d : Str) : List (Str × Node) → List Str
  | [] => []
  | (n, .file _) :: es => if n = lit ".DS_Store" then listing d es else (d ++ slash :: n) :: listing d es
  | (_, .dir _) :: es => listing d es

theorem sub_listing (d : Str) : ∀ es : List (Str × Node), (walkRList es).filterMap (fun ps => entryOf d (d :: ps)) = listing d es
  | [] => rfl
  | (n, .file c) :: es => by
    rw [walkRList, walkRPair, walkR, List.map_singleton, List.filterMap_append, sub_listing d es, listing]
    by_cases h : n = lit ".DS_Store"
    · rw [if_pos h, List.filterMap_cons_none]
      · rfl
      · rw [entryOf_two, if_neg]; rintro ⟨-, h2⟩; exact h2 h
    · rw [if_neg h, List.filterMap_cons_some (b := d ++ slash :: n)]
      · rfl
      · rw [entryOf_two, if_pos ⟨rfl, h⟩]
  | (n, .dir ds) :: es => by
    rw [walkRList, walkRPair, List.filterMap_append, sub_listing d es, listing, List.filterMap_map]
    rw [List.filterMap_eq_nil_iff.2]
    · rfl
    · intro ps hps
      rw [walkR] at hps
      split at hps
      · cases hps
      · have := walkRList_ne_nil ds ps hps
        cases ps with
        | nil => exact absurd rfl this
        | cons q ps => rfl

theorem entry_none {es : List (Str × Node)} {d : Str} (h : ∀ e ∈ es, e.1 ≠ d) : entry es d = none := by
  induction es with
  | nil => rfl
  | cons e es ih =>
    obtain ⟨m, nd⟩ := e
    rw [entry, if_neg (h (m, nd) List.mem_cons_self), ih (fun e he => h e (List.mem_cons_of_mem _ he))]

theorem walkRList_other {d : Str} : ∀ {es : List (Str × Node)}, (∀ e ∈ es, e.1 ≠ d) → (walkRList es).filterMap (entryOf d) = []
  | [], _ => rfl
  | (n, c) :: es, h => by
    rw [walkRList, walkRPair, List.filterMap_append, walkRList_other (fun e he => h e (List.mem_cons_of_mem _ he)), List.append_nil,
      List.filterMap_map, List.filterMap_eq_nil_iff]
    intro ps _
    have := h (n, c) List.mem_cons_self
    simp only [Function.comp]
    unfold entryOf
    split
    · rename_i d' m e
      injection e with e1 e2
      subst e1
      rw [if_neg]
      rintro ⟨rfl, -⟩
      exact this rfl
    · rfl

/-- What the scan lists for a category: the files of that directory. -/
theorem walkRList_listing {d : Str} (hd : d ≠ lit ".git") : ∀ {es : List (Str × Node)}, es.Pairwise (fun a b => strLt a.1 b.1 = true) →
    (walkRList es).filterMap (entryOf d) = match entry es d with
      | some (.dir ds) => listing d ds
      | _ => []
  | [], _ => rfl
  | (n, c) :: es, h => by
    rw [List.pairwise_cons] at h
    rw [walkRList, walkRPair, List.filterMap_append, entry]
    by_cases e : n = d
    · subst e
      rw [if_pos rfl, walkRList_other (d := n), List.append_nil, List.filterMap_map]
      · cases c with
        | file c => rfl
        | dir ds =>
          rw [walkR, if_neg hd]
          exact sub_listing n ds
      · intro e he heq
        have := h.1 e he
        rw [heq] at this
        exact strLt_ne this rfl
    · rw [if_neg e, walkRList_listing hd h.2, List.filterMap_map, List.filterMap_eq_nil_iff.2]
      · rfl
      · intro ps _
        simp only [Function.comp]
        unfold entryOf
        split
        · rename_i d' m e'
          injection e' with e1 e2
          subst e1
          rw [if_neg]
          rintro ⟨rfl, -⟩
          exact e rfl
        · rfl

theorem mem_listing {d : Str} : ∀ {es : List (Str × Node)}, es.Pairwise (fun a b => strLt a.1 b.1 = true) → ∀ p, p ∈ listing d es ↔
    ∃ n, (∃ c, entry es n = some (.file c)) ∧ n ≠ lit ".DS_Store" ∧ p = d ++ slash :: n
  | [], _, p => by simp [listing, entry]
  | (m, .file c) :: es, h, p => by
    rw [List.pairwise_cons] at h
    have ih := mem_listing (d := d) h.2 p
    have hm : ∀ n, (∃ c, entry es n = some (.file c)) → m ≠ n := by
      rintro n ⟨c, hc⟩ rfl
      have : entry es m = none := entry_none (fun e he heq => strLt_ne (h.1 e he) heq.symm)
      rw [this] at hc; cases hc
    rw [listing]
    constructor
    · intro hp
      have hp' : (m ≠ lit ".DS_Store" ∧ p = d ++ slash :: m) ∨ p ∈ listing d es := by
        split at hp
        · exact Or.inr hp
        · rename_i hds
          rcases List.mem_cons.1 hp with e | hp
          · exact Or.inl ⟨hds, e⟩
          · exact Or.inr hp
      rcases hp' with ⟨h1, h2⟩ | hp
      · exact ⟨m, ⟨c, by rw [entry, if_pos rfl]⟩, h1, h2⟩
      · obtain ⟨n, h1, h2, h3⟩ := ih.1 hp
        refine ⟨n, ?_, h2, h3⟩
        rw [entry, if_neg (hm n h1)]; exact h1
    · rintro ⟨n, h1, h2, h3⟩
      rw [entry] at h1
      by_cases e : m = n
      · subst e
        rw [if_neg h2, h3]; exact List.mem_cons_self
      · rw [if_neg e] at h1
        have := ih.2 ⟨n, h1, h2, h3⟩
        split
        · exact this
        · exact List.mem_cons_of_mem _ this
  | (m, .dir ds) :: es, h, p => by
    rw [List.pairwise_cons] at h
    have ih := mem_listing (d := d) h.2 p
    have hm : ∀ n, (∃ c, entry es n = some (.file c)) → m ≠ n := by
      rintro n ⟨c, hc⟩ rfl
      have : entry es m = none := entry_none (fun e he heq => strLt_ne (h.1 e he) heq.symm)
      rw [this] at hc; cases hc
    rw [listing, ih]
    constructor
    · rintro ⟨n, h1, h2⟩
      refine ⟨n, ?_, h2⟩
      rw [entry, if_neg (hm n h1)]; exact h1
    · rintro ⟨n, ⟨c, h1⟩, h2⟩
      rw [entry] at h1
      split at h1
      · cases h1
      · exact ⟨n, ⟨c, h1⟩, h2⟩

theorem sorted_listing {d : Str} : ∀ {es : List (Str × Node)}, es.Pairwise (fun a b => strLt a.1 b.1 = true) →
    (listing d es).Pairwise (fun a b => strLt a b = true) ∧ ∀ m, (∀ e ∈ es, strLt m e.1 = true) → ∀ p ∈ listing d es, strLt (d ++ slash :: m) p = true
  | [], _ => ⟨List.Pairwise.nil, by intro m _ p hp; cases hp⟩
  | (n, nd) :: es, h => by
    rw [List.pairwise_cons] at h
    obtain ⟨ih1, ih2⟩ := sorted_listing (d := d) h.2
    have tl : ∀ m, (∀ e ∈ (n, nd) :: es, strLt m e.1 = true) → ∀ p ∈ listing d es, strLt (d ++ slash :: m) p = true :=
      fun m hm => ih2 m (fun e he => hm e (List.mem_cons_of_mem _ he))
    cases nd with
    | dir ds =>
      rw [listing]
      exact ⟨ih1, tl⟩
    | file c =>
      rw [listing]
      split
      · exact ⟨ih1, tl⟩
      · refine ⟨List.pairwise_cons.2 ⟨ih2 n (fun e he => h.1 e he), ih1⟩, ?_⟩
        intro m hm p hp
        rcases List.mem_cons.1 hp with rfl | hp
        · rw [strLt_append]
          have := hm _ List.mem_cons_self
          simp only [strLt, beq_self_eq_true, Bool.true_and, Bool.or_eq_true]
          exact Or.inr this
        · exact tl m hm p hp

/-- The result of a scan. -/
theorem scan_eq (w : World) (root : Str) (es : List (Str × Node)) (hroot : CleanDir root) (hat : w.at root = .node (.dir es)) (hwf : (Node.dir es).WF)
    (hgit : baseName root ≠ lit ".git") :
    scan w root = .ok fun d => if d ∈ categories then (match entry es d with
      | some (.dir ds) => listing d ds
      | _ => []) else [] := by
  unfold scan
  rw [hat]
  simp only
  rw [walk, if_neg hgit]
  rw [Node.WF] at hwf
  rw [walkList_eq root [] es hroot hwf.2, addFiles_eq root [] _ _ (fun ps hps => ⟨walkRList_ne_nil es ps hps, walkRList_good es hwf.2 ps hps⟩)]
  simp only
  congr 1
  funext d
  split
  · rename_i hd
    rw [List.nil_append, walkRList_listing (by rintro rfl; exact absurd hd (by decide)) hwf.1]
  · rfl

mutual
theorem walk_prune (path name : Str) : ∀ nd : Node, walk path name nd.prune = walk path name nd
  | .file _ => by rw [Node.prune]
  | .dir es => by
    rw [Node.prune, walk, walk, walkList_prune path es]
theorem walkList_prune (path : Str) : ∀ es : List (Str × Node), walkList path (pruneList es) = walkList path es
  | [] => by rw [pruneList]
  | (n, .file c) :: es => by
    rw [pruneList, prunePair, List.singleton_append, walkList, walkList, walkList_prune path es]
  | (n, .dir ds) :: es => by
    rw [pruneList, prunePair, walkList, ← walkList_prune path es]
    by_cases h : n = lit ".git"
    · rw [if_pos h, walkPair, walk, if_pos h]; rfl
    · rw [if_neg h, List.singleton_append, walkList, walkPair, walkPair, walk, walk, if_neg h, if_neg h, walkList_prune (joinPath path n) ds]
end

end Verif.Repo
