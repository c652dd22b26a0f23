import Verif.Repo.Links
import Verif.Repo.Props
import Verif.Repo.GitRoot
/-
C123: Scan with symbolic links and with directories that cannot be read.
-/
namespace Verif.Repo
open Spec

mutual
/-- In every directory the names are proper, different, and sorted. -/
def XNode.WF : XNode → Prop
  | .dir _ es => es.Pairwise (fun a b => strLt a.1 b.1 = true) ∧ XWFList es
  | _ => True
def XWFList : List (Str × XNode) → Prop
  | [] => True
  | e :: es => XWFPair e ∧ XWFList es
def XWFPair : Str × XNode → Prop
  | (n, c) => GoodName n ∧ c.WF
end

namespace Spec

/-- What lies at these names below a directory with these entries. -/
def xlookup : List (Str × XNode) → List Str → Option XNode
  | _, [] => none
  | es, [n] => es.lookup n
  | es, n :: m :: ps => match es.lookup n with
    | some (.dir _ ds) => xlookup ds (m :: ps)
    | _ => none

/-- Something below the directory that cannot be read, `.git` directories not entered. -/
def Unreadable (es : List (Str × XNode)) : Prop :=
  ∃ ps nd, xlookup es ps = some nd ∧ (nd = .gone ∨ ∃ ds, nd = .dir false ds) ∧ lit ".git" ∉ ps.dropLast

end Spec

mutual
/-- Links and what is gone as files, all directories readable. -/
def XNode.flat : XNode → Node
  | .file => .file []
  | .link => .file []
  | .gone => .file []
  | .dir _ es => .dir (flatList es)
def flatList : List (Str × XNode) → List (Str × Node)
  | [] => []
  | e :: es => flatPair e :: flatList es
def flatPair : Str × XNode → Str × Node
  | (n, c) => (n, c.flat)
end

theorem flatList_eq (es : List (Str × XNode)) : flatList es = es.map fun e => (e.1, e.2.flat) := by
  induction es with
  | nil => rw [flatList]; rfl
  | cons e es ih => rw [flatList, ih, List.map_cons]; obtain ⟨n, c⟩ := e; rw [flatPair]

theorem entry_flatList (es : List (Str × XNode)) (n : Str) : entry (flatList es) n = (es.lookup n).map XNode.flat := by
  rw [flatList_eq]
  induction es with
  | nil => rfl
  | cons e es ih =>
    obtain ⟨m, c⟩ := e
    rw [List.map_cons, entry, List.lookup_cons]
    by_cases h : m = n
    · subst h; simp
    · rw [if_neg h, ih, show (n == m) = false by simp; exact fun e => h e.symm]

mutual
theorem flat_wf : ∀ nd : XNode, nd.WF → nd.flat.WF
  | .file, _ => by rw [XNode.flat, Node.WF]; trivial
  | .link, _ => by rw [XNode.flat, Node.WF]; trivial
  | .gone, _ => by rw [XNode.flat, Node.WF]; trivial
  | .dir r es, h => by
    rw [XNode.WF] at h
    rw [XNode.flat, Node.WF]
    refine ⟨?_, flatList_wf es h.2⟩
    rw [flatList_eq, List.pairwise_map]
    exact h.1
theorem flatList_wf : ∀ es : List (Str × XNode), XWFList es → WFList (flatList es)
  | [], _ => by rw [flatList, WFList]; trivial
  | (n, c) :: es, h => by
    rw [XWFList, XWFPair] at h
    rw [flatList, flatPair, WFList, WFPair]
    exact ⟨⟨h.1.1, flat_wf c h.1.2⟩, flatList_wf es h.2⟩
end

mutual
/-- Without errors the visits are those of the plain tree. -/
theorem xwalk_flat (path name : Str) : ∀ nd : XNode, Visit.error ∉ xwalk path name nd → xwalk path name nd = (walk path name nd.flat).map fun p => .file p.1 p.2
  | .file, _ => by rw [xwalk, XNode.flat, walk]; rfl
  | .link, _ => by rw [xwalk, XNode.flat, walk]; rfl
  | .gone, h => by rw [xwalk] at h; exact absurd List.mem_cons_self h
  | .dir r es, h => by
    rw [xwalk] at h ⊢
    rw [XNode.flat, walk]
    split
    · rename_i hr; rw [if_pos hr] at h; exact absurd List.mem_cons_self h
    · rename_i hr
      rw [if_neg hr] at h
      split
      · rfl
      · rename_i hg
        rw [if_neg hg] at h
        exact xwalkList_flat path es h
theorem xwalkList_flat (path : Str) : ∀ es : List (Str × XNode), Visit.error ∉ xwalkList path es → xwalkList path es = (walkList path (flatList es)).map fun p => .file p.1 p.2
  | [], _ => by rw [xwalkList, flatList, walkList]; rfl
  | (n, c) :: es, h => by
    rw [xwalkList, xwalkPair, List.mem_append] at h
    rw [xwalkList, xwalkPair, flatList, flatPair, walkList, walkPair, List.map_append, xwalk_flat _ n c (fun h' => h (Or.inl h')), xwalkList_flat path es (fun h' => h (Or.inr h'))]
end

theorem visitAll_files (n : Nat) (l : List (Str × Str)) : ∀ files : Files, visitAll n files (l.map fun p => .file p.1 p.2) = match addFiles n files l with
    | none => .panic
    | some f => .ok f := by
  induction l with
  | nil => intro files; rfl
  | cons p l ih =>
    intro files
    obtain ⟨path, name⟩ := p
    rw [List.map_cons, visitAll, addFiles]
    cases addFile n files path name with
    | none => rfl
    | some f => exact ih f

/-- A world with something at a path. -/
def nest : List Str → Node → Node
  | [], nd => nd
  | p :: ps, nd => .dir [(p, nest ps nd)]

theorem lookupAt_nest (ps : List Str) (nd : Node) : lookupAt (nest ps nd) ps = .node nd := by
  induction ps with
  | nil => rfl
  | cons p ps ih => rw [nest, lookupAt]; simp only [entry, if_pos]; exact ih

theorem world_at (root : Str) (hne : root ≠ []) (es : List (Str × Node)) : ∃ w : World, w.at root = .node (.dir es) := by
  refine ⟨⟨nest ((⟨.dir [], []⟩ : World).parts root) (.dir es), []⟩, ?_⟩
  unfold World.at
  rw [if_neg hne]
  have : (⟨nest ((⟨.dir [], []⟩ : World).parts root) (.dir es), []⟩ : World).parts root = (⟨.dir [], []⟩ : World).parts root := rfl
  rw [this]
  simp only [lookupAt_nest]

mutual
/-- The paths of the files visited are longer than the path walked. -/
theorem xwalk_paths (path name : Str) : ∀ nd : XNode, CleanDir path → nd.WF → ∀ p n, Visit.file p n ∈ xwalk path name nd → path.length ≤ p.length
  | .file, _, _, p, n, h => by rw [xwalk, List.mem_singleton] at h; injection h with h; rw [h]
  | .link, _, _, p, n, h => by rw [xwalk, List.mem_singleton] at h; injection h with h; rw [h]
  | .gone, _, _, p, n, h => by rw [xwalk, List.mem_singleton] at h; cases h
  | .dir r es, hc, hw, p, n, h => by
    rw [xwalk] at h
    rw [XNode.WF] at hw
    split at h
    · rw [List.mem_singleton] at h; cases h
    · split at h
      · cases h
      · exact Nat.le_of_lt (xwalkList_paths path es hc hw.2 p n h)
theorem xwalkList_paths (path : Str) : ∀ es : List (Str × XNode), CleanDir path → XWFList es → ∀ p n, Visit.file p n ∈ xwalkList path es → path.length < p.length
  | [], _, _, p, n, h => by rw [xwalkList] at h; cases h
  | (m, c) :: es, hc, hw, p, n, h => by
    rw [XWFList, XWFPair] at hw
    rw [xwalkList, xwalkPair, List.mem_append] at h
    rcases h with h | h
    · rw [hc.join hw.1.1] at h
      have := xwalk_paths _ m c (hc.snoc hw.1.1) hw.1.2 p n h
      rw [List.length_append, List.length_cons] at this
      omega
    · exact xwalkList_paths path es hc hw.2 p n h
end

theorem visitAll_fatal (n : Nat) (l : List Visit) : ∀ files : Files, (∀ p nm, Visit.file p nm ∈ l → n ≤ p.length) →
    (visitAll n files l = .fatal ↔ Visit.error ∈ l) ∧ visitAll n files l ≠ .panic := by
  induction l with
  | nil => intro files _; exact ⟨⟨(by intro h; cases h), (by intro h; cases h)⟩, (by intro h; cases h)⟩
  | cons v l ih =>
    intro files h
    cases v with
    | error => exact ⟨⟨fun _ => List.mem_cons_self, fun _ => rfl⟩, by intro h; cases h⟩
    | file p nm =>
      have hp := h p nm List.mem_cons_self
      have : ∃ f, addFile n files p nm = some f := by
        unfold addFile
        rw [if_neg (by omega)]
        simp only
        split
        · exact ⟨_, rfl⟩
        · split <;> exact ⟨_, rfl⟩
      obtain ⟨f, hf⟩ := this
      rw [visitAll, hf]
      obtain ⟨h1, h2⟩ := ih f fun p nm hm => h p nm (List.mem_cons_of_mem _ hm)
      refine ⟨h1.trans ?_, h2⟩
      simp

mutual
theorem error_xwalk (path name : Str) : ∀ nd : XNode, nd.WF → (Visit.error ∈ xwalk path name nd ↔
    (nd = .gone ∨ ∃ ds, nd = .dir false ds) ∨ ∃ ds, nd = .dir true ds ∧ name ≠ lit ".git" ∧ Unreadable ds)
  | .file, _ => by rw [xwalk]; simp
  | .link, _ => by rw [xwalk]; simp
  | .gone, _ => by rw [xwalk]; simp
  | .dir false es, _ => by rw [xwalk]; simp
  | .dir true es, h => by
    rw [XNode.WF] at h
    rw [xwalk, if_neg (by simp)]
    by_cases hg : name = lit ".git"
    · rw [if_pos hg]; simp [hg]
    · rw [if_neg hg, error_xwalkList path es h.1 h.2]
      simp [hg]
theorem error_xwalkList (path : Str) : ∀ es : List (Str × XNode), es.Pairwise (fun a b => strLt a.1 b.1 = true) → XWFList es →
    (Visit.error ∈ xwalkList path es ↔ Unreadable es)
  | [], _, _ => by
    rw [xwalkList]
    refine ⟨fun h => absurd h List.not_mem_nil, ?_⟩
    rintro ⟨ps, nd, h, -⟩
    match ps, h with
    | [_], h => cases h
    | _ :: _ :: _, h => cases h
  | (n, c) :: es, hs, hw => by
    rw [XWFList, XWFPair] at hw
    rw [List.pairwise_cons] at hs
    have hlt : ∀ m nd, es.lookup m = some nd → m ≠ n := by
      intro m nd h e
      obtain ⟨k, hk⟩ : ∃ nd', (m, nd') ∈ es := ⟨nd, by
        have := List.lookup_eq_some_iff.1 h
        obtain ⟨l1, l2, e, -⟩ := this
        rw [e]; simp⟩
      have := hs.1 _ hk
      rw [e] at this
      exact absurd this (by simp [strLt_irrefl])
    rw [xwalkList, xwalkPair, List.mem_append, error_xwalk _ n c hw.1.2, error_xwalkList path es hs.2 hw.2]
    constructor
    · rintro ((h | ⟨ds, rfl, h1, ps, nd, h2, h3, h4⟩) | ⟨ps, nd, h2, h3, h4⟩)
      · exact ⟨[n], c, by simp [xlookup], h, by simp⟩
      · match ps, h2, h4 with
        | m :: ps, h2, h4 =>
          refine ⟨n :: m :: ps, nd, by simp [xlookup, h2], h3, ?_⟩
          rw [List.dropLast_cons_of_ne_nil (by simp), List.mem_cons]
          rintro (e | e)
          · exact h1 e.symm
          · exact h4 e
      · refine ⟨ps, nd, ?_, h3, h4⟩
        match ps, h2 with
        | [m], h2 =>
          rw [xlookup] at h2 ⊢
          rw [List.lookup_cons, show (m == n) = false by simpa using hlt _ _ h2]
          exact h2
        | m :: k :: ps, h2 =>
          rw [xlookup] at h2 ⊢
          cases hl : es.lookup m with
          | none => rw [hl] at h2; cases h2
          | some nd' =>
            rw [List.lookup_cons, show (m == n) = false by simpa using hlt _ _ hl]
            exact h2
    · rintro ⟨ps, nd, h2, h3, h4⟩
      revert h2 h4
      match ps with
      | [] => intro h2; cases h2
      | [m] =>
        intro h2 h4
        rw [xlookup, List.lookup_cons] at h2
        split at h2
        · injection h2 with h2
          subst h2
          exact Or.inl (Or.inl h3)
        · exact Or.inr ⟨[m], nd, by rw [xlookup]; exact h2, h3, h4⟩
      | m :: k :: ps =>
        intro h2 h4
        rw [List.dropLast_cons_of_ne_nil (by simp), List.mem_cons, not_or] at h4
        rw [xlookup, List.lookup_cons] at h2
        by_cases e : (m == n) = true
        · rw [e] at h2
          have e := eq_of_beq e
          subst e
          left
          cases c with
          | dir r ds =>
            cases r with
            | false => exact Or.inl (Or.inr ⟨ds, rfl⟩)
            | true => exact Or.inr ⟨ds, rfl, fun h => h4.1 h.symm, k :: ps, nd, h2, h3, h4.2⟩
          | file => cases h2
          | link => cases h2
          | gone => cases h2
        · rw [Bool.not_eq_true] at e
          rw [e] at h2
          right
          refine ⟨m :: k :: ps, nd, by rw [xlookup]; exact h2, h3, ?_⟩
          rw [List.dropLast_cons_of_ne_nil (by simp), List.mem_cons, not_or]
          exact h4
end

/-- **C123** (as far as it holds) With links and unreadable directories, for a cleaned root (not `.` or `/`) that is itself a readable directory, not named `.git`: if
something outside `.git` directories cannot be read, the program ends with an error message; otherwise exactly the files and links directly in a category directory are listed, each once
and sorted. Links are not followed, wherever they lead. -/
theorem C123_scan_partial (root : Str) (es : List (Str × XNode)) (hroot : CleanDir root) (hwf : (XNode.dir true es).WF) (hgit : ¬ LastElement root (lit ".git")) :
    (Unreadable es → scanLinks root (true, .dir true es) = .fatal) ∧
    (¬ Unreadable es → ∃ files, scanLinks root (true, .dir true es) = .ok files ∧
      (∀ d p, p ∈ files d ↔ d ∈ [lit "people", lit "email", lit "phone", lit "sites", lit "devices", lit "bank"] ∧
        ∃ name nd, xlookup es [d, name] = some nd ∧ (nd = .file ∨ nd = .link) ∧ name ≠ lit ".DS_Store" ∧ p = d ++ lit "/" ++ name) ∧
      ∀ d, (files d).Pairwise (fun a b => strLt a b = true)) := by
  have hb := (C44_root_name root).2 hgit
  have hw := hwf
  rw [XNode.WF] at hw
  have he := error_xwalkList root es hw.1 hw.2
  have hxw : xwalk root (baseName root) (.dir true es) = xwalkList root es := by rw [xwalk, if_neg (by simp), if_neg hb]
  constructor
  · intro h
    rw [scanLinks, if_neg (by simp), hxw]
    exact (visitAll_fatal _ _ _ fun p nm hm => xwalkList_paths root es hroot hw.2 p nm hm).1.2 (he.2 h)
  · intro h
    have hne : Visit.error ∉ xwalkList root es := fun h' => h (he.1 h')
    have hfw := flat_wf _ hwf
    rw [XNode.flat] at hfw
    have hrne : root ≠ [] := by
      rintro rfl
      exact absurd hroot.1 (by decide)
    obtain ⟨w, hat⟩ := world_at root hrne (flatList es)
    obtain ⟨files, h1, h2, h3⟩ := C43_scan_lists_entries w root (flatList es) hroot hat hfw hb
    refine ⟨files, ?_, ?_, h3⟩
    · rw [scanLinks, if_neg (by simp), hxw, xwalkList_flat root es hne, visitAll_files]
      unfold scan at h1
      rw [hat] at h1
      simp only at h1
      rw [walk, if_neg hb] at h1
      exact h1
    · intro d p
      rw [h2]
      refine and_congr_right fun hd => ?_
      constructor
      · rintro ⟨name, ⟨⟨c, hl⟩, hn⟩, hp⟩
        rw [lookupAt, entry_flatList] at hl
        cases h4 : es.lookup d with
        | none => rw [h4] at hl; cases hl
        | some nd =>
          rw [h4] at hl
          cases nd with
          | dir r ds =>
            simp only [Option.map_some, XNode.flat, lookupAt, entry_flatList] at hl
            cases h5 : ds.lookup name with
            | none => rw [h5] at hl; cases hl
            | some nd2 =>
              refine ⟨name, nd2, by rw [xlookup, h4]; simp only [xlookup]; exact h5, ?_, hn, hp⟩
              rw [h5] at hl
              cases nd2 with
              | file => exact Or.inl rfl
              | link => exact Or.inr rfl
              | gone => exact absurd ⟨[d, name], .gone, by rw [xlookup, h4]; simp only [xlookup]; exact h5, Or.inl rfl, by
                  simp only [List.dropLast, List.mem_singleton]
                  rintro rfl
                  exact absurd hd (by decide)⟩ h
              | dir r' ds' => simp [XNode.flat] at hl
          | file => simp [XNode.flat, lookupAt] at hl
          | link => simp [XNode.flat, lookupAt] at hl
          | gone => simp [XNode.flat, lookupAt] at hl
      · rintro ⟨name, nd, hl, hk, hn, hp⟩
        refine ⟨name, ⟨⟨[], ?_⟩, hn⟩, hp⟩
        rw [xlookup] at hl
        rw [lookupAt, entry_flatList]
        cases h4 : es.lookup d with
        | none => rw [h4] at hl; cases hl
        | some nd' =>
          rw [h4] at hl
          cases nd' with
          | dir r ds =>
            simp only [xlookup] at hl
            simp only [Option.map_some, XNode.flat, lookupAt, entry_flatList, hl]
            rcases hk with rfl | rfl <;> rfl
          | file => cases hl
          | link => cases hl
          | gone => cases hl

mutual
/-- A tree without links in which everything can be read. -/
def XNode.ofNode : Node → XNode
  | .file _ => .file
  | .dir es => .dir true (ofNodeList es)
def ofNodeList : List (Str × Node) → List (Str × XNode)
  | [] => []
  | e :: es => ofNodePair e :: ofNodeList es
def ofNodePair : Str × Node → Str × XNode
  | (n, c) => (n, XNode.ofNode c)
end

mutual
theorem xwalk_ofNode (path name : Str) : ∀ nd : Node, xwalk path name (.ofNode nd) = (walk path name nd).map fun p => .file p.1 p.2
  | .file _ => by rw [XNode.ofNode, xwalk, walk]; rfl
  | .dir es => by
    rw [XNode.ofNode, xwalk, walk, if_neg (by simp)]
    split
    · rfl
    · exact xwalkList_ofNode path es
theorem xwalkList_ofNode (path : Str) : ∀ es : List (Str × Node), xwalkList path (ofNodeList es) = (walkList path es).map fun p => .file p.1 p.2
  | [] => by rw [ofNodeList, xwalkList, walkList]; rfl
  | (n, c) :: es => by rw [ofNodeList, ofNodePair, xwalkList, xwalkPair, walkList, walkPair, List.map_append, xwalk_ofNode, xwalkList_ofNode path es]
end

/-- **C123** Without links, and if everything can be read, this is the `Scan` of C43, C44, C71, C81. -/
theorem C123_plain (w : World) (root : Str) (nd : Node) (hat : w.at root = .node nd) : scanLinks root (true, .ofNode nd) = scan w root := by
  rw [scanLinks, if_neg (by simp), xwalk_ofNode, visitAll_files]
  unfold scan
  rw [hat]
  rfl

/-- **C123** is false of a root that is itself a link: the program crashes, wherever the link leads, with every path. -/
theorem C123_root_link_false (root : Str) : scanLinks root (true, .link) = .panic ∧ ¬ ∃ files, scanLinks root (true, .link) = .ok files := by
  have : scanLinks root (true, .link) = .panic := by
    rw [scanLinks, if_neg (by simp), xwalk, visitAll]
    unfold addFile
    rw [if_pos (by omega)]
  exact ⟨this, by rw [this]; rintro ⟨f, h⟩; cases h⟩

/-- A store with a link to a directory and a dangling link; nothing is unreadable but the content of a directory inside `.git`. -/
def linkedStore : List (Str × XNode) :=
  [(lit ".git", .dir true [(lit "objects", .dir false [])]), (lit "email", .dir true [(lit "home", .link), (lit "work", .file)]), (lit "sites", .link)]

example : CleanDir (lit "/v") ∧ (XNode.dir true linkedStore).WF ∧ ¬ LastElement (lit "/v") (lit ".git") ∧ ¬ Unreadable linkedStore := by
  have hw : (XNode.dir true linkedStore).WF := by
    simp only [linkedStore, XNode.WF, XWFList, XWFPair]
    decide
  refine ⟨⟨by decide, by decide, by decide⟩, hw, (C44_root_name _).1 (by decide), ?_⟩
  have hw' := hw
  rw [XNode.WF] at hw'
  rw [← error_xwalkList (lit "/v") linkedStore hw'.1 hw'.2]
  simp [linkedStore, xwalkList, xwalkPair, xwalk, lit]

/-- A directory that cannot be read. -/
example : Unreadable [(lit "x", .dir true [(lit ".git", .dir false [])])] := ⟨[lit "x", lit ".git"], .dir false [], rfl, Or.inr ⟨[], rfl⟩, by decide⟩

end Verif.Repo
