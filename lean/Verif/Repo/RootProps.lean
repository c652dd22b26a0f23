import Verif.Repo.Props
/-
Scan for every way to write the root.
-/
namespace Verif.Repo
open Spec

namespace Spec

/-- The names lead from a directory with the given entries to a file, and none of the directories on the way is called `.git`. -/
def Reached (es : List (Str × Node)) (ps : List Str) : Prop := (∃ c, lookupAt (.dir es) ps = .node (.file c)) ∧ lit ".git" ∉ ps.dropLast

/-- The path of a file below a root as the code builds it: the cleaned root, a slash unless the root is `.` or `/`, and the names. -/
def walkedPath (root : Str) (ps : List Str) : Str :=
  if clean root = lit "." then joinSlash ps else if clean root = [slash] then slash :: joinSlash ps else clean root ++ slash :: joinSlash ps

/-- The path without as many bytes as the root as it is written has, and one more. -/
def cutPath (root : Str) (ps : List Str) : Str := (walkedPath root ps).drop (root.length + 1)

end Spec

theorem reached_file_nil {es : List (Str × Node)} {ps : List Str} (h : Reached es ps) : ps ≠ [] := by
  rintro rfl
  obtain ⟨⟨c, h⟩, -⟩ := h
  simp [lookupAt] at h

theorem lookup_cons {es : List (Str × Node)} {p : Str} {ps : List Str} {c : Str} :
    lookupAt (.dir es) (p :: ps) = .node (.file c) ↔ ∃ nd, entry es p = some nd ∧ lookupAt nd ps = .node (.file c) := by
  rw [lookupAt]
  cases entry es p with
  | none => simp
  | some nd => simp

theorem mem_entry_of_sorted : ∀ {es : List (Str × Node)}, es.Pairwise (fun a b => strLt a.1 b.1 = true) → ∀ {n : Str} {nd : Node}, entry es n = some nd ↔ (n, nd) ∈ es
  | [], _, n, nd => by simp [entry]
  | (m, md) :: es, h, n, nd => by
    rw [List.pairwise_cons] at h
    have ih := mem_entry_of_sorted h.2 (n := n) (nd := nd)
    rw [entry, List.mem_cons]
    by_cases e : m = n
    · subst e
      rw [if_pos rfl]
      constructor
      · intro e; injection e with e; subst e; exact Or.inl rfl
      · rintro (e | e)
        · injection e with _ e; rw [e]
        · exact absurd rfl (strLt_ne (h.1 (m, nd) e))
    · rw [if_neg e, ih]
      constructor
      · exact Or.inr
      · rintro (e' | e')
        · injection e' with e1 e2; exact absurd e1.symm e
        · exact e'

theorem mem_walkRList : ∀ {es : List (Str × Node)} {ps : List Str}, ps ∈ walkRList es ↔ ∃ n nd qs, (n, nd) ∈ es ∧ qs ∈ walkR n nd ∧ ps = n :: qs
  | [], ps => by simp [walkRList]
  | (n, c) :: es, ps => by
    rw [walkRList, walkRPair, List.mem_append, mem_walkRList, List.mem_map]
    constructor
    · rintro (⟨qs, h, rfl⟩ | ⟨m, nd, qs, h1, h2, h3⟩)
      · exact ⟨n, c, qs, List.mem_cons_self, h, rfl⟩
      · exact ⟨m, nd, qs, List.mem_cons_of_mem _ h1, h2, h3⟩
    · rintro ⟨m, nd, qs, h1, h2, h3⟩
      rcases List.mem_cons.1 h1 with e | h1
      · injection e with e1 e2; subst e1 e2; exact Or.inl ⟨qs, h2, h3.symm⟩
      · exact Or.inr ⟨m, nd, qs, h1, h2, h3⟩

theorem mem_walkR : ∀ (ps : List Str) (name : Str) (nd : Node), nd.WF →
    (ps ∈ walkR name nd ↔ (∃ c, lookupAt nd ps = .node (.file c)) ∧ (ps ≠ [] → lit ".git" ∉ (name :: ps).dropLast))
  | [], name, .file c, _ => by simp [walkR, lookupAt]
  | [], name, .dir es, _ => by
    rw [walkR]
    simp only [lookupAt]
    constructor
    · intro h
      split at h
      · cases h
      · exact absurd rfl (walkRList_ne_nil es [] h)
    · rintro ⟨⟨c, h⟩, -⟩; cases h
  | p :: ps, name, .file c, _ => by simp [walkR, lookupAt]
  | p :: ps, name, .dir es, hw => by
    rw [Node.WF] at hw
    rw [walkR]
    by_cases hg : name = lit ".git"
    · rw [if_pos hg]
      constructor
      · intro h; cases h
      · rintro ⟨-, h⟩
        exact absurd (by rw [hg]; simp) (h (by simp))
    · rw [if_neg hg, mem_walkRList]
      have hd : (name :: p :: ps).dropLast = name :: (p :: ps).dropLast := rfl
      simp only [lookup_cons]
      rw [hd, List.mem_cons]
      constructor
      · rintro ⟨n, nd, qs, h1, h2, h3⟩
        injection h3 with h3 h4
        subst h3 h4
        have he := (mem_entry_of_sorted hw.1).2 h1
        obtain ⟨⟨c, h5⟩, h6⟩ := (mem_walkR ps p nd (entry_good hw.2 he).2).1 h2
        refine ⟨⟨c, nd, he, h5⟩, ?_⟩
        rintro - (h | h)
        · exact hg h.symm
        · cases ps with
          | nil => cases h
          | cons q qs => exact h6 (by simp) h
      · rintro ⟨⟨c, nd, he, h5⟩, h6⟩
        refine ⟨p, nd, ps, (mem_entry_of_sorted hw.1).1 he, (mem_walkR ps p nd (entry_good hw.2 he).2).2 ⟨⟨c, h5⟩, ?_⟩, rfl⟩
        intro _ h
        exact h6 (by simp) (Or.inr h)

theorem mem_walkRList_reached {es : List (Str × Node)} (hw : (Node.dir es).WF) (ps : List Str) : ps ∈ walkRList es ↔ Reached es ps := by
  have h := mem_walkR ps [] (.dir es) hw
  rw [walkR, if_neg (by decide)] at h
  rw [h]
  unfold Reached
  cases ps with
  | nil => simp [lookupAt]
  | cons p ps =>
    have hd : (([] : Str) :: p :: ps).dropLast = [] :: (p :: ps).dropLast := rfl
    rw [hd, List.mem_cons]
    have : lit ".git" ≠ [] := by decide
    simp [this]

mutual
theorem walkR_nodup (name : Str) : ∀ nd : Node, nd.WF → (walkR name nd).Nodup
  | .file _, _ => by simp [walkR]
  | .dir es, hw => by
    rw [walkR]
    split
    · exact List.nodup_nil
    · rw [Node.WF] at hw
      exact walkRList_nodup es hw.1 hw.2
theorem walkRList_nodup : ∀ es : List (Str × Node), es.Pairwise (fun a b => strLt a.1 b.1 = true) → WFList es → (walkRList es).Nodup
  | [], _, _ => by simp [walkRList]
  | (n, c) :: es, hs, hw => by
    rw [List.pairwise_cons] at hs
    rw [WFList, WFPair] at hw
    rw [walkRList, walkRPair, List.nodup_append]
    refine ⟨?_, walkRList_nodup es hs.2 hw.2, ?_⟩
    · exact (walkR_nodup n c hw.1.2).map (fun a b h => by injection h)
    · intro a ha b hb e
      obtain ⟨qs, -, rfl⟩ := List.mem_map.1 ha
      obtain ⟨m, nd, qs', h1, -, h3⟩ := mem_walkRList.1 hb
      rw [← e] at h3
      injection h3 with h3
      exact strLt_ne (hs.1 _ h1) h3
end

/-- A cleaned path, last element first: proper names, before them `..` in a path that is not rooted. -/
def CleanStack (r : Bool) (st : List Str) : Prop := ∃ gs k, st = gs ++ List.replicate k (lit "..") ∧ (∀ g ∈ gs, GoodName g) ∧ (r = true → k = 0)

theorem dots_noslash : slash ∉ lit ".." := by decide

theorem CleanStack.push {r : Bool} {st : List Str} (h : CleanStack r st) {p : Str} (hp : slash ∉ p) : CleanStack r (pushPart r st p) := by
  obtain ⟨gs, k, rfl, hg, hr⟩ := h
  unfold pushPart
  split
  · exact ⟨gs, k, rfl, hg, hr⟩
  · rename_i h1
    rw [not_or] at h1
    split
    · rename_i h2
      subst h2
      cases gs with
      | nil =>
        cases k with
        | zero =>
          cases r with
          | true => exact ⟨[], 0, rfl, by simp, fun _ => rfl⟩
          | false => exact ⟨[], 1, rfl, by simp, by simp⟩
        | succ k =>
          refine ⟨[], k + 2, ?_, by simp, fun e => absurd (hr e) (by omega)⟩
          rw [List.nil_append, List.replicate_succ]
          simp only [if_true]
          rfl
      | cons g gs =>
        simp only [List.cons_append]
        rw [if_neg (hg g (by simp)).2.2.1]
        exact ⟨gs, k, rfl, fun g' h => hg g' (by simp [h]), hr⟩
    · rename_i h2
      exact ⟨p :: gs, k, rfl, by
        intro g hg'
        rcases List.mem_cons.1 hg' with rfl | hg'
        · exact ⟨h1.1, h1.2, h2, hp⟩
        · exact hg g hg', hr⟩

theorem cleanStack_foldl {r : Bool} : ∀ (ps : List Str) (st : List Str), (∀ p ∈ ps, slash ∉ p) → CleanStack r st → CleanStack r (ps.foldl (pushPart r) st)
  | [], st, _, h => h
  | p :: ps, st, hp, h => cleanStack_foldl ps _ (fun q hq => hp q (by simp [hq])) (h.push (hp p (by simp)))

theorem splitSlash_mem : ∀ (s : Str), ∀ p ∈ splitSlash s, slash ∉ p
  | [], p, h => by simp [splitSlash] at h; subst h; simp
  | b :: s, p, h => by
    have ih := splitSlash_mem s
    rw [splitSlash] at h
    split at h
    · rcases List.mem_cons.1 h with rfl | h
      · simp
      · exact ih p h
    · rename_i hb
      cases e : splitSlash s with
      | nil => exact absurd e (splitSlash_ne_nil s)
      | cons q qs =>
        rw [e] at h ih
        rcases List.mem_cons.1 h with rfl | h
        · rw [List.mem_cons, not_or]
          exact ⟨fun e => hb e.symm, ih q (by simp)⟩
        · exact ih p (by simp [h])

/-- The elements of a cleaned path. -/
def IsCleanParts (r : Bool) (ps : List Str) : Prop := CleanStack r ps.reverse

theorem isCleanParts (r : Bool) (s : Str) : IsCleanParts r (cleanParts r (splitSlash s)) := by
  unfold IsCleanParts cleanParts
  rw [List.reverse_reverse]
  exact cleanStack_foldl _ _ (splitSlash_mem s) ⟨[], 0, rfl, by simp, fun _ => rfl⟩

theorem IsCleanParts.snoc {r : Bool} {ps : List Str} (h : IsCleanParts r ps) {n : Str} (hn : GoodName n) : IsCleanParts r (ps ++ [n]) := by
  unfold IsCleanParts at *
  rw [List.reverse_append]
  have := h.push (p := n) hn.2.2.2
  rw [pushPart_good hn] at this
  exact this

theorem IsCleanParts.mem {r : Bool} {ps : List Str} (h : IsCleanParts r ps) : ∀ p ∈ ps, p ≠ [] ∧ p ≠ lit "." ∧ slash ∉ p := by
  intro p hp
  obtain ⟨gs, k, e, hg, -⟩ := h
  have : p ∈ ps.reverse := List.mem_reverse.2 hp
  rw [e, List.mem_append, List.mem_replicate] at this
  rcases this with h | ⟨-, rfl⟩
  · exact ⟨(hg p h).1, (hg p h).2.1, (hg p h).2.2.2⟩
  · decide

theorem foldl_dots : ∀ k, (List.replicate k (lit "..")).foldl (pushPart false) [] = List.replicate k (lit "..")
  | 0 => rfl
  | k + 1 => by
    rw [show List.replicate (k + 1) (lit "..") = List.replicate k (lit "..") ++ [lit ".."] from List.replicate_succ', List.foldl_append, foldl_dots k]
    rw [← List.replicate_succ']
    cases k with
    | zero => rfl
    | succ k =>
      rw [List.replicate_succ, List.foldl_cons, List.foldl_nil]
      unfold pushPart
      rw [if_neg (by decide), if_pos rfl]
      simp only [if_true]
      rfl

theorem IsCleanParts.fix {r : Bool} {ps : List Str} (h : IsCleanParts r ps) : cleanParts r ps = ps := by
  obtain ⟨gs, k, e, hg, hr⟩ := h
  have e' : ps = List.replicate k (lit "..") ++ gs.reverse := by
    rw [← List.reverse_reverse ps, e, List.reverse_append, List.reverse_replicate]
  subst e'
  have hd : (List.replicate k (lit "..")).foldl (pushPart r) [] = List.replicate k (lit "..") := by
    cases r with
    | true => rw [hr rfl]; rfl
    | false => exact foldl_dots k
  unfold cleanParts
  rw [List.foldl_append, hd]
  have : ∀ (l st : List Str), (∀ g ∈ l, GoodName g) → l.foldl (pushPart r) st = l.reverse ++ st := by
    intro l
    induction l with
    | nil => intro st _; rfl
    | cons g l ih =>
      intro st h
      rw [List.foldl_cons, pushPart_good (h g (by simp)), ih _ (fun g' h' => h g' (by simp [h'])), List.reverse_cons, List.append_assoc]; rfl
  rw [this _ _ (fun g hg' => hg g (List.mem_reverse.1 hg'))]
  simp

theorem joinSlash_ne_nil {ps : List Str} (hne : ps ≠ []) (h : ∀ p ∈ ps, p ≠ []) : joinSlash ps ≠ [] := by
  cases ps with
  | nil => exact absurd rfl hne
  | cons p ps =>
    cases ps with
    | nil => exact h p (by simp)
    | cons q ps => simp [joinSlash]

theorem joinSlash_rooted {ps : List Str} (h : ∀ p ∈ ps, p ≠ [] ∧ p ≠ lit "." ∧ slash ∉ p) : isRooted (joinSlash ps) = false := by
  cases ps with
  | nil => rfl
  | cons p ps =>
    obtain ⟨h1, -, h2⟩ := h p (by simp)
    cases p with
    | nil => exact absurd rfl h1
    | cons b p =>
      have e : (joinSlash ((b :: p) :: ps)) = b :: (joinSlash ((b :: p) :: ps)).tail := by cases ps <;> rfl
      rw [e]
      unfold isRooted
      rw [List.mem_cons, not_or] at h2
      simp only [beq_eq_false_iff_ne]
      exact fun e => h2.1 e.symm

/-- Cleaning again changes nothing. -/
theorem clean_render {r : Bool} {ps : List Str} (h : IsCleanParts r ps) : clean (renderPath r ps) = renderPath r ps := by
  have hm := h.mem
  have hfix := h.fix
  unfold renderPath
  cases r with
  | true =>
    simp only [if_true]
    unfold clean
    have hr : isRooted (slash :: joinSlash ps) = true := by simp [isRooted]
    rw [hr, splitSlash, if_pos rfl]
    have : cleanParts true ([] :: splitSlash (joinSlash ps)) = ps := by
      cases ps with
      | nil => rfl
      | cons p qs =>
        rw [splitSlash_join _ (by simp) (fun q hq => (hm q hq).2.2)]
        exact hfix
    rw [this]; rfl
  | false =>
    simp only [Bool.false_eq_true, if_false]
    split
    · decide
    · rename_i hne
      unfold clean
      rw [joinSlash_rooted hm, splitSlash_join ps hne (fun q hq => (hm q hq).2.2), hfix]
      unfold renderPath
      simp [hne]

theorem render_dot {r : Bool} {ps : List Str} (h : IsCleanParts r ps) : renderPath r ps = lit "." ↔ r = false ∧ ps = [] := by
  have hm := h.mem
  unfold renderPath
  cases r with
  | true => simp only [if_true]; constructor
            · intro e; exact absurd (congrArg List.head? e) (by simp [slash]; decide)
            · rintro ⟨h, -⟩; cases h
  | false =>
    simp only [Bool.false_eq_true, if_false, true_and]
    by_cases e : ps = []
    · simp [e]
    · rw [if_neg e]
      constructor
      · intro h
        have h2 := splitSlash_join ps e (fun q hq => (hm q hq).2.2)
        rw [h] at h2
        have : splitSlash (lit ".") = [lit "."] := by decide
        rw [this] at h2
        exact absurd rfl (hm (lit ".") (by rw [← h2]; simp)).2.1
      · intro h; exact absurd h e

theorem render_slash {r : Bool} {ps : List Str} (h : IsCleanParts r ps) : renderPath r ps = [slash] ↔ r = true ∧ ps = [] := by
  have hm := h.mem
  unfold renderPath
  cases r with
  | true =>
    simp only [if_true, true_and]
    constructor
    · intro e
      injection e with _ e
      by_contra hne
      exact joinSlash_ne_nil hne (fun p hp => (hm p hp).1) e
    · rintro rfl; rfl
  | false =>
    simp only [Bool.false_eq_true, if_false, false_and, iff_false]
    by_cases e : ps = []
    · simp [e]; decide
    · rw [if_neg e]
      intro h
      have := joinSlash_rooted hm
      rw [h] at this
      simp [isRooted] at this

theorem walkedPath_eq (root : Str) (ps : List Str) (hps : ps ≠ []) : walkedPath root ps = renderPath (isRooted root) (cleanParts (isRooted root) (splitSlash root) ++ ps) := by
  have hc := isCleanParts (isRooted root) root
  unfold walkedPath
  generalize hr : isRooted root = r at *
  have hcl : clean root = renderPath r (cleanParts r (splitSlash root)) := by unfold clean; rw [hr]
  rw [hcl]
  generalize cleanParts r (splitSlash root) = cs at *
  have hj : ∀ cs : List Str, cs ≠ [] → joinSlash (cs ++ ps) = joinSlash cs ++ slash :: joinSlash ps := by
    intro cs
    induction cs with
    | nil => intro h; exact absurd rfl h
    | cons c cs ih =>
      intro _
      cases cs with
      | nil => cases ps with
        | nil => exact absurd rfl hps
        | cons p ps => rfl
      | cons d cs =>
        have e1 : joinSlash (c :: d :: cs ++ ps) = c ++ slash :: joinSlash (d :: cs ++ ps) := rfl
        have e2 : joinSlash (c :: d :: cs) = c ++ slash :: joinSlash (d :: cs) := rfl
        rw [e1, e2, ih (by simp)]
        simp
  by_cases e : cs = []
  · subst e
    cases r with
    | false =>
      rw [if_pos ((render_dot hc).2 ⟨rfl, rfl⟩)]
      unfold renderPath
      simp [hps]
    | true =>
      rw [if_neg (fun h => by have := (render_dot hc).1 h; simp at this), if_pos ((render_slash hc).2 ⟨rfl, rfl⟩)]
      unfold renderPath
      simp
  · rw [if_neg (fun h => e ((render_dot hc).1 h).2), if_neg (fun h => e ((render_slash hc).1 h).2)]
    unfold renderPath
    rw [hj cs e]
    cases r <;> simp [e]

theorem join_root {root n : Str} (hroot : root ≠ []) (hn : GoodName n) : joinPath root n = walkedPath root [n] := by
  rw [walkedPath_eq root [n] (by simp)]
  unfold joinPath
  rw [if_neg hroot]
  unfold clean
  rw [isRooted_append hroot, splitSlash_append, splitSlash_noslash hn.2.2.2, cleanParts_snoc hn]

theorem cleanDir_walked (root : Str) {n : Str} (hn : GoodName n) : CleanDir (walkedPath root [n]) := by
  have hc := (isCleanParts (isRooted root) root).snoc hn
  rw [walkedPath_eq root [n] (by simp)]
  exact ⟨clean_render hc, fun h => by have := ((render_dot hc).1 h).2; simp at this, fun h => by have := ((render_slash hc).1 h).2; simp at this⟩

theorem walkedPath_cons (root n : Str) (ps : List Str) : walkedPath root [n] ++ suffix ps = walkedPath root (n :: ps) := by
  have : joinSlash [n] ++ suffix ps = joinSlash (n :: ps) := by
    cases ps with
    | nil => simp [suffix, joinSlash]
    | cons p ps => rw [suffix_eq (by simp)]; rfl
  unfold walkedPath
  split
  · exact this
  · split
    · rw [← this]; rfl
    · rw [← this]; simp

theorem walkList_root {root : Str} (hroot : root ≠ []) : ∀ es : List (Str × Node), WFList es →
    walkList root es = (walkRList es).map fun ps => (walkedPath root ps, ps.getLastD [])
  | [], _ => rfl
  | (n, c) :: es, hw => by
    rw [WFList, WFPair] at hw
    rw [walkList, walkPair, walkRList, walkRPair, List.map_append, walkList_root hroot es hw.2, join_root hroot hw.1.1,
      walk_eq _ n c (cleanDir_walked root hw.1.1) hw.1.2, List.map_map]
    congr 1
    apply List.map_congr_left
    intro ps _
    simp only [Function.comp, walkedPath_cons]
    cases ps <;> rfl

theorem addFiles_cut (root : Str) : ∀ (l : List (List Str)) (files : Files), (∀ ps ∈ l, root.length + 1 ≤ (walkedPath root ps).length) →
    addFiles (root.length + 1) files (l.map fun ps => (walkedPath root ps, ps.getLastD [])) =
      some fun d => if d ∈ categories then files d ++ (l.filter fun ps => decide (ps.getLastD [] ≠ lit ".DS_Store" ∧ dirOf (cutPath root ps) = d)).map (cutPath root) else files d
  | [], files, _ => by simp [addFiles]
  | ps :: l, files, h => by
    have hrec := fun files' => addFiles_cut root l files' (fun qs hq => h qs (List.mem_cons_of_mem _ hq))
    rw [List.map_cons, addFiles]
    unfold addFile
    rw [if_neg (by have := h ps (by simp); omega)]
    change Option.bind (if ps.getLastD [] = lit ".DS_Store" then some files else if dirOf (cutPath root ps) ∈ categories then
      some fun d => if d = dirOf (cutPath root ps) then files d ++ [cutPath root ps] else files d else some files) _ = _
    by_cases h1 : ps.getLastD [] = lit ".DS_Store"
    · rw [if_pos h1, Option.bind_some, hrec]
      congr 1; funext d
      rw [List.filter_cons_of_neg (by simp only [decide_eq_true_eq]; exact fun h => h.1 h1)]
    · rw [if_neg h1]
      by_cases h2 : dirOf (cutPath root ps) ∈ categories
      · rw [if_pos h2, Option.bind_some, hrec]
        congr 1; funext d
        by_cases e : d = dirOf (cutPath root ps)
        · rw [List.filter_cons_of_pos (by simp only [decide_eq_true_eq]; exact ⟨h1, e.symm⟩), if_pos (by rw [e]; exact h2), if_pos e, if_pos (by rw [e]; exact h2)]
          simp
        · rw [List.filter_cons_of_neg (by simp only [decide_eq_true_eq]; exact fun h => e h.2.symm), if_neg e]
      · rw [if_neg h2, Option.bind_some, hrec]
        congr 1; funext d
        by_cases hd : d ∈ categories
        · rw [if_pos hd, if_pos hd, List.filter_cons_of_neg]
          simp only [decide_eq_true_eq]
          rintro ⟨-, e⟩; exact h2 (by rw [e]; exact hd)
        · rw [if_neg hd, if_neg hd]

theorem addFiles_short (root : Str) : ∀ (l : List (List Str)) (files : Files), (∃ ps ∈ l, (walkedPath root ps).length < root.length + 1) →
    addFiles (root.length + 1) files (l.map fun ps => (walkedPath root ps, ps.getLastD [])) = none
  | [], files, h => by obtain ⟨ps, h, -⟩ := h; cases h
  | ps :: l, files, h => by
    rw [List.map_cons, addFiles]
    by_cases hs : (walkedPath root ps).length < root.length + 1
    · unfold addFile
      rw [if_pos hs]; rfl
    · have h' : ∃ qs ∈ l, (walkedPath root qs).length < root.length + 1 := by
        obtain ⟨qs, h1, h2⟩ := h
        rcases List.mem_cons.1 h1 with rfl | h1
        · exact absurd h2 hs
        · exact ⟨qs, h1, h2⟩
      cases addFile (root.length + 1) files (walkedPath root ps) (ps.getLastD []) with
      | none => rfl
      | some f => exact addFiles_short root l f h'

/-- **C81** `Scan` of any root that is a directory, however it is written: it crashes exactly if the path of some file below it (outside `.git`) has fewer bytes than the root as
it is written and one more; otherwise each category has exactly the files, `.DS_Store` aside, whose path is in that category after so many bytes are cut off. -/
theorem C81_scan_any_root (w : World) (root : Str) (es : List (Str × Node)) (hat : w.at root = .node (.dir es)) (hwf : (Node.dir es).WF)
    (hgit : baseName root ≠ lit ".git") :
    ∃ l : List (List Str), l.Nodup ∧ (∀ ps, ps ∈ l ↔ Reached es ps) ∧
      ((∃ ps, Reached es ps ∧ (walkedPath root ps).length ≤ root.length) → scan w root = .panic) ∧
      ((∀ ps, Reached es ps → root.length < (walkedPath root ps).length) →
        scan w root = .ok fun d => if d ∈ categories then
          (l.filter fun ps => decide (ps.getLast? ≠ some (lit ".DS_Store") ∧ dirOf (cutPath root ps) = d)).map (cutPath root) else []) := by
  have hroot : root ≠ [] := by
    rintro rfl
    simp [World.at] at hat
  have hw := hwf
  rw [Node.WF] at hw
  refine ⟨walkRList es, walkRList_nodup es hw.1 hw.2, mem_walkRList_reached hwf, ?_, ?_⟩
  · rintro ⟨ps, h1, h2⟩
    unfold scan
    rw [hat]
    simp only
    rw [walk, if_neg hgit, walkList_root hroot es hw.2, addFiles_short root _ _ ⟨ps, (mem_walkRList_reached hwf ps).2 h1, by omega⟩]
  · intro h
    unfold scan
    rw [hat]
    simp only
    rw [walk, if_neg hgit, walkList_root hroot es hw.2, addFiles_cut root _ _ (fun ps hps => h ps ((mem_walkRList_reached hwf ps).1 hps))]
    simp only [List.nil_append]
    congr 1; funext d
    split
    · congr 1
      apply List.filter_congr
      intro ps hps
      have hne := walkRList_ne_nil es ps hps
      rw [List.getLastD_eq_getLast?, List.getLast?_eq_some_getLast hne]
      simp
    · rfl

/-- **C81** When `Scan` crashes: exactly if the root is a file, or a directory not called `.git` with a file below it (outside `.git`) whose path has not more bytes than the root as
it is written. -/
theorem C81_panics_iff (w : World) (root : Str) (hwf : ∀ nd, w.at root = .node nd → nd.WF) :
    scan w root = .panic ↔ (∃ c, w.at root = .node (.file c)) ∨
      ∃ es, w.at root = .node (.dir es) ∧ baseName root ≠ lit ".git" ∧ ∃ ps, Reached es ps ∧ (walkedPath root ps).length ≤ root.length := by
  cases hat : w.at root with
  | noEnt => unfold scan; rw [hat]; simp
  | notDir => unfold scan; rw [hat]; simp
  | node nd =>
    cases nd with
    | file c =>
      simp only [C71_file_root_panics w root c hat, true_iff]
      exact Or.inl ⟨c, rfl⟩
    | dir es =>
      by_cases hg : baseName root = lit ".git"
      · constructor
        · intro h
          unfold scan at h
          rw [hat] at h
          simp only at h
          rw [walk, if_pos hg, addFiles] at h
          cases h
        · rintro (⟨c, h⟩ | ⟨es', -, h, -⟩)
          · cases h
          · exact absurd hg h
      · obtain ⟨l, -, -, h1, h2⟩ := C81_scan_any_root w root es hat (hwf _ hat) hg
        constructor
        · intro h
          right
          refine ⟨es, rfl, hg, ?_⟩
          by_contra hno
          rw [h2 (fun ps hps => by by_contra hc; exact hno ⟨ps, hps, by omega⟩)] at h
          cases h
        · rintro (⟨c, h⟩ | ⟨es', h, -, h3⟩)
          · cases h
          · injection h with h
            injection h with h
            subst h
            exact h1 h3

theorem clean_slash_end {s : Str} (h : s ≠ []) : clean (s ++ [slash]) = clean s := by
  unfold clean
  rw [isRooted_append h, splitSlash_append s []]
  have : cleanParts (isRooted s) (splitSlash s ++ splitSlash []) = cleanParts (isRooted s) (splitSlash s) := by
    unfold cleanParts
    rw [List.foldl_append, splitSlash, List.foldl_cons, List.foldl_nil]
    congr 1
  rw [this]

theorem render_category {qs : List Str} (h : IsCleanParts false qs) {d : Str} (hd : d ∈ categories) : renderPath false qs = d ↔ qs = [d] := by
  have hm := h.mem
  unfold renderPath
  simp only [Bool.false_eq_true, if_false]
  constructor
  · intro e
    split at e
    · rw [← e] at hd; exact absurd hd (by decide)
    · rename_i hne
      have h2 := splitSlash_join qs hne (fun q hq => (hm q hq).2.2)
      rw [e, splitSlash_noslash (category_noslash d hd)] at h2
      exact h2.symm
  · rintro rfl
    rfl

/-- The directory of a path of several elements. -/
theorem dirOf_parts {q : Str} {qs : List Str} {n : Str} (hq : q ≠ []) (hqn : slash ∉ q) (hqs : ∀ p ∈ qs, slash ∉ p) (hn : slash ∉ n) :
    dirOf (joinSlash (q :: qs ++ [n])) = renderPath false (cleanParts false (q :: qs)) := by
  unfold dirOf
  rw [joinSlash_append _ n (by simp), upToSlash_snoc _ _ hn]
  have hne : joinSlash (q :: qs) ≠ [] := by
    cases qs with
    | nil => exact hq
    | cons p ps => simp [joinSlash]
  have hr : isRooted (joinSlash (q :: qs)) = false := by
    cases q with
    | nil => exact absurd rfl hq
    | cons b q =>
      have e : (joinSlash ((b :: q) :: qs)) = b :: (joinSlash ((b :: q) :: qs)).tail := by cases qs <;> rfl
      rw [e]
      unfold isRooted
      rw [List.mem_cons, not_or] at hqn
      simp only [beq_eq_false_iff_ne]
      exact fun e => hqn.1 e.symm
  rw [clean_slash_end hne]
  unfold clean
  rw [hr, splitSlash_join (q :: qs) (by simp)]
  intro p hp
  rcases List.mem_cons.1 hp with rfl | hp
  · exact hqn
  · exact hqs p hp

theorem cleanParts_first {q : Str} (hq : q ≠ []) {qs : List Str} (hqs : ∀ p ∈ qs, GoodName p) :
    cleanParts false (q :: qs) = if q = lit "." then qs else q :: qs := by
  have aux : ∀ (l st : List Str), (∀ g ∈ l, GoodName g) → l.foldl (pushPart false) st = l.reverse ++ st := by
    intro l
    induction l with
    | nil => intro st _; rfl
    | cons g l ih =>
      intro st h
      rw [List.foldl_cons, pushPart_good (h g (by simp)), ih _ (fun g' h' => h g' (by simp [h'])), List.reverse_cons, List.append_assoc]; rfl
  unfold cleanParts
  rw [List.foldl_cons, aux _ _ hqs]
  unfold pushPart
  by_cases h : q = lit "."
  · rw [if_pos (Or.inr h), if_pos h]; simp
  · rw [if_neg (by rintro (e | e) <;> contradiction), if_neg h]
    split <;> simp

theorem rooted_dirOf (s : Str) (d : Str) (hd : d ∈ categories) : dirOf (slash :: s) ≠ d := by
  intro e
  unfold dirOf at e
  have : ∃ t, upToSlash (slash :: s) = slash :: t := by
    unfold upToSlash
    rw [List.reverse_cons]
    have : ∀ l : Str, ∃ l', (l ++ [slash]).dropWhile (· ≠ slash) = l' ++ [slash] := by
      intro l
      induction l with
      | nil => exact ⟨[], by simp⟩
      | cons b l ih =>
        rw [List.cons_append, List.dropWhile_cons]
        split
        · exact ih
        · exact ⟨b :: l, rfl⟩
    obtain ⟨l', h⟩ := this s.reverse
    rw [h]
    exact ⟨l'.reverse, by simp⟩
  obtain ⟨t, h⟩ := this
  rw [h] at e
  have hh : (clean (slash :: t)).head? = some slash := by
    unfold clean
    have : isRooted (slash :: t) = true := by simp [isRooted]
    rw [this]; rfl
  rw [e] at hh
  have : ∀ d ∈ categories, d.head? ≠ some slash := by decide
  exact this d hd hh

/-- Which files are in a category after the first byte of their path is cut off. -/
theorem dirOf_drop {ps : List Str} (hg : ∀ p ∈ ps, GoodName p) (hne : ps ≠ []) {d : Str} (hd : d ∈ categories) :
    dirOf ((joinSlash ps).drop 1) = d ↔ ∃ b n, ps = [b :: d, n] ∨ ps = [b :: lit ".", d, n] := by
  have hdot : lit "." ∉ categories := by decide
  cases ps with
  | nil => exact absurd rfl hne
  | cons p rest =>
    cases p with
    | nil => exact absurd rfl (hg [] (by simp)).1
    | cons b q =>
      have hgq : slash ∉ q := fun h => (hg (b :: q) (by simp)).2.2.2 (by simp [h])
      have hgr : ∀ p ∈ rest, GoodName p := fun p hp => hg p (by simp [hp])
      have hcut : (joinSlash ((b :: q) :: rest)).drop 1 = joinSlash (q :: rest) := by cases rest <;> rfl
      rw [hcut]
      induction rest using List.reverseRecOn with
      | nil =>
        constructor
        · intro e
          change dirOf q = d at e
          rw [dirOf_single hgq] at e
          rw [← e] at hd; exact absurd hd hdot
        · rintro ⟨b', n, h | h⟩ <;> cases h
      | append_singleton qs n _ =>
        have hn : GoodName n := hgr n (by simp)
        have hgs : ∀ p ∈ qs, GoodName p := fun p hp => hgr p (by simp [hp])
        by_cases hq : q = []
        · subst hq
          have : ∃ t, joinSlash ([] :: (qs ++ [n])) = slash :: t := by
            cases qs <;> exact ⟨_, rfl⟩
          obtain ⟨t, ht⟩ := this
          rw [ht]
          constructor
          · intro e; exact absurd e (rooted_dirOf t d hd)
          · rintro ⟨b', m, h | h⟩
            · injection h with h _
              injection h with _ h
              rw [← h] at hd; exact absurd hd (by decide)
            · injection h with h _
              injection h with _ h
              cases h
        · have e1 : joinSlash (q :: (qs ++ [n])) = joinSlash (q :: qs ++ [n]) := rfl
          rw [e1, dirOf_parts hq hgq (fun p hp => (hgs p hp).2.2.2) hn.2.2.2, render_category _ hd, cleanParts_first hq hgs]
          · split
            · rename_i hqd
              subst hqd
              constructor
              · rintro rfl
                exact ⟨b, n, Or.inr rfl⟩
              · rintro ⟨b', m, h | h⟩
                · injection h with h _
                  injection h with _ h
                  rw [← h] at hd; exact absurd hd hdot
                · injection h with _ h
                  have := congrArg List.dropLast h
                  simpa using this
            · rename_i hqd
              constructor
              · intro h
                injection h with h1 h2
                subst h1 h2
                exact ⟨b, n, Or.inl rfl⟩
              · rintro ⟨b', m, h | h⟩
                · injection h with h h2
                  injection h with _ h
                  have := congrArg List.dropLast h2
                  simp at this
                  rw [h, this]
                · injection h with h h2
                  injection h with _ h
                  exact absurd h hqd
          · have := isCleanParts false (joinSlash (q :: qs))
            rwa [splitSlash_join (q :: qs) (by simp)] at this
            intro p hp
            rcases List.mem_cons.1 hp with rfl | hp
            · exact hgq
            · exact (hgs p hp).2.2.2

theorem reached_good {es : List (Str × Node)} (hwf : (Node.dir es).WF) {ps : List Str} (h : Reached es ps) : ∀ p ∈ ps, GoodName p := by
  rw [Node.WF] at hwf
  exact walkRList_good es hwf.2 ps ((mem_walkRList_reached (by rw [Node.WF]; exact hwf) ps).2 h)

theorem at_slash_end {w : World} {r : Str} {es : List (Str × Node)} (hat : w.at r = .node (.dir es)) : w.at (r ++ [slash]) = .node (.dir es) := by
  have hr : r ≠ [] := by
    rintro rfl
    simp [World.at] at hat
  unfold World.at at *
  rw [if_neg hr] at hat
  rw [if_neg (by simp)]
  have : w.parts (r ++ [slash]) = w.parts r := by
    unfold World.parts
    rw [isRooted_append hr, splitSlash_append r [], ← List.append_assoc]
    generalize (if isRooted r = true then [] else w.cwd) ++ splitSlash r = l
    unfold cleanParts
    rw [List.foldl_append, splitSlash, List.foldl_cons, List.foldl_nil]
    congr 1
  rw [this]
  split at hat
  · rename_i c e
    split at hat <;> cases hat
  · rw [hat]

theorem baseName_slash_end (r : Str) (h : r ≠ []) : baseName (r ++ [slash]) = baseName r := by
  unfold baseName
  rw [List.reverse_append]
  simp [h]

/-- **C82** With a slash at the end of the root, `Scan` does not crash, and it lists under a category `d` the files of the directories whose name is `d` with one byte before it, and
the files of the directories `d` in directories whose name is one byte and a dot: not the entries of the store. -/
theorem C82_trailing_slash (w : World) (r : Str) (es : List (Str × Node)) (hr : CleanDir r) (hat : w.at r = .node (.dir es)) (hwf : (Node.dir es).WF)
    (hgit : baseName r ≠ lit ".git") :
    ∃ files, scan w (r ++ [slash]) = .ok files ∧ ∀ d p, p ∈ files d ↔ d ∈ categories ∧ ∃ b n, n ≠ lit ".DS_Store" ∧
      ((Reached es [b :: d, n] ∧ p = d ++ slash :: n) ∨ (Reached es [b :: lit ".", d, n] ∧ p = lit "./" ++ d ++ slash :: n)) := by
  obtain ⟨l, -, hl, -, h2⟩ := C81_scan_any_root w (r ++ [slash]) es (at_slash_end hat) hwf (by rw [baseName_slash_end r hr.ne_nil]; exact hgit)
  have hwp : ∀ ps, walkedPath (r ++ [slash]) ps = r ++ slash :: joinSlash ps := by
    intro ps
    unfold walkedPath
    rw [clean_slash_end hr.ne_nil, hr.1, if_neg hr.2.1, if_neg hr.2.2]
  have hcut : ∀ ps, cutPath (r ++ [slash]) ps = (joinSlash ps).drop 1 := by
    intro ps
    unfold cutPath
    rw [hwp, List.length_append, show r ++ slash :: joinSlash ps = (r ++ [slash]) ++ joinSlash ps by simp]
    rw [← List.drop_drop, List.drop_left' (by simp)]
  refine ⟨_, h2 ?_, ?_⟩
  · intro ps hps
    rw [hwp]
    have hne := joinSlash_ne_nil (reached_file_nil hps) (fun p hp => (reached_good hwf hps p hp).1)
    have := List.length_pos_iff.2 hne
    simp only [List.length_append, List.length_cons, List.length_nil]
    omega
  · intro d p
    by_cases hd : d ∈ categories
    · rw [if_pos hd]
      simp only [hd, true_and, List.mem_map, List.mem_filter, decide_eq_true_eq, hl, hcut]
      constructor
      · rintro ⟨ps, ⟨h1, h3, h4⟩, rfl⟩
        obtain ⟨b, n, h5⟩ := (dirOf_drop (reached_good hwf h1) (reached_file_nil h1) hd).1 h4
        rcases h5 with rfl | rfl
        · exact ⟨b, n, by simpa using h3, Or.inl ⟨h1, rfl⟩⟩
        · exact ⟨b, n, by simpa using h3, Or.inr ⟨h1, rfl⟩⟩
      · rintro ⟨b, n, h1, ⟨h3, rfl⟩ | ⟨h3, rfl⟩⟩
        · exact ⟨_, ⟨h3, by simpa using h1, (dirOf_drop (reached_good hwf h3) (by simp) hd).2 ⟨b, n, Or.inl rfl⟩⟩, rfl⟩
        · exact ⟨_, ⟨h3, by simpa using h1, (dirOf_drop (reached_good hwf h3) (by simp) hd).2 ⟨b, n, Or.inr rfl⟩⟩, rfl⟩
    · rw [if_neg hd]
      simp [hd]

/-- Concrete cases: a root written with `./` crashes as soon as a file's path is short enough, and a root with a slash at its end shows other directories. -/
example : ∃ (w : World) (es : List (Str × Node)), w.at (lit "././v") = .node (.dir es) ∧ (Node.dir es).WF ∧ baseName (lit "././v") ≠ lit ".git" ∧
    Reached es [lit "ab"] ∧ (walkedPath (lit "././v") [lit "ab"]).length ≤ (lit "././v").length := by
  refine ⟨⟨.dir [(lit "v", .dir [(lit "ab", .file [])])], []⟩, [(lit "ab", .file [])], rfl, ?_, by decide, ⟨⟨[], rfl⟩, by decide⟩, by decide⟩
  simp only [Node.WF, WFList, WFPair]
  exact ⟨by simp, ⟨by decide, trivial⟩, trivial⟩

example : Reached [(lit "xpeople", .dir [(lit "me", .file [])])] [lit "xpeople", lit "me"] ∧ CleanDir (lit "/v") := ⟨⟨⟨[], rfl⟩, by decide⟩, by decide, by decide, by decide⟩

end Verif.Repo
