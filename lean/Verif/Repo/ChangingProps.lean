import Verif.Repo.Changing
import Verif.Repo.LinksProps
/-
C143: Scan while the store changes.
-/
namespace Verif.Repo
open Spec

/-- At every moment the names in a directory are proper and different. -/
def Hist.WF (h : Hist) : Prop := ∀ s ps l, h.names s ps = some l → l.Pairwise (fun x y => strLt x y = true) ∧ ∀ n ∈ l, GoodName n

theorem Hist.Has.good {h : Hist} (hw : h.WF) {s ps n} (hh : h.Has s ps n) : GoodName n := by
  obtain ⟨l, e, hm⟩ := hh
  exact (hw _ _ _ e).2 n hm

theorem Hist.Lists.good {h : Hist} (hw : h.WF) {ps a b ns} (hl : h.Lists ps a b ns) : ∀ n ∈ ns, GoodName n := by
  intro n hn
  obtain ⟨s, -, -, hh⟩ := hl.sound n hn
  exact hh.good hw

/-- What a walk that met no error has seen. -/
inductive Seen (h : Hist) : Nat → Nat → List Str → Str → XNode → Prop
  | file {t s t' ps name} : t < s → s ≤ t' → h.lstat s ps = some false → Seen h t t' ps name .file
  | git {t s t' ps name} : t < s → s ≤ t' → h.lstat s ps = some true → name = lit ".git" → Seen h t t' ps name (.dir true [])
  | dir {t s a b t' ps name es} : t < s → h.lstat s ps = some true → s < a → b ≤ t' → h.Lists ps a b (es.map (·.1)) → name ≠ lit ".git" →
      (∀ e ∈ es, Seen h b t' (ps ++ [e.1]) e.1 e.2) → Seen h t t' ps name (.dir true es)

theorem Seen.mono {h : Hist} {t t' ps name nd} (hs : Seen h t t' ps name nd) : ∀ {u u'}, u ≤ t → t' ≤ u' → Seen h u u' ps name nd := by
  induction hs with
  | file h1 h2 h3 => intro u u' h4 h5; exact .file (by omega) (by omega) h3
  | git h1 h2 h3 h6 => intro u u' h4 h5; exact .git (Nat.lt_of_le_of_lt h4 h1) (by omega) h3 h6
  | dir h1 h2 h3 h6 h7 h8 h9 ih => intro u u' h4 h5; exact .dir (Nat.lt_of_le_of_lt h4 h1) h2 h3 (by omega) h7 h8 fun e he => ih e he (Nat.le_refl _) h5

theorem Walks.le {h : Hist} {t job l t'} (hw : Walks h t job l t') : t ≤ t' := by
  induction hw with
  | missing h1 => omega
  | file h1 => omega
  | unreadable h1 _ h2 => omega
  | git h1 _ h2 h3 _ => have := h3.le; omega
  | dir h1 _ h2 h3 _ _ ih => have := h3.le; omega
  | nil => omega
  | stop _ _ ih => exact ih
  | next _ _ _ ih1 ih2 => omega

/-- A job that has been done without an error: what it has seen. -/
def Done (h : Hist) (t : Nat) (l : List Visit) (t' : Nat) : Job → Prop
  | .node ps path name => ∃ nd : XNode, nd.WF ∧ xwalk path name nd = l ∧ Seen h t t' ps name nd
  | .list ps path ns => (∀ n ∈ ns, GoodName n) → ∃ es : List (Str × XNode), es.map (·.1) = ns ∧ XWFList es ∧ xwalkList path es = l ∧ ∀ e ∈ es, Seen h t t' (ps ++ [e.1]) e.1 e.2

theorem Walks.done {h : Hist} (hwf : h.WF) {t job l t'} (hw : Walks h t job l t') : Visit.error ∉ l → Done h t l t' job := by
  induction hw with
  | missing h1 => intro he; exact absurd List.mem_cons_self he
  | file h1 h2 => intro he; exact ⟨.file, by simp [XNode.WF], by rw [xwalk], .file h1 (Nat.le_refl _) h2⟩
  | unreadable h1 _ h2 => intro he; exact absurd List.mem_cons_self he
  | git h1 h4 h2 h3 h5 =>
    intro he
    refine ⟨.dir true [], ?_, ?_, .git h1 (by have := h3.le; omega) h4 h5⟩
    · rw [XNode.WF, XWFList]; exact ⟨List.Pairwise.nil, trivial⟩
    · rw [xwalk, if_neg (by simp), if_pos h5]
  | dir h1 h4 h2 h3 h5 hw ih =>
    intro he
    obtain ⟨es, e1, e2, e3, e4⟩ := ih he (h3.good hwf)
    refine ⟨.dir true es, ?_, ?_, .dir h1 h4 h2 hw.le (e1 ▸ h3) h5 e4⟩
    · rw [XNode.WF]
      refine ⟨?_, e2⟩
      have := h3.sorted
      rw [← e1, List.pairwise_map] at this
      exact this
    · rw [xwalk, if_neg (by simp), if_neg h5, e3]
  | nil => intro _ _; exact ⟨[], rfl, by rw [XWFList]; trivial, by rw [xwalkList], fun e he => absurd he List.not_mem_nil⟩
  | stop _ h1 => intro he; exact absurd h1 he
  | next w1 _ w2 ih1 ih2 =>
    intro he hg
    rw [List.mem_append, not_or] at he
    obtain ⟨nd, a1, a2, a3⟩ := ih1 he.1
    obtain ⟨es, e1, e2, e3, e4⟩ := ih2 he.2 fun n hn => hg n (List.mem_cons_of_mem _ hn)
    refine ⟨(_, nd) :: es, by rw [List.map_cons, e1], ?_, by rw [xwalkList, xwalkPair, a2, e3], ?_⟩
    · rw [XWFList, XWFPair]
      exact ⟨⟨hg _ List.mem_cons_self, a1⟩, e2⟩
    · intro e hm
      rcases List.mem_cons.1 hm with rfl | hm
      · exact a3.mono (Nat.le_refl _) w2.le
      · exact (e4 e hm).mono w1.le (Nat.le_refl _)

theorem lookup_of_map_fst {es : List (Str × XNode)} {n : Str} (h : n ∈ es.map (·.1)) : ∃ nd, es.lookup n = some nd := by
  induction es with
  | nil => cases h
  | cons e es ih =>
    obtain ⟨m, c⟩ := e
    rw [List.lookup_cons]
    by_cases hm : (n == m) = true
    · rw [hm]; exact ⟨c, rfl⟩
    · rw [Bool.not_eq_true] at hm
      rw [hm]
      rw [List.map_cons, List.mem_cons] at h
      rcases h with h | h
      · rw [show n = m from h] at hm; simp at hm
      · exact ih h

theorem mem_of_lookup {es : List (Str × XNode)} {n : Str} {nd} (h : es.lookup n = some nd) : (n, nd) ∈ es := by
  obtain ⟨l1, l2, e, -⟩ := List.lookup_eq_some_iff.1 h
  rw [e]; simp

/-- The paths handed to the callback are not shorter than the path walked, and longer in the loop over the entries. -/
theorem Walks.paths {h : Hist} (hwf : h.WF) {t job l t'} (hw : Walks h t job l t') : match job with
    | .node _ path _ => CleanDir path → ∀ p n, Visit.file p n ∈ l → path.length ≤ p.length
    | .list _ path ns => CleanDir path → (∀ n ∈ ns, GoodName n) → ∀ p n, Visit.file p n ∈ l → path.length < p.length := by
  induction hw with
  | missing h1 => intro _ p n hm; simp at hm
  | file h1 h2 => intro _ p n hm; simp at hm; rw [hm.1]
  | unreadable h1 _ h2 => intro _ p n hm; simp at hm
  | git h1 h4 h2 h3 h5 => intro _ p n hm; simp at hm
  | dir h1 h4 h2 h3 h5 hw ih => intro hc p n hm; exact Nat.le_of_lt (ih hc (h3.good hwf) p n hm)
  | nil => intro _ _ p n hm; simp at hm
  | stop w1 h1 ih =>
    intro hc hg p n hm
    have hn := hg _ List.mem_cons_self
    have := ih (by rw [hc.join hn]; exact hc.snoc hn) p n hm
    rw [hc.join hn, List.length_append, List.length_cons] at this
    omega
  | next w1 _ w2 ih1 ih2 =>
    intro hc hg p n hm
    have hn := hg _ List.mem_cons_self
    rcases List.mem_append.1 hm with hm | hm
    · have := ih1 (by rw [hc.join hn]; exact hc.snoc hn) p n hm
      rw [hc.join hn, List.length_append, List.length_cons] at this
      omega
    · exact ih2 hc (fun n hn => hg n (List.mem_cons_of_mem _ hn)) p n hm

namespace Spec

/-- Between `t` and `t'` there is something below the root (or the root itself) for which `os.Lstat` fails, although it was found in its directory before, or a directory that cannot be
read. `.git` directories are not entered. -/
def Fails (h : Hist) (t t' : Nat) : Prop := ∃ ps, lit ".git" ∉ ps.dropLast ∧
  ((∃ s, t < s ∧ s ≤ t' ∧ h.lstat s ps = none ∧ (ps = [] ∨ ∃ qs n s', ps = qs ++ [n] ∧ t < s' ∧ s' < s ∧ h.Has s' qs n)) ∨
   ∃ s a, t < s ∧ s < a ∧ a ≤ t' ∧ h.lstat s ps = some true ∧ h.names a ps = none)

end Spec

/-- What is known when a job is begun: where the names come from. -/
def Begun (h : Hist) (t0 t : Nat) : Job → Prop
  | .node ps _ name => lit ".git" ∉ ps.dropLast ∧ (ps = [] ∨ ∃ qs s', ps = qs ++ [name] ∧ t0 < s' ∧ s' ≤ t ∧ h.Has s' qs name)
  | .list ps _ ns => lit ".git" ∉ ps ∧ ∀ n ∈ ns, ∃ s', t0 < s' ∧ s' ≤ t ∧ h.Has s' ps n

theorem Begun.child {h : Hist} {t0 t ps path n ns} (hb : Begun h t0 t (.list ps path (n :: ns))) : Begun h t0 t (.node (ps ++ [n]) (joinPath path n) n) := by
  refine ⟨by rw [List.dropLast_concat]; exact hb.1, Or.inr ?_⟩
  obtain ⟨s', h1, h2, h3⟩ := hb.2 n List.mem_cons_self
  exact ⟨ps, s', rfl, h1, h2, h3⟩

theorem Walks.fails {h : Hist} {t job l t'} (hw : Walks h t job l t') : ∀ {t0}, t0 ≤ t → Begun h t0 t job → Visit.error ∈ l → Fails h t0 t' := by
  induction hw with
  | missing h1 h2 =>
    intro t0 ht hb _
    refine ⟨_, hb.1, Or.inl ⟨_, by omega, Nat.le_refl _, h2, ?_⟩⟩
    rcases hb.2 with e | ⟨qs, s', e, a1, a2, a3⟩
    · exact Or.inl e
    · exact Or.inr ⟨qs, _, s', e, a1, by omega, a3⟩
  | file h1 h2 => intro _ _ _ he; simp at he
  | unreadable h1 h2 h3 h4 =>
    intro t0 ht hb _
    exact ⟨_, hb.1, Or.inr ⟨_, _, by omega, h3, Nat.le_refl _, h2, h4⟩⟩
  | git h1 h4 h2 h3 h5 => intro _ _ _ he; simp at he
  | dir h1 h4 h2 h3 h5 hw ih =>
    intro t0 ht hb he
    have := h3.le
    refine ih (by omega) ⟨?_, ?_⟩ he
    · rcases hb.2 with rfl | ⟨qs, s', rfl, -⟩
      · simp
      · have := hb.1
        rw [List.dropLast_concat] at this
        rw [List.mem_append, List.mem_singleton]
        rintro (e | e)
        · exact this e
        · exact h5 e.symm
    · intro n hn
      obtain ⟨s, a1, a2, a3⟩ := h3.sound n hn
      exact ⟨s, by omega, a2, a3⟩
  | nil => intro _ _ _ he; simp at he
  | stop w1 h1 ih =>
    intro t0 ht hb he
    exact ih ht hb.child he
  | next w1 h1 w2 ih1 ih2 =>
    intro t0 ht hb he
    have hle := w1.le
    refine ih2 (by omega) ⟨hb.1, fun n hn => ?_⟩ ((List.mem_append.1 he).resolve_left h1)
    obtain ⟨s', a1, a2, a3⟩ := hb.2 n (List.mem_cons_of_mem _ hn)
    exact ⟨s', a1, by omega, a3⟩

/-- **C143** (what is listed) If `Scan` of a cleaned root (not `.` or `/`, not named `.git`) ends normally while the store changes in any way: only names are listed that were found in a
category directory, which was found in the root before, and were found to be no directory after that, all during the scan; every entry whose directory and which itself exist unchanged all
the time is listed; nothing is listed twice, and every category is sorted. -/
theorem C143_scan (h : Hist) (root : Str) (t t' : Nat) (files : Files) (hwf : h.WF) (hroot : CleanDir root) (hgit : ¬ LastElement root (lit ".git"))
    (hs : Scans h root t (.ok files) t') :
    (∀ d p, p ∈ files d → d ∈ [lit "people", lit "email", lit "phone", lit "sites", lit "devices", lit "bank"] ∧ ∃ name, name ≠ lit ".DS_Store" ∧ p = d ++ lit "/" ++ name ∧
      ∃ s1 s2 s3 s4, t < s1 ∧ s1 < s2 ∧ s2 < s3 ∧ s3 < s4 ∧ s4 ≤ t' ∧
        h.Has s1 [] d ∧ h.lstat s2 [d] = some true ∧ h.Has s3 [d] name ∧ h.lstat s4 [d, name] = some false) ∧
    (∀ d ∈ [lit "people", lit "email", lit "phone", lit "sites", lit "devices", lit "bank"], ∀ name, name ≠ lit ".DS_Store" →
      (∀ s, t < s → s ≤ t' → h.Has s [] d ∧ h.lstat s [d] = some true ∧ h.Has s [d] name ∧ h.lstat s [d, name] = some false) → d ++ lit "/" ++ name ∈ files d) ∧
    ∀ d, (files d).Pairwise (fun a b => strLt a b = true) := by
  generalize ho : Outcome.ok files = out at hs
  cases hs with
  | missing => cases ho
  | @walk s l _ hts hp hw =>
    have hb := (C44_root_name root).2 hgit
    have hne : Visit.error ∉ l := by
      intro he
      have : ∀ (l : List Visit) (f : Files), Visit.error ∈ l → ∀ g, visitAll (root.length + 1) f l ≠ .ok g := by
        intro l
        induction l with
        | nil => intro _ he; cases he
        | cons v l ih =>
          intro f he g
          cases v with
          | error => rw [visitAll]; simp
          | file p n =>
            rw [visitAll]
            cases addFile (root.length + 1) f p n with
            | none => simp
            | some f' => exact ih f' ((List.mem_cons.1 he).resolve_left (by simp)) g
      exact this l _ he files ho.symm
    obtain ⟨nd, n1, n2, n3⟩ := hw.done hwf hne
    cases n3 with
    | file a1 a2 a3 =>
      rw [xwalk] at n2
      rw [← n2, visitAll] at ho
      unfold addFile at ho
      rw [if_pos (by omega)] at ho
      cases ho
    | git a1 a2 a3 a4 => exact absurd a4 hb
    | @dir _ s1 a b _ _ _ es a1 a2 a3 a4 a5 a6 a7 =>
      have hw' := n1
      rw [XNode.WF] at hw'
      have hx : xwalk root (baseName root) (.dir true es) = xwalkList root es := by rw [xwalk, if_neg (by simp), if_neg hb]
      have hun : ¬ Unreadable es := by
        rw [← error_xwalkList root es hw'.1 hw'.2, ← hx, n2]
        exact hne
      obtain ⟨files', f1, f2, f3⟩ := (C123_scan_partial root es hroot n1 hgit).2 hun
      rw [scanLinks, if_neg (by simp), n2, ← ho] at f1
      injection f1 with f1
      subst f1
      have hab := a5.le
      refine ⟨?_, ?_, f3⟩
      · intro d p hp
        obtain ⟨hd, name, nd2, g1, g2, g3, g4⟩ := (f2 d p).1 hp
        refine ⟨hd, name, g3, g4, ?_⟩
        rw [xlookup] at g1
        cases hl : es.lookup d with
        | none => rw [hl] at g1; cases g1
        | some nd1 =>
          rw [hl] at g1
          cases nd1 with
          | file => cases g1
          | link => cases g1
          | gone => cases g1
          | dir r ds =>
            simp only [xlookup] at g1
            have hm := mem_of_lookup hl
            obtain ⟨c1, c2, c3, c4⟩ := a5.sound d (List.mem_map.2 ⟨_, hm, rfl⟩)
            have hs1 := a7 _ hm
            simp only [List.nil_append] at hs1
            cases hs1 with
            | git => cases g1
            | @dir _ s2 a' b' _ _ _ _ d1 d2 d3 d4 d5 d6 d7 =>
              have hm2 := mem_of_lookup g1
              obtain ⟨e1, e2, e3, e4⟩ := d5.sound name (List.mem_map.2 ⟨_, hm2, rfl⟩)
              have hs2 := d7 _ hm2
              simp only [List.cons_append, List.nil_append] at hs2
              rcases g2 with rfl | rfl
              · cases hs2 with
                | @file _ s4 _ _ _ k1 k2 k3 => exact ⟨c1, s2, e1, s4, by omega, by omega, by omega, by omega, k2, c4, d2, e4, k3⟩
              · cases hs2
      · intro d hd name hname hall
        refine (f2 d _).2 ⟨hd, name, .file, ?_, Or.inl rfl, hname, rfl⟩
        have hmem : d ∈ es.map (·.1) := a5.complete d fun s x y => (hall s (by omega) (by omega)).1
        obtain ⟨nd1, hl⟩ := lookup_of_map_fst hmem
        rw [xlookup, hl]
        have hs1 := a7 _ (mem_of_lookup hl)
        simp only [List.nil_append] at hs1
        cases hs1 with
        | file k1 k2 k3 => exact absurd ((hall _ (by omega) (by omega)).2.1.symm.trans k3) (by simp)
        | git k1 k2 k3 k4 =>
          subst k4
          exact absurd hd (by decide)
        | @dir _ s2 a' b' _ _ _ ds d1 d2 d3 d4 d5 d6 d7 =>
          have hab' := d5.le
          simp only [xlookup]
          obtain ⟨nd2, hl2⟩ := lookup_of_map_fst (d5.complete name fun s x y => (hall s (by omega) (by omega)).2.2.1)
          rw [hl2]
          have hs2 := d7 _ (mem_of_lookup hl2)
          simp only [List.cons_append, List.nil_append] at hs2
          cases hs2 with
          | file => rfl
          | git k1 k2 k3 k4 => exact absurd ((hall _ (by omega) k2).2.2.2.symm.trans k3) (by simp)
          | dir k1 k2 k3 k4 k5 k6 k7 =>
            have := k5.le
            exact absurd ((hall _ (by omega) (by omega)).2.2.2.symm.trans k2) (by simp)

/-- **C143** (other ends) The error "Root directory does not exist" is returned only if that was so; the program ends with an error message only if, during the scan, something that was
found in its directory (or the root) has vanished before it was looked at, or a directory could not be read; it crashes only if the root is found to be no directory. -/
theorem C143_ends (h : Hist) (root : Str) (t t' : Nat) (out : Outcome Files) (hwf : h.WF) (hroot : CleanDir root) (hs : Scans h root t out t') :
    (out = .err → ∃ s, t < s ∧ s ≤ t' ∧ h.present s = false) ∧
    (out = .fatal → Fails h t t') ∧
    (out = .panic → ∃ s, t < s ∧ s ≤ t' ∧ h.lstat s [] = some false) := by
  cases hs with
  | missing h1 h2 => exact ⟨fun _ => ⟨t', h1, Nat.le_refl _, h2⟩, by simp, by simp⟩
  | @walk s l _ hts hp hw =>
    have key : ∀ (l : List Visit) (f : Files), visitAll (root.length + 1) f l ≠ .err ∧ (visitAll (root.length + 1) f l = .fatal → Visit.error ∈ l) ∧
        (visitAll (root.length + 1) f l = .panic → ∃ p n, Visit.file p n ∈ l ∧ p.length < root.length + 1) := by
      intro l
      induction l with
      | nil => intro f; simp [visitAll]
      | cons v l ih =>
        intro f
        cases v with
        | error => simp [visitAll]
        | file p n =>
          rw [visitAll]
          cases ha : addFile (root.length + 1) f p n with
          | none =>
            refine ⟨by simp, by simp, fun _ => ⟨p, n, List.mem_cons_self, ?_⟩⟩
            by_contra hlt
            unfold addFile at ha
            rw [if_neg hlt] at ha
            simp only at ha
            split at ha
            · cases ha
            · split at ha <;> cases ha
          | some f' =>
            obtain ⟨i1, i2, i3⟩ := ih f'
            refine ⟨i1, fun e => List.mem_cons_of_mem _ (i2 e), fun e => ?_⟩
            obtain ⟨p', n', j1, j2⟩ := i3 e
            exact ⟨p', n', List.mem_cons_of_mem _ j1, j2⟩
    obtain ⟨k1, k2, k3⟩ := key l fun _ => []
    refine ⟨fun e => absurd e k1, fun e => ?_, fun e => ?_⟩
    · obtain ⟨ps, a1, a2⟩ := hw.fails (Nat.le_refl s) (t0 := s) ⟨by simp, Or.inl rfl⟩ (k2 e)
      refine ⟨ps, a1, ?_⟩
      rcases a2 with ⟨s', b1, b2, b3, b4⟩ | ⟨s', a, b1, b2, b3, b4, b5⟩
      · refine Or.inl ⟨s', by omega, b2, b3, ?_⟩
        rcases b4 with b4 | ⟨qs, n, s'', c1, c2, c3, c4⟩
        · exact Or.inl b4
        · exact Or.inr ⟨qs, n, s'', c1, by omega, c3, c4⟩
      · exact Or.inr ⟨s', a, by omega, b2, b3, b4, b5⟩
    · obtain ⟨p, n, j1, j2⟩ := k3 e
      cases hw with
      | missing => simp at j1
      | file h1 h2 => exact ⟨_, by omega, Nat.le_refl _, h2⟩
      | unreadable => simp at j1
      | git => simp at j1
      | dir h1 h4 h2 h3 h5 hw =>
        have := hw.paths hwf hroot (h3.good hwf) p n j1
        omega

/-- What is found at these names below a node. -/
def xat (nd : XNode) : List Str → XNode
  | [] => nd
  | n :: ps => match nd with
    | .dir _ es => match es.lookup n with
      | some c => xat c ps
      | none => .gone
    | _ => .gone

/-- The history of a tree that does not change. -/
def Hist.const (present : Bool) (nd : XNode) : Hist where
  present _ := present
  lstat _ ps := match xat nd ps with
    | .gone => none
    | .dir _ _ => some true
    | _ => some false
  names _ ps := match xat nd ps with
    | .dir true es => some (es.map (·.1))
    | _ => none

theorem xat_append (ps : List Str) (n : Str) : ∀ nd, xat nd (ps ++ [n]) = match xat nd ps with
    | .dir _ es => (es.lookup n).getD .gone
    | _ => .gone := by
  induction ps with
  | nil =>
    intro nd
    rw [List.nil_append]
    unfold xat
    cases nd with
    | dir r es =>
      simp only [xat]
      cases es.lookup n <;> rfl
    | _ => rfl
  | cons p ps ih =>
    intro nd
    rw [List.cons_append]
    unfold xat
    cases nd with
    | dir r es =>
      simp only
      cases es.lookup p with
      | none => rfl
      | some c => exact ih c
    | _ => rfl

theorem xwf_of_lookup {es : List (Str × XNode)} (h : XWFList es) {n c} (hl : es.lookup n = some c) : GoodName n ∧ c.WF := by
  have hm := mem_of_lookup hl
  clear hl
  induction es with
  | nil => cases hm
  | cons e es ih =>
    rw [XWFList] at h
    rcases List.mem_cons.1 hm with rfl | hm
    · have := h.1; rw [XWFPair] at this; exact this
    · exact ih h.2 hm

theorem xat_wf (ps : List Str) : ∀ nd : XNode, nd.WF → (xat nd ps).WF := by
  induction ps with
  | nil => intro nd h; exact h
  | cons p ps ih =>
    intro nd h
    unfold xat
    cases nd with
    | dir r es =>
      simp only
      rw [XNode.WF] at h
      cases hl : es.lookup p with
      | none => simp [XNode.WF]
      | some c => exact ih c (xwf_of_lookup h.2 hl).2
    | _ => simp [XNode.WF]

theorem xat_size (ps : List Str) : ∀ nd : XNode, xat nd ps = .gone ∨ sizeOf (xat nd ps) + ps.length ≤ sizeOf nd := by
  induction ps with
  | nil => intro nd; right; simp [xat]
  | cons p ps ih =>
    intro nd
    unfold xat
    cases nd with
    | dir r es =>
      simp only
      cases hl : es.lookup p with
      | none => left; rfl
      | some c =>
        have hm := List.sizeOf_lt_of_mem (mem_of_lookup hl)
        simp only [Prod.mk.sizeOf_spec] at hm
        rcases ih c with h | h
        · exact Or.inl h
        · right
          simp only [XNode.dir.sizeOf_spec, List.length_cons]
          omega
    | _ => left; rfl

theorem const_wf (present : Bool) (nd : XNode) (h : nd.WF) : (Hist.const present nd).WF := by
  intro s ps l e
  have hw := xat_wf ps nd h
  simp only [Hist.const] at e
  split at e
  · rename_i es he
    injection e with e
    subst e
    rw [he, XNode.WF] at hw
    refine ⟨List.pairwise_map.2 hw.1, fun n hn => ?_⟩
    obtain ⟨c, hl⟩ := lookup_of_map_fst hn
    exact (xwf_of_lookup hw.2 hl).1
  · cases e

/-- The visits up to the first error. -/
def upTo : List Visit → List Visit
  | [] => []
  | .error :: _ => [.error]
  | .file p n :: l => .file p n :: upTo l

theorem visitAll_upTo (n : Nat) (l : List Visit) : ∀ f, visitAll n f (upTo l) = visitAll n f l := by
  induction l with
  | nil => intro f; rfl
  | cons v l ih =>
    intro f
    cases v with
    | error => rfl
    | file p m =>
      rw [upTo, visitAll, visitAll]
      cases addFile n f p m with
      | none => rfl
      | some f' => exact ih f'

theorem error_upTo (l : List Visit) : Visit.error ∈ upTo l ↔ Visit.error ∈ l := by
  induction l with
  | nil => simp [upTo]
  | cons v l ih => cases v <;> simp [upTo, ih]

theorem upTo_stop (l l' : List Visit) (h : Visit.error ∈ l) : upTo (l ++ l') = upTo l := by
  induction l with
  | nil => cases h
  | cons v l ih =>
    cases v with
    | error => simp [upTo]
    | file p n =>
      simp only [List.cons_append, upTo, ih ((List.mem_cons.1 h).resolve_left (by simp))]

theorem upTo_next (l l' : List Visit) (h : Visit.error ∉ l) : upTo (l ++ l') = upTo l ++ upTo l' := by
  induction l with
  | nil => simp [upTo]
  | cons v l ih =>
    cases v with
    | error => exact absurd List.mem_cons_self h
    | file p n =>
      simp only [List.cons_append, upTo, ih fun h' => h (List.mem_cons_of_mem _ h')]

theorem strictly_unique {l l' : List Str} (h : l.Pairwise (fun x y => strLt x y = true)) (h' : l'.Pairwise (fun x y => strLt x y = true)) (he : ∀ n, n ∈ l ↔ n ∈ l') : l = l' := by
  have nd : ∀ {l : List Str}, l.Pairwise (fun x y => strLt x y = true) → l.Nodup := fun h => h.imp fun {a b} hab e => by
    rw [e] at hab
    exact absurd hab (by simp [strLt_irrefl])
  refine List.Perm.eq_of_pairwise ?_ h h' ((List.perm_ext_iff_of_nodup (nd h) (nd h')).2 he)
  intro a b _ _ h1 h2
  exact absurd (strLt_trans h1 h2) (by simp [strLt_irrefl])

theorem Hist.Lists.const {b nd ps s t ns} (hw : nd.WF) (h : (Hist.const b nd).Lists ps s t ns) : ∃ es, xat nd ps = .dir true es ∧ ns = es.map (·.1) := by
  obtain ⟨l, e⟩ := h.opened
  have hwf := const_wf b nd hw _ _ _ e
  have hk := e
  simp only [Hist.const] at e
  split at e
  · rename_i es he
    injection e with e
    refine ⟨es, he, strictly_unique h.sorted (e ▸ hwf.1) fun n => ⟨fun hn => ?_, fun hn => ?_⟩⟩
    · obtain ⟨s', -, -, l', e', hm⟩ := h.sound n hn
      simp only [Hist.const, he, Option.some.injEq] at e'
      rw [e']; exact hm
    · exact h.complete n fun s' _ _ => ⟨l, hk, e ▸ hn⟩
  · cases e

/-- The visits are those of the tree. -/
def Agrees (nd : XNode) (l : List Visit) : Job → Prop
  | .node ps path name => l = upTo (xwalk path name (xat nd ps))
  | .list ps path ns => ∀ es : List (Str × XNode), es.map (·.1) = ns → (∀ e ∈ es, xat nd (ps ++ [e.1]) = e.2) → l = upTo (xwalkList path es)

theorem Walks.const {b nd t job l t'} (hwf : nd.WF) (hw : Walks (Hist.const b nd) t job l t') : Agrees nd l job := by
  induction hw with
  | @missing t s ps path name h1 h2 =>
    simp only [Hist.const] at h2
    simp only [Agrees]
    cases hx : xat nd ps with
    | gone => rw [xwalk, upTo]
    | file => rw [hx] at h2; cases h2
    | link => rw [hx] at h2; cases h2
    | dir r es => rw [hx] at h2; cases h2
  | @file t s ps path name h1 h2 =>
    simp only [Hist.const] at h2
    simp only [Agrees]
    cases hx : xat nd ps with
    | gone => rw [hx] at h2; cases h2
    | file => rw [xwalk, upTo, upTo]
    | link => rw [xwalk, upTo, upTo]
    | dir r es => rw [hx] at h2; cases h2
  | @unreadable t s a ps path name h1 h2 h3 h4 =>
    simp only [Hist.const] at h2 h4
    simp only [Agrees]
    cases hx : xat nd ps with
    | gone => rw [hx] at h2; cases h2
    | file => rw [hx] at h2; cases h2
    | link => rw [hx] at h2; cases h2
    | dir r es =>
      cases r with
      | false => simp only [xwalk, if_true, upTo]
      | true => rw [hx] at h4; cases h4
  | git h1 h2 h3 h4 h5 =>
    obtain ⟨es, e1, e2⟩ := h4.const hwf
    simp only [Agrees]
    simp only [e1, xwalk, if_pos h5, upTo, Bool.true_eq_false, if_false]
  | @dir t s a b' ps path name ns l t' h1 h2 h3 h4 h5 w ih =>
    obtain ⟨es, e1, e2⟩ := h4.const hwf
    have hw' := xat_wf ps nd hwf
    rw [e1, XNode.WF] at hw'
    simp only [Agrees]
    simp only [e1, xwalk, if_neg h5, Bool.true_eq_false, if_false]
    refine ih es e2.symm fun e he => ?_
    obtain ⟨n, c⟩ := e
    rw [xat_append, e1]
    simp only
    have hs := hw'.1
    clear hw' h4 e1 e2
    induction es with
    | nil => cases he
    | cons e' es ihes =>
      rw [List.pairwise_cons] at hs
      rcases List.mem_cons.1 he with rfl | he'
      · simp
      · have hlt := hs.1 _ he'
        have : (n == e'.1) = false := by
          rw [beq_eq_false_iff_ne]
          intro e
          rw [e] at hlt
          exact absurd hlt (by simp [strLt_irrefl])
        obtain ⟨m, c'⟩ := e'
        rw [List.lookup_cons, this]
        exact ihes he' hs.2
  | nil =>
    intro es he _
    rw [List.map_eq_nil_iff] at he
    subst he
    simp only [xwalkList, upTo]
  | stop w1 h1 ih =>
    intro es he hx
    match es, he with
    | (m, c) :: es, he =>
      simp only [List.map_cons, List.cons.injEq] at he
      obtain ⟨rfl, he'⟩ := he
      have hc := hx _ List.mem_cons_self
      simp only [Agrees] at ih
      simp only at hc
      rw [hc] at ih
      rw [xwalkList, xwalkPair, upTo_stop _ _ ((error_upTo _).1 (ih ▸ h1)), ih]
  | next w1 h1 w2 ih1 ih2 =>
    intro es he hx
    match es, he with
    | (m, c) :: es, he =>
      simp only [List.map_cons, List.cons.injEq] at he
      obtain ⟨rfl, he'⟩ := he
      have hc := hx _ List.mem_cons_self
      simp only [Agrees] at ih1
      simp only at hc
      rw [hc] at ih1
      rw [xwalkList, xwalkPair, upTo_next _ _ (fun h' => h1 (ih1 ▸ (error_upTo _).2 h')), ih1, ih2 es he' fun e hm => hx e (List.mem_cons_of_mem _ hm)]

theorem jobs_end {h : Hist} (hwf : h.WF) (D : Nat) (hD : ∀ s ps, h.lstat s ps = some true → ps.length < D) : ∀ k ps, D ≤ ps.length + k → ∀ t path name,
    (∃ l t', Walks h t (.node ps path name) l t') ∧ ¬ Endless h t (.node ps path name) := by
  intro k
  induction k with
  | zero =>
    intro ps hp t path name
    constructor
    · cases hl : h.lstat (t + 1) ps with
      | none => exact ⟨_, _, .missing (by omega) hl⟩
      | some b =>
        cases b with
        | false => exact ⟨_, _, .file (by omega) hl⟩
        | true => have := hD _ _ hl; omega
    · rintro ⟨P, h1, h2⟩
      rcases h2 _ _ h1 with ⟨ps', path', name', s, a, b, ns, e, -, hl, -⟩ | ⟨_, _, _, _, e, -⟩
      · injection e with e
        subst e
        have := hD _ _ hl; omega
      · cases e
  | succ k ih =>
    intro ps hp t path name
    have hlist : ∀ ns t, (∃ l t', Walks h t (.list ps path ns) l t') ∧ ¬ Endless h t (.list ps path ns) := by
      intro ns
      induction ns with
      | nil =>
        intro t
        refine ⟨⟨_, _, .nil⟩, ?_⟩
        rintro ⟨P, h1, h2⟩
        rcases h2 _ _ h1 with ⟨_, _, _, _, _, _, _, e, -⟩ | ⟨_, _, _, _, e, -⟩ <;> cases e
      | cons n ns ihn =>
        intro t
        have hch : D ≤ (ps ++ [n]).length + k := by rw [List.length_append, List.length_singleton]; omega
        constructor
        · obtain ⟨l, t1, w⟩ := (ih (ps ++ [n]) hch t (joinPath path n) n).1
          by_cases he : Visit.error ∈ l
          · exact ⟨_, _, .stop w he⟩
          · obtain ⟨l2, t2, w2⟩ := (ihn t1).1
            exact ⟨_, _, .next w he w2⟩
        · rintro ⟨P, h1, h2⟩
          rcases h2 _ _ h1 with ⟨_, _, _, _, _, _, _, e, -⟩ | ⟨_, _, _, _, e, h3⟩
          · cases e
          · injection e with e1 e2 e3
            injection e3 with e3 e4
            subst e1 e2 e3 e4
            rcases h3 with h3 | ⟨l, s, -, -, h3⟩
            · exact (ih _ hch t _ _).2 ⟨P, h3, h2⟩
            · exact (ihn s).2 ⟨P, h3, h2⟩
    constructor
    · cases hl : h.lstat (t + 1) ps with
      | none => exact ⟨_, _, .missing (by omega) hl⟩
      | some b =>
        cases b with
        | false => exact ⟨_, _, .file (by omega) hl⟩
        | true =>
          cases hn : h.names (t + 2) ps with
          | none => exact ⟨_, _, .unreadable (by omega) hl (by omega) hn⟩
          | some ns =>
            have hli : h.Lists ps (t + 2) (t + 2) ns := ⟨Nat.le_refl _, ⟨ns, hn⟩, (hwf _ _ _ hn).1, fun n hm => ⟨t + 2, Nat.le_refl _, Nat.le_refl _, ns, hn, hm⟩, fun n hm => by
              obtain ⟨l, e, hx⟩ := hm (t + 2) (Nat.le_refl _) (Nat.le_refl _)
              rw [hn, Option.some.injEq] at e
              rw [e]; exact hx⟩
            by_cases hg : name = lit ".git"
            · exact ⟨_, _, .git (by omega) hl (by omega) hli hg⟩
            · obtain ⟨l, t', w⟩ := (hlist ns (t + 2)).1
              exact ⟨_, _, .dir (by omega) hl (by omega) hli hg w⟩
    · rintro ⟨P, h1, h2⟩
      rcases h2 _ _ h1 with ⟨ps', path', name', s, a, b, ns, e, -, -, -, -, -, h3⟩ | ⟨_, _, _, _, e, -⟩
      · injection e with e1 e2 e3
        subst e1 e2 e3
        exact (hlist ns b).2 ⟨P, h3, h2⟩
      · cases e

/-- **C143** (it ends) As long as the directories are never nested deeper than some `D`, however they change: `Scan` cannot go on for ever, and from every moment it can be carried out. -/
theorem C143_terminates (h : Hist) (root : Str) (D : Nat) (hwf : h.WF) (hD : ∀ s ps, h.lstat s ps = some true → ps.length < D) (t : Nat) :
    ¬ ScansForever h root t ∧ ∃ out t', Scans h root t out t' := by
  constructor
  · rintro ⟨s, -, -, he⟩
    exact (jobs_end hwf D hD D [] (by simp) s _ _).2 he
  · cases hp : h.present (t + 1) with
    | false => exact ⟨_, _, .missing (by omega) hp⟩
    | true =>
      obtain ⟨l, t', w⟩ := (jobs_end hwf D hD D [] (by simp) (t + 1) root (baseName root)).1
      exact ⟨_, _, .walk (by omega) hp w⟩

/-- **C143** (nothing changes) If the store does not change, `Scan` ends, and the outcome is the one of C123 (and so, without links and with everything readable, of C43). -/
theorem C143_unchanged (root : Str) (present : Bool) (nd : XNode) (hw : nd.WF) (t : Nat) :
    (∀ out t', Scans (.const present nd) root t out t' → out = scanLinks root (present, nd)) ∧
    (∃ t', Scans (.const present nd) root t (scanLinks root (present, nd)) t') ∧ ¬ ScansForever (.const present nd) root t := by
  have h1 : ∀ out t', Scans (.const present nd) root t out t' → out = scanLinks root (present, nd) := by
    intro out t' hs
    cases hs with
    | missing _ hp => rw [scanLinks, if_pos (show present = false from hp)]
    | walk _ hp w =>
      have := w.const hw
      simp only [Agrees] at this
      simp only [xat] at this
      rw [scanLinks, if_neg (by simp only [Hist.const] at hp; simp [hp]), this, visitAll_upTo]
  have h2 := C143_terminates (.const present nd) root (sizeOf nd + 1) (const_wf present nd hw) (fun s ps hl => by
    rcases xat_size ps nd with hg | hs
    · simp only [Hist.const, hg] at hl; cases hl
    · omega) t
  obtain ⟨h3, out, t', hs⟩ := h2
  exact ⟨h1, ⟨t', h1 out t' hs ▸ hs⟩, h3⟩

/-- A store in which some program creates `a`, `a/a`, `a/a/a`, ...: at moment `s` the directories are `s` deep. -/
def growing : Hist where
  present _ := true
  lstat s ps := if (∀ p ∈ ps, p = lit "a") ∧ ps.length ≤ s then some true else none
  names s ps := if (∀ p ∈ ps, p = lit "a") ∧ ps.length ≤ s then some (if ps.length < s then [lit "a"] else []) else none

theorem growing_wf : growing.WF := by
  intro s ps l e
  simp only [growing] at e
  split at e
  · injection e with e
    subst e
    split
    · exact ⟨by decide, by decide⟩
    · exact ⟨by decide, by decide⟩
  · cases e

theorem growing_lists {ps : List Str} {a b : Nat} {ns : List Str} (hp : ∀ p ∈ ps, p = lit "a") (hl : ps.length < a) (h : growing.Lists ps a b ns) : ns ≠ [] ∧ ∀ n ∈ ns, n = lit "a" := by
  constructor
  · have := h.complete (lit "a") fun s h1 h2 => ⟨[lit "a"], by simp only [growing]; rw [if_pos ⟨hp, by omega⟩, if_pos (by omega)], List.mem_cons_self⟩
    rintro rfl
    cases this
  · intro n hn
    obtain ⟨s, -, -, l, e, hm⟩ := h.sound n hn
    simp only [growing] at e
    split at e
    · injection e with e
      subst e
      split at hm
      · exact List.mem_singleton.1 hm
      · cases hm
    · cases e

/-- The jobs of a walk through the growing store. -/
def Growing (t : Nat) : Job → Prop
  | .node ps _ name => (∀ p ∈ ps, p = lit "a") ∧ ps.length ≤ t ∧ name ≠ lit ".git"
  | .list ps _ ns => (∀ p ∈ ps, p = lit "a") ∧ ps.length < t ∧ ns ≠ [] ∧ ∀ n ∈ ns, n = lit "a"

theorem Growing.child {t ps path n ns} (hg : Growing t (.list ps path (n :: ns))) : Growing t (.node (ps ++ [n]) (joinPath path n) n) := by
  obtain ⟨h1, h2, -, h3⟩ := hg
  have hn := h3 n List.mem_cons_self
  refine ⟨?_, by rw [List.length_append, List.length_singleton]; omega, ?_⟩
  · intro p hp
    rcases List.mem_append.1 hp with hp | hp
    · exact h1 p hp
    · rw [List.mem_singleton.1 hp]; exact hn
  · rw [hn]; decide

theorem growing_never {t job l t'} (hw : Walks growing t job l t') : ¬ Growing t job := by
  induction hw with
  | missing h1 h2 =>
    rintro ⟨g1, g2, g3⟩
    simp only [growing] at h2
    rw [if_pos ⟨g1, by omega⟩] at h2
    cases h2
  | file h1 h2 =>
    rintro ⟨g1, g2, g3⟩
    simp only [growing] at h2
    split at h2 <;> cases h2
  | unreadable h1 h2 h3 h4 =>
    rintro ⟨g1, g2, g3⟩
    simp only [growing] at h4
    rw [if_pos ⟨g1, by omega⟩] at h4
    cases h4
  | git h1 h4 h2 h3 h5 => rintro ⟨g1, g2, g3⟩; exact g3 h5
  | dir h1 h4 h2 h3 h5 hw ih =>
    rintro ⟨g1, g2, g3⟩
    have := h3.le
    obtain ⟨k1, k2⟩ := growing_lists g1 (by omega) h3
    exact ih ⟨g1, by omega, k1, k2⟩
  | nil => rintro ⟨_, _, h, _⟩; exact h rfl
  | stop _ _ ih => intro hg; exact ih hg.child
  | next _ _ _ ih1 ih2 => intro hg; exact ih1 hg.child

/-- **C143** is false of a store in which directories are nested deeper and deeper: at every moment the store is finite, but `Scan` never ends. -/
theorem C143_terminates_false : ∃ h : Hist, h.WF ∧ (∀ s ps, h.lstat s ps = some true → ps.length ≤ s) ∧
    ∀ root, ¬ LastElement root (lit ".git") → ∀ t, ScansForever h root t ∧ ¬ ∃ out t', Scans h root t out t' := by
  refine ⟨growing, growing_wf, fun s ps hl => ?_, fun root hgit t => ?_⟩
  · simp only [growing] at hl
    split at hl
    · rename_i h; exact h.2
    · cases hl
  have hb := (C44_root_name root).2 hgit
  have g0 : ∀ s, Growing s (.node [] root (baseName root)) := fun s => ⟨by simp, by simp, hb⟩
  constructor
  · refine ⟨t + 1, by omega, rfl, Growing, g0 _, ?_⟩
    intro t job hg
    cases job with
    | node ps path name =>
      obtain ⟨g1, g2, g3⟩ := hg
      refine Or.inl ⟨ps, path, name, t + 1, t + 2, t + 2, [lit "a"], rfl, by omega, ?_, by omega, ?_, g3, g1, by omega, by simp, by simp⟩
      · simp only [growing]; rw [if_pos ⟨g1, by omega⟩]
      · have hn : growing.names (t + 2) ps = some [lit "a"] := by simp only [growing]; rw [if_pos ⟨g1, by omega⟩, if_pos (by omega)]
        refine ⟨Nat.le_refl _, ⟨_, hn⟩, by decide, fun n hm => ⟨t + 2, Nat.le_refl _, Nat.le_refl _, _, hn, hm⟩, fun n hm => ?_⟩
        obtain ⟨l, e, hx⟩ := hm (t + 2) (Nat.le_refl _) (Nat.le_refl _)
        rw [hn, Option.some.injEq] at e
        rw [e]; exact hx
    | list ps path ns =>
      cases ns with
      | nil => exact absurd rfl hg.2.2.1
      | cons n ns => exact Or.inr ⟨ps, path, n, ns, rfl, Or.inl hg.child⟩
  · rintro ⟨out, t', hs⟩
    cases hs with
    | missing _ h => cases h
    | walk _ _ w => exact growing_never w (g0 _)

/-- A store with two directories, `people` and `sites`, and one file `x`, which is moved from the one to the other at moment `m`. -/
def moving (src dst : Str) (m : Nat) : Hist where
  present _ := true
  lstat s ps := if ps = [] ∨ ps = [lit "people"] ∨ ps = [lit "sites"] then some true
    else if ps = [if s < m then src else dst, lit "x"] then some false else none
  names s ps := if ps = [] then some [lit "people", lit "sites"]
    else if ps = [lit "people"] ∨ ps = [lit "sites"] then some (if ps = [if s < m then src else dst] then [lit "x"] else []) else none

theorem lists_at {h : Hist} {ps : List Str} {a : Nat} {ns : List Str} (hn : h.names a ps = some ns) (hs : ns.Pairwise (fun x y => strLt x y = true)) : h.Lists ps a a ns := by
  refine ⟨Nat.le_refl _, ⟨_, hn⟩, hs, fun n hm => ⟨a, Nat.le_refl _, Nat.le_refl _, _, hn, hm⟩, fun n hm => ?_⟩
  obtain ⟨l, e, hx⟩ := hm a (Nat.le_refl _) (Nat.le_refl _)
  rw [hn, Option.some.injEq] at e
  rw [e]; exact hx

theorem moving_wf (src dst : Str) (m : Nat) : (moving src dst m).WF := by
  intro s ps l e
  have key : ∀ b : Bool, (if b then [lit "x"] else []).Pairwise (fun x y => strLt x y = true) ∧ ∀ n ∈ (if b then [lit "x"] else []), GoodName n := by decide
  simp only [moving] at e
  split at e
  · injection e with e; subst e; exact ⟨by decide, by decide⟩
  · split at e
    · injection e with e; subst e
      have := key (decide (ps = [if s < m then src else dst]))
      simpa only [decide_eq_true_eq] using this
    · cases e

/-- **C143** (a file that is moved) A file that is moved while `Scan` runs, and is in the store at every moment, may be listed under both names, under none, or end the program with an
error message. -/
theorem C143_moved :
    (∃ m files t', Scans (moving (lit "people") (lit "sites") m) (lit "/v") 0 (.ok files) t' ∧ files (lit "people") = [lit "people/x"] ∧ files (lit "sites") = [lit "sites/x"]) ∧
    (∃ m files t', Scans (moving (lit "sites") (lit "people") m) (lit "/v") 0 (.ok files) t' ∧ ∀ d, files d = []) ∧
    (∃ m t', Scans (moving (lit "people") (lit "sites") m) (lit "/v") 0 .fatal t') := by
  have e1 : joinPath (lit "/v") (lit "people") = lit "/v/people" := by decide
  have e2 : joinPath (lit "/v") (lit "sites") = lit "/v/sites" := by decide
  have e3 : joinPath (lit "/v/people") (lit "x") = lit "/v/people/x" := by decide
  have e4 : joinPath (lit "/v/sites") (lit "x") = lit "/v/sites/x" := by decide
  have hb : baseName (lit "/v") ≠ lit ".git" := by decide
  refine ⟨⟨7, ?_⟩, ⟨6, ?_⟩, ⟨6, ?_⟩⟩
  · have w := Scans.walk (h := moving (lit "people") (lit "sites") 7) (root := lit "/v") (t := 0) (s := 1) (by omega) rfl
      (.dir (s := 2) (a := 3) (b := 3) (by omega) (by decide) (by omega) (lists_at (ns := [lit "people", lit "sites"]) (by decide) (by decide)) hb
        (.next (.dir (s := 4) (a := 5) (b := 5) (by omega) (by decide) (by omega) (lists_at (ns := [lit "x"]) (by decide) (by decide)) (by decide)
            (.next (.file (s := 6) (by omega) (by decide)) (by simp) .nil)) (by simp)
          (.next (.dir (s := 7) (a := 8) (b := 8) (by omega) (by decide) (by omega) (lists_at (ns := [lit "x"]) (by decide) (by decide)) (by decide)
            (.next (.file (s := 9) (by omega) (by decide)) (by simp) .nil)) (by simp) .nil)))
    simp only [e1, e2, e3, e4, List.append_nil, List.cons_append, List.nil_append] at w
    refine ⟨_, _, w, ?_, ?_⟩ <;> decide
  · have w := Scans.walk (h := moving (lit "sites") (lit "people") 6) (root := lit "/v") (t := 0) (s := 1) (by omega) rfl
      (.dir (s := 2) (a := 3) (b := 3) (by omega) (by decide) (by omega) (lists_at (ns := [lit "people", lit "sites"]) (by decide) (by decide)) hb
        (.next (.dir (s := 4) (a := 5) (b := 5) (by omega) (by decide) (by omega) (lists_at (ns := []) (by decide) (by decide)) (by decide) .nil) (by simp)
          (.next (.dir (s := 7) (a := 8) (b := 8) (by omega) (by decide) (by omega) (lists_at (ns := []) (by decide) (by decide)) (by decide) .nil) (by simp) .nil)))
    exact ⟨_, _, w, fun d => rfl⟩
  · have w := Scans.walk (h := moving (lit "people") (lit "sites") 6) (root := lit "/v") (t := 0) (s := 1) (by omega) rfl
      (.dir (s := 2) (a := 3) (b := 3) (by omega) (by decide) (by omega) (lists_at (ns := [lit "people", lit "sites"]) (by decide) (by decide)) hb
        (.stop (.dir (s := 4) (a := 5) (b := 5) (by omega) (by decide) (by omega) (lists_at (ns := [lit "x"]) (by decide) (by decide)) (by decide)
            (.stop (.missing (s := 6) (by omega) (by decide)) (by simp))) (by simp)))
    exact ⟨_, w⟩

/-- The hypotheses of C143: the root, and a store that changes; directories at most two deep. -/
example : (moving (lit "people") (lit "sites") 7).WF ∧ CleanDir (lit "/v") ∧ ¬ LastElement (lit "/v") (lit ".git") ∧
    ∀ s ps, (moving (lit "people") (lit "sites") 7).lstat s ps = some true → ps.length < 2 := by
  refine ⟨moving_wf _ _ _, ⟨by decide, by decide, by decide⟩, (C44_root_name _).1 (by decide), fun s ps h => ?_⟩
  simp only [moving] at h
  split at h
  · rename_i e
    rcases e with rfl | rfl | rfl <;> decide
  · by_cases e : ps = [if s < 7 then lit "people" else lit "sites", lit "x"]
    · rw [if_pos e] at h; cases h
    · rw [if_neg e] at h; cases h

end Verif.Repo
