import Verif.Cmds.Frame
/-
C166: what `show` can print, exactly, and when it always prints the same.
-/
namespace Verif.Cmds
open Repo Repo.Spec Closest Spec
open Closest.Spec (frags holders score points Shares)

/-- Each best word is a possible result. -/
theorem closest_any {other : Str → Str} {ws : List Str} {cm : CM} (hcm : new other ws [2] = some cm) (hw : [] ∉ ws) {q f : Str} (hf : Shares other [2] ws q f)
    (hb : ∀ k, Shares other [2] ws q k → score other [2] ws q k ≤ score other [2] ws q f) : Closest cm q f := by
  have hm := match_exists other ws [2] cm hcm hw q
  obtain ⟨pl, hn, hmem, hs⟩ := ranked_exists other [2] ws q
  have hval : ∀ k v, specScores other [2] ws q k = some v ↔ Shares other [2] ws q k ∧ score other [2] ws q k = v := by
    intro k v; unfold specScores; split <;> simp [*]
  refine ⟨_, (f, score other [2] ws q f) :: pl.filter (fun p => p.1 ≠ f), hm, ⟨?_, ?_, ?_⟩, rfl⟩
  · rw [List.map_cons, List.nodup_cons]
    refine ⟨?_, hn.sublist ((List.filter_sublist).map _)⟩
    intro h
    obtain ⟨p, h1, h2⟩ := List.mem_map.1 h
    have := (List.mem_filter.1 h1).2
    simp only [ne_eq, decide_not, Bool.not_eq_true', decide_eq_false_iff_not] at this
    exact this h2
  · intro k v
    rw [List.mem_cons, List.mem_filter, hmem, hval]
    by_cases e : k = f
    · subst e
      simp only [Prod.mk.injEq, true_and, ne_eq, not_true_eq_false, decide_false, Bool.false_eq_true, and_false, or_false]
      exact ⟨fun h => ⟨hf, h.symm⟩, fun h => h.2.symm⟩
    · simp [e]
  · rw [List.pairwise_cons]
    refine ⟨?_, hs.sublist List.filter_sublist⟩
    rintro ⟨k, v⟩ h
    obtain ⟨h1, h2⟩ := (hval k v).1 ((hmem k v).1 (List.mem_filter.1 h).1)
    dsimp only
    rw [← h2]
    exact hb k h1

theorem closest_none {other : Str → Str} {ws : List Str} {cm : CM} (hcm : new other ws [2] = some cm) (hw : [] ∉ ws) {q : Str} (hno : ∀ k, ¬ Shares other [2] ws q k) : Closest cm q [] := by
  obtain ⟨cm', e, -, ⟨out, h⟩, -⟩ := C41_no_crash_partial other ws [2] hw q
  have e2 : some cm = some cm' := hcm.symm.trans e
  injection e2 with e2
  subst e2
  rcases C37_closest_is_best other ws [2] cm e q out h with ⟨h1, -⟩ | ⟨h1, -⟩
  · exact absurd h1 (hno out)
  · rw [← h1]
    exact h

theorem showFile_entry {w : World} {root : Str} {es : List (Str × Node)} (hs : IsStore w root es) {a : ShowArgs} (hq : a.qrCode = false) {f text : Str} (hx : Entry es f text) {ts : List Str} {b : Bool}
    (hts : Reads text ts b) : showFile w root a f = .ok (shown a f ts b) none := by
  have hfin : ∀ st, showFinish a st = .ok st.out none := by intro st; unfold showFinish; rw [hq]; rfl
  unfold showFile
  rw [if_pos (List.length_pos_iff.2 (entry_ne_nil hx))]
  dsimp only
  rw [entry_at hs hx]
  dsimp only
  rw [read_any (showHandle_nil a) hs hx hts]
  simp only
  rw [hfin]
  congr 1
  cases b
  · simp only [Bool.false_eq_true, if_false]
    rw [show_out, body_eq, shown]
    simp only [List.append_assoc, Bool.false_eq_true, if_false, List.append_nil]
    rfl
  · simp only [if_true]
    rw [show_out, body_eq, shown]
    simp only [List.append_assoc, if_true]
    rfl

/-- **C166** What `show` can print: for each best match its text, and nothing if there is none; and nothing else. -/
theorem C166_show (other expand : Str → Str) (w : World) (root : Str) (es : List (Str × Node)) (hs : IsStore w (expand root) es) (a : ShowArgs)
    (hp : a.passName ≠ []) (hq : a.qrCode = false) (lines : Str → List Str) (binary : Str → Bool) (hlines : ReadsAll es lines binary) (res : Res) :
    Show other expand w root a res ↔ (res = .ok [] none ∧ NoMatch other es a.passName) ∨ ∃ f, BestMatch other es a.passName f ∧ res = .ok (shown a f (lines f) (binary f)) none := by
  constructor
  · intro h
    rcases C50_show other expand w root es hs a hp hq res h with h1 | ⟨f, text, h1, h2, h3⟩
    · exact Or.inl h1
    · exact Or.inr ⟨f, h2, h3 _ _ (hlines f text h1)⟩
  · obtain ⟨files, e, hw, -, ws, hws⟩ := store_scan hs
    have ha := hw ws hws
    obtain ⟨cm, hcm, -⟩ := C41_no_crash_partial other ws [2] (words_nil ha) a.passName
    have hcm : new other ws [2] = some cm := hcm
    unfold Show
    rw [e]
    simp only
    rw [if_pos hp]
    rintro (⟨rfl, h1⟩ | ⟨f, h1, rfl⟩)
    · refine ⟨some [], ⟨ws, cm, hws, hcm, Or.inr ⟨[], closest_none hcm (words_nil ha) ?_, rfl⟩⟩, ?_⟩
      · obtain ⟨us, h2, h3⟩ := h1
        rintro k ⟨k1, k2⟩
        exact h3 k ⟨(h2.2 k).2 ((ha.2 k).1 k1), k2⟩
      · simp only
        unfold showFile showFinish
        simp [hq]
    · obtain ⟨us, h2, ⟨h3, h4⟩, h5⟩ := h1
      obtain ⟨text, hx⟩ := (h2.2 f).1 h3
      have hm : ∀ k, k ∈ us ↔ k ∈ ws := fun k => by rw [h2.2, ha.2]
      refine ⟨some f, ⟨ws, cm, hws, hcm, Or.inr ⟨f, closest_any hcm (words_nil ha) ⟨(hm f).1 h3, h4⟩ ?_, rfl⟩⟩, ?_⟩
      · rintro k ⟨k1, k2⟩
        have := h5 k ⟨(hm k).2 k1, k2⟩
        have hv := value_related (other := other) h2.1 ha.1 (q := a.passName) (fun f _ => hm f)
        rw [score_value h2.1 ((hm k).2 k1), score_value h2.1 h3, hv, hv] at this
        rw [score_value ha.1 k1, score_value ha.1 ((hm f).1 h3)]
        exact this
      · simp only
        exact (showFile_entry hs hq hx (hlines f text hx)).symm

theorem show_exists (other : Str → Str) {expand : Str → Str} {w : World} {root : Str} {es : List (Str × Node)} (hs : IsStore w (expand root) es) {a : ShowArgs} (hp : a.passName ≠ []) :
    ∃ res, Show other expand w root a res := by
  obtain ⟨files, e, hw, -, ws, hws⟩ := store_scan hs
  obtain ⟨cm, hcm, -, ⟨out, ho⟩, -⟩ := C41_no_crash_partial other ws [2] (words_nil (hw ws hws)) a.passName
  refine ⟨showFile w (expand root) a out, ?_⟩
  unfold Show
  rw [e]
  simp only
  rw [if_pos hp]
  exact ⟨some out, ⟨ws, cm, hws, hcm, Or.inr ⟨out, ho, rfl⟩⟩, rfl⟩

theorem shown_name {a : ShowArgs} {f g : Str} {ts ts' : List Str} {b b' : Bool} (hf : (10 : UInt8) ∉ f) (hg : (10 : UInt8) ∉ g) (h : shown a f ts b = shown a g ts' b') : f = g := by
  unfold shown at h
  have e : lit "'\n\n" = lit "'" ++ 10 :: lit "\n" := by decide
  have hq : (10 : UInt8) ∉ lit "'" := by decide
  rw [e] at h
  simp only [List.append_assoc, List.append_cancel_left_eq, List.cons_append] at h
  rw [← List.append_assoc, ← List.append_assoc g] at h
  have key : ∀ u X : Str, (10 : UInt8) ∉ u → (u ++ 10 :: X).takeWhile (· != 10) = u := by
    intro u X hu
    rw [List.takeWhile_append_of_pos (by
      intro x hx
      simp only [bne_iff_ne, ne_eq]
      rintro rfl
      exact hu hx)]
    simp
  have h2 := congrArg (List.takeWhile (· != (10 : UInt8))) h
  rw [key _ _ (by simp [hf, hq]), key _ _ (by simp [hg, hq])] at h2
  exact List.append_cancel_right h2

/-- **C166** So `show` always prints the same if there is at most one best match, and only then, if no entry has a newline in its name. -/
theorem C166_deterministic (other expand : Str → Str) (w : World) (root : Str) (es : List (Str × Node)) (hs : IsStore w (expand root) es) (a : ShowArgs)
    (hp : a.passName ≠ []) (hq : a.qrCode = false) (hnl : ∀ f text, Entry es f text → (10 : UInt8) ∉ f) :
    (∃ res, ∀ res', Show other expand w root a res' ↔ res' = res) ↔ ∀ f g, BestMatch other es a.passName f → BestMatch other es a.passName g → f = g := by
  obtain ⟨lines, binary, hlines⟩ := readsAll_exists hs
  have hent : ∀ {f}, BestMatch other es a.passName f → (10 : UInt8) ∉ f := by
    rintro f ⟨us, h1, ⟨h2, -⟩, -⟩
    obtain ⟨t, ht⟩ := (h1.2 f).1 h2
    exact hnl f t ht
  constructor
  · rintro ⟨res, h⟩ f g hf hg
    have e1 := (h _).1 ((C166_show other expand w root es hs a hp hq lines binary hlines _).2 (Or.inr ⟨f, hf, rfl⟩))
    have e2 := (h _).1 ((C166_show other expand w root es hs a hp hq lines binary hlines _).2 (Or.inr ⟨g, hg, rfl⟩))
    have := e1.trans e2.symm
    injection this with this
    exact shown_name (hent hf) (hent hg) this
  · intro h
    obtain ⟨res, hres⟩ := show_exists other hs hp
    refine ⟨res, fun res' => ⟨fun h' => ?_, fun e => by rw [e]; exact hres⟩⟩
    exact (C165_show_same other expand w w root root es es hs hs a hp hq (fun _ _ _ => Iff.rfl) h res res' hres h').symm

/-- **C166** A store where `show` may print one entry or the other for the same name: `sites/xab` and `sites/xcd` for `abcd`. -/
theorem C166_either (other : Str → Str) (c c' : Str) (ts ts' : List Str) (b b' : Bool) (hr : Reads c ts b) (hr' : Reads c' ts' b') (res : Res) :
    Show other id ⟨.dir [(lit "v", .dir (sitesStore [(lit "xab", c), (lit "xcd", c')]))], []⟩ (lit "/v") ⟨false, 0, [], false, lit "abcd"⟩ res ↔
      res = .ok (shown ⟨false, 0, [], false, lit "abcd"⟩ (lit "sites/xab") ts b) none ∨ res = .ok (shown ⟨false, 0, [], false, lit "abcd"⟩ (lit "sites/xcd") ts' b') none := by
  have t1 : toLower other (lit "sites/xab") = lit "sites/xab" := by unfold toLower; rw [if_pos (by decide)]; decide
  have t2 : toLower other (lit "sites/xcd") = lit "sites/xcd" := by unfold toLower; rw [if_pos (by decide)]; decide
  have e1 : lit "sites/" ++ lit "xab" = lit "sites/xab" := by decide
  have e2 : lit "sites/" ++ lit "xcd" = lit "sites/xcd" := by decide
  have n1 : ([(lit "xab", c), (lit "xcd", c')].map Prod.fst).Nodup := by simp only [List.map]; decide
  have n2 : ∀ p ∈ [(lit "xab", c), (lit "xcd", c')], p.1 ≠ lit ".DS_Store" := by simp only [List.forall_mem_cons]; exact ⟨by decide, by decide, nofun⟩
  have hall : AllEntries (sitesStore [(lit "xab", c), (lit "xcd", c')]) [lit "sites/xab", lit "sites/xcd"] := by
    rw [← e1, ← e2]
    exact sitesStore_all n1 n2
  have s1 : strLt (lit "xab") (lit "xcd") = true := by decide
  have s2 : GoodName (lit "sites") ∧ GoodName (lit "xab") ∧ GoodName (lit "xcd") := by decide
  have hwf : (Node.dir (sitesStore [(lit "xab", c), (lit "xcd", c')])).WF := by
    simp [Node.WF, sitesStore, WFList, WFPair, s1, s2]
  have hs : IsStore ⟨.dir [(lit "v", .dir (sitesStore [(lit "xab", c), (lit "xcd", c')]))], []⟩ (id (lit "/v")) (sitesStore [(lit "xab", c), (lit "xcd", c')]) :=
    ⟨⟨by decide, by decide, by decide⟩, rfl, hwf, by decide⟩
  have v1 : value other [lit "sites/xab", lit "sites/xcd"] (lit "abcd") (lit "sites/xab") = 1112 := by
    unfold value entriesWith
    simp only [List.filter, t1, t2]
    decide
  have v2 : value other [lit "sites/xab", lit "sites/xcd"] (lit "abcd") (lit "sites/xcd") = 1112 := by
    unfold value entriesWith
    simp only [List.filter, t1, t2]
    decide
  have m1 : lit "sites/xab" ∈ [lit "sites/xab", lit "sites/xcd"] := by simp
  have m2 : lit "sites/xcd" ∈ [lit "sites/xab", lit "sites/xcd"] := by simp
  have hle : ∀ f ∈ [lit "sites/xab", lit "sites/xcd"], score other [2] [lit "sites/xab", lit "sites/xcd"] (lit "abcd") f = 1112 := by
    intro f hf
    rw [score_value hall.1 hf]
    rcases List.mem_cons.1 hf with rfl | hf
    · exact v1
    · rw [List.mem_singleton.1 hf, v2]
  have b1 : BestMatch other (sitesStore [(lit "xab", c), (lit "xcd", c')]) (lit "abcd") (lit "sites/xab") := by
    refine ⟨_, hall, ⟨m1, lit "ab", by decide, by rw [t1]; decide⟩, fun k hk => ?_⟩
    rw [hle _ hk.1, hle _ m1]
  have b2 : BestMatch other (sitesStore [(lit "xab", c), (lit "xcd", c')]) (lit "abcd") (lit "sites/xcd") := by
    refine ⟨_, hall, ⟨m2, lit "cd", by decide, by rw [t2]; decide⟩, fun k hk => ?_⟩
    rw [hle _ hk.1, hle _ m2]
  have d1 : lit "xab" ≠ lit "xcd" := by decide
  have hl : ReadsAll (sitesStore [(lit "xab", c), (lit "xcd", c')]) (fun f => if f = lit "sites/xab" then ts else ts') (fun f => if f = lit "sites/xab" then b else b') := by
    intro f text h
    obtain ⟨n, h1, rfl⟩ := (sitesStore_entry n1 n2 _ _).1 h
    have d3 : lit "sites/xcd" ≠ lit "sites/xab" := by decide
    rcases List.mem_cons.1 h1 with h1 | h1
    · obtain ⟨k1, k2⟩ := Prod.mk.inj h1
      rw [k1, k2, e1]
      dsimp only
      rw [if_pos rfl, if_pos rfl]
      exact hr
    · obtain ⟨k1, k2⟩ := Prod.mk.inj (List.mem_singleton.1 h1)
      rw [k1, k2, e2]
      dsimp only
      rw [if_neg d3, if_neg d3]
      exact hr'
  have d3 : lit "sites/xcd" ≠ lit "sites/xab" := by decide
  have hshow := C166_show other id _ (lit "/v") _ hs ⟨false, 0, [], false, lit "abcd"⟩ (by decide : lit "abcd" ≠ []) rfl _ _ hl res
  rw [hshow]
  constructor
  · rintro (⟨-, us, h1, h2⟩ | ⟨f, hf, rfl⟩)
    · obtain ⟨vs, -, ⟨h3, h4⟩, -⟩ := b1
      exact absurd ⟨(h1.2 _).2 ((hall.2 _).1 m1), h4⟩ (h2 (lit "sites/xab"))
    · obtain ⟨us, h1, ⟨h2, -⟩, -⟩ := hf
      have hm : f ∈ [lit "sites/xab", lit "sites/xcd"] := (hall.2 f).2 ((h1.2 f).1 h2)
      rcases List.mem_cons.1 hm with rfl | hm
      · left
        rw [if_pos rfl, if_pos rfl]
      · right
        rw [List.mem_singleton.1 hm, if_neg d3, if_neg d3]
  · rintro (rfl | rfl)
    · refine Or.inr ⟨_, b1, ?_⟩
      rw [if_pos rfl, if_pos rfl]
    · refine Or.inr ⟨_, b2, ?_⟩
      rw [if_neg d3, if_neg d3]

end Verif.Cmds
