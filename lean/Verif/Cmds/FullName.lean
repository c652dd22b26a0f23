import Verif.Cmds.SameNumbers
/-
C164: which entry `show` picks, exactly, and when the full name of an entry picks this entry.
-/
namespace Verif.Cmds
open Repo Repo.Spec Closest Spec

namespace Spec
open Closest.Spec (frags)

/-- How many of the entries have the fragment `x` in their name (in lower case). -/
def entriesWith (other : Str → Str) (ws : List Str) (x : Str) : Nat := (ws.filter fun g => decide (x ∈ frags [2] (toLower other g))).length

/-- The value of the entry `k` for the query `q`: for each fragment of two bytes they have in common one, and the more the shorter the name of the entry and the fewer entries have the
fragment. -/
def value (other : Str → Str) (ws : List Str) (q k : Str) : Nat :=
  ∑ x ∈ frags [2] q ∩ frags [2] (toLower other k), (1 + 1000 / k.length + 1000 / entriesWith other ws x)

end Spec
open Closest.Spec (frags holders score points Shares)

theorem holders_card (other : Str → Str) (ws : List Str) (x : Str) : (holders other [2] ws x).card = entriesWith other ws x := by
  unfold holders entriesWith
  induction ws using List.reverseRecOn with
  | nil => rfl
  | append_singleton ws g ih =>
    rw [List.length_append, List.length_singleton, Finset.range_add_one, Finset.filter_insert, List.filter_append, List.length_append]
    have hg : (ws ++ [g]).getD ws.length [] = g := by simp
    have hrest : (Finset.range ws.length).filter (fun i => x ∈ frags [2] (toLower other ((ws ++ [g]).getD i []))) =
        (Finset.range ws.length).filter (fun i => x ∈ frags [2] (toLower other (ws.getD i []))) := by
      apply Finset.filter_congr
      intro i hi
      rw [Finset.mem_range] at hi
      rw [List.getD_append _ _ _ _ hi]
    rw [hg, hrest]
    by_cases hx : x ∈ frags [2] (toLower other g)
    · rw [if_pos hx, Finset.card_insert_of_notMem (by simp), ih, List.filter_cons_of_pos (by simpa using hx)]
      rfl
    · rw [if_neg hx, ih, List.filter_cons_of_neg (by simpa using hx)]
      rfl

theorem score_value {other : Str → Str} {ws : List Str} (hn : ws.Nodup) {q k : Str} (hk : k ∈ ws) : score other [2] ws q k = value other ws q k := by
  unfold score value
  rw [← Finset.filter_mem_eq_inter, Finset.sum_filter]
  apply Finset.sum_congr rfl
  intro x _
  unfold points
  rw [filter_unique hn hk, holders_card]
  split
  · rw [Nat.one_mul]
  · rw [Nat.zero_mul]

theorem entriesWith_perm {other : Str → Str} {ws ws' : List Str} (h : ws.Perm ws') (x : Str) : entriesWith other ws x = entriesWith other ws' x := (h.filter _).length_eq

theorem allEntries_perm {es : List (Str × Node)} {ws ws' : List Str} (h : AllEntries es ws) (h' : AllEntries es ws') : ws.Perm ws' :=
  (List.perm_ext_iff_of_nodup h.1 h'.1).2 fun f => by rw [h.2, h'.2]

/-- **C164** Which entry `show` picks: `f` is the only best match for the name `q` exactly if it has a fragment of two bytes in common with it and every other entry has a smaller value. -/
theorem C164_only (other : Str → Str) (es : List (Str × Node)) (ws : List Str) (hw : AllEntries es ws) (q f : Str) :
    OnlyMatch other es q f ↔ (f ∈ ws ∧ ∃ x ∈ frags [2] q, x ∈ frags [2] (toLower other f)) ∧ ∀ g ∈ ws, g ≠ f → value other ws q g < value other ws q f := by
  have hval : ∀ {ws'}, AllEntries es ws' → ∀ k, value other ws' q k = value other ws q k := by
    intro ws' h k
    unfold value
    apply Finset.sum_congr rfl
    intro x _
    rw [entriesWith_perm (allEntries_perm h hw) x]
  have hpos : ∀ k, (∃ x ∈ frags [2] q, x ∈ frags [2] (toLower other k)) → 0 < value other ws q k := by
    rintro k ⟨x, h1, h2⟩
    unfold value
    refine Finset.sum_pos' (fun _ _ => Nat.zero_le _) ⟨x, Finset.mem_inter.2 ⟨h1, h2⟩, (fun a b => by omega : ∀ a b : Nat, 0 < 1 + a + b) _ _⟩
  have hzero : ∀ k, (¬ ∃ x ∈ frags [2] q, x ∈ frags [2] (toLower other k)) → value other ws q k = 0 := by
    intro k h
    unfold value
    rw [Finset.eq_empty_of_forall_notMem (s := frags [2] q ∩ frags [2] (toLower other k)) (fun x hx => h ⟨x, (Finset.mem_inter.1 hx).1, (Finset.mem_inter.1 hx).2⟩), Finset.sum_empty]
  constructor
  · rintro ⟨⟨ws', h1, h2, h3⟩, h4⟩
    have hf : f ∈ ws := (allEntries_perm h1 hw).mem_iff.1 h2.1
    refine ⟨⟨hf, h2.2⟩, ?_⟩
    intro g hg hne
    by_cases hs : ∃ x ∈ frags [2] q, x ∈ frags [2] (toLower other g)
    · have hg' : g ∈ ws' := (allEntries_perm h1 hw).mem_iff.2 hg
      have hle := h3 g ⟨hg', hs⟩
      rw [score_value h1.1 hg', score_value h1.1 h2.1, hval h1, hval h1] at hle
      rcases Nat.lt_or_eq_of_le hle with h | h
      · exact h
      · exfalso
        refine hne (h4 g ⟨ws', h1, ⟨hg', hs⟩, ?_⟩)
        intro k hk
        have hk' := h3 k hk
        rw [score_value h1.1 hk.1, score_value h1.1 h2.1, hval h1, hval h1] at hk'
        rw [score_value h1.1 hk.1, score_value h1.1 hg', hval h1, hval h1, h]
        exact hk'
    · rw [hzero g hs]
      exact hpos f h2.2
  · rintro ⟨⟨h1, h2⟩, h3⟩
    have key : ∀ k ∈ ws, value other ws q k ≤ value other ws q f := by
      intro k hk
      by_cases e : k = f
      · rw [e]
      · exact Nat.le_of_lt (h3 k hk e)
    refine ⟨⟨ws, hw, ⟨h1, h2⟩, fun k hk => by rw [score_value hw.1 hk.1, score_value hw.1 h1]; exact key k hk.1⟩, ?_⟩
    rintro g ⟨ws', h4, h5, h6⟩
    by_contra hne
    have hg : g ∈ ws := (allEntries_perm h4 hw).mem_iff.1 h5.1
    have hf' : f ∈ ws' := (allEntries_perm h4 hw).mem_iff.2 h1
    have hlt := h3 g hg hne
    have hle := h6 f ⟨hf', h2⟩
    rw [score_value h4.1 hf', score_value h4.1 h5.1, hval h4, hval h4] at hle
    omega

/-- **C164** (where it holds) The full name of an entry, in lower case, picks this entry alone exactly if for every other entry `g`: the fragments it shares with the name, weighted with the shortness
of `g`, are worth less than all fragments of the name, weighted with its own shortness, and the fragments that `g` lacks (each counts one, and the more the fewer entries have it). -/
theorem C164_full_name_partial (other : Str → Str) (es : List (Str × Node)) (ws : List Str) (hw : AllEntries es ws) (f : Str) (hf : f ∈ ws) (hl : toLower other f = f) :
    OnlyMatch other es f f ↔ ∀ g ∈ ws, g ≠ f → (frags [2] f ∩ frags [2] (toLower other g)).card * (1000 / g.length) <
      (frags [2] f).card * (1000 / f.length) + (frags [2] f \ frags [2] (toLower other g)).card + ∑ x ∈ frags [2] f \ frags [2] (toLower other g), 1000 / entriesWith other ws x := by
  have hne : ∃ x, x ∈ frags [2] f := by
    unfold frags
    dsimp only
    split
    · exact ⟨f, Finset.mem_singleton_self _⟩
    · rename_i hne
      exact Finset.nonempty_iff_ne_empty.2 hne
  obtain ⟨x0, hx0⟩ := hne
  rw [C164_only other es ws hw f f, hl]
  have hvf : value other ws f f = (frags [2] f).card * (1 + 1000 / f.length) + ∑ x ∈ frags [2] f, 1000 / entriesWith other ws x := by
    unfold value
    rw [hl, Finset.inter_self, Finset.sum_add_distrib, Finset.sum_const, smul_eq_mul]
  have hvg : ∀ g, value other ws f g = (frags [2] f ∩ frags [2] (toLower other g)).card * (1 + 1000 / g.length) +
      ∑ x ∈ frags [2] f ∩ frags [2] (toLower other g), 1000 / entriesWith other ws x := by
    intro g
    unfold value
    rw [Finset.sum_add_distrib, Finset.sum_const, smul_eq_mul]
  have hc : ∀ G : Finset Str, (frags [2] f ∩ G).card + (frags [2] f \ G).card = (frags [2] f).card := fun G => Finset.card_inter_add_card_sdiff _ _
  have hsum : ∀ G : Finset Str, (∑ x ∈ frags [2] f, 1000 / entriesWith other ws x) =
      (∑ x ∈ frags [2] f ∩ G, 1000 / entriesWith other ws x) + ∑ x ∈ frags [2] f \ G, 1000 / entriesWith other ws x := fun G =>
    (Finset.sum_inter_add_sum_sdiff _ _ _).symm
  constructor
  · rintro ⟨-, h⟩ g hg hne
    have := h g hg hne
    rw [hvf, hvg, hsum (frags [2] (toLower other g)), ← hc (frags [2] (toLower other g)), Nat.mul_add, Nat.mul_add] at this
    rw [← hc (frags [2] (toLower other g))]
    omega
  · intro h
    refine ⟨⟨hf, x0, hx0, hx0⟩, ?_⟩
    intro g hg hne
    have := h g hg hne
    rw [← hc (frags [2] (toLower other g))] at this
    rw [hvf, hvg, hsum (frags [2] (toLower other g)), ← hc (frags [2] (toLower other g)), Nat.mul_add, Nat.mul_add]
    omega

/-- **C164** (where it holds) Then `show` with the full name prints this entry. -/
theorem C164_show_partial (other expand : Str → Str) (w : World) (root : Str) (es : List (Str × Node)) (hs : IsStore w (expand root) es) (ws : List Str) (hw : AllEntries es ws) (a : ShowArgs)
    (hq : a.qrCode = false) (hf : a.passName ∈ ws) (hp : a.passName ≠ []) (hl : toLower other a.passName = a.passName)
    (hc : ∀ g ∈ ws, g ≠ a.passName → (frags [2] a.passName ∩ frags [2] (toLower other g)).card * (1000 / g.length) <
      (frags [2] a.passName).card * (1000 / a.passName.length) + (frags [2] a.passName \ frags [2] (toLower other g)).card +
        ∑ x ∈ frags [2] a.passName \ frags [2] (toLower other g), 1000 / entriesWith other ws x)
    (lines : Str → List Str) (binary : Str → Bool) (hlines : ReadsAll es lines binary) (res : Res) (h : Show other expand w root a res) :
    res = .ok (shown a a.passName (lines a.passName) (binary a.passName)) none :=
  show_only other expand w root es hs a hp hq a.passName ((C164_full_name_partial other es ws hw a.passName hf hl).2 hc) lines binary hlines res h

/-- **C164** (where it holds) A simple case: no other entry has a shorter name, and each other entry lacks a fragment of the name. -/
theorem C164_shortest_partial (other : Str → Str) (es : List (Str × Node)) (ws : List Str) (hw : AllEntries es ws) (f : Str) (hf : f ∈ ws) (hl : toLower other f = f) (h0 : f ≠ [])
    (hc : ∀ g ∈ ws, g ≠ f → f.length ≤ g.length ∧ ∃ x ∈ frags [2] f, x ∉ frags [2] (toLower other g)) : OnlyMatch other es f f := by
  rw [C164_full_name_partial other es ws hw f hf hl]
  intro g hg hne
  obtain ⟨h1, x, h2, h3⟩ := hc g hg hne
  have hpos : 0 < (frags [2] f \ frags [2] (toLower other g)).card := Finset.card_pos.2 ⟨x, Finset.mem_sdiff.2 ⟨h2, h3⟩⟩
  have hle : (frags [2] f ∩ frags [2] (toLower other g)).card * (1000 / g.length) ≤ (frags [2] f).card * (1000 / f.length) :=
    Nat.mul_le_mul (Finset.card_le_card Finset.inter_subset_left) (Nat.div_le_div_left h1 (List.length_pos_iff.2 h0))
  omega

/-- A store with two entries. -/
def twoStore (n c n' c' : Str) : List (Str × Node) := [(lit "sites", .dir [(n, .file c), (n', .file c')])]

theorem twoStore_entry {n c n' c' : Str} (hn : n ≠ lit ".DS_Store") (hn' : n' ≠ lit ".DS_Store") (hne : n ≠ n') (f text : Str) :
    Entry (twoStore n c n' c') f text ↔ (f = lit "sites/" ++ n ∧ text = c) ∨ (f = lit "sites/" ++ n' ∧ text = c') := by
  have e : lit "sites/" = lit "sites" ++ lit "/" := by decide
  rw [e]
  constructor
  · rintro ⟨d, hd, m, h1, h2, rfl⟩
    simp only [lookupAt, twoStore, entry] at h1
    split at h1
    · cases h1
    · rename_i nd e1
      split at e1
      · rename_i e2
        injection e1 with e1
        subst e1 e2
        simp only [lookupAt, entry] at h1
        split at h1
        · cases h1
        · rename_i nd e3
          split at e3
          · rename_i e4
            injection e3 with e3
            subst e3 e4
            injection h1 with h1
            injection h1 with h1
            exact Or.inl ⟨rfl, h1.symm⟩
          · split at e3
            · rename_i e4
              injection e3 with e3
              subst e3 e4
              injection h1 with h1
              injection h1 with h1
              exact Or.inr ⟨rfl, h1.symm⟩
            · cases e3
      · cases e1
  · rintro (⟨rfl, rfl⟩ | ⟨rfl, rfl⟩)
    · refine ⟨lit "sites", by decide, n, ?_, hn, rfl⟩
      simp [lookupAt, twoStore, entry]
    · refine ⟨lit "sites", by decide, n', ?_, hn', rfl⟩
      simp [lookupAt, twoStore, entry, hne]

theorem twoStore_all {n c n' c' : Str} (hn : n ≠ lit ".DS_Store") (hn' : n' ≠ lit ".DS_Store") (hne : n ≠ n') : AllEntries (twoStore n c n' c') [lit "sites/" ++ n, lit "sites/" ++ n'] := by
  refine ⟨by simp [hne], ?_⟩
  intro f
  simp only [twoStore_entry hn hn' hne, List.mem_cons, List.not_mem_nil, or_false]
  constructor
  · rintro (rfl | rfl)
    · exact ⟨c, Or.inl ⟨rfl, rfl⟩⟩
    · exact ⟨c', Or.inr ⟨rfl, rfl⟩⟩
  · rintro ⟨text, ⟨h, -⟩ | ⟨h, -⟩⟩
    · exact Or.inl h
    · exact Or.inr h

/-- **C164** An entry can be hidden: if another entry has all fragments of its name and a name that is enough shorter, then it is no best match, whatever name is given. -/
theorem C164_hidden (other : Str → Str) (es : List (Str × Node)) (f g : Str) (hf : ∃ text, Entry es f text) (hg : ∃ text, Entry es g text)
    (hsub : frags [2] (toLower other f) ⊆ frags [2] (toLower other g)) (hlen : 1000 / f.length < 1000 / g.length) (q : Str) : ¬ BestMatch other es q f := by
  rintro ⟨ws, h1, ⟨h2, x, h3, h4⟩, h5⟩
  have hgw : g ∈ ws := (h1.2 g).2 hg
  have hle := h5 g ⟨hgw, x, h3, hsub h4⟩
  rw [score_value h1.1 hgw, score_value h1.1 h2] at hle
  have hlt : value other ws q f < value other ws q g := by
    unfold value
    have hin : frags [2] q ∩ frags [2] (toLower other f) ⊆ frags [2] q ∩ frags [2] (toLower other g) := Finset.inter_subset_inter_left hsub
    refine Nat.lt_of_lt_of_le (Finset.sum_lt_sum_of_nonempty ⟨x, Finset.mem_inter.2 ⟨h3, h4⟩⟩ (g := fun x => 1 + 1000 / g.length + 1000 / entriesWith other ws x) ?_)
      (Finset.sum_le_sum_of_subset hin)
    intro y _
    omega
  omega

/-- **C164** is false in general: in a store with the entries `sites/aaa` and `sites/aaaa`, `show sites/aaaa` prints the other entry, and so does `show` with every other name: no name makes
`show` print `sites/aaaa`. -/
theorem C164_false (other : Str → Str) (c c' : Str) (res : Res) (ts : List Str) (b : Bool) (hr : Reads c ts b) (a : ShowArgs) (hp : a.passName ≠ []) (hq : a.qrCode = false)
    (h : Show other id ⟨.dir [(lit "v", .dir (twoStore (lit "aaa") c (lit "aaaa") c'))], []⟩ (lit "/v") a res) :
    (∃ text, Entry (twoStore (lit "aaa") c (lit "aaaa") c') (lit "sites/aaaa") text) ∧
    (res = .ok (shown a (lit "sites/aaa") ts b) none ∨ res = .ok [] none) ∧
    (a.passName = lit "sites/aaaa" → res = .ok (shown a (lit "sites/aaa") ts b) none) := by
  have hall := twoStore_all (n := lit "aaa") (c := c) (n' := lit "aaaa") (c' := c') (by decide) (by decide) (by decide)
  have e1 : lit "sites/" ++ lit "aaa" = lit "sites/aaa" := by decide
  have e2 : lit "sites/" ++ lit "aaaa" = lit "sites/aaaa" := by decide
  rw [e1, e2] at hall
  have hent := twoStore_entry (n := lit "aaa") (c := c) (n' := lit "aaaa") (c' := c') (by decide) (by decide) (by decide)
  rw [e1, e2] at hent
  have s1 : strLt (lit "aaa") (lit "aaaa") = true := by decide
  have s2 : GoodName (lit "sites") ∧ GoodName (lit "aaa") ∧ GoodName (lit "aaaa") := by decide
  have hwf : (Node.dir (twoStore (lit "aaa") c (lit "aaaa") c')).WF := by
    simp [Node.WF, twoStore, WFList, WFPair, s1, s2]
  have hs : IsStore ⟨.dir [(lit "v", .dir (twoStore (lit "aaa") c (lit "aaaa") c'))], []⟩ (lit "/v") (twoStore (lit "aaa") c (lit "aaaa") c') :=
    ⟨⟨by decide, by decide, by decide⟩, rfl, hwf, by decide⟩
  have hf : ∃ text, Entry (twoStore (lit "aaa") c (lit "aaaa") c') (lit "sites/aaaa") text := (hall.2 _).1 (by simp)
  have hg : ∃ text, Entry (twoStore (lit "aaa") c (lit "aaaa") c') (lit "sites/aaa") text := (hall.2 _).1 (by simp)
  have t1 : toLower other (lit "sites/aaaa") = lit "sites/aaaa" := by unfold toLower; rw [if_pos (by decide)]; decide
  have t2 : toLower other (lit "sites/aaa") = lit "sites/aaa" := by unfold toLower; rw [if_pos (by decide)]; decide
  have hhid := C164_hidden other _ _ _ hf hg (by rw [t1, t2]; decide) (by decide)
  refine ⟨hf, ?_⟩
  rcases C50_show other id _ _ _ hs a hp hq res h with ⟨k1, k2⟩ | ⟨g, text, k1, k2, k3⟩
  · refine ⟨Or.inr k1, ?_⟩
    intro hn
    obtain ⟨ws, k3, k4⟩ := k2
    refine absurd ⟨(k3.2 _).2 hf, lit "si", ?_, ?_⟩ (k4 (lit "sites/aaaa"))
    · rw [hn]; decide
    · rw [t1]; decide
  · rcases (hent _ _).1 k1 with ⟨rfl, rfl⟩ | ⟨rfl, rfl⟩
    · have := k3 _ _ hr
      exact ⟨Or.inl this, fun _ => this⟩
    · exact absurd k2 (hhid _)

/-- The hypotheses of the positive cases are met: two entries, none of which hides the other. -/
example (other : Str → Str) : OnlyMatch other (twoStore (lit "a.com") [] (lit "bank.org") []) (lit "sites/a.com") (lit "sites/a.com") ∧
    OnlyMatch other (twoStore (lit "a.com") [] (lit "bank.org") []) (lit "sites/bank.org") (lit "sites/bank.org") := by
  have hall := twoStore_all (n := lit "a.com") (c := []) (n' := lit "bank.org") (c' := []) (by decide) (by decide) (by decide)
  have e1 : lit "sites/" ++ lit "a.com" = lit "sites/a.com" := by decide
  have e2 : lit "sites/" ++ lit "bank.org" = lit "sites/bank.org" := by decide
  rw [e1, e2] at hall
  have t1 : toLower other (lit "sites/a.com") = lit "sites/a.com" := by unfold toLower; rw [if_pos (by decide)]; decide
  have t2 : toLower other (lit "sites/bank.org") = lit "sites/bank.org" := by unfold toLower; rw [if_pos (by decide)]; decide
  constructor
  · refine C164_shortest_partial other _ _ hall _ (by simp) t1 (by decide) ?_
    intro g hg hne
    rcases List.mem_cons.1 hg with rfl | hg
    · exact absurd rfl hne
    · rw [List.mem_singleton.1 hg, t2]
      exact ⟨by decide, lit "/a", by decide, by decide⟩
  · rw [C164_full_name_partial other _ _ hall _ (by simp) t2]
    intro g hg hne
    rcases List.mem_cons.1 hg with rfl | hg
    · rw [t1]
      refine Nat.lt_of_lt_of_le (m := 13 * 71) (by decide) (Nat.le_trans (Nat.le_of_eq ?_) (Nat.le_trans (Nat.le_add_right _ _) (Nat.le_add_right _ _)))
      decide
    · exact absurd (List.mem_singleton.1 hg) hne

end Verif.Cmds
