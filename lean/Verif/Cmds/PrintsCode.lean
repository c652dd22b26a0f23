import Verif.Cmds.Prints
/-
C166 for `show --qrcode`.
-/
namespace Verif.Cmds
open Repo Repo.Spec Closest Spec
open Closest.Spec (frags holders score points Shares)

/-- What `show --qrcode` does for the entry `f` (as in C78): the text it prints and the text of the code, or the crash. -/
def Spec.codeShown (a : ShowArgs) (f : Str) (ts : List Str) (b : Bool) : Res :=
  let line := selected a.line a.field ts
  if line = [] then .ok (shown a f ts b) (if ts = [] then none else some (ts.flatMap fun t => lit " / " ++ t))
  else if line.length < a.field.length then .panic
  else .ok (shown a f ts b) (some (afterFirst 58 (trimSpace (line.drop a.field.length))))

/-- For each best match there is an execution of `show` that picks it. -/
theorem show_best (other : Str → Str) {expand : Str → Str} {w : World} {root : Str} {es : List (Str × Node)} (hs : IsStore w (expand root) es) {a : ShowArgs} (hp : a.passName ≠ []) {f : Str}
    (h1 : BestMatch other es a.passName f) : Show other expand w root a (showFile w (expand root) a f) := by
  obtain ⟨files, e, hw, -, ws, hws⟩ := store_scan hs
  have ha := hw ws hws
  obtain ⟨cm, hcm, -⟩ := C41_no_crash_partial other ws [2] (words_nil ha) a.passName
  have hcm : new other ws [2] = some cm := hcm
  unfold Show
  rw [e]
  simp only
  rw [if_pos hp]
  obtain ⟨us, h2, ⟨h3, h4⟩, h5⟩ := h1
  have hm : ∀ k, k ∈ us ↔ k ∈ ws := fun k => by rw [h2.2, ha.2]
  refine ⟨some f, ⟨ws, cm, hws, hcm, Or.inr ⟨f, closest_any hcm (words_nil ha) ⟨(hm f).1 h3, h4⟩ ?_, rfl⟩⟩, rfl⟩
  rintro k ⟨k1, k2⟩
  have := h5 k ⟨(hm k).2 k1, k2⟩
  have hv := value_related (other := other) h2.1 ha.1 (q := a.passName) (fun f _ => hm f)
  rw [score_value h2.1 ((hm k).2 k1), score_value h2.1 h3, hv, hv] at this
  rw [score_value ha.1 k1, score_value ha.1 ((hm f).1 h3)]
  exact this

theorem showFile_code {w : World} {root : Str} {es : List (Str × Node)} (hs : IsStore w root es) {a : ShowArgs} (hq : a.qrCode = true) {f text : Str} (hx : Entry es f text) {ts : List Str} {b : Bool}
    (hts : Reads text ts b) : showFile w root a f = codeShown a f ts b := by
  have hst : ∃ st, showFile w root a f = showFinish a st ∧ st.out = shown a f ts b ∧ st.qrcode = selected a.line a.field ts ∧ st.fullQrCode = ts.flatMap fun t => lit " / " ++ t := by
    unfold showFile
    rw [if_pos (List.length_pos_iff.2 (entry_ne_nil hx))]
    dsimp only
    rw [entry_at hs hx]
    dsimp only
    rw [read_any (showHandle_nil a) hs hx hts]
    simp only
    refine ⟨_, rfl, ?_, ?_⟩
    · cases b
      · simp only [Bool.false_eq_true, if_false]
        rw [show_out, body_eq, shown]
        simp only [List.append_assoc, Bool.false_eq_true, if_false, List.append_nil]
        rfl
      · simp only [if_true]
        rw [show_out, body_eq, shown]
        simp only [List.append_assoc, if_true]
        rfl
    · have : ∀ st : ShowSt, (if b = true then { st with out := st.out ++ lit "Error: cannot show binary file\n" } else st).qrcode = st.qrcode ∧
          (if b = true then { st with out := st.out ++ lit "Error: cannot show binary file\n" } else st).fullQrCode = st.fullQrCode := by
        intro st; cases b <;> exact ⟨rfl, rfl⟩
      rw [(this _).1, (this _).2]
      exact ⟨by rw [show_qr a hq]; exact selected_eq a ts, by rw [show_full a hq]; rfl⟩
  obtain ⟨st, h4, h5, h7, h8⟩ := hst
  unfold codeShown
  rw [h4, ← h5, ← h7, ← h8]
  unfold showFinish
  rw [hq, if_pos rfl]
  have hfull : st.fullQrCode.length > 0 ↔ ts ≠ [] := by
    rw [h8]
    cases ts with
    | nil => simp
    | cons t ts =>
      rw [List.flatMap_cons, List.length_append, List.length_append]
      have : (lit " / ").length = 3 := rfl
      simp only [ne_eq, reduceCtorEq, not_false_eq_true, iff_true]
      omega
  by_cases he : st.qrcode = []
  · rw [he]
    simp only [List.length_nil, gt_iff_lt, Nat.lt_irrefl, if_false, if_true]
    by_cases e : ts = []
    · rw [if_neg (fun hc => (hfull.1 hc) e), if_pos e]
    · rw [if_pos (hfull.2 e), if_neg e]
  · rw [if_pos (List.length_pos_iff.2 he), if_neg he]
    rfl

/-- **C166** What `show --qrcode` can do: for each best match the code of C78 (or the crash), nothing if there is none; and nothing else. -/
theorem C166_show_qrcode (other expand : Str → Str) (w : World) (root : Str) (es : List (Str × Node)) (hs : IsStore w (expand root) es) (a : ShowArgs)
    (hp : a.passName ≠ []) (hq : a.qrCode = true) (lines : Str → List Str) (binary : Str → Bool) (hlines : ReadsAll es lines binary) (res : Res) :
    Show other expand w root a res ↔ (res = .ok [] none ∧ NoMatch other es a.passName) ∨ ∃ f, BestMatch other es a.passName f ∧ res = codeShown a f (lines f) (binary f) := by
  constructor
  · intro h
    rcases C78_show_qrcode other expand w root es hs a hp hq res h with h1 | ⟨f, text, h1, h2, h3⟩
    · exact Or.inl h1
    · exact Or.inr ⟨f, h2, h3 _ _ (hlines f text h1)⟩
  · rintro (⟨rfl, h1⟩ | ⟨f, h1, rfl⟩)
    · obtain ⟨res, h⟩ := show_exists other hs hp
      rcases C78_show_qrcode other expand w root es hs a hp hq res h with ⟨rfl, -⟩ | ⟨f, text, -, h2, -⟩
      · exact h
      · obtain ⟨us, k1, ⟨k2, k3⟩, -⟩ := h2
        obtain ⟨vs, k4, k5⟩ := h1
        exact absurd ⟨(k4.2 f).2 ((k1.2 f).1 k2), k3⟩ (k5 f)
    · obtain ⟨text, hx⟩ : ∃ text, Entry es f text := by
        obtain ⟨us, k1, ⟨k2, -⟩, -⟩ := h1
        exact (k1.2 f).1 k2
      rw [← showFile_code hs hq hx (hlines f text hx)]
      exact show_best other hs hp h1

/-- A code of a field, a crash, and an entry without lines. -/
example : codeShown ⟨false, 0, lit "user", true, lit "xab"⟩ (lit "sites/xab") [lit "s3", lit "user: me"] false = .ok (lit "Pass 'sites/xab'\n\ns3\nuser: me\n") (some (lit " me")) ∧
    codeShown ⟨false, 1, lit "user", true, lit "xab"⟩ (lit "sites/xab") [lit "s3", lit "note: me"] false = .panic ∧
    codeShown ⟨false, 0, [], true, lit "xab"⟩ (lit "sites/xab") [] false = .ok (lit "Pass 'sites/xab'\n\n") none := by
  refine ⟨?_, ?_, ?_⟩ <;> rfl

end Verif.Cmds
