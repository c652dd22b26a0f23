import Verif.Cmds.ReadBack
/-
C163: the numbers of lines mean the same to `grep`, to `show --line`, to the numbered output of `show` and to `show --qrcode --line`.
-/
namespace Verif.Cmds
open Repo Repo.Spec Closest Spec

theorem numbered_mem {ts : List Str} {n : Nat} {t : Str} : (n, t) ∈ numbered ts ↔ 1 ≤ n ∧ ts[n - 1]? = some t := by
  unfold numbered
  rw [List.mem_map]
  constructor
  · rintro ⟨⟨x, i⟩, h, e⟩
    injection e with e1 e2
    subst e1 e2
    rw [List.mem_zipIdx_iff_getElem?] at h
    exact ⟨by omega, by simpa using h⟩
  · rintro ⟨h1, h2⟩
    refine ⟨(t, n - 1), by rw [List.mem_zipIdx_iff_getElem?]; exact h2, ?_⟩
    simp only [Prod.mk.injEq, and_true]
    omega

/-- `f` is the only best match for the name. -/
def Spec.OnlyMatch (other : Str → Str) (es : List (Str × Node)) (q f : Str) : Prop := BestMatch other es q f ∧ ∀ g, BestMatch other es q g → g = f

theorem only_not_none {other : Str → Str} {es : List (Str × Node)} {q f : Str} (h : OnlyMatch other es q f) : ¬ NoMatch other es q := by
  obtain ⟨⟨ws, h1, ⟨h2, h3⟩, -⟩, -⟩ := h
  rintro ⟨ws', h4, h5⟩
  exact h5 f ⟨(h4.2 f).2 ((h1.2 f).1 h2), h3⟩

theorem only_entry {other : Str → Str} {es : List (Str × Node)} {q f : Str} (h : OnlyMatch other es q f) : ∃ text, Entry es f text := by
  obtain ⟨⟨ws, h1, ⟨h2, -⟩, -⟩, -⟩ := h
  exact (h1.2 f).1 h2

theorem show_only (other expand : Str → Str) (w : World) (root : Str) (es : List (Str × Node)) (hs : IsStore w (expand root) es) (a : ShowArgs)
    (hp : a.passName ≠ []) (hq : a.qrCode = false) (f : Str) (hb : OnlyMatch other es a.passName f) (lines : Str → List Str) (binary : Str → Bool) (hlines : ReadsAll es lines binary)
    (res : Res) (h : Show other expand w root a res) : res = .ok (shown a f (lines f) (binary f)) none := by
  rcases C50_show other expand w root es hs a hp hq res h with ⟨-, h2⟩ | ⟨g, text, h1, h2, h3⟩
  · exact absurd h2 (only_not_none hb)
  · have := hb.2 g h2
    subst this
    exact h3 _ _ (hlines g text h1)

theorem not_binary {es : List (Str × Node)} {lines : Str → List Str} {binary : Str → Bool} (hlines : ReadsAll es lines binary) {p : Str → Bool} {f : Str} {n : Nat} {t : Str}
    (hm : Match es lines p f n t) : binary f = false := by
  obtain ⟨⟨text, ht⟩, h2, -⟩ := hm
  obtain ⟨ls, us, -, -, h⟩ := hlines f text ht
  rcases h with ⟨-, h, -⟩ | ⟨-, -, h⟩
  · rw [h] at h2
    cases h2
  · exact h

/-- **C163** A line of a text entry is found by `grep` under the number `n` exactly if it matches and `show --line n` prints it. -/
theorem C163_show_line (other expand : Str → Str) (w : World) (root : Str) (es : List (Str × Node)) (hs : IsStore w (expand root) es) (a : ShowArgs)
    (hp : a.passName ≠ []) (hq : a.qrCode = false) (hl : a.lineNumbers = false) (n : Nat) (hn : 1 ≤ n) (ha : a.line = n) (f : Str) (hb : OnlyMatch other es a.passName f)
    (lines : Str → List Str) (binary : Str → Bool) (hlines : ReadsAll es lines binary) (hbin : binary f = false) (p : Str → Bool) (res : Res) (h : Show other expand w root a res) (t : Str) :
    Match es lines p f n t ↔ p t = true ∧ res = .ok (lit "Pass '" ++ f ++ lit "'\n\n" ++ t ++ lit "\n") none := by
  have e := show_only other expand w root es hs a hp hq f hb lines binary hlines res h
  unfold shown body at e
  rw [hl, hbin, ha, if_neg (by decide), if_pos (by omega), if_neg (by decide), List.append_nil] at e
  unfold Spec.Match
  rw [numbered_mem, e]
  have e1 : ((n : Int)).toNat = n := by omega
  rw [e1]
  constructor
  · rintro ⟨-, ⟨-, h2⟩, h3⟩
    refine ⟨h3, ?_⟩
    rw [h2]
    simp only [List.append_assoc]
  · rintro ⟨h3, h2⟩
    refine ⟨only_entry hb, ⟨hn, ?_⟩, h3⟩
    injection h2 with h2
    simp only [List.append_assoc, List.append_cancel_left_eq] at h2
    cases h4 : (lines f)[n - 1]? with
    | none =>
      rw [h4] at h2
      simp only at h2
      have := congrArg List.length h2
      have h5 : (lit "\n").length = 1 := by decide
      rw [List.length_append, h5] at this
      simp at this
    | some u =>
      rw [h4] at h2
      simp only [List.append_cancel_right_eq] at h2
      rw [h2]

/-- **C163** With line numbers `show` prints the lines of a text entry so that a match of `grep` with the number `n` is the line `n` after the title, with the same number before it. -/
theorem C163_show_numbered (other expand : Str → Str) (w : World) (root : Str) (es : List (Str × Node)) (hs : IsStore w (expand root) es) (a : ShowArgs)
    (hp : a.passName ≠ []) (hq : a.qrCode = false) (hl : a.lineNumbers = true) (f : Str) (hb : OnlyMatch other es a.passName f)
    (lines : Str → List Str) (binary : Str → Bool) (hlines : ReadsAll es lines binary) (hbin : binary f = false) (p : Str → Bool) (res : Res) (h : Show other expand w root a res) :
    ∃ ls : List Str, res = .ok (lit "Pass '" ++ f ++ lit "'\n\n" ++ ls.flatMap (· ++ lit "\n")) none ∧ (∀ l ∈ ls, (10 : UInt8) ∉ l) ∧
      ∀ n t, Match es lines p f n t ↔ p t = true ∧ 1 ≤ n ∧ ls[n - 1]? = some (decimal n ++ lit ": " ++ t) := by
  have e := show_only other expand w root es hs a hp hq f hb lines binary hlines res h
  unfold shown body at e
  rw [hl, hbin, if_pos rfl, if_neg (by decide), List.append_nil] at e
  obtain ⟨text, ht⟩ := only_entry hb
  refine ⟨(numbered (lines f)).map matchLine, ?_, ?_, ?_⟩
  · rw [e, List.flatMap_map]
    rfl
  · intro l hl
    obtain ⟨m, hm, rfl⟩ := List.mem_map.1 hl
    obtain ⟨n, t⟩ := m
    have a1 : (10 : UInt8) ∉ lit ": " := by decide
    unfold matchLine
    simp only [List.mem_append, not_or]
    refine ⟨⟨fun hc => absurd (QR.Words.digit_byte hc) (by decide), a1⟩, ?_⟩
    exact reads_no_newline (hlines f text ht) _ (List.mem_of_getElem? (numbered_mem.1 hm).2)
  · intro n t
    have key : ∀ n, 1 ≤ n → ((numbered (lines f)).map matchLine)[n - 1]? = ((lines f)[n - 1]?).map fun t => matchLine (n, t) := by
      intro n hn
      unfold numbered
      rw [List.getElem?_map, List.getElem?_map, List.getElem?_zipIdx]
      cases (lines f)[n - 1]? with
      | none => rfl
      | some u =>
        simp only [Option.map_some]
        have : 0 + (n - 1) + 1 = n := by omega
        rw [this]
    unfold Spec.Match
    rw [numbered_mem]
    constructor
    · rintro ⟨-, ⟨h1, h2⟩, h3⟩
      refine ⟨h3, h1, ?_⟩
      rw [key n h1, h2]
      rfl
    · rintro ⟨h3, h1, h2⟩
      refine ⟨⟨text, ht⟩, ⟨h1, ?_⟩, h3⟩
      rw [key n h1, Option.map_eq_some_iff] at h2
      obtain ⟨u, h4, h5⟩ := h2
      have := matchLine_inj (m := (n, u)) (m' := (n, t)) h5
      injection this with _ this
      rw [h4, this]

theorem match_selected (lines : Str → List Str) (es : List (Str × Node)) (p : Str → Bool) (f : Str) (n : Nat) (t : Str) (h : Match es lines p f n t) : selected n [] (lines f) = t := by
  obtain ⟨-, h, -⟩ := h
  obtain ⟨h1, h2⟩ := numbered_mem.1 h
  unfold selected
  have hall : ∀ m ∈ (numbered (lines f)).filter (fun m => (m.1 : Int) = n || (!([] : Str).isEmpty && ([] : Str).isPrefixOf m.2)), m = (n, t) := by
    intro m hm
    obtain ⟨k1, k2⟩ := List.mem_filter.1 hm
    simp only [List.isEmpty_nil, Bool.not_true, Bool.false_and, Bool.or_false, decide_eq_true_eq] at k2
    obtain ⟨i, u⟩ := m
    have hi : i = n := by simpa using k2
    subst hi
    rw [numbered_mem, h2] at k1
    rw [Option.some.inj k1.2]
  have hin : (n, t) ∈ (numbered (lines f)).filter (fun m => (m.1 : Int) = n || (!([] : Str).isEmpty && ([] : Str).isPrefixOf m.2)) := by
    refine List.mem_filter.2 ⟨h, by simp⟩
  cases e : ((numbered (lines f)).filter (fun m => (m.1 : Int) = n || (!([] : Str).isEmpty && ([] : Str).isPrefixOf m.2))).getLast? with
  | none => rw [List.getLast?_eq_none_iff.1 e] at hin; cases hin
  | some m =>
    rw [hall m (List.mem_of_getLast? e)]
    rfl

/-- **C163** `show --qrcode --line n` draws the code of the line that `grep` reports as number `n`, without white space around it and without what is before and with its first colon (if the
line is not empty). -/
theorem C163_code (other expand : Str → Str) (w : World) (root : Str) (es : List (Str × Node)) (hs : IsStore w (expand root) es) (a : ShowArgs)
    (hp : a.passName ≠ []) (hq : a.qrCode = true) (hf : a.field = []) (n : Nat) (ha : a.line = n) (f : Str) (hb : OnlyMatch other es a.passName f)
    (lines : Str → List Str) (binary : Str → Bool) (hlines : ReadsAll es lines binary) (p : Str → Bool) (t : Str) (hm : Match es lines p f n t) (ht : t ≠ []) (res : Res)
    (h : Show other expand w root a res) : ∃ out, res = .ok out (some (afterFirst 58 (trimSpace t))) := by
  rcases C78_show_qrcode other expand w root es hs a hp hq res h with ⟨-, h2⟩ | ⟨g, text, h1, h2, h3⟩
  · exact absurd h2 (only_not_none hb)
  · have := hb.2 g h2
    subst this
    have h4 := h3 _ _ (hlines g text h1)
    rw [hf, ha, match_selected lines es p g n t hm] at h4
    simp only [List.length_nil, List.drop_zero] at h4
    rw [if_neg ht, if_neg (by omega)] at h4
    exact ⟨_, h4⟩

theorem oneStore_only {n c : Str} (other : Str → Str) (hn : n ≠ lit ".DS_Store") {q : Str} (h : ∃ f ∈ Closest.Spec.frags [2] q, f ∈ Closest.Spec.frags [2] (toLower other (lit "sites/" ++ n))) :
    OnlyMatch other (oneStore n c) q (lit "sites/" ++ n) := by
  have hall : AllEntries (oneStore n c) [lit "sites/" ++ n] := by
    refine ⟨by simp, ?_⟩
    intro f
    simp only [oneStore_entry hn, List.mem_singleton]
    exact ⟨fun e => ⟨c, e, rfl⟩, fun ⟨_, e, _⟩ => e⟩
  refine ⟨⟨_, hall, ⟨by simp, h⟩, ?_⟩, ?_⟩
  · rintro k ⟨hk, -⟩
    rw [List.mem_singleton.1 hk]
  · rintro g ⟨ws, h1, ⟨h2, -⟩, -⟩
    obtain ⟨text, ht⟩ := (h1.2 g).1 h2
    exact ((oneStore_entry hn _ _).1 ht).1

/-- The hypotheses are met: the second line of the only entry, found by its name. -/
example : OnlyMatch id (oneStore (lit "a") (lit "x'\nk: y\n")) (lit "si") (lit "sites/a") ∧
    Match (oneStore (lit "a") (lit "x'\nk: y\n")) (fun _ => [lit "x'", lit "k: y"]) (fun l => l == lit "k: y") (lit "sites/a") 2 (lit "k: y") ∧
    ReadsAll (oneStore (lit "a") (lit "x'\nk: y\n")) (fun _ => [lit "x'", lit "k: y"]) (fun _ => false) ∧ afterFirst 58 (trimSpace (lit "k: y")) = lit " y" := by
  have hst : ∀ (l : Str), l.getLast? ≠ some 13 → Stripped l l := fun l h => Or.inr ⟨rfl, fun t' e => h (by rw [e]; simp)⟩
  refine ⟨?_, ⟨⟨_, (oneStore_entry (by decide) _ _).2 ⟨by decide, rfl⟩⟩, by decide, by decide⟩, ?_, by decide⟩
  · have e : lit "sites/a" = lit "sites/" ++ lit "a" := by decide
    rw [e]
    exact oneStore_only id (by decide) ⟨lit "si", by decide, by decide⟩
  · intro f text h
    rw [((oneStore_entry (by decide) _ _).1 h).2]
    exact ⟨[lit "x'", lit "k: y"], [lit "x'", lit "k: y"], ⟨by decide, Or.inl (by decide)⟩, .cons (hst _ (by decide)) (.cons (hst _ (by decide)) .nil),
      Or.inr ⟨by intro t ht; cases ht; decide, rfl, rfl⟩⟩

/-- **C162** is false for `show` of binary entries: a binary entry looks like a text entry with the message in it. -/
theorem C162_show_binary_false (res res' : Res)
    (h : Show id id ⟨.dir [(lit "v", .dir (oneStore (lit "a") [0]))], []⟩ (lit "/v") ⟨false, 0, [], false, lit "si"⟩ res)
    (h' : Show id id ⟨.dir [(lit "v", .dir (oneStore (lit "a") (lit "Error: cannot show binary file\n")))], []⟩ (lit "/v") ⟨false, 0, [], false, lit "si"⟩ res') :
    res = res' ∧ res = .ok (lit "Pass 'sites/a'\n\nError: cannot show binary file\n") none := by
  have hst : ∀ (l : Str), l.getLast? ≠ some 13 → Stripped l l := fun l h => Or.inr ⟨rfl, fun t' e => h (by rw [e]; simp)⟩
  have s1 : IsStore ⟨.dir [(lit "v", .dir (oneStore (lit "a") [0]))], []⟩ (lit "/v") (oneStore (lit "a") [0]) :=
    ⟨⟨by decide, by decide, by decide⟩, rfl, by simp only [Node.WF, oneStore, WFList, WFPair]; decide, by decide⟩
  have s2 : IsStore ⟨.dir [(lit "v", .dir (oneStore (lit "a") (lit "Error: cannot show binary file\n")))], []⟩ (lit "/v") (oneStore (lit "a") (lit "Error: cannot show binary file\n")) :=
    ⟨⟨by decide, by decide, by decide⟩, rfl, by simp only [Node.WF, oneStore, WFList, WFPair]; decide, by decide⟩
  have r1 : ReadsAll (oneStore (lit "a") [0]) (fun _ => []) (fun _ => true) := by
    intro f text h
    rw [((oneStore_entry (by decide) _ _).1 h).2]
    exact ⟨[[0]], [[0]], ⟨by decide, Or.inr ⟨[], [0], rfl, by decide, rfl⟩⟩, .cons (hst _ (by decide)) .nil, Or.inl ⟨⟨[0], rfl, by decide⟩, rfl, rfl⟩⟩
  have r2 : ReadsAll (oneStore (lit "a") (lit "Error: cannot show binary file\n")) (fun _ => [lit "Error: cannot show binary file"]) (fun _ => false) := by
    intro f text h
    rw [((oneStore_entry (by decide) _ _).1 h).2]
    exact ⟨[lit "Error: cannot show binary file"], [lit "Error: cannot show binary file"], ⟨by decide, Or.inl (by decide)⟩, .cons (hst _ (by decide)) .nil,
      Or.inr ⟨by intro t ht; cases ht; decide, rfl, rfl⟩⟩
  have e1 := show_only id id _ _ _ s1 _ (by decide) rfl _ (oneStore_only id (by decide) ⟨lit "si", by decide, by decide⟩) _ _ r1 res h
  have e2 := show_only id id _ _ _ s2 _ (by decide) rfl _ (oneStore_only id (by decide) ⟨lit "si", by decide, by decide⟩) _ _ r2 res' h'
  rw [e1, e2]
  constructor
  · congr 1
  · congr 1

/-- **C162** is false for `show` with newlines in names: the empty entry `a'\n\nx` looks like an entry `a` with two lines. -/
theorem C162_show_newline_false (res res' : Res)
    (h : Show id id ⟨.dir [(lit "v", .dir (oneStore (lit "a'\n\nx") []))], []⟩ (lit "/v") ⟨false, 0, [], false, lit "si"⟩ res)
    (h' : Show id id ⟨.dir [(lit "v", .dir (oneStore (lit "a") (lit "x'\n\n")))], []⟩ (lit "/v") ⟨false, 0, [], false, lit "si"⟩ res') :
    res = res' ∧ res = .ok (lit "Pass 'sites/a'\n\nx'\n\n") none := by
  have hst : ∀ (l : Str), l.getLast? ≠ some 13 → Stripped l l := fun l h => Or.inr ⟨rfl, fun t' e => h (by rw [e]; simp)⟩
  have s1 : IsStore ⟨.dir [(lit "v", .dir (oneStore (lit "a'\n\nx") []))], []⟩ (lit "/v") (oneStore (lit "a'\n\nx") []) :=
    ⟨⟨by decide, by decide, by decide⟩, rfl, by simp only [Node.WF, oneStore, WFList, WFPair]; decide, by decide⟩
  have s2 : IsStore ⟨.dir [(lit "v", .dir (oneStore (lit "a") (lit "x'\n\n")))], []⟩ (lit "/v") (oneStore (lit "a") (lit "x'\n\n")) :=
    ⟨⟨by decide, by decide, by decide⟩, rfl, by simp only [Node.WF, oneStore, WFList, WFPair]; decide, by decide⟩
  have r1 : ReadsAll (oneStore (lit "a'\n\nx") []) (fun _ => []) (fun _ => false) := by
    intro f text h
    rw [((oneStore_entry (by decide) _ _).1 h).2]
    exact ⟨[], [], ⟨by decide, Or.inl rfl⟩, .nil, Or.inr ⟨nofun, rfl, rfl⟩⟩
  have r2 : ReadsAll (oneStore (lit "a") (lit "x'\n\n")) (fun _ => [lit "x'", []]) (fun _ => false) := by
    intro f text h
    rw [((oneStore_entry (by decide) _ _).1 h).2]
    exact ⟨[lit "x'", []], [lit "x'", []], ⟨by decide, Or.inl (by decide)⟩, .cons (hst _ (by decide)) (.cons (hst _ (by decide)) .nil),
      Or.inr ⟨by intro t ht; cases ht; decide, rfl, rfl⟩⟩
  have e1 := show_only id id _ _ _ s1 _ (by decide) rfl _ (oneStore_only id (by decide) ⟨lit "si", by decide, by decide⟩) _ _ r1 res h
  have e2 := show_only id id _ _ _ s2 _ (by decide) rfl _ (oneStore_only id (by decide) ⟨lit "si", by decide, by decide⟩) _ _ r2 res' h'
  rw [e1, e2]
  constructor
  · congr 1
  · congr 1

end Verif.Cmds
