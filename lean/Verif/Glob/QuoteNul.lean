import Verif.Glob.Quote
import Verif.Glob.ReaderMore
import Verif.Glob.RuneAny
import Verif.Glob.FlatProps
/-
C56 for ASCII texts with U+0000.
-/
namespace Verif.Glob

/-- What the glob of a quoted text matches: U+0000 is dropped, but at the start or after another U+0000 it ends the text. -/
def readQuoted : Bool → Str → Str
  | _, [] => []
  | start, c :: s => if c = 0 then (if start then [] else readQuoted true s) else c :: readQuoted false s

theorem readQuoted_run : ∀ (s : Str), readQuoted false s = s.takeWhile (· ≠ 0) ++ readQuoted true ((s.dropWhile (· ≠ 0)).drop 1)
  | [] => rfl
  | c :: s => by
    rw [readQuoted]
    by_cases h : c = 0
    · subst h; simp
    · rw [if_neg h, readQuoted_run s]; simp [h]

/-- The characters of a quoted ASCII text. -/
def quoteNat (s : Str) : List Nat := (quoteMeta s).map UInt8.toNat

theorem quoteNat_cons (c : UInt8) (s : Str) : quoteNat (c :: s) = (if special c then [92, c.toNat] else [c.toNat]) ++ quoteNat s := by
  simp only [quoteNat, quoteMeta, List.flatMap_cons, List.map_append]
  split <;> rfl

theorem readText_quoted : ∀ (s : Str), Ascii s → readText [63, 42, 91, 123] false (quoteNat s) =
    some ((s.takeWhile (· ≠ 0)).map UInt8.toNat, quoteNat ((s.dropWhile (· ≠ 0)).drop 1))
  | [], _ => rfl
  | c :: s, ha => by
    have hc := ha c (by simp)
    have ih := readText_quoted s (fun b hb => ha b (by simp [hb]))
    rw [quoteNat_cons]
    by_cases h0 : c = 0
    · subst h0
      simp [special, readText]
    · have h0' : c.toNat ≠ 0 := fun h => h0 (UInt8.toNat_inj.1 (by simpa using h))
      have hF : c.toNat ≠ 0xFFFD := by have := c.toNat_lt; omega
      by_cases hs : special c = true
      · rw [if_pos hs]
        simp only [List.cons_append, List.nil_append]
        rw [readText, if_neg (by decide), if_neg (by decide), if_pos (by simp), readText, if_neg h0', if_neg hF]
        simp only [Bool.not_true, Bool.false_and, Bool.false_eq_true, if_false]
        rw [ih]
        simp [h0]
      · rw [if_neg hs]
        simp only [List.cons_append, List.nil_append]
        obtain ⟨hb, h92⟩ := not_special (b := c) (by simpa using hs)
        have hb' : c.toNat ∉ [63, 42, 91, 123] := by
          intro h; apply hb; simp [Lex.inTextBreakers] at h ⊢; tauto
        rw [readText, if_neg h0', if_neg hF, if_neg (by simp [h92]), if_neg (by simp only [Bool.not_false, Bool.true_and, decide_eq_true_eq]; exact hb'), ih]
        simp [h0]

theorem ascii_sublist {a b : Str} (h : List.Sublist a b) (hb : Ascii b) : Ascii a := fun c hc => hb c (h.subset hc)

theorem quoteNat_length_le (s : Str) : (quoteNat (s.drop 1)).length ≤ (quoteNat s).length := by
  cases s with
  | nil => simp
  | cons c s => rw [quoteNat_cons]; simp

theorem quoteNat_dropWhile (p : UInt8 → Bool) (s : Str) : (quoteNat (s.dropWhile p)).length ≤ (quoteNat s).length := by
  induction s with
  | nil => simp
  | cons c s ih =>
    rw [List.dropWhile_cons]
    split
    · rw [quoteNat_cons, List.length_append]; omega
    · rfl

theorem readParts_quoted : ∀ (n : Nat) (s : Str), (quoteNat s).length < n → Ascii s → ∃ ts : List Str,
    readParts n 0 (quoteNat s) = some (ts.map fun t => .text (t.map UInt8.toNat)) ∧ (∀ t ∈ ts, t ≠ [] ∧ Ascii t) ∧ ts.flatten = readQuoted true s
  | 0, _, h, _ => absurd h (by omega)
  | n + 1, [], _, _ => ⟨[], rfl, by simp, rfl⟩
  | n + 1, c :: s, h, ha => by
    have hc := ha c (by simp)
    by_cases h0 : c = 0
    · subst h0
      refine ⟨[], ?_, by simp, rfl⟩
      rw [quoteNat_cons]; simp [special, readParts]
    · have h0' : c.toNat ≠ 0 := fun h => h0 (UInt8.toNat_inj.1 (by simpa using h))
      have ht := readText_quoted (c :: s) ha
      have hhead : ∃ d rs, quoteNat (c :: s) = d :: rs ∧ d ≠ 0 ∧ d ≠ 0xFFFD ∧ d ≠ 123 ∧ d ≠ 91 ∧ d ≠ 63 ∧ d ≠ 42 := by
        rw [quoteNat_cons]
        by_cases hs : special c = true
        · rw [if_pos hs]; exact ⟨92, _, rfl, by decide⟩
        · rw [if_neg hs]
          obtain ⟨hb, h92⟩ := not_special (b := c) (by simpa using hs)
          simp only [Lex.inTextBreakers, List.mem_cons, List.not_mem_nil, or_false, not_or] at hb
          have := c.toNat_lt
          exact ⟨c.toNat, _, rfl, h0', by omega, hb.2.2.2, hb.2.2.1, hb.1, hb.2.1⟩
      obtain ⟨d, rs, hq, hd⟩ := hhead
      have hlen : (quoteNat (((c :: s).dropWhile (· ≠ 0)).drop 1)).length < n := by
        have h1 := quoteNat_length_le (s.dropWhile (· ≠ 0))
        have h2 := quoteNat_dropWhile (· ≠ 0) s
        have h3 : (quoteNat s).length < (quoteNat (c :: s)).length := by rw [quoteNat_cons, List.length_append]; split <;> simp <;> omega
        rw [List.dropWhile_cons, if_pos (by simpa using h0)]
        omega
      obtain ⟨ts, e, hts, hfl⟩ := readParts_quoted n (((c :: s).dropWhile (· ≠ 0)).drop 1) hlen
        (ascii_sublist ((List.drop_sublist _ _).trans (List.dropWhile_sublist _)) ha)
      refine ⟨(c :: s).takeWhile (· ≠ 0) :: ts, ?_, ?_, ?_⟩
      · rw [hq] at ht ⊢
        rw [readParts, if_neg hd.1, if_neg hd.2.1, if_neg hd.2.2.1, if_neg (by omega), if_neg (by omega), if_neg hd.2.2.2.1, if_neg hd.2.2.2.2.1, if_neg hd.2.2.2.2.2,
          if_neg (by omega), ht]
        simp only [Option.bind_some]
        rw [e]
        simp [h0]
      · intro t ht'
        rcases List.mem_cons.1 ht' with rfl | h
        · exact ⟨by simp [h0], ascii_sublist (List.takeWhile_sublist _) ha⟩
        · exact hts t h
      · rw [List.flatten_cons, hfl, ← readQuoted_run, readQuoted, readQuoted, if_neg h0, if_neg h0]

theorem encode_ascii {t : Str} (h : Ascii t) : (t.map UInt8.toNat).flatMap encodeRune = t := by
  induction t with
  | nil => rfl
  | cons c t ih =>
    have hc : c.toNat < 0x80 := h c (by simp)
    rw [List.map_cons, List.flatMap_cons, ih fun b hb => h b (by simp [hb])]
    simp [encodeRune, hc]

theorem treeOf_texts : ∀ (ts : List Str) (cur : List Node), (∀ t ∈ ts, Ascii t) → treeOf [] cur (ts.map fun t => .text (t.map UInt8.toNat)) = .pattern (cur ++ ts.map .text)
  | [], cur, _ => by simp [treeOf, closeFrames]
  | t :: ts, cur, h => by
    rw [List.map_cons, treeOf, treeOf_texts ts _ (fun u hu => h u (by simp [hu])), encode_ascii (h t (by simp))]; simp

/-! ### Rows of texts -/

/-- The sum of the lengths. -/
def textsLen (ts : List Str) : Nat := (ts.map fun t => (runesOf t).length).sum

theorem lens_texts (ts : List Str) : sumLens (lens (ts.map .text)) = some (textsLen ts) := by
  induction ts with
  | nil => rfl
  | cons t ts ih => simp [lens, sumLens, ih, Matcher.len, textsLen]

theorem glue_texts (ts : List Str) (h : 2 ≤ ts.length) : glueMatchers (ts.map .text) = some (.row (textsLen ts) (ts.map .text)) := by
  have he : glueMatchersAsEvery (ts.map .text) = none := by
    match ts, h with
    | a :: b :: ts, _ => simp [glueMatchersAsEvery, gluable]
  rw [glueMatchers, he]
  simp only
  rw [glueMatchersAsRow, if_neg (by simp; omega), lens_texts]; rfl

theorem glue_texts_len (ts : List Str) (g : Matcher) (h : glueMatchers (ts.map .text) = some g) : g.len = some (textsLen ts) := by
  by_cases h2 : 2 ≤ ts.length
  · rw [glue_texts ts h2] at h; injection h with h; subst h; rfl
  · match ts, h2 with
    | _ :: _ :: _, h2 => exact absurd (by simp) h2
    | [], _ => simp [glueMatchers, glueMatchersAsEvery, glueMatchersAsRow] at h
    | [t], _ => rw [List.map_singleton, glue_one] at h; cases h

theorem textsLen_sub (ts : List Str) (l r : Nat) : textsLen ((ts.take r).drop l) ≤ textsLen ts := by
  have : List.Sublist ((ts.take r).drop l) ts := (List.drop_sublist _ _).trans (List.take_sublist _ _)
  have key : ∀ (xs ys : List Nat), List.Sublist xs ys → xs.sum ≤ ys.sum := by
    intro xs ys h
    induction h with
    | slnil => simp
    | cons a _ ih => simp; omega
    | cons_cons a _ ih => simp; omega
  exact key _ _ (this.map _)

theorem minimizeLoops_texts (ts : List Str) (h : 2 ≤ ts.length) : minimizeLoops (ts.map .text) = some ⟨.row (textsLen ts) (ts.map .text), 0, ts.length⟩ := by
  unfold minimizeLoops
  obtain ⟨n, hn⟩ : ∃ n, ts.length = n + 1 := ⟨ts.length - 1, by omega⟩
  have key : ∀ ps : List (Nat × Nat), (∀ p ∈ ps, p.2 - p.1 ≤ ts.length) → ps.foldl (fun done lr => minimizeStep (ts.map .text) done lr.1 lr.2) (some ⟨.row (textsLen ts) (ts.map .text), 0, ts.length⟩) =
      some ⟨.row (textsLen ts) (ts.map .text), 0, ts.length⟩ := by
    intro ps
    induction ps with
    | nil => intro _; rfl
    | cons p ps ih =>
      intro hp
      rw [List.foldl_cons]
      have hstep : minimizeStep (ts.map .text) (some ⟨.row (textsLen ts) (ts.map .text), 0, ts.length⟩) p.1 p.2 = some ⟨.row (textsLen ts) (ts.map .text), 0, ts.length⟩ := by
        unfold minimizeStep
        rw [← List.map_take, ← List.map_drop]
        cases hg : glueMatchers (((ts.take p.2).drop p.1).map .text) with
        | none => rfl
        | some g =>
          simp only [glue_texts_len _ _ hg, Matcher.len]
          have h1 := textsLen_sub ts p.1 p.2
          have h2 := hp p (by simp)
          rw [if_neg]
          simp; omega
      rw [hstep]
      exact ih fun q hq => hp q (by simp [hq])
  rw [List.length_map, hn, List.range_succ_eq_map, List.flatMap_cons, Nat.sub_zero, List.range_succ_eq_map, List.map_cons, List.cons_append, List.foldl_cons]
  have h1 : minimizeStep (ts.map .text) none 0 (n + 1 - 0) = some ⟨.row (textsLen ts) (ts.map .text), 0, ts.length⟩ := by
    unfold minimizeStep
    rw [Nat.sub_zero, List.drop_zero, List.take_of_length_le (by simp; omega), glue_texts ts h]
    simp [hn]
  rw [h1, ← hn]
  apply key
  intro p hp
  simp only [List.mem_append, List.mem_map, List.mem_flatMap, List.mem_range] at hp
  rcases hp with ⟨k, _, rfl⟩ | ⟨l, _, k, _, rfl⟩ <;> simp only <;> omega

theorem runes_append_ascii (c : Str) : ∀ {a : Str}, Ascii a → (runesIn (a ++ c)).length = a.length + (runesIn c).length
  | [], _ => by simp
  | x :: a, ha => by
    have ih := runes_append_ascii c (a := a) fun b hb => ha b (by simp [hb])
    rw [List.cons_append, runesIn_cons (by simp), decodeRune_ascii (ha x (by simp))]
    simp [ih]; omega

theorem langSeq_texts : ∀ (ts : List Str) (x : Str), LangSeq (ts.map .text) x ↔ x = ts.flatten
  | [], x => by simp [LangSeq]
  | t :: ts, x => by
    rw [List.map_cons, LangSeq]
    simp only [MLang, langSeq_texts ts]
    constructor
    · rintro ⟨a, c, rfl, rfl, rfl⟩; simp
    · rintro rfl; exact ⟨t, _, by simp, rfl, rfl⟩

theorem textsLen_flatten : ∀ (ts : List Str), (∀ t ∈ ts, Ascii t) → textsLen ts = ts.flatten.length
  | [], _ => rfl
  | t :: ts, h => by
    have := textsLen_flatten ts fun u hu => h u (by simp [hu])
    simp only [textsLen] at this
    simp [textsLen, this, runesOf_ascii (h t (by simp))]

theorem row_match (ts : List Str) (h : ∀ t ∈ ts, t ≠ [] ∧ Ascii t) (x : Str) : (Matcher.row (textsLen ts) (ts.map .text)).match x = some (decide (x = ts.flatten)) := by
  have hfa : Ascii ts.flatten := by
    intro b hb
    obtain ⟨t, ht, hb⟩ := List.mem_flatten.1 hb
    exact (h t ht).2 b hb
  have hl := textsLen_flatten ts fun t ht => (h t ht).2
  have hx : (runesOf x).length = (runesIn x).length := by simp [runesIn]
  simp only [Matcher.match]
  unfold rowMatch
  by_cases hr : (runesOf x).length = textsLen ts
  · rw [if_pos hr]
    obtain ⟨b, e, hb⟩ := rowMatchAll_any (ts.map .text) (by
        intro m hm; obtain ⟨t, ht, rfl⟩ := List.mem_map.1 hm
        simp only [Matcher.len, posLen, decide_eq_true_eq]
        rw [runesOf_ascii (h t ht).2, List.length_map]
        exact List.length_pos_iff.2 (h t ht).1) (by
        intro m hm; obtain ⟨t, ht, rfl⟩ := List.mem_map.1 hm
        intro k hk s hs hM
        simp only [MLang] at hM
        subst hM
        simp only [Matcher.len, Option.some.injEq] at hk
        rw [← hk, runesOf_ascii hs, List.length_map]) (by
        intro m hm s; obtain ⟨t, ht, rfl⟩ := List.mem_map.1 hm
        refine ⟨decide (t = s), by simp only [Matcher.match], ?_⟩
        simp only [MLang, decide_eq_true_eq]
        constructor
        · rintro rfl; exact ⟨(h t ht).2, rfl⟩
        · rintro ⟨_, rfl⟩; rfl) x 0 (by simp)
    rw [e]
    congr 1
    rw [Bool.eq_iff_iff, hb, decide_eq_true_eq, List.drop_zero]
    simp only [langSeq_texts]
    constructor
    · rintro ⟨a, c, rfl, _, rfl⟩
      rw [hx, hl, runes_append_ascii c hfa] at hr
      have hc : (runesIn c).length = 0 := by omega
      have : c = [] := by
        by_contra hne
        rw [runesIn_cons hne] at hc; simp at hc
      rw [this, List.append_nil]
    · intro e; exact ⟨x, [], by simp, e ▸ hfa, e⟩
  · rw [if_neg hr]
    congr 1
    symm
    rw [decide_eq_false_iff_not]
    rintro rfl
    exact hr (by rw [runesOf_ascii hfa, List.length_map, hl])

theorem compile_texts (seps : List Nat) (ts : List Str) (h : ∀ t ∈ ts, t ≠ [] ∧ Ascii t) (n : Nat) (hn : 2 ≤ n ∨ ts = [] ∧ 1 ≤ n) :
    ∃ m, compile seps n (.pattern (ts.map .text)) = .ok m ∧ ∀ x, m.match x = some (decide (x = ts.flatten)) := by
  by_cases h0 : ts = []
  · subst h0
    obtain ⟨k, rfl⟩ : ∃ k, n = k + 1 := ⟨n - 1, by omega⟩
    refine ⟨.nothing, by rw [compile]; rfl, fun x => ?_⟩
    simp only [Matcher.match]
    cases x <;> simp
  · obtain ⟨k, rfl⟩ : ∃ k, n = k + 2 := ⟨n - 2, by rcases hn with h | h; omega; exact absurd h.1 h0⟩
    have hc : ∀ us : List Str, compileChildren (compile seps (k + 1)) (us.map .text) = .ok (us.map .text) := by
      intro us
      induction us with
      | nil => rfl
      | cons t us ih => rw [List.map_cons, compileChildren, ih]; simp [compile, optimizeMatcher]
    rw [compile, if_neg (by simpa using h0), hc]
    dsimp only
    rw [List.length_map]
    by_cases h1 : ts.length = 1
    · obtain ⟨t, rfl⟩ := List.length_eq_one_iff.1 h1
      refine ⟨.text t, by rfl, fun x => ?_⟩
      simp [Matcher.match, eq_comm]
    · have h2 : 2 ≤ ts.length := by have := List.length_pos_iff.2 h0; omega
      refine ⟨.row (textsLen ts) (ts.map .text), ?_, row_match ts h⟩
      have hm : minimizeMatchers (ts.length + 1) (ts.map .text) = some [.row (textsLen ts) (ts.map .text)] := by
        rw [minimizeMatchers, minimizeLoops_texts ts h2]
        have hnext : (ts.map Matcher.text).take 0 ++ [Matcher.row (textsLen ts) (ts.map .text)] ++ (ts.map Matcher.text).drop ts.length = [.row (textsLen ts) (ts.map .text)] := by
          rw [List.drop_of_length_le (by simp)]; simp
        dsimp only
        rw [hnext, if_neg (by simp; omega)]
        obtain ⟨j, hj⟩ : ∃ j, ts.length = j + 1 := ⟨ts.length - 1, by omega⟩
        rw [hj, minimizeMatchers]
        have : minimizeLoops [Matcher.row (textsLen ts) (ts.map .text)] = none := by
          simp [minimizeLoops, minimizeStep, glue_one]
        rw [this]
      rw [hm]
      rfl

/-- **C56** exactly, for ASCII texts, U+0000 among them: `Compile(QuoteMeta(s))` succeeds, and the result matches one string: the text without U+0000, up to the first U+0000 that is at
the start or after another one. -/
theorem C56_ascii (s : Str) (ha : Ascii s) (seps : List Nat) : ∃ m, globCompile (quoteMeta s) seps = .ok m ∧ ∀ t, m.match t = some (decide (t = readQuoted true s)) := by
  have hqa : Ascii (quoteMeta s) := by
    intro b hb
    obtain ⟨c, hc, hb⟩ := List.mem_flatMap.1 hb
    have := ha c hc
    split at hb
    · simp at hb; rcases hb with rfl | rfl
      · decide
      · exact this
    · simp at hb; subst hb; exact this
  obtain ⟨ts, e, hts, hfl⟩ := readParts_quoted ((runesIn (quoteMeta s)).length + 1) s (by rw [runesIn_ascii hqa]; exact Nat.lt_succ_self _) ha
  have hp : parse (quoteMeta s) = .ok (.pattern (ts.map .text)) := by
    refine (C139_reads _ _).2 ⟨_, ?_, (treeOf_texts ts [] fun t ht => (hts t ht).2).symm⟩
    rw [readPattern]
    have : runesIn (quoteMeta s) = quoteNat s := runesIn_ascii hqa
    rw [← e, this]
  rw [globCompile, hp, ← hfl]
  apply compile_texts seps ts hts
  cases ts with
  | nil => exact .inr ⟨rfl, by simp [Node.size]⟩
  | cons t ts => left; rw [List.map_cons, Node.size, sizes, show Node.size (.text t) = 1 from rfl]; omega

/-- **C56** Which ASCII texts match themselves when they are quoted: those without U+0000. -/
theorem C56_ascii_self (s : Str) (ha : Ascii s) (seps : List Nat) : (∃ m, globCompile (quoteMeta s) seps = .ok m ∧ m.match s = some true) ↔ 0 ∉ s := by
  have mem : ∀ (b : Bool) (t : Str), 0 ∉ readQuoted b t := by
    intro b t
    induction t generalizing b with
    | nil => simp [readQuoted]
    | cons c t ih =>
      rw [readQuoted]
      split
      · split
        · simp
        · exact ih true
      · rename_i hc
        simp only [List.mem_cons, not_or]
        exact ⟨fun h => hc h.symm, ih false⟩
  have self : ∀ (b : Bool) (t : Str), 0 ∉ t → readQuoted b t = t := by
    intro b t h
    induction t generalizing b with
    | nil => rfl
    | cons c t ih =>
      simp only [List.mem_cons, not_or] at h
      rw [readQuoted, if_neg (fun e => h.1 e.symm), ih _ h.2]
  obtain ⟨m, hm, hd⟩ := C56_ascii s ha seps
  constructor
  · rintro ⟨m', hm', ht⟩
    rw [hm] at hm'
    injection hm' with e
    subst e
    rw [hd s] at ht
    simp only [Option.some.injEq, decide_eq_true_eq] at ht
    rw [ht]; exact mem true s
  · intro h0
    exact ⟨m, hm, by rw [hd s, self true s h0]; simp⟩

theorem C56_ascii_case : readQuoted true [97, 0, 42, 0, 0, 98] = [97, 42] ∧ readQuoted true [0, 97] = [] := by decide

end Verif.Glob
