import Verif.Closest.HistoryProps
/-
C136: word lists of any length. The identifier of a word is `uint32(i)`, so the numbers start again at 0 after 2^32 words.
-/
namespace Verif.Closest
open Spec

/-! ### Model -/

/-- closestmatch.go:35-44, 71-80: the loop over the words, `i` being the index of the next one; its identifier is `uint32(i)`. -/
def addWords32 (other : Str → Str) : Nat → List Str → CM → Option CM
  | _, [], cm => some cm
  | i, s :: ss, cm => (addWord other cm (i % 2 ^ 32) s).bind fun cm => addWords32 other (i + 1) ss cm

/-- closestmatch.go:69-82 `Add`, with identifiers of 32 bits. -/
def CM.add32 (other : Str → Str) (cm : CM) (possible : List Str) : Option CM := addWords32 other 0 possible cm

/-- closestmatch.go:30-47 `New`, with identifiers of 32 bits. -/
def new32 (other : Str → Str) (possible : List Str) (subsetSize : List Int) : Option CM :=
  addWords32 other 0 possible ⟨subsetSize, fun _ => none, fun _ => none⟩

/-! ### Specification -/

/-- The words in portions of 2^32. -/
def Spec.portions (words : List Str) : List (List Str) :=
  (List.range (words.length / 2 ^ 32 + 1)).map fun k => (words.drop (k * 2 ^ 32)).take (2 ^ 32)

/-- The last position in a list of `n` words that has the same number as the position `p`. -/
def Spec.lastSame (n p : Nat) : Nat := p + (n - 1 - p) / 2 ^ 32 * 2 ^ 32

/-! ### Proofs -/

theorem addWords32_short (other : Str → Str) : ∀ (ss : List Str) (i : Nat) (cm : CM), i % 2 ^ 32 + ss.length ≤ 2 ^ 32 →
    addWords32 other i ss cm = addWords other (i % 2 ^ 32) ss cm
  | [], _, _, _ => rfl
  | s :: ss, i, cm, h => by
    unfold addWords32 addWords
    congr 1
    funext cm'
    rw [List.length_cons] at h
    cases ss with
    | nil => rfl
    | cons t ts =>
      rw [List.length_cons] at h
      have e : (i + 1) % 2 ^ 32 = i % 2 ^ 32 + 1 := by omega
      rw [addWords32_short other (t :: ts) (i + 1) cm' (by rw [e, List.length_cons]; omega), e]

theorem addWords32_append (other : Str → Str) : ∀ (a b : List Str) (i : Nat) (cm : CM),
    addWords32 other i (a ++ b) cm = (addWords32 other i a cm).bind (addWords32 other (i + a.length) b)
  | [], b, i, cm => rfl
  | s :: a, b, i, cm => by
    rw [List.cons_append, addWords32, addWords32, Option.bind_assoc]
    congr 1
    funext cm'
    rw [addWords32_append other a b (i + 1) cm', List.length_cons, show i + 1 + a.length = i + (a.length + 1) by omega]

theorem portions_short {ws : List Str} (h : ws.length < 2 ^ 32) : portions ws = [ws] := by
  unfold portions
  rw [Nat.div_eq_of_lt h, Nat.zero_add, List.range_one, List.map_cons, List.map_nil, Nat.zero_mul, List.drop_zero,
    List.take_of_length_le (Nat.le_of_lt h)]

theorem portions_cons (N n : Nat) (ws : List Str) : ((List.range (n + 1)).map fun k => (ws.drop (k * N)).take N) =
    ws.take N :: (List.range n).map fun k => ((ws.drop N).drop (k * N)).take N := by
  rw [List.range_succ_eq_map, List.map_cons, Nat.zero_mul, List.drop_zero, List.map_map]
  congr 1
  apply List.map_congr_left
  intro k _
  simp only [Function.comp]
  rw [List.drop_drop, Nat.succ_eq_add_one, show (k + 1) * N = N + k * N by ring]

theorem portions_long {ws : List Str} (h : 2 ^ 32 ≤ ws.length) : portions ws = ws.take (2 ^ 32) :: portions (ws.drop (2 ^ 32)) := by
  unfold portions
  rw [List.length_drop, show ws.length / 2 ^ 32 = (ws.length - 2 ^ 32) / 2 ^ 32 + 1 by omega]
  exact portions_cons _ _ _

theorem addWords32_portions (other : Str → Str) : ∀ (b : Nat) (ws : List Str) (i : Nat) (cm : CM), ws.length ≤ b → i % 2 ^ 32 = 0 →
    addWords32 other i ws cm = (portions ws).foldlM (CM.add other) cm := by
  intro b
  induction b with
  | zero =>
    intro ws i cm h _
    rw [List.length_eq_zero_iff.1 (Nat.le_zero.1 h)]
    rfl
  | succ b ih =>
    intro ws i cm h hi
    by_cases hl : ws.length < 2 ^ 32
    · rw [portions_short hl, addWords32_short other ws i cm (by omega), hi]
      simp [CM.add]
    · have hlen : (ws.take (2 ^ 32)).length = 2 ^ 32 := by rw [List.length_take]; omega
      rw [portions_long (by omega), List.foldlM_cons]
      conv_lhs => rw [← List.take_append_drop (2 ^ 32) ws]
      rw [addWords32_append, addWords32_short other (ws.take (2 ^ 32)) i cm (by omega), hi]
      show (CM.add other cm (ws.take (2 ^ 32))).bind _ = (CM.add other cm (ws.take (2 ^ 32))).bind _
      congr 1
      funext cm'
      exact ih _ _ cm' (by rw [List.length_drop]; omega) (by omega)

/-- `Add` of a list is the same as adding its portions one after the other. -/
theorem add32_portions (other : Str → Str) (cm : CM) (words : List Str) :
    cm.add32 other words = (portions words).foldlM (CM.add other) cm :=
  addWords32_portions other words.length words 0 cm (Nat.le_refl _) rfl

theorem Holds.adds32 {other : Str → Str} {sizes : List Nat} : ∀ (more lists : List (List Str)) (cm : CM), Holds sizes (history other sizes lists) cm →
    ∃ cm', more.foldlM (CM.add32 other) cm = some cm' ∧ Holds sizes (history other sizes (lists ++ more.flatMap portions)) cm'
  | [], lists, cm, h => ⟨cm, rfl, by rwa [List.flatMap_nil, List.append_nil]⟩
  | words :: more, lists, cm, h => by
    obtain ⟨cm1, e1, h1⟩ := Holds.adds (portions words) lists cm h
    obtain ⟨cm2, e2, h2⟩ := Holds.adds32 more _ cm1 h1
    refine ⟨cm2, ?_, by rwa [List.append_assoc] at h2⟩
    rw [List.foldlM_cons, add32_portions, e1]
    exact e2

theorem holds_history32 (other : Str → Str) (sizes : List Nat) (words : List Str) (more : List (List Str)) :
    ∃ cm, ((new32 other words (sizes.map Int.ofNat)).bind fun cm => more.foldlM (CM.add32 other) cm) = some cm ∧
      Holds sizes (history other sizes ((words :: more).flatMap portions)) cm := by
  have h0 : Holds sizes (history other sizes []) ⟨sizes.map Int.ofNat, fun _ => none, fun _ => none⟩ :=
    ⟨rfl, fun i => by simp [history, CM.key], fun f => Or.inl ⟨rfl, rfl⟩⟩
  obtain ⟨cm2, e2, h2⟩ := Holds.adds32 (words :: more) [] _ h0
  exact ⟨cm2, by rw [List.foldlM_cons] at e2; exact e2, h2⟩

/-! ## C136 -/

/-- **C136** Up to 2^32 words the identifiers of 32 bits make no difference. -/
theorem C136_short (other : Str → Str) (words : List Str) (h : words.length ≤ 2 ^ 32) :
    (∀ cm : CM, cm.add32 other words = cm.add other words) ∧ ∀ sizes, new32 other words sizes = new other words sizes :=
  ⟨fun cm => addWords32_short other words 0 cm (by omega), fun sizes => addWords32_short other words 0 _ (by omega)⟩

/-- **C136** Lists of any length: entering a list is the same as entering its portions of 2^32 words by `New` and `Add` one after the other. -/
theorem C136_portions (other : Str → Str) (words : List Str) (sizes : List Int) (cm : CM) :
    cm.add32 other words = (portions words).foldlM (CM.add other) cm ∧
    new32 other words sizes = (portions words).foldlM (CM.add other) ⟨sizes, fun _ => none, fun _ => none⟩ ∧
    (portions words).flatten = words ∧ ∀ p ∈ portions words, p.length ≤ 2 ^ 32 := by
  refine ⟨add32_portions other cm words, add32_portions other ⟨sizes, fun _ => none, fun _ => none⟩ words, ?_, ?_⟩
  · have : ∀ (b : Nat) (ws : List Str), ws.length ≤ b → (portions ws).flatten = ws := by
      intro b
      induction b with
      | zero =>
        intro ws h
        rw [List.length_eq_zero_iff.1 (Nat.le_zero.1 h)]
        rfl
      | succ b ih =>
        intro ws h
        by_cases hl : ws.length < 2 ^ 32
        · rw [portions_short hl]; simp
        · rw [portions_long (by omega), List.flatten_cons, ih _ (by rw [List.length_drop]; omega), List.take_append_drop]
    exact this _ words (Nat.le_refl _)
  · intro p hp
    unfold portions at hp
    obtain ⟨k, -, rfl⟩ := List.mem_map.1 hp
    rw [List.length_take]
    omega

/-- **C136** What a search finds after any history of `New` and `Add` of lists of any length. -/
theorem C136_search (other : Str → Str) (sizes : List Nat) (words : List Str) (more : List (List Str)) :
    ∃ cm, ((new32 other words (sizes.map Int.ofNat)).bind fun cm => more.foldlM (CM.add32 other) cm) = some cm ∧ ∀ q,
      let x := history other sizes ((words :: more).flatMap portions)
      (MatchPanics cm q ↔ x.Found sizes q []) ∧
      (x.Found sizes q [] → ∀ m, ¬ Match cm q m) ∧
      (∀ out, Closest cm q out ↔ ¬ x.Found sizes q [] ∧
        ((x.Found sizes q out ∧ ∀ k, x.Found sizes q k → x.score sizes q k ≤ x.score sizes q out) ∨ (out = [] ∧ ∀ k, ¬ x.Found sizes q k))) ∧
      (∀ n out, ClosestN cm q n out ↔ (0 ≤ n ∧ n ≤ 2 ^ 44) ∧ ¬ x.Found sizes q [] ∧ ∃ all : List Str, (all.Nodup ∧ (∀ k, k ∈ all ↔ x.Found sizes q k) ∧
        all.Pairwise fun a b => x.score sizes q b ≤ x.score sizes q a) ∧ out = all.take n.toNat) := by
  obtain ⟨cm, e, h⟩ := holds_history32 other sizes words more
  refine ⟨cm, e, fun q => ?_⟩
  refine ⟨h.panics_iff q, fun hf m hm => ((h.match_iff q m).1 hm).1 hf, h.closest_best q, ?_⟩
  intro n out
  rw [h.closestN_iff]
  constructor
  · rintro ⟨a, b, all, ⟨c, d, e⟩, f⟩; exact ⟨a, b, all, ⟨c, d, e⟩, f⟩
  · rintro ⟨a, b, all, ⟨c, d, e⟩, f⟩; exact ⟨a, b, all, ⟨c, d, e⟩, f⟩

/-! ### One list -/

theorem history_word_append (other : Str → Str) (sizes : List Nat) (l : List (List Str)) (w : List Str) (j : Nat) :
    (history other sizes (l ++ [w])).word j = if j < w.length then w.getD j [] else (history other sizes l).word j := by
  unfold history
  simp only [List.filter_append]
  by_cases hj : j < w.length
  · rw [if_pos hj, List.filter_cons, if_pos (by simpa using hj), List.filter_nil]; simp
  · rw [if_neg hj, List.filter_cons, if_neg (by simpa using hj), List.filter_nil, List.append_nil]

/-- The number of a position stands for the word at the last position with this number. -/
theorem portions_word (other : Str → Str) (sizes : List Nat) (words : List Str) (p : Nat) (hp : p < words.length) :
    (history other sizes (portions words)).word (p % 2 ^ 32) = words.getD (lastSame words.length p) [] := by
  have key : ∀ m, (history other sizes ((List.range m).map fun k => (words.drop (k * 2 ^ 32)).take (2 ^ 32))).word (p % 2 ^ 32) =
      if (lastSame words.length p) / 2 ^ 32 < m then words.getD (lastSame words.length p) [] else
        if m = 0 then [] else words.getD ((m - 1) * 2 ^ 32 + p % 2 ^ 32) [] := by
    intro m
    induction m with
    | zero => simp [history]
    | succ m ih =>
      rw [List.range_succ, List.map_append, List.map_cons, List.map_nil, history_word_append, ih]
      have hL : ((words.drop (m * 2 ^ 32)).take (2 ^ 32)).length = min (2 ^ 32) (words.length - m * 2 ^ 32) := by
        rw [List.length_take, List.length_drop]
      have hg : ∀ j, j < 2 ^ 32 → ((words.drop (m * 2 ^ 32)).take (2 ^ 32)).getD j [] = words.getD (m * 2 ^ 32 + j) [] := by
        intro j hj
        simp only [List.getD_eq_getElem?_getD]
        rw [List.getElem?_take_of_lt hj, List.getElem?_drop]
      rw [hL, hg _ (Nat.mod_lt _ (by norm_num)), Nat.add_sub_cancel]
      unfold lastSame
      by_cases h1 : (p + (words.length - 1 - p) / 2 ^ 32 * 2 ^ 32) / 2 ^ 32 < m
      · rw [if_pos h1, if_neg (by omega), if_pos (by omega)]
      · rw [if_neg h1, if_pos (by omega), if_neg (Nat.succ_ne_zero m)]
        by_cases h2 : (p + (words.length - 1 - p) / 2 ^ 32 * 2 ^ 32) / 2 ^ 32 < m + 1
        · rw [if_pos h2]
          congr 1
          omega
        · rw [if_neg h2]
  have := key (words.length / 2 ^ 32 + 1)
  unfold portions
  rw [this, if_pos]
  unfold lastSame
  omega

theorem portions_holders (other : Str → Str) (sizes : List Nat) (words : List Str) (f : Str) (j : Nat) :
    j ∈ (history other sizes (portions words)).holders f ↔
      ∃ p < words.length, p % 2 ^ 32 = j ∧ f ∈ frags sizes (toLower other (words.getD p [])) := by
  unfold history portions
  simp only [Finset.mem_biUnion, List.mem_toFinset, List.mem_map, List.mem_range]
  have hg : ∀ m j, j < 2 ^ 32 → ((words.drop (m * 2 ^ 32)).take (2 ^ 32)).getD j [] = words.getD (m * 2 ^ 32 + j) [] := by
    intro m j hj
    simp only [List.getD_eq_getElem?_getD]
    rw [List.getElem?_take_of_lt hj, List.getElem?_drop]
  constructor
  · rintro ⟨W, ⟨m, hm, rfl⟩, h⟩
    unfold holders at h
    rw [Finset.mem_filter, Finset.mem_range, List.length_take, List.length_drop] at h
    rw [hg m j (by omega)] at h
    exact ⟨m * 2 ^ 32 + j, by omega, by omega, h.2⟩
  · rintro ⟨p, hp, rfl, h⟩
    refine ⟨_, ⟨p / 2 ^ 32, by omega, rfl⟩, ?_⟩
    unfold holders
    rw [Finset.mem_filter, Finset.mem_range, List.length_take, List.length_drop, hg _ _ (Nat.mod_lt _ (by norm_num)),
      show p / 2 ^ 32 * 2 ^ 32 + p % 2 ^ 32 = p by omega]
    exact ⟨by omega, h⟩

/-- **C136** One list: a search finds exactly the words at the last positions with the number of a position whose word shares a fragment with
the query. -/
theorem C136_found (other : Str → Str) (sizes : List Nat) (words : List Str) (q k : Str) :
    (history other sizes (portions words)).Found sizes q k ↔
      ∃ p < words.length, (∃ f ∈ frags sizes q, f ∈ frags sizes (toLower other (words.getD p []))) ∧ k = words.getD (lastSame words.length p) [] := by
  unfold Idx.Found
  constructor
  · rintro ⟨f, hf, i, hi, rfl⟩
    obtain ⟨p, hp, rfl, h⟩ := (portions_holders other sizes words f i).1 hi
    exact ⟨p, hp, ⟨f, hf, h⟩, portions_word other sizes words p hp⟩
  · rintro ⟨p, hp, ⟨f, hf, h⟩, rfl⟩
    exact ⟨f, hf, p % 2 ^ 32, (portions_holders other sizes words f _).2 ⟨p, hp, rfl, h⟩, portions_word other sizes words p hp⟩

/-- What `lastSame` says: the greatest position with the same number. -/
theorem C136_lastSame (n p : Nat) (hp : p < n) :
    lastSame n p < n ∧ p ≤ lastSame n p ∧ lastSame n p % 2 ^ 32 = p % 2 ^ 32 ∧ ∀ r < n, r % 2 ^ 32 = p % 2 ^ 32 → r ≤ lastSame n p := by
  unfold lastSame
  refine ⟨by omega, by omega, by omega, fun r hr h => by omega⟩

/-- **C136** A word can be returned by some search only if it is at one of the last 2^32 positions. -/
theorem C136_lost (other : Str → Str) (sizes : List Nat) (words : List Str) (cm : CM)
    (hcm : new32 other words (sizes.map Int.ofNat) = some cm) (q k : Str) (hk : Closest cm q k) (h0 : k ≠ []) :
    ∃ r < words.length, words.length ≤ r + 2 ^ 32 ∧ words.getD r [] = k := by
  obtain ⟨cm', e, h⟩ := holds_history32 other sizes words []
  rw [hcm] at e
  have e' : cm = cm' := by simpa using e
  subst e'
  rw [List.flatMap_cons, List.flatMap_nil, List.append_nil] at h
  obtain ⟨-, ⟨hf, -⟩ | ⟨hf, -⟩⟩ := (h.closest_best q k).1 hk
  · obtain ⟨p, hp, -, rfl⟩ := (C136_found other sizes words q k).1 hf
    refine ⟨lastSame words.length p, (C136_lastSame _ p hp).1, ?_, rfl⟩
    unfold lastSame
    omega
  · exact absurd hf h0

theorem counterexample_aux (N : Nat) (hN : N = 2 ^ 32) : ∃ cm, new32 id (lit "abc" :: List.replicate N (lit "xyz")) [2] = some cm ∧
    ∀ out, Closest cm (lit "abc") out ↔ out = lit "xyz" := by
  obtain ⟨cm, e, h⟩ := holds_history32 id [2] (lit "abc" :: List.replicate N (lit "xyz")) []
  refine ⟨cm, by simpa using e, ?_⟩
  rw [List.flatMap_cons, List.flatMap_nil, List.append_nil] at h
  have hfound : ∀ k, (history id [2] (portions (lit "abc" :: List.replicate N (lit "xyz")))).Found [2] (lit "abc") k ↔ k = lit "xyz" := by
    intro k
    rw [C136_found]
    have hlen : (lit "abc" :: List.replicate N (lit "xyz")).length = N + 1 := by simp
    have hpos : ∀ p, p < N + 1 → p ≠ 0 → (lit "abc" :: List.replicate N (lit "xyz")).getD p [] = lit "xyz" := by
      intro p hp h0
      obtain ⟨p, rfl⟩ := Nat.exists_eq_succ_of_ne_zero h0
      rw [Nat.succ_eq_add_one, List.getD_cons_succ, List.getD_eq_getElem?_getD, List.getElem?_replicate, if_pos (by omega)]
      rfl
    have hlast : ∀ p, p < N + 1 → lastSame (N + 1) p < N + 1 ∧ lastSame (N + 1) p ≠ 0 := by
      intro p hp
      subst hN
      unfold lastSame
      omega
    rw [hlen]
    constructor
    · rintro ⟨p, hp, -, rfl⟩
      exact hpos _ (hlast p hp).1 (hlast p hp).2
    · rintro rfl
      refine ⟨0, by omega, ⟨lit "ab", by decide +kernel, by rw [List.getD_cons_zero]; decide +kernel⟩, ?_⟩
      exact (hpos _ (hlast 0 (by omega)).1 (hlast 0 (by omega)).2).symm
  intro out
  rw [h.closest_best]
  constructor
  · rintro ⟨-, ⟨hf, -⟩ | ⟨-, hn⟩⟩
    · exact (hfound out).1 hf
    · exact absurd ((hfound _).2 rfl) (hn _)
  · rintro rfl
    refine ⟨fun hf => absurd ((hfound _).1 hf) (by decide), Or.inl ⟨(hfound _).2 rfl, fun k hk => ?_⟩⟩
    rw [(hfound k).1 hk]

/-- **C136** is false for the claim that every indexed word is found: in an index of "abc" and then 2^32 times "xyz" the only result of the search
for "abc" is "xyz". -/
theorem C136_counterexample : ∃ cm, new32 id (lit "abc" :: List.replicate (2 ^ 32) (lit "xyz")) [2] = some cm ∧
    ∀ out, Closest cm (lit "abc") out ↔ out = lit "xyz" := by
  exact counterexample_aux _ rfl

end Verif.Closest
