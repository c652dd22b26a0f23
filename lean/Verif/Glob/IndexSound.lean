import Verif.Glob.GoodProps
import Verif.Glob.RuneIndex
import Verif.Glob.Segments
/-
C151: what `Index` of a matcher returns, in terms of its `Match`.
-/
namespace Verif.Glob

/-! ## Specification -/

/-- What `Index` of the string should return: not a panic; -1 only if `Match` is false of every substring that is not empty; otherwise a position and lengths, of which
there is at least one, in ascending order without repetition, such that the substrings of these lengths at the position lie inside the string and `Match` is true of them,
and no substring that is not empty and starts before the position matches. -/
def FindsFirst (m : Matcher) (s : Str) : Prop :=
  match m.index s with
  | none => False
  | some none => ∀ a b c, s = a ++ b ++ c → b ≠ [] → m.match b = some false
  | some (some (i, ns)) => ns ≠ [] ∧ ns.Pairwise (· < ·) ∧ (∀ n ∈ ns, i + n ≤ s.length ∧ m.match ((s.drop i).take n) = some true) ∧
      ∀ a b c, s = a ++ b ++ c → b ≠ [] → a.length < i → m.match b = some false

/-- A part of a row: every string it matches has the same positive number of characters, which `Len` returns, and its `Match` is right (`good`, as for C57): texts, single characters, and rows and
alternatives of them. -/
def fixedMatcher (m : Matcher) : Bool := good m && lenGood m && posLen m.len

mutual
/-- The matchers of which it is claimed. -/
def plainIdx : Matcher → Bool
  | .nothing => true
  | .text _ => true
  | .any seps => decide (seps.length ≤ 1)
  | .super => true
  | .single _ => true
  | .list _ _ => true
  | .range _ _ _ => true
  | .min n => decide (1 ≤ n)
  | .max _ => true
  | .contains needle not => !not || !needle.isEmpty
  | .prefix _ => true
  | .suffix _ => true
  -- the suffix does not occur in the prefix, but perhaps at its end
  | .prefixSuffix p q => q.isEmpty || (strIndex q p.dropLast).isNone
  | .prefixAny _ seps => decide (seps.length ≤ 1)
  | .suffixAny _ seps => decide (seps.length ≤ 1)
  | .anyOf ms => plainIdxs ms
  | .row l ms => !ms.isEmpty && ms.all fixedMatcher && sumLens (lens ms) == some l
  | _ => false
/-- All of them. -/
def plainIdxs : List Matcher → Bool
  | [] => true
  | m :: ms => plainIdx m && plainIdxs ms
end

/-! ## Proofs -/

theorem Dec.true_iff {f : Str → Option Bool} {L : Str → Prop} {s : Str} (h : Dec f L s) : f s = some true ↔ L s := by
  obtain ⟨b, h1, h2⟩ := h
  rw [h1, ← h2]; simp

theorem Dec.false_iff {f : Str → Option Bool} {L : Str → Prop} {s : Str} (h : Dec f L s) : f s = some false ↔ ¬ L s := by
  obtain ⟨b, h1, h2⟩ := h
  rw [h1, ← h2]; simp

theorem sub_ascii {s a b c : Str} (ha : Ascii s) (h : s = a ++ b ++ c) : Ascii b := by
  rw [h, ascii_append, ascii_append] at ha; exact ha.1.2

theorem finds_none {m : Matcher} {s : Str} (h : m.index s = some none) (h2 : ∀ a b c, s = a ++ b ++ c → b ≠ [] → m.match b = some false) : FindsFirst m s := by
  unfold FindsFirst; rw [h]; exact h2

theorem finds_some {m : Matcher} {s : Str} {i : Nat} {ns : List Nat} (h : m.index s = some (some (i, ns))) (h1 : ns ≠ []) (h2 : ns.Pairwise (· < ·))
    (h3 : ∀ n ∈ ns, i + n ≤ s.length ∧ m.match ((s.drop i).take n) = some true)
    (h4 : ∀ a b c, s = a ++ b ++ c → b ≠ [] → a.length < i → m.match b = some false) : FindsFirst m s := by
  unfold FindsFirst; rw [h]; exact ⟨h1, h2, h3, h4⟩

theorem finds_zero {m : Matcher} {s : Str} {ns : List Nat} (h : m.index s = some (some (0, ns))) (h1 : ns ≠ []) (h2 : ns.Pairwise (· < ·))
    (h3 : ∀ n ∈ ns, n ≤ s.length ∧ m.match (s.take n) = some true) : FindsFirst m s :=
  finds_some h h1 h2 (fun n hn => by simpa using h3 n hn) fun _ _ _ _ _ h => absurd h (by omega)

theorem finds_of_first {m : Matcher} (h : IdxFirst m.index (MLang m)) (hd : ∀ s, Ascii s → s ≠ [] → Dec m.match (MLang m) s) {s : Str} (ha : Ascii s) : FindsFirst m s := by
  rcases h s ha with ⟨h1, h2⟩ | ⟨i, k, h1, h2, h3, h4, h5⟩
  · exact finds_none h1 fun a b c e hb => (hd b (sub_ascii ha e) hb).false_iff.2 (h2 a b c e)
  · refine finds_some h1 (by simp) (by simp) (fun n hn => ?_) fun a b c e hb hlt => (hd b (sub_ascii ha e) hb).false_iff.2 fun hL => ?_
    · simp only [List.mem_singleton] at hn
      subst hn
      refine ⟨h3, (hd _ (ascii_take (ascii_drop ha i) n) ?_).true_iff.2 h4⟩
      intro e
      have := congrArg List.length e
      simp only [List.length_take, List.length_drop, List.length_nil] at this
      omega
    · have := h5 a b c e hL
      omega

theorem starts_sorted {s : Str} (ha : Ascii s) : ((rangeStr s).map Prod.fst ++ [s.length]).Pairwise (· < ·) := by
  rw [rangeStr_fst ha, ← List.range_succ]; exact List.pairwise_lt_range

theorem ends_eq {s : Str} (ha : Ascii s) (n : Nat) : (rangeStr s).map (fun x => n + x.1 + runeLen x.2) = (List.range s.length).map fun i => n + i + 1 := by
  rw [← rangeStr_fst ha, List.map_map]
  apply List.map_congr_left
  intro x hx
  obtain ⟨b, h1, h2⟩ := (mem_rangeStr ha).1 hx
  rw [h2, runeLen_ascii (ha b (List.mem_of_getElem? h1))]
  rfl

theorem ends_sorted {s : Str} (ha : Ascii s) (n : Nat) : (n :: (rangeStr s).map (fun x => n + x.1 + runeLen x.2)).Pairwise (· < ·) := by
  rw [List.pairwise_cons]
  constructor
  · intro k hk
    have := (mem_ends ha n k).1 hk
    omega
  · rw [ends_eq ha, List.pairwise_map]
    exact List.pairwise_lt_range.imp fun h => by omega

theorem take_rangeStr {s : Str} (ha : Ascii s) (n : Nat) : (rangeStr s).take n = rangeStr (s.take n) := by
  rw [rangeStr_ascii ha, rangeStr_ascii (ascii_take ha n), ← List.map_take]
  congr 1
  apply List.ext_getElem?
  intro i
  rw [List.getElem?_take, List.getElem?_zipIdx, List.getElem?_zipIdx, List.getElem?_take]
  split <;> rfl

theorem strIndex_drop {sub s : Str} {i : Nat} (h : strIndex sub s = some i) : i + sub.length ≤ s.length ∧ ∃ c, s.drop i = sub ++ c := by
  obtain ⟨⟨c, h1⟩, h2, _⟩ := strIndex_some h
  have hl := congrArg List.length h1
  simp only [List.length_append, List.length_take] at hl
  refine ⟨by omega, c, ?_⟩
  conv_lhs => rw [h1]
  rw [List.append_assoc, List.drop_append_of_le_length (by simp; omega)]
  simp

/-! ### The simple matchers -/

theorem any_finds {seps : List Nat} (hs : seps.length ≤ 1) {s : Str} (ha : Ascii s) : FindsFirst (.any seps) s := by
  have hm : ∀ n, (Matcher.any seps).match (s.take n) = some true ↔ ∀ b ∈ s.take n, b.toNat ∉ seps := fun n => by
    rw [(any_dec seps (ascii_take ha n)).true_iff, MLang]
  have e : (Matcher.any seps).index s = anyIndex seps s := rfl
  unfold anyIndex at e
  split at e
  · refine finds_zero e (by simp) (by simp) fun n hn => ?_
    simp only [List.mem_singleton] at hn
    subst hn
    exact ⟨Nat.zero_le _, (hm 0).2 (by simp)⟩
  · rename_i found _ hi
    obtain ⟨h1, h2⟩ := indexAnyRunes_some ha hs hi
    refine finds_zero e (by simp) (starts_sorted (ascii_take ha found)) fun n hn => ?_
    have := (mem_positions (ascii_take ha found) n).1 hn
    rw [List.length_take] at this
    exact ⟨by omega, (hm n).2 ((h2 n (by omega)).2 (by omega))⟩
  · rename_i hi
    refine finds_zero e (by simp) (starts_sorted ha) fun n hn => ?_
    rw [indexAnyRunes_none ha] at hi
    exact ⟨(mem_positions ha n).1 hn, (hm n).2 fun b hb => hi b (List.mem_of_mem_take hb)⟩

theorem min_finds {n : Nat} (hn : 1 ≤ n) {s : Str} (ha : Ascii s) : FindsFirst (.min n) s := by
  have e : (Matcher.min n).index s = minIndex n s := rfl
  have hno : s.length < n → ∀ a b c, s = a ++ b ++ c → b ≠ [] → (Matcher.min n).match b = some false := by
    intro hl a b c h _
    rw [(min_dec hn (sub_ascii ha h)).false_iff, MLang]
    have := congrArg List.length h
    simp only [List.length_append] at this
    omega
  unfold minIndex at e
  simp only at e
  split at e
  · exact finds_none e (hno (by omega))
  · split at e
    · rename_i h2
      refine finds_none e (hno ?_)
      by_contra hc
      rw [List.isEmpty_iff] at h2
      have := (min_segs ha n n hn).2 ⟨Nat.le_refl _, by omega⟩
      rw [h2] at this
      cases this
    · rename_i h2
      refine finds_zero e (by simpa using h2) ?_ fun k hk => ?_
      · have e2 : (((rangeStr s).zipIdx 1).filter fun x => x.2 ≥ n).map (fun x => x.1.1 + runeLen x.1.2) = (((rangeStr s).zipIdx 1).filter fun x => x.2 ≥ n).map Prod.snd := by
          apply List.map_congr_left
          intro x hx
          have hx := (List.mem_filter.1 hx).1
          rw [List.mem_zipIdx_iff_le_and_getElem?_sub] at hx
          obtain ⟨h3, h4⟩ := hx
          rw [rangeStr_ascii ha, List.getElem?_map, List.getElem?_zipIdx] at h4
          cases hb : s[x.2 - 1]? with
          | none => rw [hb] at h4; simp at h4
          | some b =>
            rw [hb] at h4
            simp only [Option.map_some, Option.some.injEq] at h4
            rw [← h4, runeLen_ascii (ha b (List.mem_of_getElem? hb))]
            simp only; omega
        rw [e2]
        have h3 : ((rangeStr s).zipIdx 1).map Prod.snd = List.range' 1 (rangeStr s).length := by simp
        have h4 := (List.filter_sublist (p := fun x : (Nat × Nat) × Nat => decide (x.2 ≥ n)) (l := (rangeStr s).zipIdx 1)).map Prod.snd
        rw [h3] at h4
        exact List.Pairwise.sublist h4 List.pairwise_lt_range'
      · have := (min_segs ha n k hn).1 hk
        refine ⟨this.2, ?_⟩
        rw [(min_dec hn (ascii_take ha k)).true_iff, MLang, List.length_take]
        omega

theorem max_finds (n : Nat) {s : Str} (ha : Ascii s) : FindsFirst (.max n) s := by
  refine finds_zero (ns := 0 :: ((rangeStr s).take n).map fun x => x.1 + runeLen x.2) rfl (by simp) ?_ fun k hk => ?_
  · have := ends_sorted (ascii_take ha n) 0
    simp only [Nat.zero_add] at this
    rw [take_rangeStr ha]; exact this
  · have := (max_segs ha n k).1 hk
    refine ⟨this.1, ?_⟩
    rw [(max_dec n (ascii_take ha k)).true_iff, MLang, List.length_take]
    omega

theorem contains_finds {needle : Str} {not : Bool} (hn : not = true → needle ≠ []) {s : Str} (ha : Ascii s) : FindsFirst (.contains needle not) s := by
  have e : (Matcher.contains needle not).index s = containsIndex needle not s := rfl
  have hm : ∀ b, (Matcher.contains needle not).match b = some (containsStr needle b != not) := fun _ => rfl
  unfold containsIndex at e
  cases hi : strIndex needle s with
  | none =>
    have hno := strIndex_none hi
    have hno' : ∀ a b c, s = a ++ b ++ c → containsStr needle b = false := by
      intro a b c h
      rw [← Bool.not_eq_true, containsStr_iff]
      rintro ⟨x, y, rfl⟩
      exact hno (a ++ x) (y ++ c) (by rw [h]; simp)
    cases not with
    | false =>
      simp only [hi] at e
      exact finds_none e fun a b c h _ => by rw [hm, hno' a b c h]; rfl
    | true =>
      simp only [hi] at e
      refine finds_zero e (by simp) (starts_sorted ha) fun n h => ⟨(mem_positions ha n).1 h, ?_⟩
      rw [hm, hno' [] (s.take n) (s.drop n) (by simp)]; rfl
  | some i =>
    obtain ⟨hl, c0, hc⟩ := strIndex_drop hi
    cases not with
    | false =>
      simp only [hi] at e
      have key : ∀ k, i + needle.length ≤ k → k ≤ s.length → (Matcher.contains needle false).match (s.take k) = some true := by
        intro k h1 h2
        rw [hm, containsStr_iff.2 ((occurs_take hi h2).2 h1)]; rfl
      split at e
      · refine finds_zero e (by simp) (by simp) fun n h => ?_
        simp only [List.mem_singleton] at h
        subst h
        exact ⟨hl, key _ (Nat.le_refl _) hl⟩
      · have hd := ascii_drop ha (i + needle.length)
        have e2 : (rangeStr (s.drop (i + needle.length))).map (fun x => i + needle.length + x.1) = (List.range (s.length - (i + needle.length))).map (i + needle.length + ·) := by
          rw [← List.length_drop, ← rangeStr_fst hd, List.map_map]; rfl
        rw [e2] at e
        refine finds_zero e (by simp) ?_ fun n h => ?_
        · rw [List.pairwise_append]
          refine ⟨?_, by simp, ?_⟩
          · rw [List.pairwise_map]; exact List.pairwise_lt_range.imp fun h => by omega
          · intro x hx y hy
            simp only [List.mem_map, List.mem_range, List.mem_singleton, List.length_drop] at hx hy
            obtain ⟨z, hz, rfl⟩ := hx
            omega
        · simp only [List.mem_append, List.mem_map, List.mem_range, List.mem_singleton, List.length_drop] at h
          have : i + needle.length ≤ n ∧ n ≤ s.length := by
            rcases h with ⟨z, hz, rfl⟩ | h <;> omega
          exact ⟨this.2, key n this.1 this.2⟩
    | true =>
      simp only [hi] at e
      have hpos := List.length_pos_iff.2 (hn rfl)
      refine finds_zero e (by simp) (starts_sorted (ascii_take ha i)) fun n h => ?_
      have := (mem_positions (ascii_take ha i) n).1 h
      rw [List.length_take] at this
      refine ⟨by omega, ?_⟩
      have hf : containsStr needle (s.take n) = false := by
        rw [← Bool.not_eq_true, containsStr_iff, occurs_take hi (by omega)]
        omega
      rw [hm, hf]; rfl

theorem prefix_finds (p : Str) {s : Str} (ha : Ascii s) : FindsFirst (.prefix p) s := by
  have e : (Matcher.prefix p).index s = prefixIndex p s := rfl
  unfold prefixIndex at e
  cases hi : strIndex p s with
  | none =>
    simp only [hi] at e
    refine finds_none e fun a b c h _ => ?_
    rw [(prefix_dec p b).false_iff, MLang]
    rintro ⟨d, rfl⟩
    exact strIndex_none hi a (d ++ c) (by rw [h]; simp)
  | some i =>
    simp only [hi] at e
    obtain ⟨hl, c0, hc⟩ := strIndex_drop hi
    refine finds_some e (by simp) (ends_sorted (ascii_drop ha _) _) (fun n hn => ?_) fun a b c h _ hlt => ?_
    · rw [List.mem_cons, mem_ends (ascii_drop ha _), List.length_drop] at hn
      refine ⟨by omega, ?_⟩
      rw [(prefix_dec p _).true_iff, MLang, take_prefix]
      exact ⟨⟨c0, hc⟩, by omega⟩
    · rw [(prefix_dec p b).false_iff, MLang]
      rintro ⟨d, rfl⟩
      have := (strIndex_some hi).2.2 a (d ++ c) (by rw [h]; simp)
      omega

theorem suffix_finds (q : Str) {s : Str} : FindsFirst (.suffix q) s := by
  have e : (Matcher.suffix q).index s = suffixIndex q s := rfl
  unfold suffixIndex at e
  cases hi : strIndex q s with
  | none =>
    simp only [hi] at e
    refine finds_none e fun a b c h _ => ?_
    rw [(suffix_dec q b).false_iff, MLang]
    rintro ⟨d, rfl⟩
    exact strIndex_none hi (a ++ d) c (by rw [h]; simp)
  | some i =>
    simp only [hi] at e
    obtain ⟨hl, c0, hc⟩ := strIndex_drop hi
    refine finds_zero e (by simp) (by simp) fun n hn => ?_
    simp only [List.mem_singleton] at hn
    subst hn
    refine ⟨hl, ?_⟩
    rw [(suffix_dec q _).true_iff, MLang]
    refine ⟨s.take i, ?_⟩
    rw [List.take_add, hc, List.take_left]

theorem prefixAny_finds {p : Str} {seps : List Nat} (hs : seps.length ≤ 1) {s : Str} (ha : Ascii s) : FindsFirst (.prefixAny p seps) s := by
  have e : (Matcher.prefixAny p seps).index s = prefixAnyIndex p seps s := rfl
  unfold prefixAnyIndex at e
  cases hi : strIndex p s with
  | none =>
    simp only [hi] at e
    refine finds_none e fun a b c h _ => ?_
    rw [(prefixAny_dec p seps (sub_ascii ha h)).false_iff, MLang]
    rintro ⟨d, rfl, _⟩
    exact strIndex_none hi a (d ++ c) (by rw [h]; simp)
  | some i =>
    simp only [hi] at e
    obtain ⟨hl, c0, hc⟩ := strIndex_drop hi
    have hc0 : s.drop (i + p.length) = c0 := by rw [← List.drop_drop, hc, List.drop_left]
    have hac : Ascii c0 := hc0 ▸ ascii_drop ha _
    have hlc : c0.length = s.length - (i + p.length) := by rw [← hc0, List.length_drop]
    rw [hc0] at e
    have key : ∀ t : Str, (∃ j, t = c0.take j) → (∀ b ∈ t, b.toNat ∉ seps) → (Matcher.prefixAny p seps).index s = some (some (i, p.length :: (rangeStr t).map fun x => p.length + x.1 + runeLen x.2)) →
        FindsFirst (.prefixAny p seps) s := by
      rintro t ⟨j, rfl⟩ ht e
      refine finds_some e (by simp) (ends_sorted (ascii_take hac j) _) (fun n hn => ?_) fun a b c h _ hlt => ?_
      · rw [List.mem_cons, mem_ends (ascii_take hac j), List.length_take] at hn
        refine ⟨by omega, ?_⟩
        rw [(prefixAny_dec p seps (ascii_take (ascii_drop ha i) n)).true_iff, MLang, hc]
        refine ⟨c0.take (n - p.length), ?_, fun b hb => ht b ?_⟩
        · rw [List.take_append, List.take_of_length_le (by omega)]
        · have h1 : n - p.length ≤ j := by omega
          have : c0.take (n - p.length) = (c0.take j).take (n - p.length) := by rw [List.take_take, Nat.min_eq_left h1]
          rw [this] at hb
          exact List.mem_of_mem_take hb
      · rw [(prefixAny_dec p seps (sub_ascii ha h)).false_iff, MLang]
        rintro ⟨d, rfl, _⟩
        have := (strIndex_some hi).2.2 a (d ++ c) (by rw [h]; simp)
        omega
    cases hj : indexAnyRunes c0 seps with
    | none =>
      rw [hj] at e
      exact key c0 ⟨c0.length, by simp⟩ ((indexAnyRunes_none hac seps).1 hj) e
    | some j =>
      rw [hj] at e
      obtain ⟨h1, h2⟩ := indexAnyRunes_some hac hs hj
      exact key (c0.take j) ⟨j, rfl⟩ ((h2 j (by omega)).2 (Nat.le_refl _)) e

theorem suffixAny_finds {q : Str} {seps : List Nat} (hs : seps.length ≤ 1) {s : Str} (ha : Ascii s) : FindsFirst (.suffixAny q seps) s := by
  have e : (Matcher.suffixAny q seps).index s = suffixAnyIndex q seps s := rfl
  unfold suffixAnyIndex at e
  cases hi : strIndex q s with
  | none =>
    simp only [hi] at e
    refine finds_none e fun a b c h _ => ?_
    rw [(suffixAny_dec q seps (sub_ascii ha h)).false_iff, MLang]
    rintro ⟨d, rfl, _⟩
    exact strIndex_none hi (a ++ d) c (by rw [h]; simp)
  | some idx =>
    simp only [hi] at e
    obtain ⟨hl, c0, hc⟩ := strIndex_drop hi
    have hat := ascii_take ha idx
    -- the position behind the last separator before the suffix
    have key : ∀ i, i ≤ idx → (∀ b ∈ (s.take idx).drop i, b.toNat ∉ seps) → (0 < i → ∃ b, s[i - 1]? = some b ∧ b.toNat ∈ seps) →
        (Matcher.suffixAny q seps).index s = some (some (i, [idx + q.length - i])) → FindsFirst (.suffixAny q seps) s := by
      intro i hle hno hsep e
      refine finds_some e (by simp) (by simp) (fun n hn => ?_) fun a b c h _ hlt => ?_
      · simp only [List.mem_singleton] at hn
        subst hn
        refine ⟨by omega, ?_⟩
        rw [(suffixAny_dec q seps (ascii_take (ascii_drop ha i) _)).true_iff, MLang]
        refine ⟨(s.take idx).drop i, ?_, hno⟩
        have h1 : idx + q.length - i = (idx - i) + q.length := by omega
        have h2 : i + (idx - i) = idx := by omega
        rw [h1, List.take_add, List.drop_drop, h2, hc, List.take_left, List.drop_take]
      · rw [(suffixAny_dec q seps (sub_ascii ha h)).false_iff, MLang]
        rintro ⟨d, rfl, hd⟩
        obtain ⟨b, hb, hbs⟩ := hsep (by omega)
        have h1 := (strIndex_some hi).2.2 (a ++ d) c (by rw [h]; simp)
        rw [List.length_append] at h1
        refine hd b ?_ hbs
        have h2 : s = a ++ (d ++ (q ++ c)) := by rw [h]; simp
        rw [h2, List.getElem?_append_right (by omega), List.getElem?_append_left (by omega)] at hb
        exact List.mem_of_getElem? hb
    by_cases hr : ∀ b ∈ s.take idx, b.toNat ∉ seps
    · have hn : lastIndexAnyRunes (s.take idx) seps = some none := by
        rw [C146_last_none]
        intro i r hr1 hat1
        obtain ⟨b, h1, h2⟩ := (mem_rangeStr hat).1 hat1
        simp only at h1 h2
        exact hr b (List.mem_of_getElem? h1) (h2 ▸ hr1)
      rw [hn] at e
      exact key 0 (Nat.zero_le _) (by simpa using hr) (fun h => absurd h (by omega)) (by simpa using e)
    · push Not at hr
      obtain ⟨b0, hb0, hbs⟩ := hr
      have hone : ∀ x ∈ seps, x = b0.toNat := by
        match seps, hs, hbs with
        | [y], _, hbs => intro x hx; simp only [List.mem_singleton] at hx hbs; rw [hx, hbs]
      have hlt : b0.toNat < 0x80 := toNat_lt_of_ascii (hat b0 hb0)
      obtain ⟨k, hk, hk2⟩ := List.getElem_of_mem hb0
      have hat0 : RuneAt (s.take idx) k b0.toNat := (mem_rangeStr hat).2 ⟨b0, by simp only; rw [List.getElem?_eq_getElem hk, hk2], rfl⟩
      obtain ⟨j, hj1, hj2⟩ := lastAt_exists hat0
      have hlast : lastIndexAnyRunes (s.take idx) seps = some (some j) := by
        rw [C146_last_partial _ _ (fun x hx y hy => by rw [hone x hx, hone y hy]) (fun x hx => by rw [hone x hx]; exact hlt)]
        exact ⟨⟨_, hbs, hj1⟩, fun i hi r hr => by rw [hone r hr]; exact hj2 i hi⟩
      rw [hlast] at e
      obtain ⟨b, h1, h2⟩ := (mem_rangeStr hat).1 hj1
      simp only at h1 h2
      have hjl : j < idx := by
        have := (List.getElem?_eq_some_iff.1 h1).1
        rw [List.length_take] at this
        omega
      refine key (j + 1) (by omega) ?_ (fun _ => ⟨b, ?_, h2 ▸ hbs⟩) e
      · intro x hx hxs
        obtain ⟨n, hn⟩ := List.getElem?_of_mem hx
        rw [List.getElem?_drop] at hn
        exact hj2 (j + 1 + n) (by omega) ((mem_rangeStr hat).2 ⟨x, hn, (hone _ hxs).symm⟩)
      · rw [List.getElem?_take] at h1
        simpa [hjl] using h1

/-! ### PrefixSuffix -/

theorem strLastIndex_some {sub : Str} : ∀ {s : Str} {i : Nat}, strLastIndex sub s = some i → ∃ c, s = s.take i ++ sub ++ c ∧ i ≤ s.length
  | [], i, h => by
    simp only [strLastIndex] at h
    split at h
    · rename_i he
      cases h
      rw [List.isEmpty_iff] at he; subst he
      exact ⟨[], rfl, Nat.le_refl _⟩
    · cases h
  | b :: s, i, h => by
    rw [strLastIndex] at h
    split at h
    · rename_i j hj
      cases h
      obtain ⟨c, h1, h2⟩ := strLastIndex_some hj
      exact ⟨c, by simp only [List.take_succ_cons, List.cons_append]; rw [← h1], by simpa using h2⟩
    · split at h
      · rename_i he
        cases h
        obtain ⟨c, hc⟩ := List.isPrefixOf_iff_prefix.1 he
        exact ⟨c, by simp [hc], Nat.zero_le _⟩
      · cases h

theorem strLastIndex_none {sub : Str} : ∀ {s : Str}, strLastIndex sub s = none → ∀ a c, s ≠ a ++ sub ++ c
  | [], h, a, c => by
    simp only [strLastIndex] at h
    split at h
    · cases h
    · rename_i he
      intro h'
      have := congrArg List.length h'
      simp only [List.length_nil, List.length_append] at this
      exact he (by rw [List.isEmpty_iff, ← List.length_eq_zero_iff]; omega)
  | b :: s, h, a, c => by
    rw [strLastIndex] at h
    split at h
    · cases h
    · rename_i hj
      split at h
      · cases h
      · rename_i he
        intro h'
        cases a with
        | nil => exact absurd (List.isPrefixOf_iff_prefix.2 ⟨c, h'.symm⟩) (by simpa using he)
        | cons x a =>
          injection h' with _ h5
          exact strLastIndex_none hj a c h5

theorem suffixEnds_spec {q : Str} (hq : q ≠ []) : ∀ (n : Nat) (s : Str), s.length < n →
    (suffixEnds q n s).Pairwise (· > ·) ∧ (∀ e ∈ suffixEnds q n s, e ≤ s.length ∧ ∃ a, s.take e = a ++ q) ∧ (suffixEnds q n s = [] → ∀ a c, s ≠ a ++ q ++ c)
  | 0, s, h => absurd h (by omega)
  | n + 1, s, h => by
    rw [suffixEnds]
    have hpos := List.length_pos_iff.2 hq
    split
    · rename_i hl
      exact ⟨List.Pairwise.nil, by simp, fun _ => strLastIndex_none hl⟩
    · rename_i i hl
      obtain ⟨c, h1, h2⟩ := strLastIndex_some hl
      have hlen := congrArg List.length h1
      simp only [List.length_append, List.length_take] at hlen
      obtain ⟨h3, h4, _⟩ := suffixEnds_spec hq n (s.take i) (by rw [List.length_take]; omega)
      refine ⟨?_, ?_, by simp⟩
      · rw [List.pairwise_cons]
        refine ⟨fun e he => ?_, h3⟩
        have := (h4 e he).1
        rw [List.length_take] at this
        omega
      · intro e he
        rw [List.mem_cons] at he
        rcases he with rfl | he
        · refine ⟨by omega, s.take i, ?_⟩
          conv_lhs => rw [h1]
          rw [List.take_append_of_le_length (by simp; omega), List.take_of_length_le (by simp; omega)]
        · obtain ⟨h5, a, h6⟩ := h4 e he
          rw [List.length_take] at h5
          rw [List.take_take, Nat.min_eq_left (by omega)] at h6
          exact ⟨by omega, a, h6⟩

theorem prefixSuffix_finds {p q : Str} (h : q = [] ∨ ∀ a c, p.dropLast ≠ a ++ q ++ c) {s : Str} : FindsFirst (.prefixSuffix p q) s := by
  have e : (Matcher.prefixSuffix p q).index s = prefixSuffixIndex p q s := rfl
  have hm : ∀ b, (Matcher.prefixSuffix p q).match b = some true ↔ (∃ c, b = p ++ c) ∧ ∃ a, b = a ++ q := by
    intro b
    show some (hasPrefix b p && hasSuffix b q) = some true ↔ _
    rw [Option.some.injEq, Bool.and_eq_true, hasPrefix_iff, hasSuffix_iff]
  have hm' : ∀ b, (Matcher.prefixSuffix p q).match b = some false ↔ ¬ ((∃ c, b = p ++ c) ∧ ∃ a, b = a ++ q) := by
    intro b
    rw [← hm]
    show some (hasPrefix b p && hasSuffix b q) = some false ↔ ¬ some (hasPrefix b p && hasSuffix b q) = some true
    simp
  unfold prefixSuffixIndex at e
  cases hi : strIndex p s with
  | none =>
    simp only [hi] at e
    refine finds_none e fun a b c h _ => ?_
    rw [hm']
    rintro ⟨⟨d, rfl⟩, _⟩
    exact strIndex_none hi a (d ++ c) (by rw [h]; simp)
  | some i =>
    simp only [hi] at e
    obtain ⟨hl, c0, hc⟩ := strIndex_drop hi
    have hfirst : ∀ a b c, s = a ++ b ++ c → (∃ d, b = p ++ d) → i ≤ a.length := by
      rintro a b c h ⟨d, rfl⟩
      exact (strIndex_some hi).2.2 a (d ++ c) (by rw [h]; simp)
    have hearly : ∀ a b c, s = a ++ b ++ c → b ≠ [] → a.length < i → (Matcher.prefixSuffix p q).match b = some false := by
      intro a b c h _ hlt
      rw [hm']
      rintro ⟨hp, _⟩
      have := hfirst a b c h hp
      omega
    split at e
    · rename_i hq
      have hq : q = [] := List.length_eq_zero_iff.1 (by omega)
      refine finds_some e (by simp) (by simp) (fun n hn => ?_) hearly
      simp only [List.mem_singleton] at hn
      subst hn
      refine ⟨by omega, (hm _).2 ⟨⟨c0, ?_⟩, s.drop i, ?_⟩⟩
      · rw [List.take_of_length_le (by simp), hc]
      · rw [List.take_of_length_le (by simp), hq, List.append_nil]
    · rename_i hq
      have hq : q ≠ [] := fun e => hq (by rw [e]; rfl)
      split at e
      · rename_i hz
        refine finds_none e fun a b c h hb => ?_
        rw [hm']
        rintro ⟨hp, _⟩
        have h1 := hfirst a b c h hp
        have h2 := congrArg List.length h
        have h3 := List.length_pos_iff.2 hb
        simp only [List.length_append] at h2
        omega
      · obtain ⟨h1, h2, h3⟩ := suffixEnds_spec hq (s.length + 1) (s.drop i) (by rw [List.length_drop]; omega)
        split at e
        · rename_i hz
          rw [List.isEmpty_iff] at hz
          refine finds_none e fun a b c h hb => ?_
          rw [hm']
          rintro ⟨hp, d, rfl⟩
          have h4 := hfirst a _ c h hp
          have h5 : s.drop i = (a ++ d).drop i ++ q ++ c := by
            rw [h, ← List.append_assoc a, List.append_assoc (a ++ d), List.drop_append_of_le_length (by simp; omega), List.append_assoc]
          exact h3 hz _ _ h5
        · rename_i hz
          refine finds_some e (by simpa using hz) ?_ (fun n hn => ?_) hearly
          · rw [List.pairwise_reverse]; exact h1
          · rw [List.mem_reverse] at hn
            obtain ⟨h4, a, h5⟩ := h2 n hn
            rw [List.length_drop] at h4
            refine ⟨by omega, (hm _).2 ⟨?_, a, h5⟩⟩
            rw [take_prefix]
            refine ⟨⟨c0, hc⟩, ?_⟩
            by_contra hlt
            rcases h with h | h
            · exact hq h
            · rw [hc, List.take_append_of_le_length (by omega)] at h5
              apply h a (p.dropLast.drop n)
              have : p.take n = p.dropLast.take n := by rw [List.dropLast_eq_take, List.take_take, Nat.min_eq_left (by omega)]
              rw [← h5, this, List.take_append_drop]

/-! ### AnyOf and Row -/

theorem anyOf_true {ms : List Matcher} {s : Str} (ht : ∀ m ∈ ms, ∃ b, m.match s = some b) :
    ((Matcher.anyOf ms).match s = some true ↔ ∃ m ∈ ms, m.match s = some true) ∧ ((Matcher.anyOf ms).match s = some false ↔ ∀ m ∈ ms, m.match s = some false) := by
  show (anyOfMatch s (matchFns ms) = some true ↔ _) ∧ (anyOfMatch s (matchFns ms) = some false ↔ _)
  induction ms with
  | nil => simp [matchFns, anyOfMatch]
  | cons m ms ih =>
    obtain ⟨b, hb⟩ := ht m (by simp)
    obtain ⟨h1, h2⟩ := ih fun m' hm' => ht m' (by simp [hm'])
    simp only [matchFns, anyOfMatch, hb, List.mem_cons, exists_eq_or_imp, forall_eq_or_imp]
    cases b <;> simp [h1, h2]

/-- What is known after some of the matchers. -/
def AccOk (s : Str) (ms : List Matcher) : Option (Nat × List Nat) → Prop
  | none => ∀ m ∈ ms, ∀ a b c, s = a ++ b ++ c → b ≠ [] → m.match b = some false
  | some (i, ns) => ns ≠ [] ∧ ns.Pairwise (· < ·) ∧ (∀ n ∈ ns, i + n ≤ s.length ∧ ∃ m ∈ ms, m.match ((s.drop i).take n) = some true) ∧
      ∀ m ∈ ms, ∀ a b c, s = a ++ b ++ c → b ≠ [] → a.length < i → m.match b = some false

theorem anyOf_loop {s : Str} : ∀ (ms done : List Matcher) (acc : Option (Nat × List Nat)), (∀ m ∈ ms, FindsFirst m s) → AccOk s done acc →
    ∃ r, anyOfIndex s acc (indexFns ms) = some r ∧ AccOk s (done ++ ms) r
  | [], done, acc, _, h => ⟨acc, rfl, by simpa using h⟩
  | m :: ms, done, acc, hf, h => by
    have hm := hf m (by simp)
    have ih := fun acc' h' => anyOf_loop ms (done ++ [m]) acc' (fun m' hm' => hf m' (by simp [hm'])) h'
    simp only [List.append_assoc, List.singleton_append] at ih
    unfold FindsFirst at hm
    rw [indexFns, anyOfIndex]
    rcases hx : m.index s with _ | _ | ⟨idx, seg⟩
    · rw [hx] at hm; exact hm.elim
    · rw [hx] at hm
      simp only at hm ⊢
      apply ih
      cases acc with
      | none =>
        intro m' hm'
        simp only [List.mem_append, List.mem_singleton] at hm'
        rcases hm' with hm' | rfl
        · exact h m' hm'
        · exact hm
      | some x =>
        obtain ⟨i, ns⟩ := x
        obtain ⟨h1, h2, h3, h4⟩ := h
        refine ⟨h1, h2, fun n hn => ?_, fun m' hm' => ?_⟩
        · obtain ⟨h5, m', h6, h7⟩ := h3 n hn
          exact ⟨h5, m', by simp [h6], h7⟩
        · simp only [List.mem_append, List.mem_singleton] at hm'
          rcases hm' with hm' | rfl
          · exact h4 m' hm'
          · exact fun a b c e hb _ => hm a b c e hb
    · rw [hx] at hm
      obtain ⟨g1, g2, g3, g4⟩ := hm
      cases acc with
      | none =>
        simp only
        apply ih
        refine ⟨g1, g2, fun n hn => ⟨(g3 n hn).1, m, by simp, (g3 n hn).2⟩, fun m' hm' a b c e hb hlt => ?_⟩
        simp only [List.mem_append, List.mem_singleton] at hm'
        rcases hm' with hm' | rfl
        · exact h m' hm' a b c e hb
        · exact g4 a b c e hb hlt
      | some x =>
        obtain ⟨i, ns⟩ := x
        obtain ⟨h1, h2, h3, h4⟩ := h
        simp only
        split
        · apply ih
          refine ⟨g1, g2, fun n hn => ⟨(g3 n hn).1, m, by simp, (g3 n hn).2⟩, fun m' hm' a b c e hb hlt => ?_⟩
          simp only [List.mem_append, List.mem_singleton] at hm'
          rcases hm' with hm' | rfl
          · exact h4 m' hm' a b c e hb (by omega)
          · exact g4 a b c e hb hlt
        · split
          · apply ih
            refine ⟨h1, h2, fun n hn => ?_, fun m' hm' a b c e hb hlt => ?_⟩
            · obtain ⟨h5, m', h6, h7⟩ := h3 n hn
              exact ⟨h5, m', by simp [h6], h7⟩
            · simp only [List.mem_append, List.mem_singleton] at hm'
              rcases hm' with hm' | rfl
              · exact h4 m' hm' a b c e hb hlt
              · exact g4 a b c e hb (by omega)
          · have hii : idx = i := by omega
            subst hii
            apply ih
            obtain ⟨hs, hmem⟩ := C60_merge ns seg h2 g2
            refine ⟨?_, hs, fun n hn => ?_, fun m' hm' a b c e hb hlt => ?_⟩
            · obtain ⟨n, hn⟩ := List.exists_mem_of_ne_nil ns h1
              exact List.ne_nil_of_mem ((hmem n).2 (Or.inl hn))
            · rcases (hmem n).1 hn with hn | hn
              · obtain ⟨h5, m', h6, h7⟩ := h3 n hn
                exact ⟨h5, m', by simp [h6], h7⟩
              · exact ⟨(g3 n hn).1, m, by simp, (g3 n hn).2⟩
            · simp only [List.mem_append, List.mem_singleton] at hm'
              rcases hm' with hm' | rfl
              · exact h4 m' hm' a b c e hb hlt
              · exact g4 a b c e hb hlt

theorem plainIdxs_iff {ms : List Matcher} : plainIdxs ms = true ↔ ∀ m ∈ ms, plainIdx m = true := by
  induction ms with
  | nil => simp [plainIdxs]
  | cons m ms ih => simp [plainIdxs, ih]

theorem fixed_ok {m : Matcher} (h : fixedMatcher m = true) : posLen m.len = true ∧ LenOk m.len (MLang m) ∧ ∀ s, Ascii s → s ≠ [] → Dec m.match (MLang m) s := by
  simp only [fixedMatcher, Bool.and_eq_true] at h
  exact ⟨h.2, lenGood_ok _ h.1.2, (good_ok m).1 h.1.1⟩

/-! ## The theorems -/

/-- `Match` of these matchers does not panic on ASCII strings. -/
theorem plain_total (m : Matcher) : plainIdx m = true → ∀ s, Ascii s → ∃ b, m.match s = some b := by
  induction m using Matcher.ind with
  | h m ih =>
  intro h s ha
  cases m <;> first | exact ⟨_, rfl⟩ | skip
  case anyOf ms =>
    rw [plainIdx, plainIdxs_iff] at h
    have ht : ∀ m ∈ ms, ∃ b, m.match s = some b := fun m hm => ih m hm (h m hm) s ha
    obtain ⟨h1, h2⟩ := anyOf_true ht
    by_cases hx : ∃ m ∈ ms, m.match s = some true
    · exact ⟨true, h1.2 hx⟩
    · refine ⟨false, h2.2 fun m hm => ?_⟩
      obtain ⟨b, hb⟩ := ht m hm
      cases b
      · exact hb
      · exact absurd ⟨m, hm, hb⟩ hx
  case row l ms =>
    simp only [plainIdx, Bool.and_eq_true, List.all_eq_true, beq_iff_eq] at h
    obtain ⟨b, hb, _⟩ := row_dec (fun m hm => (fixed_ok (h.1.2 m hm)).1) (fun m hm => (fixed_ok (h.1.2 m hm)).2.1) (fun m hm => (fixed_ok (h.1.2 m hm)).2.2) h.2 ha
    exact ⟨b, hb⟩
  case everyOf => simp [plainIdx] at h
  case btree => simp [plainIdx] at h

/-- **C151** `Index` of a matcher of an ASCII string finds what `Match` accepts. -/
theorem C151_index_partial (m : Matcher) : plainIdx m = true → ∀ s, Ascii s → FindsFirst m s := by
  induction m using Matcher.ind with
  | h m ih =>
  intro h s ha
  cases m with
  | nothing => exact finds_zero (ns := [0]) rfl (by simp) (by simp) fun n hn => by simp only [List.mem_singleton] at hn; subst hn; exact ⟨Nat.zero_le _, rfl⟩
  | text t =>
    by_cases ht : t = []
    · subst ht
      have e : strIndex [] s = some 0 := by cases s <;> simp [strIndex]
      refine finds_zero (ns := [0]) (by show some ((strIndex [] s).map _) = _; rw [e]; rfl) (by simp) (by simp) fun n hn => ?_
      simp only [List.mem_singleton] at hn
      subst hn
      exact ⟨Nat.zero_le _, rfl⟩
    · exact finds_of_first (text_first ht) (fun s _ _ => text_dec t s) ha
  | any seps => exact any_finds (by simpa [plainIdx] using h) ha
  | super =>
    exact finds_zero (ns := (rangeStr s).map Prod.fst ++ [s.length]) rfl (by simp) (starts_sorted ha) fun n hn => ⟨(mem_positions ha n).1 hn, rfl⟩
  | single seps => exact finds_of_first (single_first seps) ((good_ok _).1 rfl) ha
  | list rs n => exact finds_of_first (list_first rs n) ((good_ok _).1 rfl) ha
  | range lo hi n => exact finds_of_first (range_first lo hi n) ((good_ok _).1 rfl) ha
  | min n => exact min_finds (by simpa [plainIdx] using h) ha
  | max n => exact max_finds n ha
  | contains needle n =>
    refine contains_finds (fun hn => ?_) ha
    subst hn
    simpa [plainIdx] using h
  | «prefix» p => exact prefix_finds p ha
  | suffix q => exact suffix_finds q
  | prefixSuffix p q =>
    apply prefixSuffix_finds
    simp only [plainIdx, Bool.or_eq_true, List.isEmpty_iff, Option.isNone_iff_eq_none] at h
    exact h.imp id strIndex_none
  | prefixAny p seps => exact prefixAny_finds (by simpa [plainIdx] using h) ha
  | suffixAny q seps => exact suffixAny_finds (by simpa [plainIdx] using h) ha
  | anyOf ms =>
    rw [plainIdx, plainIdxs_iff] at h
    have ht : ∀ u, Ascii u → ∀ m ∈ ms, ∃ b, m.match u = some b := fun u hu m hm => plain_total m (h m hm) u hu
    obtain ⟨r, h1, h2⟩ := anyOf_loop (s := s) ms [] none (fun m hm => ih m hm (h m hm) s ha) (by intro m hm; simp at hm)
    rw [List.nil_append] at h2
    cases r with
    | none => exact finds_none h1 fun a b c e hb => (anyOf_true (ht b (sub_ascii ha e))).2.2 fun m hm => h2 m hm a b c e hb
    | some x =>
      obtain ⟨i, ns⟩ := x
      obtain ⟨h3, h4, h5, h6⟩ := h2
      exact finds_some h1 h3 h4 (fun n hn => ⟨(h5 n hn).1, (anyOf_true (ht _ (ascii_take (ascii_drop ha i) n))).1.2 (h5 n hn).2⟩)
        fun a b c e hb hlt => (anyOf_true (ht b (sub_ascii ha e))).2.2 fun m hm => h6 m hm a b c e hb hlt
  | row l ms =>
    simp only [plainIdx, Bool.and_eq_true, List.all_eq_true, beq_iff_eq, Bool.not_eq_true', List.isEmpty_eq_false_iff] at h
    have h1 := fun m hm => (fixed_ok (h.1.2 m hm)).1
    have h2 := fun m hm => (fixed_ok (h.1.2 m hm)).2.1
    have h3 := fun m hm => (fixed_ok (h.1.2 m hm)).2.2
    refine finds_of_first (row_first h1 h2 h3 h.2 ?_) (fun s ha _ => row_dec h1 h2 h3 h.2 ha) ha
    obtain ⟨m, ms', rfl⟩ := List.exists_cons_of_ne_nil h.1.1
    have hs := h.2
    rw [lens] at hs
    obtain ⟨x, y, h4, h5, h6⟩ := sumLens_cons hs
    have h7 := h1 m (by simp)
    rw [h4] at h7
    have : 1 ≤ x := by simpa [posLen] using h7
    omega
  | everyOf ms => simp [plainIdx] at h
  | btree => simp [plainIdx] at h

/-- A case: the matcher of `*b` with the separator `.`, or of `c*d`. In `a.xbcxdzd` it finds `xb` at 2, in `a.cxdzd` it finds `cxd` and `cxdzd` at 2. -/
theorem C151_case : let m := Matcher.anyOf [.suffixAny (lit "b") [46], .prefixSuffix (lit "c") (lit "d")]
    plainIdx m = true ∧ m.index (lit "a.xbcxdzd") = some (some (2, [2])) ∧ m.index (lit "a.cxdzd") = some (some (2, [3, 5])) ∧ m.index (lit "a.cx") = some none ∧
    m.match (lit "cxdzd") = some true := by
  refine ⟨?_, ?_, ?_, ?_, ?_⟩ <;> decide +kernel

/-- A row as it is compiled from `[a-c]{x?,yz}`: it finds `byz` in `abyz` at 1, of length 3. -/
theorem C151_row_case : let m := Matcher.row 3 [.range 97 99 false, .anyOf [.row 2 [.text (lit "x"), .single []], .text (lit "yz")]]
    plainIdx m = true ∧ m.index (lit "abyz") = some (some (1, [3])) ∧ m.match (lit "byz") = some true := by
  refine ⟨?_, ?_, ?_⟩ <;> decide +kernel

/-- C151 is false of other matchers and strings: `ab*a` finds `a` at the start of `ab`, which it does not match; `*` with the separators `.` and `/` finds `a/b` in `a/b.c`;
`Index` of a BTree (here of `a`) is always -1; in the string of the byte 80, which is not UTF-8, the prefix "" finds a substring of three bytes;
and an EveryOf (of at least two characters, without `a`) finds nothing in `bacd`, though it matches `cd`. -/
theorem C151_false : (∃ s, Ascii s ∧ ¬ FindsFirst (.prefixSuffix (lit "ab") (lit "a")) s) ∧ (∃ s, Ascii s ∧ ¬ FindsFirst (.any [46, 47]) s) ∧
    (∃ s, Ascii s ∧ ¬ FindsFirst (.btree (.text (lit "a")) none none (some 0) (some 0) (some 1)) s) ∧ ¬ FindsFirst (.prefix []) [0x80] ∧
    ∃ s, Ascii s ∧ ¬ FindsFirst (.everyOf [.min 2, .contains (lit "a") true]) s := by
  refine ⟨⟨lit "ab", by unfold Ascii; decide, fun h => ?_⟩, ⟨lit "a/b.c", by unfold Ascii; decide, fun h => ?_⟩, ⟨lit "a", by unfold Ascii; decide, fun h => ?_⟩, fun h => ?_,
    ⟨lit "bacd", by unfold Ascii; decide, fun h => ?_⟩⟩
  · unfold FindsFirst at h
    rw [show (Matcher.prefixSuffix (lit "ab") (lit "a")).index (lit "ab") = some (some (0, [1])) by decide +kernel] at h
    have := (h.2.2.1 1 (by simp)).2
    revert this; decide +kernel
  · unfold FindsFirst at h
    rw [show (Matcher.any [46, 47]).index (lit "a/b.c") = some (some (0, [0, 1, 2, 3])) by decide +kernel] at h
    have := (h.2.2.1 3 (by simp)).2
    revert this; decide +kernel
  · unfold FindsFirst at h
    rw [show (Matcher.btree (.text (lit "a")) none none (some 0) (some 0) (some 1)).index (lit "a") = some none from rfl] at h
    have := h [] (lit "a") [] (by simp) (by decide)
    revert this; decide +kernel
  · unfold FindsFirst at h
    rw [show (Matcher.prefix []).index [0x80] = some (some (0, [0, 3])) by decide +kernel] at h
    have := (h.2.2.1 3 (by simp)).1
    revert this; decide +kernel
  · unfold FindsFirst at h
    rw [show (Matcher.everyOf [.min 2, .contains (lit "a") true]).index (lit "bacd") = some none by decide +kernel] at h
    have := h (lit "ba") (lit "cd") [] (by decide) (by decide)
    revert this; decide +kernel

end Verif.Glob
