import Verif.Glob.IndexProps
import Verif.Glob.Segments
/-
The loops of Row, AnyOf, EveryOf and BTree.
-/
namespace Verif.Glob

/-! ### Row -/

theorem rowStep_ascii {rest : Str} (ha : Ascii rest) {length : Nat} (hl : 1 ≤ length) :
    rowStep length rest = (min length rest.length - 1, min length rest.length) := by
  unfold rowStep
  simp only [rangeStr_fst ha, List.take_range, if_neg (show length ≠ 0 by omega), List.length_range]
  congr 1
  generalize min length rest.length = n
  cases n with
  | zero => rfl
  | succ n => simp [List.range_succ]

theorem rowMatchAll_dec : ∀ (ms : List Matcher), (∀ m ∈ ms, posLen m.len = true) → (∀ m ∈ ms, LenOk m.len (MLang m)) →
    (∀ m ∈ ms, ∀ s, Ascii s → s ≠ [] → Dec m.match (MLang m) s) → ∀ (s : Str) (idx : Nat), Ascii s → idx ≤ s.length →
    ∃ b, rowMatchAll s idx ((lens ms).zip (matchFns ms)) = some b ∧ (b = true ↔ ∃ a c, s.drop idx = a ++ c ∧ LangSeq ms a)
  | [], _, _, _, s, idx, _, _ => ⟨true, by simp [lens, matchFns, rowMatchAll], by simp only [LangSeq, true_iff]; exact ⟨[], s.drop idx, rfl, rfl⟩⟩
  | m :: ms, h1, h2, h3, s, idx, ha, hi => by
    have hp := h1 m List.mem_cons_self
    cases hk : m.len with
    | none => rw [hk] at hp; simp [posLen] at hp
    | some k =>
      rw [hk] at hp
      simp only [posLen, decide_eq_true_eq] at hp
      simp only [lens, matchFns, List.zip_cons_cons, rowMatchAll, hk, Option.getD_some]
      have had := ascii_drop ha idx
      rw [rowStep_ascii had hp, List.length_drop]
      simp only
      have hlen := h2 m List.mem_cons_self k hk
      by_cases hlt : min k (s.length - idx) < k
      · rw [if_pos hlt]
        refine ⟨false, rfl, ?_⟩
        simp only [Bool.false_eq_true, false_iff, LangSeq]
        rintro ⟨a, c, e, u, v, rfl, hu, _⟩
        have := congrArg List.length e
        rw [e, ascii_append, ascii_append] at had
        have := hlen u had.1.1 hu
        simp only [List.length_drop, List.length_append] at *
        omega
      · rw [if_neg hlt]
        have hmin : min k (s.length - idx) = k := by omega
        rw [hmin, if_neg (by omega), show k - 1 + 1 = k by omega]
        obtain ⟨b, e1, e2⟩ := h3 m List.mem_cons_self ((s.drop idx).take k) (ascii_take had k)
          (by intro h; have := congrArg List.length h; simp at this; omega)
        rw [e1]
        cases b with
        | false =>
          refine ⟨false, rfl, ?_⟩
          simp only [Bool.false_eq_true, false_iff, LangSeq]
          rintro ⟨a, c, e, u, v, rfl, hu, _⟩
          have hu' := hlen u (by rw [e, ascii_append, ascii_append] at had; exact had.1.1) hu
          simp only [Bool.false_eq_true, false_iff] at e2
          apply e2
          rw [e, List.append_assoc, List.take_left' hu']
          exact hu
        | true =>
          simp only
          obtain ⟨b', e3, e4⟩ := rowMatchAll_dec ms (fun m hm => h1 m (List.mem_cons_of_mem _ hm)) (fun m hm => h2 m (List.mem_cons_of_mem _ hm))
            (fun m hm => h3 m (List.mem_cons_of_mem _ hm)) s (idx + k) ha (by omega)
          rw [show idx + (k - 1) + 1 = idx + k by omega]
          refine ⟨b', e3, e4.trans ?_⟩
          simp only [LangSeq]
          have hm := e2.1 rfl
          constructor
          · rintro ⟨a, c, e, h⟩
            refine ⟨(s.drop idx).take k ++ a, c, ?_, _, _, rfl, hm, h⟩
            rw [List.append_assoc, ← e, ← List.drop_drop, List.take_append_drop]
          · rintro ⟨a, c, e, u, v, rfl, hu, hv⟩
            have hu' := hlen u (by rw [e, ascii_append, ascii_append] at had; exact had.1.1) hu
            refine ⟨v, c, ?_, hv⟩
            rw [← List.drop_drop, e, List.append_assoc, List.drop_left' hu']

theorem row_dec {l : Nat} {ms : List Matcher} (h1 : ∀ m ∈ ms, posLen m.len = true) (h2 : ∀ m ∈ ms, LenOk m.len (MLang m))
    (h3 : ∀ m ∈ ms, ∀ s, Ascii s → s ≠ [] → Dec m.match (MLang m) s) (hl : sumLens (lens ms) = some l) {s : Str} (ha : Ascii s) :
    Dec (Matcher.row l ms).match (MLang (.row l ms)) s := by
  show ∃ b, rowMatch l _ s = some b ∧ _
  unfold rowMatch
  rw [runes_length ha]
  split
  · rename_i hs
    obtain ⟨b, e1, e2⟩ := rowMatchAll_dec ms h1 h2 h3 s 0 ha (by omega)
    refine ⟨b, e1, e2.trans ?_⟩
    rw [MLang]
    constructor
    · rintro ⟨a, c, e, h⟩
      simp only [List.drop_zero] at e
      subst e
      rw [ascii_append] at ha
      have := langSeq_len ms l hl h2 a ha.1 h
      simp only [List.length_append] at hs
      have : c = [] := List.length_eq_zero_iff.1 (by omega)
      subst this
      simpa using h
    · intro h; exact ⟨s, [], by simp, h⟩
  · rename_i hs
    refine ⟨false, rfl, ?_⟩
    simp only [Bool.false_eq_true, false_iff]
    intro h
    rw [MLang] at h
    exact hs (langSeq_len ms l hl h2 s ha h)

theorem rowIndex_loop {l : Nat} {ms : List Matcher} (h1 : ∀ m ∈ ms, posLen m.len = true) (h2 : ∀ m ∈ ms, LenOk m.len (MLang m))
    (h3 : ∀ m ∈ ms, ∀ s, Ascii s → s ≠ [] → Dec m.match (MLang m) s) (hl : sumLens (lens ms) = some l) {s : Str} (ha : Ascii s) :
    ∀ (n i : Nat), i + n = s.length → (1 ≤ l) →
    (rowIndex l ((lens ms).zip (matchFns ms)) s (List.range' i n) = some none ∧ ∀ a b c, s = a ++ b ++ c → i ≤ a.length → ¬ LangSeq ms b) ∨
    ∃ j, i ≤ j ∧ rowIndex l ((lens ms).zip (matchFns ms)) s (List.range' i n) = some (some (j, [l])) ∧ j + l ≤ s.length ∧
      LangSeq ms ((s.drop j).take l) ∧ ∀ a b c, s = a ++ b ++ c → LangSeq ms b → i ≤ a.length → j ≤ a.length
  | 0, i, hn, hpos => by
    left
    refine ⟨rfl, ?_⟩
    rintro a b c rfl hi hb
    rw [ascii_append, ascii_append] at ha
    have := langSeq_len ms l hl h2 b ha.1.2 hb
    simp only [List.length_append] at hn
    omega
  | n + 1, i, hn, hpos => by
    rw [List.range'_succ, rowIndex]
    split
    · rename_i hlt
      left
      refine ⟨rfl, ?_⟩
      rintro a b c rfl hi hb
      rw [ascii_append, ascii_append] at ha
      have := langSeq_len ms l hl h2 b ha.1.2 hb
      simp only [List.length_append, List.length_drop] at hn hlt
      omega
    · rename_i hlt
      have had := ascii_drop ha i
      obtain ⟨b, e1, e2⟩ := rowMatchAll_dec ms h1 h2 h3 (s.drop i) 0 had (by omega)
      rw [e1]
      simp only [List.drop_zero] at e2
      cases b with
      | true =>
        right
        obtain ⟨a, c, e, h⟩ := e2.1 rfl
        rw [e, ascii_append] at had
        have hla := langSeq_len ms l hl h2 a had.1 h
        refine ⟨i, Nat.le_refl _, rfl, ?_, ?_, fun a' b' c' _ _ h' => h'⟩
        · have := congrArg List.length e
          simp only [List.length_drop, List.length_append] at this
          omega
        · rw [e, List.take_left' hla]; exact h
      | false =>
        simp only [Bool.false_eq_true, false_iff] at e2
        simp only
        have hstep : ∀ a b c, s = a ++ b ++ c → i ≤ a.length → LangSeq ms b → i + 1 ≤ a.length := by
          rintro a b c rfl hi hb
          by_contra hc
          apply e2
          refine ⟨b, c, ?_, hb⟩
          rw [List.append_assoc, List.drop_left' (by omega)]
        rcases rowIndex_loop h1 h2 h3 hl ha n (i + 1) (by omega) hpos with ⟨h4, h5⟩ | ⟨j, h4, h5, h6, h7, h8⟩
        · left
          exact ⟨h4, fun a b c e hi hb => h5 a b c e (hstep a b c e hi hb) hb⟩
        · right
          exact ⟨j, by omega, h5, h6, h7, fun a b c e hb hi => h8 a b c e hb (hstep a b c e hi hb)⟩

theorem row_first {l : Nat} {ms : List Matcher} (h1 : ∀ m ∈ ms, posLen m.len = true) (h2 : ∀ m ∈ ms, LenOk m.len (MLang m))
    (h3 : ∀ m ∈ ms, ∀ s, Ascii s → s ≠ [] → Dec m.match (MLang m) s) (hl : sumLens (lens ms) = some l) (hpos : 1 ≤ l) :
    IdxFirst (Matcher.row l ms).index (MLang (.row l ms)) := by
  intro s ha
  have e : (Matcher.row l ms).index s = rowIndex l ((lens ms).zip (matchFns ms)) s (List.range' 0 s.length) := by
    show rowIndex _ _ _ ((rangeStr s).map Prod.fst) = _
    rw [rangeStr_fst ha, List.range_eq_range']
  rw [e]
  rcases rowIndex_loop h1 h2 h3 hl ha s.length 0 (by omega) hpos with ⟨h4, h5⟩ | ⟨j, h4, h5, h6, h7, h8⟩
  · left; exact ⟨h4, fun a b c e => by rw [MLang]; exact h5 a b c e (Nat.zero_le _)⟩
  · right
    refine ⟨j, l, h5, hpos, h6, by rw [MLang]; exact h7, fun a b c e hb => ?_⟩
    rw [MLang] at hb
    exact h8 a b c e hb (Nat.zero_le _)

/-! ### AnyOf -/

theorem anyOf_first_loop {n : Nat} (hn : 1 ≤ n) {s : Str} (ha : Ascii s) : ∀ (ms : List Matcher), (∀ m ∈ ms, IdxFirst m.index (MLang m)) →
    (∀ m ∈ ms, LenOk (some n) (MLang m)) → ∀ (acc : Option (Nat × List Nat)) (A : Str → Prop),
    ((acc = none ∧ ∀ a b c, s = a ++ b ++ c → ¬ A b) ∨
      ∃ i, acc = some (i, [n]) ∧ i + n ≤ s.length ∧ A ((s.drop i).take n) ∧ ∀ a b c, s = a ++ b ++ c → A b → i ≤ a.length) →
    (anyOfIndex s acc (indexFns ms) = some none ∧ ∀ a b c, s = a ++ b ++ c → ¬ (A b ∨ LangSome ms b)) ∨
      ∃ i, anyOfIndex s acc (indexFns ms) = some (some (i, [n])) ∧ i + n ≤ s.length ∧ (A ((s.drop i).take n) ∨ LangSome ms ((s.drop i).take n)) ∧
        ∀ a b c, s = a ++ b ++ c → (A b ∨ LangSome ms b) → i ≤ a.length
  | [], _, _, acc, A, h => by
    simp only [indexFns, anyOfIndex, LangSome, or_false]
    rcases h with ⟨rfl, h⟩ | ⟨i, rfl, h⟩
    · left; exact ⟨rfl, h⟩
    · right; exact ⟨i, rfl, h⟩
  | m :: ms, h1, h2, acc, A, h => by
    have ih := anyOf_first_loop hn ha ms (fun m hm => h1 m (List.mem_cons_of_mem _ hm)) (fun m hm => h2 m (List.mem_cons_of_mem _ hm))
    have hassoc : ∀ b, (A b ∨ LangSome (m :: ms) b) ↔ ((A b ∨ MLang m b) ∨ LangSome ms b) := by
      intro b; rw [LangSome, or_assoc]
    simp only [hassoc, indexFns, anyOfIndex]
    rcases h1 m List.mem_cons_self s ha with ⟨e1, e2⟩ | ⟨i, k, e1, e2, e3, e4, e5⟩
    · rw [e1]
      simp only
      apply ih acc (fun b => A b ∨ MLang m b)
      rcases h with ⟨rfl, h⟩ | ⟨i, rfl, h3, h4, h5⟩
      · left; exact ⟨rfl, fun a b c e hb => hb.elim (h a b c e) (e2 a b c e)⟩
      · right; exact ⟨i, rfl, h3, Or.inl h4, fun a b c e hb => hb.elim (h5 a b c e) (fun x => absurd x (e2 a b c e))⟩
    · have hk : k = n := by
        have := h2 m List.mem_cons_self n rfl _ (ascii_take (ascii_drop ha i) k) e4
        simp only [List.length_take, List.length_drop] at this
        omega
      subst hk
      rw [e1]
      simp only
      rcases h with ⟨rfl, h⟩ | ⟨j, rfl, h3, h4, h5⟩
      · simp only
        apply ih _ (fun b => A b ∨ MLang m b)
        right
        exact ⟨i, rfl, e3, Or.inr e4, fun a b c e hb => hb.elim (fun x => absurd x (h a b c e)) (e5 a b c e)⟩
      · simp only
        split
        · apply ih _ (fun b => A b ∨ MLang m b)
          right
          exact ⟨i, rfl, e3, Or.inr e4, fun a b c e hb => hb.elim (fun x => by have := h5 a b c e x; omega) (e5 a b c e)⟩
        split
        · apply ih _ (fun b => A b ∨ MLang m b)
          right
          exact ⟨j, rfl, h3, Or.inl h4, fun a b c e hb => hb.elim (h5 a b c e) (fun x => by have := e5 a b c e x; omega)⟩
        · have hij : i = j := by omega
          subst hij
          have em : appendMerge [k] [k] = [k] := by simp [appendMerge]
          rw [em]
          apply ih _ (fun b => A b ∨ MLang m b)
          right
          exact ⟨i, rfl, h3, Or.inl h4, fun a b c e hb => hb.elim (h5 a b c e) (e5 a b c e)⟩

theorem anyOf_first {n : Nat} (hn : 1 ≤ n) {ms : List Matcher} (h1 : ∀ m ∈ ms, IdxFirst m.index (MLang m)) (h2 : ∀ m ∈ ms, LenOk (some n) (MLang m)) :
    IdxFirst (Matcher.anyOf ms).index (MLang (.anyOf ms)) := by
  intro s ha
  have e : (Matcher.anyOf ms).index s = anyOfIndex s none (indexFns ms) := rfl
  rw [e]
  rcases anyOf_first_loop hn ha ms h1 h2 none (fun _ => False) (Or.inl ⟨rfl, fun _ _ _ _ h => h⟩) with ⟨h3, h4⟩ | ⟨i, h3, h4, h5, h6⟩
  · left; refine ⟨h3, fun a b c e hb => ?_⟩
    rw [MLang] at hb
    exact h4 a b c e (Or.inr hb)
  · right
    refine ⟨i, n, h3, hn, h4, ?_, fun a b c e hb => ?_⟩
    · rw [MLang]; exact h5.elim False.elim id
    · rw [MLang] at hb; exact h6 a b c e (Or.inr hb)

theorem anyOf_start_loop {s : Str} (ha : Ascii s) (hne : s ≠ []) : ∀ (ms : List Matcher), (∀ m ∈ ms, IdxStart m.index (MLang m)) →
    ∀ (acc : Option (Nat × List Nat)) (A : Str → Prop),
    ((acc = none ∧ ∀ b c, s = b ++ c → ¬ A b) ∨
      ∃ i segs, acc = some (i, segs) ∧ i < s.length ∧ (0 < i → ∀ b c, s = b ++ c → ¬ A b) ∧ (i = 0 → ∀ k, k ∈ segs ↔ k ≤ s.length ∧ A (s.take k))) →
    (anyOfIndex s acc (indexFns ms) = some none ∧ ∀ b c, s = b ++ c → ¬ (A b ∨ LangSome ms b)) ∨
      ∃ i segs, anyOfIndex s acc (indexFns ms) = some (some (i, segs)) ∧ i < s.length ∧ (0 < i → ∀ b c, s = b ++ c → ¬ (A b ∨ LangSome ms b)) ∧
        (i = 0 → ∀ k, k ∈ segs ↔ k ≤ s.length ∧ (A (s.take k) ∨ LangSome ms (s.take k)))
  | [], _, acc, A, h => by
    simp only [indexFns, anyOfIndex, LangSome, or_false]
    rcases h with ⟨rfl, h⟩ | ⟨i, segs, rfl, h⟩
    · left; exact ⟨rfl, h⟩
    · right; exact ⟨i, segs, rfl, h⟩
  | m :: ms, h1, acc, A, h => by
    have ih := anyOf_start_loop ha hne ms (fun m hm => h1 m (List.mem_cons_of_mem _ hm))
    have hassoc : ∀ b, (A b ∨ LangSome (m :: ms) b) ↔ ((A b ∨ MLang m b) ∨ LangSome ms b) := by
      intro b; rw [LangSome, or_assoc]
    have nolang : ∀ {B : Str → Prop}, (∀ b c, s = b ++ c → ¬ B b) → ∀ k, ¬ B (s.take k) := fun hB k => hB (s.take k) (s.drop k) (by simp)
    simp only [hassoc, indexFns, anyOfIndex]
    rcases h1 m List.mem_cons_self s ha hne with ⟨e1, e2⟩ | ⟨i, segs, e1, e2, e3, e4⟩
    · rw [e1]
      simp only
      apply ih acc (fun b => A b ∨ MLang m b)
      rcases h with ⟨rfl, h⟩ | ⟨i, segs, rfl, h3, h4, h5⟩
      · left; exact ⟨rfl, fun b c e hb => hb.elim (h b c e) (e2 b c e)⟩
      · right; refine ⟨i, segs, rfl, h3, fun hi b c e hb => hb.elim (h4 hi b c e) (e2 b c e), fun hi k => ?_⟩
        rw [h5 hi k]
        have := nolang e2 k
        simp [this]
    · rw [e1]
      simp only
      rcases h with ⟨rfl, h⟩ | ⟨j, segs', rfl, h3, h4, h5⟩
      · simp only
        apply ih _ (fun b => A b ∨ MLang m b)
        right
        refine ⟨i, segs, rfl, e2, fun hi b c e hb => hb.elim (h b c e) (e3 hi b c e), fun hi k => ?_⟩
        rw [e4 hi k]
        have := nolang h k
        simp [this]
      · simp only
        split
        · apply ih _ (fun b => A b ∨ MLang m b)
          right
          refine ⟨i, segs, rfl, e2, fun hi b c e hb => hb.elim (h4 (by omega) b c e) (e3 hi b c e), fun hi k => ?_⟩
          rw [e4 hi k]
          have := nolang (h4 (by omega)) k
          simp [this]
        split
        · apply ih _ (fun b => A b ∨ MLang m b)
          right
          refine ⟨j, segs', rfl, h3, fun hi b c e hb => hb.elim (h4 hi b c e) (e3 (by omega) b c e), fun hi k => ?_⟩
          rw [h5 hi k]
          have := nolang (e3 (by omega)) k
          simp [this]
        · have hij : i = j := by omega
          subst hij
          apply ih _ (fun b => A b ∨ MLang m b)
          right
          refine ⟨i, _, rfl, h3, fun hi b c e hb => hb.elim (h4 hi b c e) (e3 hi b c e), fun hi k => ?_⟩
          rw [mem_appendMerge, h5 hi k, e4 hi k, ← and_or_left]

theorem anyOf_start {ms : List Matcher} (h1 : ∀ m ∈ ms, IdxStart m.index (MLang m)) : IdxStart (Matcher.anyOf ms).index (MLang (.anyOf ms)) := by
  intro s ha hne
  have e : (Matcher.anyOf ms).index s = anyOfIndex s none (indexFns ms) := rfl
  rw [e]
  rcases anyOf_start_loop ha hne ms h1 none (fun _ => False) (Or.inl ⟨rfl, fun _ _ _ h => h⟩) with ⟨h3, h4⟩ | ⟨i, segs, h3, h4, h5, h6⟩
  · left; refine ⟨h3, fun b c e hb => ?_⟩
    rw [MLang] at hb
    exact h4 b c e (Or.inr hb)
  · right
    refine ⟨i, segs, h3, h4, fun hi b c e hb => ?_, fun hi k => ?_⟩
    · rw [MLang] at hb; exact h5 hi b c e (Or.inr hb)
    · rw [h6 hi k, MLang]; simp

/-! ### EveryOf -/

/-- The index is always 0 (or -1). -/
def IdxZero (ix : Str → Idx) (L : Str → Prop) : Prop := ∀ s, Ascii s → s ≠ [] →
  (ix s = some none ∧ ∀ b c, s = b ++ c → ¬ L b) ∨ ∃ segs, ix s = some (some (0, segs)) ∧ ∀ k, k ∈ segs ↔ k ≤ s.length ∧ L (s.take k)

theorem goodIdxZero_ok {m : Matcher} (h : goodIdxZero m = true) : IdxZero m.index (MLang m) := by
  have key : IdxStart m.index (MLang m) → (∀ s i segs, m.index s = some (some (i, segs)) → i = 0) → IdxZero m.index (MLang m) := by
    intro h1 h2 s ha hne
    rcases h1 s ha hne with h3 | ⟨i, segs, h3, h4, h5, h6⟩
    · exact Or.inl h3
    · have := h2 s i segs h3
      subst this
      exact Or.inr ⟨segs, h3, h6 rfl⟩
  cases m <;> simp only [goodIdxZero, Bool.false_eq_true] at h
  case min n =>
    refine key (min_start (by simpa using h)) ?_
    intro s i segs hs
    change minIndex n s = _ at hs
    unfold minIndex at hs
    simp only at hs
    split at hs
    · cases hs
    · split at hs
      · cases hs
      · simp only [Option.some.injEq, Prod.mk.injEq] at hs; exact hs.1.symm
  case max n =>
    refine key (max_start n) ?_
    intro s i segs hs
    change maxIndex n s = _ at hs
    unfold maxIndex at hs
    simp only [Option.some.injEq, Prod.mk.injEq] at hs
    exact hs.1.symm
  case contains needle n =>
    refine key (contains_start h) ?_
    intro s i segs hs
    change containsIndex needle n s = _ at hs
    unfold containsIndex at hs
    cases hi : strIndex needle s <;> cases n <;> simp only [hi] at hs
    · cases hs
    · simp only [Option.some.injEq, Prod.mk.injEq] at hs; exact hs.1.symm
    · split at hs <;> simp only [Option.some.injEq, Prod.mk.injEq] at hs <;> exact hs.1.symm
    · simp only [Option.some.injEq, Prod.mk.injEq] at hs; exact hs.1.symm

theorem everyOf_loop {s : Str} (ha : Ascii s) (hne : s ≠ []) : ∀ (ms : List Matcher), (∀ m ∈ ms, IdxZero m.index (MLang m)) →
    ∀ (first : Bool) (current : List Nat) (A : Str → Prop), (first = true → ∀ k ≤ s.length, A (s.take k)) → (first = true → ms ≠ []) →
    (first = false → ∀ k, k ∈ current ↔ k ≤ s.length ∧ A (s.take k)) →
    (everyOfIndex s first 0 0 current s (indexFns ms) = some none ∧ ∀ b c, s = b ++ c → ¬ (A b ∧ LangAll ms b)) ∨
      ∃ segs, everyOfIndex s first 0 0 current s (indexFns ms) = some (some (0, segs)) ∧
        ∀ k, k ∈ segs ↔ k ≤ s.length ∧ A (s.take k) ∧ LangAll ms (s.take k)
  | [], _, first, current, A, h1, h2, h3 => by
    right
    cases first with
    | true => exact absurd rfl (h2 rfl)
    | false => exact ⟨current, rfl, fun k => by rw [h3 rfl k]; simp [LangAll]⟩
  | m :: ms, h, first, current, A, h1, h2, h3 => by
    have ih := everyOf_loop ha hne ms (fun m hm => h m (List.mem_cons_of_mem _ hm)) false
    simp only [indexFns, everyOfIndex]
    rcases h m List.mem_cons_self s ha hne with ⟨e1, e2⟩ | ⟨segs, e1, e2⟩
    · rw [e1]
      left
      exact ⟨rfl, fun b c e hb => by rw [LangAll] at hb; exact e2 b c e hb.2.1⟩
    · rw [e1]
      simp only [Nat.add_zero, Nat.not_lt_zero, List.drop_zero, if_false]
      have hN : ∀ k, (k ∈ current.flatMap fun (ex : Nat) => segs.filter fun (n : Nat) => decide ((ex : Int) + (((0 : Nat) : Int) - (((0 : Nat) : Int) + ((0 : Nat) : Int))) = (n : Int))) ↔
          k ∈ current ∧ k ∈ segs := by
        intro k
        simp only [List.mem_flatMap, List.mem_filter, decide_eq_true_eq]
        constructor
        · rintro ⟨ex, h4, h5, h6⟩
          have : ex = k := by omega
          subst this; exact ⟨h4, h5⟩
        · rintro ⟨h4, h5⟩; exact ⟨k, h4, h5, by omega⟩
      generalize hnx : (current.flatMap fun (ex : Nat) => segs.filter fun (n : Nat) => decide ((ex : Int) + (((0 : Nat) : Int) - (((0 : Nat) : Int) + ((0 : Nat) : Int))) = (n : Int))) = nx at hN
      have hassoc : ∀ b, (A b ∧ LangAll (m :: ms) b) ↔ ((A b ∧ MLang m b) ∧ LangAll ms b) := by
        intro b; rw [LangAll, and_assoc]
      simp only [hassoc]
      cases first with
      | true =>
        simp only [Bool.not_true, Bool.false_and, Bool.false_eq_true, if_false, if_true]
        refine ih segs (fun b => A b ∧ MLang m b) (by simp) (by simp) (fun _ k => ?_)
        rw [e2]
        exact ⟨fun h => ⟨h.1, h1 rfl k h.1, h.2⟩, fun h => ⟨h.1, h.2.2⟩⟩
      | false =>
        have hk : ∀ k, k ∈ nx ↔ k ≤ s.length ∧ (A (s.take k) ∧ MLang m (s.take k)) := by
          intro k
          rw [hN, h3 rfl, e2]
          tauto
        simp only [Bool.not_false, Bool.true_and, Bool.false_eq_true, if_false]
        split
        · rename_i he
          left
          refine ⟨rfl, ?_⟩
          rintro b c e ⟨hb, _⟩
          rw [List.isEmpty_iff] at he
          have := (hk b.length).2 ⟨by rw [e]; simp, by rw [take_of_append e]; exact hb⟩
          rw [he] at this; cases this
        · exact ih nx (fun b => A b ∧ MLang m b) (by simp) (by simp) (fun _ => hk)

theorem everyOf_start {ms : List Matcher} (h : ∀ m ∈ ms, goodIdxZero m = true) (hm : ms ≠ []) : IdxStart (Matcher.everyOf ms).index (MLang (.everyOf ms)) := by
  intro s ha hne
  have e : (Matcher.everyOf ms).index s = everyOfIndex s true 0 0 [] s (indexFns ms) := rfl
  rw [e]
  rcases everyOf_loop ha hne ms (fun m hm => goodIdxZero_ok (h m hm)) true [] (fun _ => True) (by simp) (fun _ => hm) (by simp) with ⟨h3, h4⟩ | ⟨segs, h3, h4⟩
  · left
    refine ⟨h3, fun b c e hb => ?_⟩
    rw [MLang] at hb
    exact h4 b c e ⟨trivial, hb⟩
  · right
    refine ⟨0, segs, h3, List.length_pos_iff.2 hne, fun h => absurd h (by omega), fun _ k => ?_⟩
    rw [h4, MLang]; simp

/-! ### BTree -/

theorem btreeSegments_dec {right : Str → Option Bool} {R : Str → Prop} {s : Str} (ha : Ascii s) (hr : ∀ s, Ascii s → Dec right R s) (pos : Nat) :
    ∀ segs : List Nat, ∃ b, btreeSegments right s pos segs = some b ∧ (b = true ↔ ∃ k ∈ segs, R (s.drop (pos + k)))
  | [] => ⟨false, rfl, by simp⟩
  | k :: segs => by
    obtain ⟨b, h1, h2⟩ := btreeSegments_dec ha hr pos segs
    have e : (if s.length ≤ pos + k then [] else s.drop (pos + k)) = s.drop (pos + k) := by
      split
      · rename_i h; exact (List.drop_eq_nil_iff.2 h).symm
      · rfl
    obtain ⟨b', h3, h4⟩ := hr (s.drop (pos + k)) (ascii_drop ha _)
    simp only [btreeSegments, e, h3]
    cases b' with
    | true => exact ⟨true, rfl, by simp only [true_iff]; exact ⟨k, List.mem_cons_self, h4.1 rfl⟩⟩
    | false =>
      refine ⟨b, h1, h2.trans ?_⟩
      simp only [Bool.false_eq_true, false_iff] at h4
      simp [h4]

theorem sub_occ {s a v c : Str} {offset limit : Nat} (h : s = a ++ v ++ c) (h1 : offset ≤ a.length) (h2 : a.length + v.length ≤ limit) :
    (s.take limit).drop offset = a.drop offset ++ v ++ c.take (limit - (a.length + v.length)) := by
  rw [h, List.take_append, List.take_of_length_le (by simp; omega), List.append_assoc, List.drop_append_of_le_length h1]
  simp

theorem btreeLoop_first {ix : Str → Idx} {left right : Str → Option Bool} {V L R : Str → Prop} (hv : IdxFirst ix V)
    (hlen : ∀ a b, Ascii a → Ascii b → V a → V b → a.length = b.length) (hl : ∀ s, Ascii s → Dec left L s) (hr : ∀ s, Ascii s → Dec right R s)
    {s : Str} (ha : Ascii s) {limit : Nat} (hlim : limit ≤ s.length) : ∀ (n offset : Nat), s.length + 1 ≤ offset + n → 1 ≤ n →
    ∃ b, btreeLoop ix left right s limit n offset = some b ∧
      (b = true ↔ ∃ a v c, s = a ++ v ++ c ∧ L a ∧ V v ∧ R c ∧ offset ≤ a.length ∧ a.length + v.length ≤ limit)
  | 0, _, _, h => absurd h (by omega)
  | n + 1, offset, hn, _ => by
    rw [btreeLoop]
    split
    · rename_i hlt
      have hasub : Ascii ((s.take limit).drop offset) := ascii_drop (ascii_take ha _) _
      have hsl : ((s.take limit).drop offset).length = limit - offset := by simp; omega
      rcases hv _ hasub with ⟨e1, e2⟩ | ⟨i, k, e1, e2, e3, e4, e5⟩
      · rw [e1]
        refine ⟨false, rfl, ?_⟩
        simp only [Bool.false_eq_true, false_iff]
        rintro ⟨a, v, c, h1, _, h3, _, h5, h6⟩
        exact e2 _ _ _ (sub_occ h1 h5 h6) h3
      · rw [e1]
        simp only
        rw [hsl] at e3
        have hpiece : (((s.take limit).drop offset).drop i).take k = (s.drop (offset + i)).take k := by
          rw [List.drop_drop, List.drop_take, List.take_take]
          congr 1; omega
        rw [hpiece] at e4
        have hstep : (decodeRune (s.drop (offset + i))).2 = 1 := by
          rw [List.drop_eq_getElem_cons (by omega), decodeRune_ascii (ha _ (List.getElem_mem _))]
        rw [hstep]
        -- decompositions at this position
        have here : ∀ a v c, s = a ++ v ++ c → V v → a.length = offset + i → a = s.take (offset + i) ∧ c = s.drop (offset + i + k) := by
          intro a v c h hvv hlen'
          have hav : Ascii a ∧ Ascii v := by rw [h, ascii_append, ascii_append] at ha; exact ha.1
          have hvk := hlen _ _ (ascii_take (ascii_drop ha _) _) hav.2 e4 hvv
          rw [List.length_take, List.length_drop] at hvk
          constructor
          · rw [h, List.append_assoc, List.take_left' hlen']
          · rw [h, List.drop_left' (by simp; omega)]
        have next : ∀ a v c, s = a ++ v ++ c → V v → offset ≤ a.length → a.length + v.length ≤ limit → a.length ≠ offset + i → offset + (i + 1) ≤ a.length := by
          intro a v c h hvv ho hlim' hne
          have := e5 _ _ _ (sub_occ h ho hlim') hvv
          rw [List.length_drop] at this
          omega
        have found : ∃ a v c, s = a ++ v ++ c ∧ a = s.take (offset + i) ∧ V v ∧ c = s.drop (offset + i + k) ∧ offset ≤ a.length ∧ a.length + v.length ≤ limit := by
          refine ⟨s.take (offset + i), (s.drop (offset + i)).take k, s.drop (offset + i + k), ?_, rfl, e4, rfl, ?_, ?_⟩
          · rw [List.append_assoc, ← List.drop_drop (i := k), List.take_append_drop, List.take_append_drop]
          · simp; omega
          · simp; omega
        obtain ⟨b', h1, h2⟩ := btreeLoop_first hv hlen hl hr ha hlim n (offset + (i + 1)) (by omega) (by omega)
        obtain ⟨bl, h3, h4⟩ := hl (s.take (offset + i)) (ascii_take ha _)
        obtain ⟨br, h5, h6⟩ := btreeSegments_dec ha hr (offset + i) [k].reverse
        simp only [List.reverse_singleton, List.mem_singleton, exists_eq_left] at h5 h6
        rw [h3]
        have rest : (¬ (L (s.take (offset + i)) ∧ R (s.drop (offset + i + k)))) → ((∃ a v c, s = a ++ v ++ c ∧ L a ∧ V v ∧ R c ∧ offset ≤ a.length ∧ a.length + v.length ≤ limit) ↔
            ∃ a v c, s = a ++ v ++ c ∧ L a ∧ V v ∧ R c ∧ offset + (i + 1) ≤ a.length ∧ a.length + v.length ≤ limit) := by
          intro hno
          constructor
          · rintro ⟨a, v, c, g1, g2, g3, g4, g5, g6⟩
            refine ⟨a, v, c, g1, g2, g3, g4, next a v c g1 g3 g5 g6 ?_, g6⟩
            intro hc
            obtain ⟨r1, r2⟩ := here a v c g1 g3 hc
            exact hno ⟨r1 ▸ g2, r2 ▸ g4⟩
          · rintro ⟨a, v, c, g1, g2, g3, g4, g5, g6⟩
            exact ⟨a, v, c, g1, g2, g3, g4, by omega, g6⟩
        cases bl with
        | true =>
          simp only [List.reverse_singleton]
          rw [h5]
          cases br with
          | true =>
            refine ⟨true, rfl, ?_⟩
            simp only [true_iff]
            obtain ⟨a, v, c, g1, g2, g3, g4, g5, g6⟩ := found
            exact ⟨a, v, c, g1, g2 ▸ h4.1 rfl, g3, g4 ▸ h6.1 rfl, g5, g6⟩
          | false =>
            refine ⟨b', h1, h2.trans (rest ?_).symm⟩
            simp only [Bool.false_eq_true, false_iff] at h6
            exact fun h => h6 h.2
        | false =>
          refine ⟨b', h1, h2.trans (rest ?_).symm⟩
          simp only [Bool.false_eq_true, false_iff] at h4
          exact fun h => h4 h.1
    · rename_i hge
      refine ⟨false, rfl, ?_⟩
      simp only [Bool.false_eq_true, false_iff]
      rintro ⟨a, v, c, h, _, hvv, _, h5, h6⟩
      have hv0 : v = [] := List.length_eq_zero_iff.1 (by omega)
      subst hv0
      rcases hv [] ascii_nil with ⟨_, e2⟩ | ⟨i, k, _, e2, e3, _⟩
      · exact e2 [] [] [] rfl hvv
      · simp at e3; omega

theorem btreeLoop_dead {ix : Str → Idx} {right : Str → Option Bool} {V : Str → Prop} (hv : IdxStart ix V) {s : Str} (ha : Ascii s) {limit : Nat}
    (hlim : limit ≤ s.length) : ∀ (n offset : Nat), s.length + 1 ≤ offset + n → 1 ≤ n → 1 ≤ offset →
    btreeLoop ix (fun s => some s.isEmpty) right s limit n offset = some false
  | 0, _, _, h, _ => absurd h (by omega)
  | n + 1, offset, hn, _, ho => by
    rw [btreeLoop]
    split
    · rename_i hlt
      have hasub : Ascii ((s.take limit).drop offset) := ascii_drop (ascii_take ha _) _
      have hsl : ((s.take limit).drop offset).length = limit - offset := by simp; omega
      have hne : (s.take limit).drop offset ≠ [] := by intro h; rw [h] at hsl; simp at hsl; omega
      rcases hv _ hasub hne with ⟨e1, e2⟩ | ⟨i, segs, e1, e2, _⟩
      · rw [e1]
      · rw [e1]
        rw [hsl] at e2
        have hstep : (decodeRune (s.drop (offset + i))).2 = 1 := by
          rw [List.drop_eq_getElem_cons (by omega), decodeRune_ascii (ha _ (List.getElem_mem _))]
        have he : (s.take (offset + i)).isEmpty = false := by
          rw [← Bool.not_eq_true, List.isEmpty_iff]
          intro h
          have := congrArg List.length h
          simp at this
          rcases this with ⟨h1, h2⟩ | h1
          · omega
          · subst h1; simp at hlim; omega
        simp only [he, hstep]
        exact btreeLoop_dead hv ha hlim n _ (by omega) (by omega) (by omega)
    · rfl

theorem btreeLoop_start {ix : Str → Idx} {right : Str → Option Bool} {V R : Str → Prop} (hv : IdxStart ix V)
    (hr : ∀ s, Ascii s → Dec right R s) {s : Str} (ha : Ascii s) (hne : s ≠ []) :
    ∃ b, btreeLoop ix (fun s => some s.isEmpty) right s s.length (s.length + 1) 0 = some b ∧ (b = true ↔ ∃ v c, s = v ++ c ∧ V v ∧ R c) := by
  have hpos := List.length_pos_iff.2 hne
  rw [btreeLoop, if_pos hpos]
  simp only [List.take_length, List.drop_zero, Nat.zero_add]
  rcases hv s ha hne with ⟨e1, e2⟩ | ⟨i, segs, e1, e2, e3, e4⟩
  · rw [e1]
    refine ⟨false, rfl, ?_⟩
    simp only [Bool.false_eq_true, false_iff]
    rintro ⟨v, c, h, h1, _⟩
    exact e2 v c h h1
  · rw [e1]
    have hstep : (decodeRune (s.drop i)).2 = 1 := by
      rw [List.drop_eq_getElem_cons (by omega), decodeRune_ascii (ha _ (List.getElem_mem _))]
    have hdead := btreeLoop_dead (right := right) hv ha (Nat.le_refl s.length) s.length (i + 1) (by omega) hpos (by omega)
    simp only [hstep]
    by_cases hi : i = 0
    · subst hi
      simp only [List.take_zero, List.isEmpty_nil]
      obtain ⟨b, h1, h2⟩ := btreeSegments_dec ha hr 0 segs.reverse
      rw [h1]
      cases b with
      | true =>
        refine ⟨true, rfl, ?_⟩
        simp only [true_iff]
        obtain ⟨k, hk, hR⟩ := h2.1 rfl
        rw [List.mem_reverse, e4 rfl] at hk
        exact ⟨s.take k, s.drop k, by simp, hk.2, by simpa using hR⟩
      | false =>
        simp only
        refine ⟨false, hdead, ?_⟩
        simp only [Bool.false_eq_true, false_iff] at h2 ⊢
        rintro ⟨v, c, h, hV, hR⟩
        apply h2
        refine ⟨v.length, ?_, ?_⟩
        · rw [List.mem_reverse, e4 rfl, take_of_append h]
          exact ⟨by rw [h]; simp, hV⟩
        · rw [Nat.zero_add, h, List.drop_left]; exact hR
    · have he : (s.take i).isEmpty = false := by
        rw [← Bool.not_eq_true, List.isEmpty_iff]
        intro h
        have := congrArg List.length h
        simp at this
        rcases this with h1 | h1
        · omega
        · exact hne h1
      simp only [he]
      refine ⟨false, hdead, ?_⟩
      simp only [Bool.false_eq_true, false_iff]
      rintro ⟨v, c, h, hV, _⟩
      exact e3 (by omega) v c h hV

end Verif.Glob
