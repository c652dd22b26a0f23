import Verif.Glob.RuneGood
/-
Strings of any bytes: the positions of their runes, and the matchers that match ASCII strings only.
-/
namespace Verif.Glob

/-! ### Positions of runes -/

theorem positions_shift : ∀ (rs : List (Nat × Nat)) (i j : Nat), positions (i + j) rs = (positions i rs).map fun x => (x.1 + j, x.2)
  | [], _, _ => rfl
  | (r, w) :: rs, i, j => by
    rw [positions, positions, List.map_cons, show i + j + w = (i + w) + j by omega, positions_shift rs (i + w) j]

theorem rangeStr_cons {x : Str} (h : x ≠ []) :
    rangeStr x = (0, (decodeRune x).1) :: (rangeStr (x.drop (decodeRune x).2)).map fun y => (y.1 + (decodeRune x).2, y.2) := by
  have hs := decodeRune_size x
  have h1 := hs.2 h
  have hl := List.length_pos_iff.2 h
  have e : runesOf x = decodeRune x :: runesOf (x.drop (decodeRune x).2) := by
    unfold runesOf
    cases x with
    | nil => exact absurd rfl h
    | cons b s =>
      rw [List.length_cons, runesAux]
      congr 1
      refine runesAux_fuel _ _ _ ?_ (Nat.le_refl _)
      rw [List.length_drop]; simp only [List.length_cons]; omega
  rw [rangeStr, e, positions, rangeStr, ← positions_shift]

theorem mem_rangeStr_any : ∀ (n : Nat) (x : Str), x.length ≤ n → ∀ y ∈ rangeStr x, y.1 < x.length ∧ (decodeRune (x.drop y.1)).1 = y.2
  | n, [], _, y, hy => by simp [rangeStr, runesOf, runesAux, positions] at hy
  | 0, b :: s, h, _, _ => by simp at h
  | n + 1, b :: s, h, y, hy => by
    have hs := decodeRune_size (b :: s)
    have h1 := hs.2 (by simp)
    rw [rangeStr_cons (by simp), List.mem_cons, List.mem_map] at hy
    rcases hy with rfl | ⟨z, hz, rfl⟩
    · simp
    · obtain ⟨h2, h3⟩ := mem_rangeStr_any n _ (by rw [List.length_drop]; simp only [List.length_cons] at *; omega) z hz
      rw [List.length_drop] at h2
      rw [List.drop_drop] at h3
      refine ⟨by simp only; omega, ?_⟩
      simp only
      rw [← h3, Nat.add_comm]

theorem rangeStr_sorted : ∀ (n : Nat) (x : Str), x.length ≤ n → (rangeStr x).Pairwise fun a b => a.1 < b.1
  | n, [], _ => by simp [rangeStr, runesOf, runesAux, positions]
  | 0, b :: s, h => by simp at h
  | n + 1, b :: s, h => by
    have hs := decodeRune_size (b :: s)
    have h1 := hs.2 (by simp)
    rw [rangeStr_cons (by simp), List.pairwise_cons, List.pairwise_map]
    refine ⟨?_, ?_⟩
    · intro y hy
      rw [List.mem_map] at hy
      obtain ⟨z, hz, rfl⟩ := hy
      simp only; omega
    · refine (rangeStr_sorted n _ (by rw [List.length_drop]; simp only [List.length_cons] at *; omega)).imp ?_
      intro a b hab; simp only; omega

/-- The bytes inside a rune. -/
theorem decodeRune_inside {x : Str} {i : Nat} (h0 : 0 < i) (h1 : i < (decodeRune x).2) : ∃ b, x[i]? = some b ∧ ¬ StartByte b := by
  unfold StartByte
  cases x with
  | nil => simp [decodeRune] at h1
  | cons b0 s =>
    have cont : ∀ {lo hi b : UInt8}, contIn lo hi b = true → 0x80 ≤ lo.toNat → hi.toNat ≤ 0xBF → ¬¬(0x80 ≤ b.toNat ∧ b.toNat ≤ 0xBF) := by
      intro lo hi b h h2 h3
      rw [contIn_iff] at h
      rw [not_not]; omega
    by_cases c1 : b0 < 0x80
    · simp only [decodeRune, if_pos c1] at h1; omega
    by_cases c2 : (0xC2 ≤ b0 && b0 ≤ 0xDF) = true
    · simp only [decodeRune, if_neg c1, if_pos c2] at h1
      rcases s with _ | ⟨b1, s⟩
      · simp only at h1; omega
      · simp only at h1
        split at h1
        · rename_i hc
          simp only at h1
          obtain rfl : i = 1 := by omega
          exact ⟨b1, rfl, cont hc (by decide) (by decide)⟩
        · simp only at h1; omega
    by_cases c3 : (0xE0 ≤ b0 && b0 ≤ 0xEF) = true
    · simp only [decodeRune, if_neg c1, if_neg c2, if_pos c3] at h1
      have hlo : 0x80 ≤ (if b0 = 0xE0 then (0xA0 : UInt8) else 0x80).toNat := by split <;> decide
      have hhi : (if b0 = 0xED then (0x9F : UInt8) else 0xBF).toNat ≤ 0xBF := by split <;> decide
      generalize (if b0 = 0xE0 then (0xA0 : UInt8) else 0x80) = lo at h1 hlo
      generalize (if b0 = 0xED then (0x9F : UInt8) else 0xBF) = hi at h1 hhi
      rcases s with _ | ⟨b1, _ | ⟨b2, s⟩⟩
      · simp only at h1; omega
      · simp only at h1; omega
      · simp only at h1
        split at h1
        · rename_i hc
          simp only at h1
          rw [Bool.and_eq_true] at hc
          rcases (by omega : i = 1 ∨ i = 2) with rfl | rfl
          · exact ⟨b1, rfl, cont hc.1 hlo hhi⟩
          · exact ⟨b2, rfl, cont hc.2 (by decide) (by decide)⟩
        · simp only at h1; omega
    by_cases c4 : (0xF0 ≤ b0 && b0 ≤ 0xF4) = true
    · simp only [decodeRune, if_neg c1, if_neg c2, if_neg c3, if_pos c4] at h1
      have hlo : 0x80 ≤ (if b0 = 0xF0 then (0x90 : UInt8) else 0x80).toNat := by split <;> decide
      have hhi : (if b0 = 0xF4 then (0x8F : UInt8) else 0xBF).toNat ≤ 0xBF := by split <;> decide
      generalize (if b0 = 0xF0 then (0x90 : UInt8) else 0x80) = lo at h1 hlo
      generalize (if b0 = 0xF4 then (0x8F : UInt8) else 0xBF) = hi at h1 hhi
      rcases s with _ | ⟨b1, _ | ⟨b2, _ | ⟨b3, s⟩⟩⟩
      · simp only at h1; omega
      · simp only at h1; omega
      · simp only at h1; omega
      · simp only at h1
        split at h1
        · rename_i hc
          simp only at h1
          rw [Bool.and_eq_true, Bool.and_eq_true] at hc
          rcases (by omega : i = 1 ∨ i = 2 ∨ i = 3) with rfl | rfl | rfl
          · exact ⟨b1, rfl, cont hc.1.1 hlo hhi⟩
          · exact ⟨b2, rfl, cont hc.1.2 (by decide) (by decide)⟩
          · exact ⟨b3, rfl, cont hc.2 (by decide) (by decide)⟩
        · simp only at h1; omega
    · simp only [decodeRune, if_neg c1, if_neg c2, if_neg c3, if_neg c4] at h1; omega

/-- A byte that is not inside a rune begins one. -/
theorem start_mem : ∀ (n : Nat) (x : Str), x.length ≤ n → ∀ i b, x[i]? = some b → StartByte b → (i, (decodeRune (x.drop i)).1) ∈ rangeStr x
  | n, [], _, i, b, h, _ => by simp at h
  | 0, b :: s, h, _, _, _, _ => by simp at h
  | n + 1, b :: s, h, i, c, hc, hst => by
    have hs := decodeRune_size (b :: s)
    have h1 := hs.2 (by simp)
    rw [rangeStr_cons (by simp), List.mem_cons, List.mem_map]
    by_cases h0 : i = 0
    · left; subst h0; rfl
    · right
      have hge : (decodeRune (b :: s)).2 ≤ i := by
        by_contra hlt
        obtain ⟨d, h2, h3⟩ := decodeRune_inside (x := b :: s) (i := i) (by omega) (by omega)
        rw [hc] at h2
        cases h2
        exact h3 hst
      have := start_mem n ((b :: s).drop (decodeRune (b :: s)).2) (by rw [List.length_drop]; simp only [List.length_cons] at *; omega) (i - (decodeRune (b :: s)).2) c
        (by rw [List.getElem?_drop]; rw [show (decodeRune (b :: s)).2 + (i - (decodeRune (b :: s)).2) = i by omega]; exact hc) hst
      refine ⟨_, this, ?_⟩
      simp only [List.drop_drop]
      rw [show i - (decodeRune (b :: s)).2 + (decodeRune (b :: s)).2 = i by omega, show (decodeRune (b :: s)).2 + (i - (decodeRune (b :: s)).2) = i by omega]

theorem ascii_start {b : UInt8} (h : b < 0x80) : StartByte b := by
  unfold StartByte
  rw [UInt8.lt_iff_toNat_lt] at h
  simp at h; omega

/-- The positions of a string that begins with ASCII bytes. -/
theorem rangeStr_ascii_append {u : Str} (hu : Ascii u) (y : Str) : ((rangeStr (u ++ y)).map Prod.fst).take u.length = List.range u.length := by
  have key : ∀ (u : Str) (i : Nat), Ascii u → ((positions i (runesOf (u ++ y))).map Prod.fst).take u.length = List.range' i u.length := by
    intro u
    induction u with
    | nil => intro i _; simp
    | cons b u ih =>
      intro i hu
      have hb := hu b (by simp)
      have hd : decodeRune (b :: (u ++ y)) = (b.toNat, 1) := decodeRune_ascii hb
      have e : runesOf (b :: (u ++ y)) = (b.toNat, 1) :: runesOf (u ++ y) := by
        unfold runesOf
        rw [List.length_cons, runesAux, hd]
        rfl
      rw [List.cons_append, e, positions, List.map_cons, List.length_cons, List.take_succ_cons, ih (i + 1) (fun b hb => hu b (by simp [hb])), List.range'_succ]
  rw [rangeStr, key u 0 hu, List.range_eq_range']

theorem ascii_map {u : Str} (hu : Ascii u) : enc (u.map UInt8.toNat) = u := by
  induction u with
  | nil => rfl
  | cons b u ih =>
    have hb := hu b (by simp)
    rw [List.map_cons, enc_cons, ih fun b hb => hu b (by simp [hb])]
    rw [UInt8.lt_iff_toNat_lt] at hb
    rw [encodeRune, if_pos (by simpa using hb)]
    simp

theorem ascii_scalars {u : Str} (hu : Ascii u) : Scalars (u.map UInt8.toNat) := by
  intro r hr
  obtain ⟨b, hb, rfl⟩ := List.mem_map.1 hr
  have := toNat_lt_of_ascii (hu b hb)
  rw [valid_iff]; omega

theorem ascii_runesIn {u : Str} (hu : Ascii u) : runesIn u = u.map UInt8.toNat := by
  conv_lhs => rw [← ascii_map hu]
  exact runesIn_enc (ascii_scalars hu)

/-! ### Matchers of ASCII strings -/

/-- `matchAll` of matchers of ASCII strings, and then others. -/
theorem rowMatchAll_then {gs : List (Option Nat × (Str → Option Bool))} {G : Str → Prop} : ∀ (ms : List Matcher), (∀ m ∈ ms, posLen m.len = true) → (∀ m ∈ ms, LenOk m.len (MLang m)) →
    (∀ m ∈ ms, ∀ x, ∃ b, m.match x = some b ∧ (b = true ↔ Ascii x ∧ MLang m x)) → ∀ (s : Str) (idx : Nat), idx ≤ s.length →
    (∀ a c, s.drop idx = a ++ c → Ascii a → LangSeq ms a → ∃ b, rowMatchAll s (idx + a.length) gs = some b ∧ (b = true ↔ G c)) →
    ∃ b, rowMatchAll s idx ((lens ms).zip (matchFns ms) ++ gs) = some b ∧ (b = true ↔ ∃ a c, s.drop idx = a ++ c ∧ Ascii a ∧ LangSeq ms a ∧ G c)
  | [], _, _, _, s, idx, _, hg => by
    obtain ⟨b, e1, e2⟩ := hg [] (s.drop idx) rfl ascii_nil rfl
    refine ⟨b, by simpa [lens, matchFns] using e1, e2.trans ?_⟩
    simp only [LangSeq]
    constructor
    · intro h; exact ⟨[], s.drop idx, rfl, ascii_nil, rfl, h⟩
    · rintro ⟨_, c, h1, _, rfl, h3⟩; rw [h1]; exact h3
  | m :: ms, h1, h2, h3, s, idx, hi, hg => by
    obtain ⟨k, hk, hp⟩ := posLen_some (h1 m List.mem_cons_self)
    simp only [lens, matchFns, List.zip_cons_cons, List.cons_append, rowMatchAll, hk, Option.getD_some]
    have hlen := h2 m List.mem_cons_self k hk
    -- what the step is if there is an ASCII string of the length
    have hstep : ∀ u y, s.drop idx = u ++ y → Ascii u → u.length = k → rowStep k (s.drop idx) = (k - 1, k) := by
      intro u y e hu hul
      unfold rowStep
      have := rangeStr_ascii_append hu y
      rw [hul] at this
      simp only [if_neg (show k ≠ 0 by omega), e, this, List.length_range]
      obtain ⟨n, rfl⟩ : ∃ n, k = n + 1 := ⟨k - 1, by omega⟩
      simp [List.range_succ]
    have hbound : 1 ≤ (rowStep k (s.drop idx)).2 → (rowStep k (s.drop idx)).1 < (s.drop idx).length := by
      unfold rowStep
      simp only [if_neg (show k ≠ 0 by omega)]
      intro h
      generalize hv : ((rangeStr (s.drop idx)).map Prod.fst).take k = vs at h
      cases hg : vs.getLast? with
      | none => rw [List.getLast?_eq_none_iff] at hg; subst hg; simp at h
      | some v =>
        have hm : v ∈ vs := List.mem_of_getLast? hg
        rw [← hv] at hm
        obtain ⟨y, hy, rfl⟩ := List.mem_map.1 (List.mem_of_mem_take hm)
        exact (mem_rangeStr_any _ _ (Nat.le_refl _) y hy).1
    by_cases hlt : (rowStep k (s.drop idx)).2 < k
    · rw [if_pos hlt]
      refine ⟨false, rfl, ?_⟩
      simp only [Bool.false_eq_true, false_iff, LangSeq]
      rintro ⟨a, c, e, ha, ⟨u, v, rfl, hu, _⟩, _⟩
      rw [ascii_append] at ha
      rw [hstep u (v ++ c) (by rw [e, List.append_assoc]) ha.1 (hlen u ha.1 hu)] at hlt
      simp at hlt
    · rw [if_neg hlt]
      have hb := hbound (by omega)
      rw [List.length_drop] at hb
      rw [if_neg (by omega)]
      generalize hn : (rowStep k (s.drop idx)).1 = nx at *
      obtain ⟨b, e1, e2⟩ := h3 m List.mem_cons_self ((s.drop idx).take (nx + 1))
      rw [e1]
      cases b with
      | false =>
        refine ⟨false, rfl, ?_⟩
        simp only [Bool.false_eq_true, false_iff, LangSeq] at e2 ⊢
        rintro ⟨a, c, e, ha, ⟨u, v, rfl, hu, _⟩, _⟩
        rw [ascii_append] at ha
        have hul := hlen u ha.1 hu
        have := hstep u (v ++ c) (by rw [e, List.append_assoc]) ha.1 hul
        rw [this] at hn
        simp only at hn
        apply e2
        rw [e, List.append_assoc, List.take_left' (by omega)]
        exact ⟨ha.1, hu⟩
      | true =>
        simp only
        obtain ⟨hA, hM⟩ := e2.1 rfl
        have hk1 := hlen _ hA hM
        rw [List.length_take, List.length_drop] at hk1
        have hd : ∀ a c, s.drop (idx + nx + 1) = a ++ c → s.drop idx = ((s.drop idx).take (nx + 1) ++ a) ++ c := by
          intro a c e
          rw [List.append_assoc, ← e, show idx + nx + 1 = idx + (nx + 1) by omega, ← List.drop_drop, List.take_append_drop]
        obtain ⟨b', e3, e4⟩ := rowMatchAll_then ms (fun m hm => h1 m (List.mem_cons_of_mem _ hm)) (fun m hm => h2 m (List.mem_cons_of_mem _ hm))
          (fun m hm => h3 m (List.mem_cons_of_mem _ hm)) s (idx + nx + 1) (by omega) (gs := gs) (G := G) (by
            intro a c e ha hla
            obtain ⟨b, e1, e2⟩ := hg _ c (hd a c e) (ascii_append.2 ⟨hA, ha⟩) (by rw [LangSeq]; exact ⟨_, _, rfl, hM, hla⟩)
            refine ⟨b, ?_, e2⟩
            rw [← e1]
            congr 1
            rw [List.length_append, List.length_take, List.length_drop]; omega)
        refine ⟨b', e3, e4.trans ?_⟩
        simp only [LangSeq]
        constructor
        · rintro ⟨a, c, e, ha, h, hG⟩
          exact ⟨(s.drop idx).take (nx + 1) ++ a, c, hd a c e, ascii_append.2 ⟨hA, ha⟩, ⟨_, _, rfl, hM, h⟩, hG⟩
        · rintro ⟨a, c, e, ha, ⟨u, v, rfl, hu, hv⟩, hG⟩
          rw [ascii_append] at ha
          have hul := hlen u ha.1 hu
          refine ⟨v, c, ?_, ha.2, hv, hG⟩
          rw [show idx + nx + 1 = idx + (nx + 1) by omega, ← List.drop_drop, e, List.append_assoc, List.drop_left' (by omega)]

theorem rowMatchAll_any (ms : List Matcher) (h1 : ∀ m ∈ ms, posLen m.len = true) (h2 : ∀ m ∈ ms, LenOk m.len (MLang m))
    (h3 : ∀ m ∈ ms, ∀ x, ∃ b, m.match x = some b ∧ (b = true ↔ Ascii x ∧ MLang m x)) (s : Str) (idx : Nat) (hi : idx ≤ s.length) :
    ∃ b, rowMatchAll s idx ((lens ms).zip (matchFns ms)) = some b ∧ (b = true ↔ ∃ a c, s.drop idx = a ++ c ∧ Ascii a ∧ LangSeq ms a) := by
  have := rowMatchAll_then (gs := []) (G := fun _ => True) ms h1 h2 h3 s idx hi fun a c _ _ _ => ⟨true, rfl, by simp⟩
  simpa using this

theorem row_conds {l : Nat} {ms : List Matcher} (h : asciiM (.row l ms) = true) :
    (∀ m ∈ ms, asciiM m = true) ∧ 1 ≤ l ∧ (∀ m ∈ ms, LenOk m.len (MLang m)) ∧ sumLens (lens ms) = some l ∧ (∀ m ∈ ms, posLen m.len = true) := by
  simp only [asciiM, Bool.and_eq_true, decide_eq_true_eq] at h
  obtain ⟨⟨⟨h1, h2⟩, h3⟩, h4⟩ := h
  rw [lenGood, Bool.and_eq_true, beq_iff_eq] at h3
  refine ⟨asciiMs_iff.1 h1, h2, fun m hm => lenGood_ok m (lenGoods_iff.1 h3.1 m hm), h3.2, fun m hm => ?_⟩
  rw [lens_eq, List.all_map, List.all_eq_true] at h4
  exact h4 m hm

theorem oneRune_small {p : Nat → Bool} (hp : ∀ r, p r = true → r < 0x80) (x : Str) : oneRune p x = true ↔ Ascii x ∧ ∃ b, x = [b] ∧ p b.toNat = true := by
  unfold oneRune
  constructor
  · intro h
    split at h
    · cases h
    · rename_i hl
      have hr := hp _ h
      obtain ⟨h1, h2, h3⟩ := decodeRune_local (s := x) (r := (decodeRune x).1) (w := (decodeRune x).2) rfl (by unfold runeError; omega)
      rcases h3 with ⟨_, b, e1, e2⟩ | ⟨h3, _⟩
      · rw [List.take_of_length_le (by omega)] at e1
        subst e1
        refine ⟨?_, b, rfl, by rw [e2]; exact h⟩
        intro c hc
        simp at hc; subst hc
        rw [UInt8.lt_iff_toNat_lt, e2]; simpa using hr
      · omega
  · rintro ⟨ha, b, rfl, h⟩
    rw [decodeRune_ascii (ha b (by simp))]
    simpa using h

theorem ascii_match (m : Matcher) : asciiM m = true → ∀ x, ∃ b, m.match x = some b ∧ (b = true ↔ Ascii x ∧ MLang m x) := by
  induction m using Matcher.ind with
  | h m ih =>
  intro hm x
  cases m <;> simp only [asciiM, Bool.false_eq_true, Bool.and_eq_true, Bool.not_eq_true', List.all_eq_true, decide_eq_true_eq] at hm
  case text t =>
    refine ⟨_, rfl, ?_⟩
    rw [MLang, decide_eq_true_eq]
    constructor
    · rintro rfl; exact ⟨hm.2, rfl⟩
    · rintro ⟨_, rfl⟩; rfl
  case list rs n =>
    obtain ⟨rfl, h⟩ := hm
    refine ⟨_, rfl, ?_⟩
    rw [MLang]
    exact oneRune_small (fun r hr => h r (by simpa [inList] using hr)) x
  case range lo hi n =>
    obtain ⟨rfl, h⟩ := hm
    refine ⟨_, rfl, ?_⟩
    rw [MLang]
    refine oneRune_small (fun r hr => ?_) x
    simp [inRange] at hr; omega
  case anyOf ms =>
    rw [asciiMs_iff] at hm
    show ∃ b, anyOfMatch x (matchFns ms) = some b ∧ _
    rw [MLang]
    simp only [Matcher.children] at ih
    induction ms with
    | nil => exact ⟨false, rfl, by simp [LangSome]⟩
    | cons m ms ih' =>
      obtain ⟨b, e1, e2⟩ := ih m (by simp) (hm m (by simp)) x
      obtain ⟨b', e3, e4⟩ := ih' (fun c hc => ih c (by simp [hc])) fun c hc => hm c (by simp [hc])
      rw [matchFns, anyOfMatch, e1]
      cases b with
      | true => exact ⟨true, rfl, by rw [LangSome]; have := e2.1 rfl; simp [this]⟩
      | false =>
        refine ⟨b', e3, e4.trans ?_⟩
        rw [LangSome]
        simp only [Bool.false_eq_true, false_iff] at e2
        constructor
        · rintro ⟨h1, h2⟩; exact ⟨h1, Or.inr h2⟩
        · rintro ⟨h1, h2 | h2⟩
          · exact absurd ⟨h1, h2⟩ e2
          · exact ⟨h1, h2⟩
  case row l ms =>
    obtain ⟨h1, h2, h3, h4, h5⟩ := row_conds (l := l) (ms := ms) (by simp [asciiM, hm]; exact hm.2)
    show ∃ b, rowMatch l _ x = some b ∧ _
    unfold rowMatch
    rw [MLang]
    split
    · rename_i hl
      obtain ⟨b, e1, e2⟩ := rowMatchAll_any ms h5 h3 (fun m hm => ih m hm (h1 m hm)) x 0 (by omega)
      refine ⟨b, e1, e2.trans ?_⟩
      rw [List.drop_zero]
      constructor
      · rintro ⟨a, c, rfl, ha, h⟩
        have hla := langSeq_len ms l h4 h3 a ha h
        have : (runesOf (a ++ c)).length = a.length + (runesOf c).length := by
          have := runesOf_enc_append (ascii_scalars ha) c
          rw [ascii_map ha] at this
          rw [this]; simp
        have hc : (runesOf c).length = 0 := by omega
        have : runesIn c = [] := by rw [runesIn, List.length_eq_zero_iff.1 hc]; rfl
        rw [runesIn_eq_nil] at this
        subst this
        simpa using ⟨ha, h⟩
      · rintro ⟨ha, h⟩; exact ⟨x, [], by simp, ha, h⟩
    · rename_i hl
      refine ⟨false, rfl, ?_⟩
      simp only [Bool.false_eq_true, false_iff]
      rintro ⟨ha, h⟩
      rw [runes_length ha] at hl
      exact hl (langSeq_len ms l h4 h3 x ha h)

theorem ascii_rSeq {ms : List Matcher} (h : ∀ m ∈ ms, ∀ w, (RLang m w ↔ ∃ u, Ascii u ∧ w = u.map UInt8.toNat ∧ MLang m u)) (w : List Nat) :
    RSeq ms w ↔ ∃ u, Ascii u ∧ w = u.map UInt8.toNat ∧ LangSeq ms u := by
  induction ms generalizing w with
  | nil =>
    simp only [RSeq, LangSeq]
    constructor
    · rintro rfl; exact ⟨[], ascii_nil, rfl, rfl⟩
    · rintro ⟨_, _, rfl, rfl⟩; rfl
  | cons m ms ih' =>
    have i1 := h m (by simp)
    have i2 := fun w => ih' (fun c hc => h c (by simp [hc])) w
    simp only [RSeq, LangSeq]
    constructor
    · rintro ⟨a, c, rfl, ha, hc⟩
      obtain ⟨u, g1, rfl, g3⟩ := (i1 a).1 ha
      obtain ⟨v, g4, rfl, g6⟩ := (i2 c).1 hc
      exact ⟨u ++ v, ascii_append.2 ⟨g1, g4⟩, by simp, u, v, rfl, g3, g6⟩
    · rintro ⟨_, g1, rfl, u, v, rfl, g3, g6⟩
      rw [ascii_append] at g1
      exact ⟨u.map UInt8.toNat, v.map UInt8.toNat, by simp, (i1 _).2 ⟨u, g1.1, rfl, g3⟩, (i2 _).2 ⟨v, g1.2, rfl, g6⟩⟩

theorem ascii_rlang (m : Matcher) : asciiM m = true → ∀ w, (RLang m w ↔ ∃ u, Ascii u ∧ w = u.map UInt8.toNat ∧ MLang m u) := by
  induction m using Matcher.ind with
  | h m ih =>
  intro hm w
  have one : ∀ p : Nat → Bool, (∀ r, p r = true → r < 0x80) →
      ((∃ r, w = [r] ∧ p r = true) ↔ ∃ u : Str, Ascii u ∧ w = u.map UInt8.toNat ∧ ∃ b : UInt8, u = [b] ∧ p b.toNat = true) := by
    intro p hp
    constructor
    · rintro ⟨r, rfl, h⟩
      have hr := hp r h
      have e : (UInt8.ofNat r).toNat = r := by rw [UInt8.toNat_ofNat']; omega
      refine ⟨[UInt8.ofNat r], ?_, by simp [e], _, rfl, by rw [e]; exact h⟩
      intro c hc
      simp at hc; subst hc
      rw [UInt8.lt_iff_toNat_lt, e]; simpa using hr
    · rintro ⟨_, _, rfl, b, rfl, h⟩; exact ⟨b.toNat, rfl, h⟩
  cases m <;> simp only [asciiM, Bool.false_eq_true, Bool.and_eq_true, Bool.not_eq_true', List.all_eq_true, decide_eq_true_eq] at hm
  case text t =>
    simp only [RLang, MLang]
    rw [ascii_runesIn hm.2]
    constructor
    · rintro rfl; exact ⟨t, hm.2, rfl, rfl⟩
    · rintro ⟨_, _, rfl, rfl⟩; rfl
  case list rs n =>
    obtain ⟨rfl, h⟩ := hm
    simp only [RLang, MLang]
    have hsc : Scalars rs := fun r hr => by rw [valid_iff]; have := h r hr; omega
    rw [norm_eq hsc]
    exact one _ fun r hr => h r (by simpa [inList] using hr)
  case range lo hi n =>
    obtain ⟨rfl, h⟩ := hm
    simp only [RLang, MLang]
    refine one _ fun r hr => ?_
    simp [inRange] at hr; omega
  case anyOf ms =>
    rw [asciiMs_iff] at hm
    simp only [RLang, MLang, rSome_iff, langSome_iff]
    constructor
    · rintro ⟨m, h1, h2⟩
      obtain ⟨u, h3, h4, h5⟩ := (ih m h1 (hm m h1) w).1 h2
      exact ⟨u, h3, h4, m, h1, h5⟩
    · rintro ⟨u, h3, h4, m, h1, h5⟩
      exact ⟨m, h1, (ih m h1 (hm m h1) w).2 ⟨u, h3, h4, h5⟩⟩
  case row l ms =>
    obtain ⟨h1, -⟩ := row_conds (l := l) (ms := ms) (by simp [asciiM, hm]; exact hm.2)
    simp only [RLang, MLang]
    exact ascii_rSeq (fun m hm => ih m hm (h1 m hm)) w

/-! ### A last matcher for one rune -/

theorem lastM_ok {m : Matcher} (h : lastM m = true) : m.len = some 1 ∧
    ∃ p : Nat → Bool, (∀ x, m.match x = some (oneRune p x)) ∧ (∀ w, RLang m w ↔ ∃ r, w = [r] ∧ p r = true) ∧ ∀ r, 0x80 ≤ r → p r = true := by
  have small : ∀ rs : List Nat, (∀ r ∈ rs, r < 0x80) → Scalars rs := fun rs h r hr => by rw [valid_iff]; have := h r hr; omega
  cases m <;> simp only [lastM, Bool.false_eq_true, Bool.and_eq_true, List.all_eq_true, decide_eq_true_eq] at h
  case single seps =>
    refine ⟨rfl, _, fun x => rfl, fun w => ?_, fun r hr => ?_⟩
    · rw [RLang, norm_eq (small _ h)]; simp
    · simp only [Bool.not_eq_true', List.contains_eq_mem, decide_eq_false_iff_not]
      intro hc; have := h r hc; omega
  case list rs n =>
    obtain ⟨rfl, h⟩ := h
    refine ⟨rfl, _, fun x => rfl, fun w => ?_, fun r hr => ?_⟩
    · rw [RLang, norm_eq (small _ h)]
    · have : r ∉ rs := fun hc => by have := h r hc; omega
      simp [inList, this]
  case range lo hi n =>
    obtain ⟨rfl, h⟩ := h
    refine ⟨rfl, _, fun x => rfl, fun w => ?_, fun r hr => ?_⟩
    · rw [RLang]
    · simp [inRange]; omega

/-- The first byte of a rune, taken for a rune. -/
theorem oneRune_firstByte {p : Nat → Bool} (hp : ∀ r, 0x80 ≤ r → p r = true) {r : Nat} (hr : validRune r = true) :
    oneRune p ((encodeRune r).take 1) = p r := by
  by_cases h : r < 0x80
  · have e : encodeRune r = [UInt8.ofNat r] := by rw [encodeRune, if_pos h]
    have e' : (UInt8.ofNat r).toNat = r := by rw [UInt8.toNat_ofNat']; omega
    rw [e]
    show oneRune p [UInt8.ofNat r] = p r
    unfold oneRune
    rw [decodeRune_ascii (by rw [UInt8.lt_iff_toNat_lt, e']; simpa using h), e']
    simp
  · rw [hp r (by omega)]
    have hd := decode_valid hr []
    rw [List.append_nil] at hd
    cases he : encodeRune r with
    | nil => exact absurd he (encode_ne_nil r)
    | cons b t =>
      show oneRune p [b] = true
      unfold oneRune
      have hw : 1 ≤ (decodeRune [b]).2 := by
        unfold decodeRune
        split <;> (try simp_all) <;> (try split) <;> simp_all
      rw [if_neg (by rw [List.length_singleton]; omega)]
      apply hp
      by_contra hc
      have hb : b < 0x80 := decodeRune_lt (t := []) (by omega)
      rw [he, decodeRune_ascii hb] at hd
      have h1 := (Prod.mk.inj hd).1
      have := toNat_lt_of_ascii hb
      omega

theorem rowLast_dec {l : Nat} {ms : List Matcher} (h : rowLast l ms = true) {w : List Nat} (hw : Scalars w) :
    ∃ b, (Matcher.row l ms).match (enc w) = some b ∧ (b = true ↔ RLang (.row l ms) w) := by
  simp only [rowLast, Bool.and_eq_true] at h
  obtain ⟨⟨⟨h1, h2⟩, h4⟩, h5⟩ := h
  cases hlast : ms.getLast? with
  | none => rw [hlast] at h2; simp at h2
  | some z =>
    rw [hlast] at h2
    simp only [Option.any_some] at h2
    obtain ⟨as, rfl⟩ := List.getLast?_eq_some_iff.1 hlast
    simp only [List.dropLast_concat] at h1
    rw [lenGood, Bool.and_eq_true, beq_iff_eq] at h4
    have hl4 := lenGoods_iff.1 h4.1
    rw [lens_eq, List.all_map, List.all_eq_true] at h5
    obtain ⟨z1, p, z2, z3, z4⟩ := lastM_ok h2
    have hA := asciiMs_iff.1 h1
    have hR := ascii_rSeq (ms := as) fun m hm => ascii_rlang m (hA m hm)
    have hlen : ∀ s, RSeq (as ++ [z]) s → s.length = l := rSeq_len _ l h4.2 fun m hm => lenGood_rok m (hl4 m hm)
    show ∃ b, rowMatch l _ (enc w) = some b ∧ _
    unfold rowMatch
    rw [RLang, runesOf_enc hw, List.length_map]
    have hz : (lens (as ++ [z])).zip (matchFns (as ++ [z])) = (lens as).zip (matchFns as) ++ [(some 1, z.match)] := by
      clear hlast hR hlen hA h1 h4 h5 hl4
      induction as with
      | nil => simp [lens, matchFns, z1]
      | cons a as ih => simp only [List.cons_append, lens, matchFns, List.zip_cons_cons, ih]
    split
    · rename_i hl
      have hlas : ∀ s, RSeq as s → s.length + 1 = l := by
        intro s hs
        have : RSeq (as ++ [z]) (s ++ [0x80]) := rSeq_append.2 ⟨s, [0x80], rfl, hs, rSeq_singleton.2 ((z3 _).2 ⟨_, rfl, z4 _ (by omega)⟩)⟩
        simpa using hlen _ this
      obtain ⟨b, e1, e2⟩ := rowMatchAll_then (gs := [(some 1, z.match)]) (G := fun c => ∃ r, validRune r = true ∧ c = encodeRune r ∧ p r = true) as
        (fun m hm => h5 m (by simp [hm])) (fun m hm => lenGood_ok m (hl4 m (by simp [hm]))) (fun m hm => ascii_match m (hA m hm)) (enc w) 0 (by omega) (by
          intro a c e ha hla
          rw [List.drop_zero] at e
          obtain ⟨d, rfl, rfl⟩ := enc_prefix hw (ascii_scalars ha) (by rw [ascii_map ha]; exact e)
          have h1 := hlas _ ((hR _).2 ⟨a, ha, rfl, hla⟩)
          rw [List.length_append] at hl
          obtain ⟨r, rfl⟩ := List.length_eq_one_iff.1 (show d.length = 1 by omega)
          rw [scalars_append] at hw
          have hr := hw.2 r (by simp)
          have hd : (enc (a.map UInt8.toNat ++ [r])).drop (0 + a.length) = encodeRune r := by
            rw [enc_append, ascii_map ha, Nat.zero_add, List.drop_left, enc_singleton]
          have hstep : rowStep 1 (encodeRune r) = (0, 1) := by
            unfold rowStep
            rw [← enc_singleton, rangeStr_enc (fun x hx => by simp at hx; subst hx; exact hr)]
            simp [spots]
          refine ⟨p r, ?_, ?_⟩
          · simp only [rowMatchAll, hd, Option.getD_some, hstep]
            rw [if_neg (by omega), if_neg (by
              have := encode_ne_nil r
              have : 1 ≤ (encodeRune r).length := List.length_pos_iff.2 this
              rw [enc_append, ascii_map ha, List.length_append, enc_singleton]; omega)]
            rw [z2, oneRune_firstByte z4 hr]
            cases p r <;> rfl
          · rw [enc_singleton]
            constructor
            · intro h; exact ⟨r, hr, rfl, h⟩
            · rintro ⟨r', h1, h2, h3⟩
              have := decode_valid hr []
              rw [h2, decode_valid h1] at this
              rw [← (Prod.mk.inj this).1]; exact h3)
      refine ⟨b, by rw [hz]; exact e1, e2.trans ?_⟩
      rw [rSeq_append, List.drop_zero]
      constructor
      · rintro ⟨a, c, g1, g2, g3, r, g4, rfl, g6⟩
        refine ⟨a.map UInt8.toNat, [r], ?_, (hR _).2 ⟨a, g2, rfl, g3⟩, rSeq_singleton.2 ((z3 _).2 ⟨r, rfl, g6⟩)⟩
        have hsc : Scalars (a.map UInt8.toNat ++ [r]) := scalars_append.2 ⟨ascii_scalars g2, fun x hx => by simp at hx; subst hx; exact g4⟩
        exact enc_inj hw hsc (by rw [enc_append, ascii_map g2, enc_singleton]; exact g1)
      · rintro ⟨a, c, rfl, g1, g2⟩
        obtain ⟨u, k1, rfl, k3⟩ := (hR _).1 g1
        obtain ⟨r, rfl, k4⟩ := (z3 _).1 (rSeq_singleton.1 g2)
        rw [scalars_append] at hw
        exact ⟨u, encodeRune r, by rw [enc_append, ascii_map k1, enc_singleton], k1, k3, r, hw.2 r (by simp), rfl, k4⟩
    · rename_i hl
      exact ⟨false, rfl, by simp only [Bool.false_eq_true, false_iff]; intro h; exact hl (hlen w h)⟩

end Verif.Glob
