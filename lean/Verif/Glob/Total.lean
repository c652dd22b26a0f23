import Verif.Glob.Split
import Verif.Glob.CompileLang
import Verif.Glob.CompileTotal
/-
When `Match` of a matcher returns, whatever the string.
-/
namespace Verif.Glob

/-- `Match` returns. -/
def Returns (f : Str → Option Bool) : Prop := ∀ s, ∃ b, f s = some b

/-- `Index` returns, with an index in the string. -/
def IdxReturns (f : Str → Idx) : Prop := ∀ s, ∃ r, f s = some r ∧ ∀ i xs, r = some (i, xs) → i ≤ s.length

/-- `SuffixAny.Index` can only be trusted with ASCII separators. -/
def asciiSeps (seps : List Nat) : Prop := ∀ r ∈ seps, r < 0x80

/-! ### The matchers without parts -/

theorem strIndex_le {t s : Str} {i : Nat} (h : strIndex t s = some i) : i ≤ s.length := (strIndex_some h).2.1

theorem strLastIndex_le {t : Str} : ∀ {s : Str} {i : Nat}, strLastIndex t s = some i → i ≤ s.length
  | [], i, h => by
    unfold strLastIndex at h
    split at h
    · cases h; exact Nat.le_refl _
    · cases h
  | b :: s, i, h => by
    unfold strLastIndex at h
    split at h
    · rename_i j hj
      cases h
      have := strLastIndex_le hj
      simp; omega
    · split at h
      · cases h; exact Nat.zero_le _
      · cases h

theorem strLastIndex_lt {b : UInt8} : ∀ {s : Str} {i : Nat}, strLastIndex [b] s = some i → i < s.length
  | [], i, h => by simp [strLastIndex] at h
  | c :: s, i, h => by
    unfold strLastIndex at h
    split at h
    · rename_i j hj
      cases h
      have := strLastIndex_lt hj
      simp; omega
    · split at h
      · cases h; simp
      · cases h

theorem positions_lt : ∀ (n : Nat) (s : Str) (k : Nat) (x : Nat × Nat), x ∈ positions k (runesAux n s) → k ≤ x.1 ∧ x.1 < k + s.length
  | 0, s, k, x, h => by simp [runesAux, positions] at h
  | n + 1, [], k, x, h => by simp [runesAux, positions] at h
  | n + 1, b :: t, k, x, h => by
    rw [runesAux_cons] at h
    rw [positions] at h
    rcases List.mem_cons.1 h with rfl | h
    · exact ⟨Nat.le_refl _, by simp⟩
    · have := positions_lt n _ _ x h
      rw [List.length_drop] at this
      have h2 := decodeRune_size (b :: t)
      have h3 := h2.2 (by simp)
      omega

theorem rangeStr_lt {s : Str} {x : Nat × Nat} (h : x ∈ rangeStr s) : x.1 < s.length := by
  have := positions_lt _ _ _ _ h
  omega

theorem lastIndexAny_ascii (s : Str) : ∀ {seps : List Nat}, asciiSeps seps → ∃ r, lastIndexAnyRunes s seps = some r ∧ ∀ j, r = some j → j < s.length
  | [], _ => ⟨none, rfl, nofun⟩
  | r :: rs, h => by
    unfold lastIndexAnyRunes
    rw [if_pos (h r (List.mem_cons_self ..))]
    cases e : strLastIndex [UInt8.ofNat r] s with
    | none => exact lastIndexAny_ascii s fun x hx => h x (List.mem_cons_of_mem _ hx)
    | some i => exact ⟨some i, rfl, fun j hj => by cases hj; exact strLastIndex_lt e⟩

theorem idx_zero {f : Str → Idx} (h : ∀ s, ∃ r, f s = some r ∧ ∀ i xs, r = some (i, xs) → i = 0) : IdxReturns f := fun s => by
  obtain ⟨r, h1, h2⟩ := h s
  exact ⟨r, h1, fun i xs e => by rw [h2 i xs e]; exact Nat.zero_le _⟩

theorem idx_const {s : Str} {v : Option (Nat × List Nat)} (h : ∀ i xs, v = some (i, xs) → i ≤ s.length) :
    ∃ r, (some v : Idx) = some r ∧ ∀ i xs, r = some (i, xs) → i ≤ s.length := ⟨v, rfl, h⟩

theorem firstRune_returns (p : Nat → Bool) : IdxReturns (firstRune p) := by
  intro s
  unfold firstRune
  cases e : (rangeStr s).find? fun x => p x.2 with
  | none => exact idx_const nofun
  | some x =>
    refine idx_const fun i xs h => ?_
    cases h
    exact Nat.le_of_lt (rangeStr_lt (List.mem_of_find?_eq_some e))

/-- The matchers without parts. -/
theorem leaf_index {m : Matcher} (h : m.children = []) (hs : ∀ q seps, m = .suffixAny q seps → asciiSeps seps) (h1 : ∀ ms, m ≠ .anyOf ms) (h2 : ∀ ms, m ≠ .everyOf ms)
    (h3 : ∀ l ms, m ≠ .row l ms) : IdxReturns m.index := by
  intro s
  cases m with
  | anyOf ms => exact absurd rfl (h1 ms)
  | everyOf ms => exact absurd rfl (h2 ms)
  | row l ms => exact absurd rfl (h3 l ms)
  | nothing => exact idx_const fun i xs e => by cases e; exact Nat.zero_le _
  | text t =>
    simp only [Matcher.index]
    refine idx_const fun i xs e => ?_
    cases e' : strIndex t s with
    | none => rw [e'] at e; cases e
    | some j => rw [e'] at e; cases e; exact strIndex_le e'
  | any seps =>
    simp only [Matcher.index, anyIndex]
    split <;> exact idx_const fun i xs e => by cases e; exact Nat.zero_le _
  | super => simp only [Matcher.index, superIndex]; exact idx_const fun i xs e => by cases e; exact Nat.zero_le _
  | single seps => simp only [Matcher.index]; exact firstRune_returns _ s
  | list rs n => simp only [Matcher.index]; exact firstRune_returns _ s
  | range lo hi n => simp only [Matcher.index]; exact firstRune_returns _ s
  | min l =>
    simp only [Matcher.index, minIndex]
    split
    · exact idx_const nofun
    · split
      · exact idx_const nofun
      · exact idx_const fun i xs e => by cases e; exact Nat.zero_le _
  | max l => simp only [Matcher.index, maxIndex]; exact idx_const fun i xs e => by cases e; exact Nat.zero_le _
  | contains needle n =>
    simp only [Matcher.index, containsIndex]
    split
    · exact idx_const nofun
    · split <;> exact idx_const fun i xs e => by cases e; exact Nat.zero_le _
    · exact idx_const fun i xs e => by cases e; exact Nat.zero_le _
    · exact idx_const fun i xs e => by cases e; exact Nat.zero_le _
  | «prefix» p =>
    simp only [Matcher.index, prefixIndex]
    cases e : strIndex p s with
    | none => exact idx_const nofun
    | some j => exact idx_const fun i xs h => by cases h; exact strIndex_le e
  | suffix q =>
    simp only [Matcher.index, suffixIndex]
    cases e : strIndex q s with
    | none => exact idx_const nofun
    | some j => exact idx_const fun i xs h => by cases h; exact Nat.zero_le _
  | prefixSuffix p q =>
    simp only [Matcher.index, prefixSuffixIndex]
    cases e : strIndex p s with
    | none => exact idx_const nofun
    | some j =>
      simp only
      split
      · exact idx_const fun i xs h => by cases h; exact strIndex_le e
      · split
        · exact idx_const nofun
        · split
          · exact idx_const nofun
          · exact idx_const fun i xs h => by cases h; exact strIndex_le e
  | prefixAny p seps =>
    simp only [Matcher.index, prefixAnyIndex]
    cases e : strIndex p s with
    | none => exact idx_const nofun
    | some j => exact idx_const fun i xs h => by cases h; exact strIndex_le e
  | suffixAny q seps =>
    simp only [Matcher.index, suffixAnyIndex]
    cases e : strIndex q s with
    | none => exact idx_const nofun
    | some j =>
      simp only
      obtain ⟨r, hr, hj⟩ := lastIndexAny_ascii (s.take j) (hs q seps rfl)
      rw [hr]
      have hle := strIndex_le e
      cases r with
      | none => exact idx_const fun i xs h => by cases h; exact Nat.zero_le _
      | some k =>
        refine idx_const fun i xs h => ?_
        cases h
        have := hj k rfl
        rw [List.length_take] at this
        simp only
        omega
  | btree v l r ll rl len => exact idx_const nofun

/-! ### The others -/

theorem anyOf_returns {ms : List Matcher} (h : ∀ m ∈ ms, Returns m.match) : Returns (Matcher.anyOf ms).match := by
  intro s
  simp only [Matcher.match, matchFns_eq]
  induction ms with
  | nil => exact ⟨false, rfl⟩
  | cons m ms ih =>
    rw [List.map_cons, anyOfMatch]
    obtain ⟨b, hb⟩ := h m (List.mem_cons_self ..) s
    rw [hb]
    cases b with
    | true => exact ⟨true, rfl⟩
    | false => exact ih fun m hm => h m (List.mem_cons_of_mem _ hm)

theorem everyOf_returns {ms : List Matcher} (h : ∀ m ∈ ms, Returns m.match) : Returns (Matcher.everyOf ms).match := by
  intro s
  simp only [Matcher.match, matchFns_eq]
  induction ms with
  | nil => exact ⟨true, rfl⟩
  | cons m ms ih =>
    rw [List.map_cons, everyOfMatch]
    obtain ⟨b, hb⟩ := h m (List.mem_cons_self ..) s
    rw [hb]
    cases b with
    | false => exact ⟨false, rfl⟩
    | true => exact ih fun m hm => h m (List.mem_cons_of_mem _ hm)

theorem rowStep_next {length : Nat} (hl : 1 ≤ length) {rest : Str} (hi : ¬ (rowStep length rest).2 < length) : (rowStep length rest).1 + 1 ≤ rest.length := by
  unfold rowStep at hi ⊢
  simp only at hi ⊢
  rw [if_neg (by omega)] at hi ⊢
  cases e : (((rangeStr rest).map Prod.fst).take length).getLast? with
  | none =>
    rw [List.getLast?_eq_none_iff] at e
    rw [e] at hi
    simp at hi
    omega
  | some k =>
    have hk := List.mem_of_mem_take (List.mem_of_getLast? e)
    obtain ⟨x, hx, rfl⟩ := List.mem_map.1 hk
    exact rangeStr_lt hx

theorem rowMatchAll_returns {ms : List Matcher} (h : ∀ m ∈ ms, Returns m.match) (hl : ∀ m ∈ ms, posLen m.len = true) (s : Str) :
    ∀ idx, idx ≤ s.length → ∃ b, rowMatchAll s idx ((lens ms).zip (matchFns ms)) = some b := by
  rw [lens_eq, matchFns_eq]
  induction ms with
  | nil => exact fun _ _ => ⟨true, rfl⟩
  | cons m ms ih =>
    intro idx hidx
    simp only [List.map_cons, List.zip_cons_cons]
    rw [rowMatchAll]
    simp only
    obtain ⟨k, hk, hk1⟩ : ∃ k, m.len = some k ∧ 1 ≤ k := by
      have := hl m (List.mem_cons_self ..)
      cases e : m.len with
      | none => rw [e] at this; cases this
      | some k => rw [e] at this; exact ⟨k, rfl, by simpa [posLen] using this⟩
    rw [hk, Option.getD_some]
    split
    · exact ⟨false, rfl⟩
    · rename_i hi
      have hn := rowStep_next hk1 hi
      rw [List.length_drop] at hn
      rw [if_neg (by omega)]
      obtain ⟨b, hb⟩ := h m (List.mem_cons_self ..) ((s.drop idx).take ((rowStep k (s.drop idx)).1 + 1))
      rw [hb]
      cases b with
      | false => exact ⟨false, rfl⟩
      | true => exact ih (fun m hm => h m (List.mem_cons_of_mem _ hm)) (fun m hm => hl m (List.mem_cons_of_mem _ hm)) _ (by omega)

theorem row_returns {l : Nat} {ms : List Matcher} (h : ∀ m ∈ ms, Returns m.match) (hl : ∀ m ∈ ms, posLen m.len = true) : Returns (Matcher.row l ms).match := by
  intro s
  simp only [Matcher.match, rowMatch]
  split
  · exact rowMatchAll_returns h hl s 0 (Nat.zero_le _)
  · exact ⟨false, rfl⟩

theorem row_index {l : Nat} {ms : List Matcher} (h : ∀ m ∈ ms, Returns m.match) (hl : ∀ m ∈ ms, posLen m.len = true) : IdxReturns (Matcher.row l ms).index := by
  intro s
  simp only [Matcher.index]
  have key : ∀ is : List Nat, (∀ i ∈ is, i ≤ s.length) →
      ∃ r, rowIndex l ((lens ms).zip (matchFns ms)) s is = some r ∧ ∀ i xs, r = some (i, xs) → i ≤ s.length := by
    intro is
    induction is with
    | nil => exact fun _ => idx_const nofun
    | cons i is ih =>
      intro hi
      unfold rowIndex
      split
      · exact idx_const nofun
      · obtain ⟨b, hb⟩ := rowMatchAll_returns h hl (s.drop i) 0 (Nat.zero_le _)
        rw [hb]
        cases b with
        | true => exact idx_const fun j xs e => by cases e; exact hi i (List.mem_cons_self ..)
        | false => exact ih fun j hj => hi j (List.mem_cons_of_mem _ hj)
  refine key _ fun i hi => ?_
  obtain ⟨x, hx, rfl⟩ := List.mem_map.1 hi
  exact Nat.le_of_lt (rangeStr_lt hx)

theorem anyOf_index {ms : List Matcher} (h : ∀ m ∈ ms, IdxReturns m.index) : IdxReturns (Matcher.anyOf ms).index := by
  intro s
  simp only [Matcher.index, indexFns_eq]
  have key : ∀ acc : Option (Nat × List Nat), (∀ i xs, acc = some (i, xs) → i ≤ s.length) →
      ∃ r, anyOfIndex s acc (ms.map Matcher.index) = some r ∧ ∀ i xs, r = some (i, xs) → i ≤ s.length := by
    induction ms with
    | nil => exact fun acc ha => idx_const ha
    | cons m ms ih =>
      intro acc ha
      rw [List.map_cons, anyOfIndex]
      obtain ⟨r, hr, hle⟩ := h m (List.mem_cons_self ..) s
      have ih := ih fun m hm => h m (List.mem_cons_of_mem _ hm)
      rw [hr]
      cases r with
      | none => exact ih acc ha
      | some p =>
        obtain ⟨idx, seg⟩ := p
        have hi := hle idx seg rfl
        have e1 : ∀ xs : List Nat, ∀ i (ys : List Nat), some (idx, xs) = some (i, ys) → i ≤ s.length := fun xs i ys e => by cases e; exact hi
        cases acc with
        | none => exact ih _ (e1 seg)
        | some q =>
          obtain ⟨index, segs⟩ := q
          simp only
          split
          · exact ih _ (e1 seg)
          · split
            · exact ih _ ha
            · exact ih _ fun i ys e => by cases e; exact ha index segs rfl
  exact key none nofun

theorem everyOf_index {ms : List Matcher} (h : ∀ m ∈ ms, IdxReturns m.index) : IdxReturns (Matcher.everyOf ms).index := by
  intro s
  simp only [Matcher.index, indexFns_eq]
  have key : ∀ (first : Bool) (k : Nat) (cs : List Nat), k ≤ s.length →
      ∃ r, everyOfIndex s first k k cs (s.drop k) (ms.map Matcher.index) = some r ∧ ∀ i xs, r = some (i, xs) → i ≤ s.length := by
    induction ms with
    | nil => exact fun _ k cs hk => idx_const fun i xs e => by cases e; exact hk
    | cons m ms ih =>
      intro first k cs hk
      rw [List.map_cons, everyOfIndex]
      obtain ⟨r, hr, hle⟩ := h m (List.mem_cons_self ..) (s.drop k)
      rw [hr]
      cases r with
      | none => exact idx_const nofun
      | some p =>
        obtain ⟨idx, seg⟩ := p
        have hi := hle idx seg rfl
        rw [List.length_drop] at hi
        simp only
        split
        · exact idx_const nofun
        · rw [if_neg (by omega), Nat.add_comm k idx]
          exact ih (fun m hm => h m (List.mem_cons_of_mem _ hm)) _ _ _ (by omega)
  exact key true 0 [] (Nat.zero_le _)

theorem btreeSegments_returns {right : Str → Option Bool} (h : Returns right) (s : Str) (pos : Nat) : ∀ ls, ∃ b, btreeSegments right s pos ls = some b
  | [] => ⟨false, rfl⟩
  | l :: ls => by
    unfold btreeSegments
    obtain ⟨b, hb⟩ := h (if s.length ≤ pos + l then [] else s.drop (pos + l))
    simp only
    rw [hb]
    cases b with
    | true => exact ⟨true, rfl⟩
    | false => exact btreeSegments_returns h s pos ls

theorem btreeLoop_returns {value : Str → Idx} {left right : Str → Option Bool} (hv : IdxReturns value) (hl : Returns left) (hr : Returns right) (s : Str) {limit : Nat}
    (hlim : limit ≤ s.length) : ∀ n offset : Nat, s.length - offset < n → ∃ b, btreeLoop value left right s limit n offset = some b
  | 0, offset, hn => by omega
  | n + 1, offset, hn => by
    unfold btreeLoop
    split
    · rename_i ho
      obtain ⟨r, hr1, hr2⟩ := hv ((s.take limit).drop offset)
      rw [hr1]
      cases r with
      | none => exact ⟨false, rfl⟩
      | some p =>
        obtain ⟨index, segs⟩ := p
        have hi := hr2 index segs rfl
        rw [List.length_drop, List.length_take] at hi
        simp only
        have grow : 1 ≤ index + (decodeRune (s.drop (offset + index))).2 := by
          by_cases h0 : index = 0
          · have hne : s.drop (offset + index) ≠ [] := by
              intro e
              have := congrArg List.length e
              rw [List.length_drop] at this
              simp at this
              omega
            have := (decodeRune_size (s.drop (offset + index))).2 hne
            omega
          · omega
        have next := btreeLoop_returns hv hl hr s hlim n (offset + (index + (decodeRune (s.drop (offset + index))).2)) (by omega)
        obtain ⟨b, hb⟩ := hl (s.take (offset + index))
        rw [hb]
        cases b with
        | false => exact next
        | true =>
          obtain ⟨c, hc⟩ := btreeSegments_returns hr s (offset + index) segs.reverse
          simp only
          rw [hc]
          cases c with
          | true => exact ⟨true, rfl⟩
          | false => exact next
    · exact ⟨false, rfl⟩

theorem btree_returns {v : Matcher} {l r : Option Matcher} {ll rl len : Option Nat} (hv : IdxReturns v.index) (hl : Returns (matchOpt l)) (hr : Returns (matchOpt r)) :
    Returns (Matcher.btree v l r ll rl len).match := by
  intro s
  have key : ∀ (b : Bool) (limit offset : Nat), limit ≤ s.length →
      ∃ c, (if b then some false else btreeLoop v.index (matchOpt l) (matchOpt r) s limit (s.length + 1) offset) = some c := by
    intro b limit offset h
    cases b with
    | true => exact ⟨false, rfl⟩
    | false => exact btreeLoop_returns hv hl hr s h _ _ (by omega)
  simp only [Matcher.match, btreeMatch]
  refine key _ _ _ ?_
  split <;> omega

end Verif.Glob
