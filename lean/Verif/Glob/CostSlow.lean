import Verif.Glob.CostSize
import Verif.Glob.Stars
import Mathlib.Data.Nat.Choose.Sum
/-
How long a match takes (C137): a bound for every pattern and string, and patterns for which the number of calls grows as fast as 2 to the length of the string.
-/
namespace Verif.Glob

/-! ### The bound -/

/-- C137: for every pattern that compiles, with any separators, and every string, `Match` leads to at most `(|s| + 2) ^ (6 |p| + 2)` calls of `Match` and `Index`. -/
theorem C137_bound (p : Str) (seps : List Nat) (m : Matcher) (h : globCompile p seps = .ok m) (s : Str) : m.calls s ≤ (s.length + 2) ^ (6 * p.length + 2) := by
  refine le_trans (calls_le m s) (Nat.pow_le_pow_right (by omega) ?_)
  have := glob_parts h
  omega

/-! ### Slow patterns -/

/-- `**b`, then `k` times `**a`, then `**`. -/
def slowTerms (k : Nat) : List Term := [.super, .chars [.plain 98]] ++ (List.replicate k [.super, .chars [.plain 97]]).flatten ++ [.super]

/-- The pattern as it is written. -/
def slowPattern (k : Nat) : Str := lit "**b" ++ (List.replicate k (lit "**a")).flatten ++ lit "**"

theorem slow_write (k : Nat) : writeTerms (slowTerms k) = slowPattern k := by
  have app : ∀ xs ys : List Term, writeTerms (xs ++ ys) = writeTerms xs ++ writeTerms ys := by
    intro xs ys
    induction xs with
    | nil => rfl
    | cons x xs ih => rw [List.cons_append, writeTerms, ih, writeTerms, List.append_assoc]
  unfold slowTerms slowPattern
  rw [app, app]
  have h1 : writeTerms [.super, .chars [.plain 98]] = lit "**b" := by decide
  have h2 : writeTerms [.super] = lit "**" := by decide
  have h3 : writeTerms [.super, .chars [.plain 97]] = lit "**a" := by decide
  rw [h1, h2]
  congr 2
  induction k with
  | zero => rfl
  | succ k ih => rw [List.replicate_succ, List.flatten_cons, app, ih, h3, List.replicate_succ, List.flatten_cons]

/-- The parts: the same list built from the left. -/
def slowItems : Nat → List Item
  | 0 => [.star [], .text [98], .star []]
  | k + 1 => slowItems k ++ [.text [97], .star []]

theorem slow_items (seps : List Nat) (k : Nat) : (slowTerms k).map (itemOf seps) = slowItems k := by
  induction k with
  | zero => rfl
  | succ k ih =>
    rw [slowItems, ← ih]
    unfold slowTerms
    rw [List.replicate_succ', List.flatten_append]
    simp [itemOf, textOf, encodeRune, Ch.rune]

theorem slow_chain (k : Nat) : (slowItems k).IsChain fun a b => a.isStar ≠ b.isStar := by
  have last : ∀ k, ∃ xs, slowItems k = xs ++ [.star []] := by
    intro k
    cases k with
    | zero => exact ⟨[.star [], .text [98]], rfl⟩
    | succ k => exact ⟨slowItems k ++ [.text [97]], by rw [slowItems]; simp⟩
  induction k with
  | zero => simp [slowItems, Item.isStar]
  | succ k ih =>
    rw [slowItems, List.isChain_append]
    refine ⟨ih, by simp [Item.isStar], ?_⟩
    obtain ⟨xs, e⟩ := last k
    intro x hx y hy
    rw [e] at hx
    simp at hx hy
    subst hx hy
    simp [Item.isStar]

/-- The tree `compileMatchers` builds. -/
def slowTree : Nat → Matcher
  | 0 => newBTree (.text [98]) (some .super) (some .super)
  | k + 1 => newBTree (.text [97]) (some (slowTree k)) (some .super)

/-- The matcher. -/
def slowMatcher : Nat → Matcher
  | 0 => .contains [98] false
  | k + 1 => .btree (.text [97]) (some (slowMatcher k)) (some .super) none none none

theorem slowTree_len (k : Nat) : (slowTree k).len = none := by
  cases k with
  | zero => rfl
  | succ k => rw [slowTree, newBTree_eq (Or.inr rfl)]; rfl

theorem slow_optimize : ∀ k, optimizeMatcher (slowTree k) = slowMatcher k
  | 0 => rfl
  | k + 1 => by
    have ih := slow_optimize k
    rw [slowTree, newBTree_eq (Or.inr rfl)]
    simp only [optimizeMatcher, optimizeOpt, ih, lenOpt, slowTree_len, Matcher.len]
    cases k <;> rfl

theorem choose_append : ∀ (as : List Matcher) (b c : Matcher) (l : Nat) (i : Nat) (best : Option (Nat × Nat)), b.len = some l → c.len = none →
    (∀ a ∈ as, ∀ l', a.len = some l' → l' ≤ l) → (∀ j l', best = some (j, l') → l' ≤ l) → chooseValue (as ++ [b, c]) i best = some (i + as.length, l)
  | [], b, c, l, i, best, hb, hc, _, hbest => by
    cases best with
    | none => simp [chooseValue, hb, hc]
    | some x =>
      obtain ⟨j, l'⟩ := x
      have := hbest j l' rfl
      simp [chooseValue, hb, hc, this]
  | a :: as, b, c, l, i, best, hb, hc, ha, hbest => by
    have ih := fun best' h => choose_append as b c l (i + 1) best' hb hc (fun x hx => ha x (List.mem_cons_of_mem _ hx)) h
    have e : i + (a :: as).length = i + 1 + as.length := by rw [List.length_cons]; omega
    rw [List.cons_append, chooseValue, e]
    cases hl : a.len with
    | none => exact ih best hbest
    | some l' =>
      have h1 := ha a List.mem_cons_self l' hl
      cases best with
      | none => exact ih _ (by rintro j l'' h; cases h; exact h1)
      | some x =>
        obtain ⟨j, l''⟩ := x
        simp only
        split
        · exact ih _ (by rintro j l'' h; cases h; exact h1)
        · exact ih _ (by rintro j l3 h; cases h; exact hbest _ _ rfl)

theorem slow_one (k : Nat) : ∀ a ∈ (slowItems k).map Item.matcher, ∀ l', a.len = some l' → l' ≤ 1 := by
  have base : ∀ x : Item, x = .star [] ∨ x = .text [97] ∨ x = .text [98] → ∀ l', x.matcher.len = some l' → l' ≤ 1 := by
    rintro x (rfl | rfl | rfl) l' h
    · simp [Item.matcher, Matcher.len] at h
    · simp [Item.matcher, Matcher.len] at h
      rw [← h]; decide
    · simp [Item.matcher, Matcher.len] at h
      rw [← h]; decide
  have mem : ∀ k, ∀ x ∈ slowItems k, x = .star [] ∨ x = .text [97] ∨ x = .text [98] := by
    intro k
    induction k with
    | zero => intro x hx; simp [slowItems] at hx; rcases hx with h | h | h <;> simp [h]
    | succ k ih =>
      intro x hx
      rw [slowItems, List.mem_append] at hx
      rcases hx with hx | hx
      · exact ih x hx
      · simp at hx; rcases hx with h | h <;> simp [h]
  intro a ha l' h
  obtain ⟨x, hx, rfl⟩ := List.mem_map.1 ha
  exact base x (mem k x hx) l' h

theorem slow_compile : ∀ (k n : Nat) (m : Matcher), compileMatchers n ((slowItems k).map Item.matcher) = .ok m → m = slowTree k
  | k, 0, m, h => by cases h
  | 0, n + 1, m, h => by
    have hg := glue_alt (slow_chain 0)
    have e : (slowItems 0).map Item.matcher = [.super, .text [98], .super] := rfl
    rw [e] at h hg
    rw [compileMatchers, hg] at h
    · simp [chooseValue, Matcher.len] at h
      cases n with
      | zero => simp [compileMatchers] at h
      | succ n => simp [compileMatchers] at h; exact h.symm
    · simp
  | k + 1, n + 1, m, h => by
    have hg := glue_alt (slow_chain (k + 1))
    have e : (slowItems (k + 1)).map Item.matcher = (slowItems k).map Item.matcher ++ [.text [97], .super] := by simp [slowItems, Item.matcher]
    rw [e] at h hg
    have hc := choose_append ((slowItems k).map Item.matcher) (.text [97]) .super 1 0 none (by decide) rfl (slow_one k) (by simp)
    have hk : (slowItems k).map Item.matcher ≠ [] := by cases k <;> simp [slowItems]
    have ih := slow_compile k n
    generalize (slowItems k).map Item.matcher = as at *
    obtain ⟨a, as, rfl⟩ := List.exists_cons_of_ne_nil hk
    rw [compileMatchers.eq_def] at h
    simp only [List.cons_append] at h hg hc
    rw [hg] at h
    simp only at h
    split at h
    · rename_i h0; cases h0
    · rename_i h0; simp at h0
    rename_i m0 rest hne h0
    cases h0
    simp only [hc, Nat.zero_add] at h
    have e1 : (a :: (as ++ [Matcher.text [97], Matcher.super]))[(a :: as).length]? = some (.text [97]) := by
      rw [← List.cons_append, List.getElem?_append_right (Nat.le_refl _)]; simp
    have e2 : (a :: (as ++ [Matcher.text [97], Matcher.super])).take (a :: as).length = a :: as := by rw [← List.cons_append, List.take_left]
    have e3 : (a :: (as ++ [Matcher.text [97], Matcher.super])).drop ((a :: as).length + 1) = [.super] := by
      rw [← List.cons_append, ← List.drop_drop, List.drop_left]; rfl
    rw [e1, e2, e3] at h
    simp only [List.isEmpty_cons, Bool.false_eq_true, if_false] at h
    cases hl : compileMatchers n (a :: as) with
    | ok l =>
      have := ih l hl
      subst this
      rw [hl] at h
      cases n with
      | zero => cases hl
      | succ n => simp [compileMatchers] at h; exact h.symm
    | err e => rw [hl] at h; cases h
    | panic => rw [hl] at h; cases h
    | steps => rw [hl] at h; cases h

theorem slow_ok (k : Nat) : okTerms false (slowTerms k) = true := by
  unfold slowTerms
  have h1 : okTerms false [.super] = true := by decide
  have step : ∀ (c : Nat) (ts : List Term), (Term.chars [.plain c]).ok false = true → okTerms false (.super :: ts) = true → okTerms false (.super :: .chars [.plain c] :: .super :: ts) = true := by
    intro c ts hc h
    simp only [okTerms, apart, Bool.and_true, Bool.and_eq_true] at h ⊢
    exact ⟨h.1, hc, h⟩
  have rep : ∀ k, ∃ ts, (List.replicate k [Term.super, .chars [.plain 97]]).flatten ++ [.super] = .super :: ts ∧ okTerms false (.super :: ts) = true := by
    intro k
    induction k with
    | zero => exact ⟨[], rfl, h1⟩
    | succ k ih =>
      obtain ⟨ts, e, h⟩ := ih
      refine ⟨.chars [.plain 97] :: .super :: ts, ?_, step 97 ts (by decide) h⟩
      rw [List.replicate_succ, List.flatten_cons, List.append_assoc, e]
      rfl
  obtain ⟨ts, e, h⟩ := rep k
  rw [List.append_assoc, e]
  exact step 98 ts (by decide) h

theorem slow_plain (k : Nat) : ∀ t ∈ slowTerms k, plainTerm t = true := by
  intro t ht
  simp only [slowTerms, List.mem_append, List.mem_flatten, List.mem_replicate] at ht
  rcases ht with (ht | ⟨l, ⟨_, rfl⟩, ht⟩) | ht <;> simp at ht
  · rcases ht with rfl | rfl <;> rfl
  · rcases ht with rfl | rfl <;> rfl
  · subst ht; rfl

theorem slow_glob (k : Nat) (seps : List Nat) : globCompile (slowPattern k) seps = .ok (slowMatcher k) := by
  obtain ⟨m, hm⟩ := compile_total seps _ (.pattern (nodes (slowTerms k))) (Nat.le_refl _)
  have hterm : ∀ x ∈ slowTerms k, x.ok false = true ∧ plainTerm x = true := fun x hx => ⟨okTerms_mem (slow_ok k) x hx, slow_plain k x hx⟩
  suffices h : m = slowMatcher k by
    rw [← slow_write, globCompile, C75_parse_documented _ (slow_ok k), ← h]; exact hm
  have hpos := Node.size_pos (.pattern (nodes (slowTerms k)))
  obtain ⟨n, hn'⟩ : ∃ n, (Node.pattern (nodes (slowTerms k))).size = n + 1 := ⟨_, (Nat.succ_pred_eq_of_pos hpos).symm⟩
  rw [hn'] at hm
  simp only [compile] at hm
  split at hm
  · rename_i h0
    simp [slowTerms, nodes] at h0
  · split at hm <;> try cases hm
    rename_i ms hms
    rw [nodes_eq] at hms
    have := compileChildren_map (k := matcherOf seps) (fun x hx m hm => compile_term (hterm x hx).1 (plain_flat (hterm x hx).2) hm) hms
    subst this
    have he : (slowTerms k).map (matcherOf seps) = (slowItems k).map Item.matcher := by
      rw [← slow_items seps k, List.map_map]
      exact List.map_congr_left fun t ht => matcherOf_item (hterm t ht).2
    rw [he] at hm
    split at hm <;> try cases hm
    rename_i ns hns
    have := minimize_alt (slow_chain k) hns
    subst this
    split at hm
    · rename_i m' hm'
      simp only [Res.ok.injEq] at hm
      subst hm
      rw [slow_compile _ _ _ hm', slow_optimize]
    · rename_i h'
      exact (h' _ hm).elim

/-- The string of `n` letters a. -/
def manyAs (n : Nat) : Str := List.replicate n 97

theorem manyAs_decode (n : Nat) : (decodeRune (manyAs (n + 1))).2 = 1 := by
  rw [manyAs, List.replicate_succ]; exact congrArg Prod.snd (decodeRune_ascii (by decide))

theorem manyAs_index (n : Nat) : (Matcher.text [97]).index (manyAs (n + 1)) = some (some (0, [1])) := by
  rw [manyAs, List.replicate_succ]
  simp [Matcher.index, strIndex]

theorem contains_b (n : Nat) : containsStr [98] (manyAs n) = false := by
  induction n with
  | zero => rfl
  | succ n ih => rw [manyAs, List.replicate_succ]; rw [containsStr]; simp only [List.isPrefixOf, Bool.or_eq_false_iff]; exact ⟨by decide, ih⟩

theorem slow_loop {left : Str → Option Bool} {right : Str → Option Bool} {lc rc : Str → Nat} (hl : ∀ i, left (manyAs i) = some false) (n : Nat) : ∀ (f o : Nat), n < f + o → o ≤ n →
    btreeLoop (Matcher.text [97]).index left right (manyAs n) n f o = some false ∧
    btreeLoopCalls (Matcher.text [97]).index (Matcher.text [97]).indexCalls left right lc rc (manyAs n) n f o = ∑ i ∈ Finset.Ico o n, (1 + lc (manyAs i))
  | 0, o, h1, h2 => by omega
  | f + 1, o, h1, h2 => by
    have htake : ∀ i, i ≤ n → (manyAs n).take i = manyAs i := by intro i hi; rw [manyAs, List.take_replicate, Nat.min_eq_left hi]; rfl
    have hdrop : ∀ i, (manyAs n).drop i = manyAs (n - i) := by intro i; rw [manyAs, List.drop_replicate]; rfl
    rw [btreeLoop, btreeLoopCalls]
    by_cases ho : o < n
    · have ih := slow_loop (right := right) (rc := rc) (lc := lc) hl n f (o + 1) (by omega) (by omega)
      have hd : ((manyAs n).take n).drop o = manyAs (n - (o + 1) + 1) := by
        rw [htake n (Nat.le_refl _), hdrop]; congr 1; omega
      have hd' : (manyAs n).drop o = manyAs (n - (o + 1) + 1) := by
        rw [hdrop]; congr 1; omega
      have hc : (Matcher.text [97]).indexCalls (manyAs (n - (o + 1) + 1)) = 1 := rfl
      rw [if_pos ho, if_pos ho, hd, manyAs_index]
      simp only [Nat.add_zero, hd', manyAs_decode, hc, htake o h2, hl, Nat.zero_add]
      refine ⟨ih.1, ?_⟩
      rw [Finset.sum_eq_sum_Ico_succ_bot ho, ← ih.2]
      omega
    · have : o = n := by omega
      subst this
      simp

theorem slow_match : ∀ (k n : Nat), (slowMatcher k).match (manyAs n) = some false
  | 0, n => by
    simp [slowMatcher, Matcher.match, contains_b]
  | k + 1, n => by
    have := (slow_loop (left := matchOpt (some (slowMatcher k))) (right := matchOpt (some .super)) (lc := fun _ => 0) (rc := fun _ => 0) (slow_match k) n (n + 1) 0 (by omega) (by omega)).1
    have hlen : (manyAs n).length = n := List.length_replicate
    rw [slowMatcher, Matcher.match]
    simp only [btreeMatch, hlen, Option.getD_none, Bool.false_eq_true, if_false]
    exact this

theorem slow_calls : ∀ (k n : Nat), (slowMatcher k).calls (manyAs n) + 1 = 2 * ∑ j ∈ Finset.range (k + 1), n.choose j
  | 0, n => by simp [slowMatcher, Matcher.calls]
  | k + 1, n => by
    have := (slow_loop (left := matchOpt (some (slowMatcher k))) (right := matchOpt (some .super)) (lc := callsOpt (some (slowMatcher k))) (rc := callsOpt (some .super)) (slow_match k) n (n + 1) 0 (by omega) (by omega)).2
    have hlen : (manyAs n).length = n := List.length_replicate
    rw [slowMatcher, Matcher.calls]
    simp only [btreeMatchCalls, hlen, Option.getD_none, Bool.false_eq_true, if_false]
    rw [this]
    have e : ∀ i, 1 + callsOpt (some (slowMatcher k)) (manyAs i) = 2 * ∑ j ∈ Finset.range (k + 1), i.choose j := by
      intro i; rw [← slow_calls k i]; simp only [callsOpt]; omega
    have hs : ∀ j, ∑ i ∈ Finset.Ico 0 n, i.choose j = n.choose (j + 1) := by
      intro j
      clear this hlen
      induction n with
      | zero => simp
      | succ n ih => rw [Finset.sum_Ico_succ_top (Nat.zero_le n), ih, Nat.choose_succ_succ, Nat.add_comm]
    simp only [e]
    rw [← Finset.mul_sum, Finset.sum_comm, Finset.sum_congr rfl fun j _ => hs j, Finset.sum_range_succ' _ (k + 1)]
    simp only [Nat.choose_zero_right]
    omega

/-- C137: `**b`, `k` times `**a` and `**`, with any separators: `Match` of the string of `n` letters a returns false after `2 (C(n,0) + … + C(n,k)) - 1` calls. -/
theorem C137_slow (k n : Nat) (seps : List Nat) :
    ∃ m, globCompile (lit "**b" ++ (List.replicate k (lit "**a")).flatten ++ lit "**") seps = .ok m ∧
      m.match (List.replicate n 97) = some false ∧ m.calls (List.replicate n 97) + 1 = 2 * ∑ j ∈ Finset.range (k + 1), n.choose j :=
  Exists.intro _ (And.intro (slow_glob k seps) (And.intro (slow_match k n) (slow_calls k n)))

/-- C137: a pattern of `3 n + 5` bytes and a string of `n` bytes take `2 ^ (n + 1) - 1` calls. -/
theorem C137_exponential (n : Nat) (seps : List Nat) :
    ∃ p m, p.length = 3 * n + 5 ∧ globCompile p seps = .ok m ∧ m.match (List.replicate n 97) = some false ∧ m.calls (List.replicate n 97) = 2 ^ (n + 1) - 1 := by
  refine Exists.intro (slowPattern n) (Exists.intro (slowMatcher n) (And.intro ?_ (And.intro (slow_glob n seps) (And.intro (slow_match n n) ?_))))
  · have : ∀ k, ((List.replicate k (lit "**a")).flatten).length = 3 * k := by
      intro k
      induction k with
      | zero => rfl
      | succ k ih => rw [List.replicate_succ, List.flatten_cons, List.length_append, ih]; simp only [show (lit "**a").length = 3 from by decide]; omega
    rw [slowPattern, List.length_append, List.length_append, this]
    simp only [show (lit "**b").length = 3 from by decide, show (lit "**").length = 2 from by decide]
    omega
  · have := slow_calls n n
    rw [Nat.sum_range_choose] at this
    rw [Nat.pow_succ, ← manyAs]
    omega


/-- C137: no bound of the form `C (|s| + 1) ^ d` with the same `C` and `d` holds for all patterns. -/
theorem C137_no_degree (C d : Nat) (seps : List Nat) : ∃ p m s, globCompile p seps = .ok m ∧ C * (s.length + 1) ^ d < m.calls s := by
  obtain ⟨u, hu⟩ : ∃ u, u = C + d + 1 := ⟨_, rfl⟩
  obtain ⟨n, hn⟩ : ∃ n, n + 1 = 2 ^ (2 * u) := ⟨2 ^ (2 * u) - 1, by have := Nat.one_le_two_pow (n := 2 * u); omega⟩
  obtain ⟨p, m, -, h1, -, h2⟩ := C137_exponential n seps
  refine Exists.intro p (Exists.intro m (Exists.intro (List.replicate n 97) (And.intro h1 ?_)))
  rw [h2, List.length_replicate, hn, ← Nat.pow_mul]
  have a1 : C < 2 ^ C := Nat.lt_two_pow_self
  have a2 : u < 2 ^ u := Nat.lt_two_pow_self
  have a3 : 2 * u ≤ 2 ^ u := by
    obtain ⟨v, rfl⟩ : ∃ v, u = v + 1 := ⟨C + d, hu⟩
    have : v < 2 ^ v := Nat.lt_two_pow_self
    rw [Nat.pow_succ]; omega
  have a4 : C + 2 * u * d ≤ 2 * u * (C + d) := by
    rw [Nat.mul_add]
    have : 1 * C ≤ 2 * u * C := Nat.mul_le_mul_right _ (by omega)
    omega
  have a5 : 2 * u * (C + d) < 2 ^ u * 2 ^ u := Nat.mul_lt_mul_of_le_of_lt a3 (by omega) (by omega)
  have a6 : 2 ^ u * 2 ^ u = 2 ^ (2 * u) := by rw [← Nat.pow_add]; congr 1; omega
  have a7 : C * 2 ^ (2 * u * d) < 2 ^ C * 2 ^ (2 * u * d) := Nat.mul_lt_mul_of_pos_right a1 (Nat.two_pow_pos _)
  have a8 : 2 ^ C * 2 ^ (2 * u * d) ≤ 2 ^ n := by
    rw [← Nat.pow_add]
    refine Nat.pow_le_pow_right (by omega) (le_trans a4 ?_)
    rw [a6, ← hn] at a5
    exact Nat.lt_succ_iff.1 a5
  have a9 : C * 2 ^ (2 * u * d) < 2 ^ n := lt_of_lt_of_le a7 a8
  have a10 : (2 : Nat) ^ (2 ^ (2 * u)) = 2 * 2 ^ n := by rw [← hn, Nat.pow_succ, Nat.mul_comm]
  rw [a10]
  omega

/-! ### Instances -/

/-- A pattern that compiles, for the bound: `*.go` is at most 8 to the power of 26 calls away from an answer for a string of 6 bytes. -/
example : ∃ m, globCompile (lit "*.go") [] = .ok m ∧ m.calls (lit "abc.go") ≤ (6 + 2) ^ (6 * 4 + 2) := by
  obtain ⟨m, h⟩ : ∃ m, globCompile (writeTerms [.any, .chars [.plain 46, .plain 103, .plain 111]]) [] = .ok m := by
    obtain ⟨m, h, -⟩ := C91_literals_and_stars [] [.any, .chars [.plain 46, .plain 103, .plain 111]] (by decide) (by decide) (by decide) (by decide)
    exact Exists.intro m h
  have e : writeTerms [.any, .chars [.plain 46, .plain 103, .plain 111]] = lit "*.go" := by decide
  rw [e] at h
  exact Exists.intro m (And.intro h (C137_bound _ _ m h (lit "abc.go")))

/-- Thirty letters and a pattern of 95 bytes: 2147483647 calls. -/
example : ∃ p m, p.length = 95 ∧ globCompile p [] = .ok m ∧ m.match (List.replicate 30 97) = some false ∧ m.calls (List.replicate 30 97) = 2147483647 :=
  C137_exponential 30 []

end Verif.Glob
