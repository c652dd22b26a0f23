import Verif.Glob.Total
/-
The matchers that the compiler builds, and when their `Match` always returns.
-/
namespace Verif.Glob

/-- Matchers whose `Match` returns for every string. With `A`, all separators are ASCII and every matcher may be the value of a BTree; without, a value is
neither a SuffixAny nor an AnyOf. -/
inductive Ok (A : Prop) : Matcher → Prop
  | text {t : Str} : t ≠ [] → Ok A (.text t)
  | any {seps : List Nat} : seps ≠ [] → (A → asciiSeps seps) → Ok A (.any seps)
  | super : Ok A .super
  | single {seps : List Nat} : Ok A (.single seps)
  | list {rs : List Nat} {n : Bool} : Ok A (.list rs n)
  | range {lo hi : Nat} {n : Bool} : Ok A (.range lo hi n)
  | min {n : Nat} : Ok A (.min n)
  | max {n : Nat} : Ok A (.max n)
  | contains {t : Str} {n : Bool} : Ok A (.contains t n)
  | prefix {p : Str} : Ok A (.prefix p)
  | suffix {q : Str} : Ok A (.suffix q)
  | prefixSuffix {p q : Str} : Ok A (.prefixSuffix p q)
  | prefixAny {p : Str} {seps : List Nat} : Ok A (.prefixAny p seps)
  | suffixAny {q : Str} {seps : List Nat} : (A → asciiSeps seps) → Ok A (.suffixAny q seps)
  | anyOf {ms : List Matcher} : (∀ m ∈ ms, m ≠ .nothing → Ok A m) → (Matcher.anyOf ms).len ≠ some 0 → Ok A (.anyOf ms)
  | everyOf {ms : List Matcher} : ms ≠ [] → (∀ m ∈ ms, IdxReturns m.index ∧ Returns m.match) → Ok A (.everyOf ms)
  | row {l : Nat} {ms : List Matcher} : 1 ≤ l → (∀ m ∈ ms, Ok A m) → (∀ m ∈ ms, posLen m.len = true) → Ok A (.row l ms)
  | btree {v : Matcher} {l r : Option Matcher} {ll rl len : Option Nat} : Ok A v → (A ∨ (∀ ms, v ≠ .anyOf ms) ∧ ∀ q s, v ≠ .suffixAny q s) →
      (∀ m ∈ l, Ok A m) → (∀ m ∈ r, Ok A m) → len ≠ some 0 → Ok A (.btree v l r ll rl len)

theorem anyOfLen_ne_zero : ∀ (l : Option Nat) (ls : List (Option Nat)), l ≠ some 0 → (∀ x ∈ ls, x ≠ some 0) → anyOfLen l ls ≠ some 0
  | l, [], h, _ => by cases l <;> simpa [anyOfLen] using h
  | none, ml :: ls, _, h => by
    rw [anyOfLen]
    exact anyOfLen_ne_zero ml ls (h ml (List.mem_cons_self ..)) fun x hx => h x (List.mem_cons_of_mem _ hx)
  | some _, none :: _, _, _ => by simp [anyOfLen]
  | some l, some ml :: ls, h, h2 => by
    rw [anyOfLen]
    split
    · simp
    · exact anyOfLen_ne_zero (some l) ls h fun x hx => h2 x (List.mem_cons_of_mem _ hx)

theorem Ok.len_ne {A : Prop} {m : Matcher} (h : Ok A m) : m.len ≠ some 0 := by
  induction h with
  | text h =>
    rename_i t
    simp only [Matcher.len]
    cases t with
    | nil => exact absurd rfl h
    | cons b t =>
      intro e
      rw [Option.some.injEq, List.length_eq_zero_iff] at e
      have := runesAux_cons t.length b t
      simp only [runesOf, List.length_cons] at e
      rw [this] at e
      cases e
  | anyOf h h2 ih => exact h2
  | everyOf h1 h2 =>
    rename_i ms
    cases ms with
    | nil => exact absurd rfl h1
    | cons m ms => simp [Matcher.len]
  | row h1 h2 h3 => rw [Matcher.len]; simp; omega
  | btree h1 h2 h3 h4 h5 => exact h5
  | _ => simp [Matcher.len]

theorem posLen_iff {l : Option Nat} (h : l ≠ some 0) (hs : ∃ k, l = some k) : posLen l = true := by
  obtain ⟨k, rfl⟩ := hs
  cases k with
  | zero => exact absurd rfl h
  | succ k => simp [posLen]

/-- `Match` returns; so does `Index`, if it is asked. -/
theorem Ok.returns {A : Prop} {m : Matcher} (h : Ok A m) :
    Returns m.match ∧ ((A ∨ (∀ ms, m ≠ .anyOf ms) ∧ ∀ q s, m ≠ .suffixAny q s) → IdxReturns m.index) := by
  have leaf : ∀ m : Matcher, m.children = [] → (∀ ms, m ≠ .anyOf ms) → (∀ ms, m ≠ .everyOf ms) → (∀ l ms, m ≠ .row l ms) → (∀ q s, m ≠ .suffixAny q s) →
      Returns m.match → Returns m.match ∧ ((A ∨ (∀ ms, m ≠ .anyOf ms) ∧ ∀ q s, m ≠ .suffixAny q s) → IdxReturns m.index) :=
    fun m h0 h1 h2 h3 h4 hr => ⟨hr, fun _ => leaf_index h0 (fun q s e => absurd e (h4 q s)) h1 h2 h3⟩
  induction h with
  | suffixAny h =>
    refine ⟨fun s => ⟨_, rfl⟩, ?_⟩
    rintro (ha | ⟨_, h2⟩)
    · exact leaf_index rfl (fun q s e => by cases e; exact h ha) nofun nofun nofun
    · exact absurd rfl (h2 _ _)
  | anyOf h hl ih =>
    have none : Returns Matcher.nothing.match ∧ IdxReturns Matcher.nothing.index := ⟨fun s => ⟨_, rfl⟩, leaf_index rfl nofun nofun nofun nofun⟩
    refine ⟨anyOf_returns fun m hm => ?_, ?_⟩
    · by_cases e : m = .nothing
      · subst e; exact none.1
      · exact (ih m hm e).1
    rintro (ha | ⟨h2, _⟩)
    · refine anyOf_index fun m hm => ?_
      by_cases e : m = .nothing
      · subst e; exact none.2
      · exact (ih m hm e).2 (Or.inl ha)
    · exact absurd rfl (h2 _)
  | everyOf h1 h2 => exact ⟨everyOf_returns fun m hm => (h2 m hm).2, fun _ => everyOf_index fun m hm => (h2 m hm).1⟩
  | row h1 h2 h3 ih => exact ⟨row_returns (fun m hm => (ih m hm).1) h3, fun _ => row_index (fun m hm => (ih m hm).1) h3⟩
  | btree h1 h2 h3 h4 h5 ihv ihl ihr =>
    refine ⟨btree_returns (ihv.2 h2) ?_ ?_, fun _ s => idx_const nofun⟩
    · rename_i l r _ _ _
      cases l with
      | none => exact fun s => ⟨_, rfl⟩
      | some c => exact (ihl c rfl).1
    · rename_i l r _ _ _
      cases r with
      | none => exact fun s => ⟨_, rfl⟩
      | some c => exact (ihr c rfl).1
  | _ => exact leaf _ rfl nofun nofun nofun nofun fun s => ⟨_, rfl⟩

/-! ### Optimising -/

theorem optimize_ok {A : Prop} {m : Matcher} (h : Ok A m) : Ok A (optimizeMatcher m) := by
  induction h with
  | any h1 h2 =>
    rw [optimizeMatcher, if_neg (by rw [List.length_eq_zero_iff]; exact h1)]
    exact .any h1 h2
  | anyOf h hl ih =>
    rename_i ms
    match ms, h, hl with
    | [], h, hl => exact .anyOf h hl
    | [m], h, hl =>
      refine h m (List.mem_cons_self ..) ?_
      rintro rfl
      exact hl rfl
    | _ :: _ :: _, h, hl => exact .anyOf h hl
  | list =>
    rename_i rs n
    rw [optimizeMatcher]
    split
    · rename_i hc
      simp only [Bool.and_eq_true, decide_eq_true_eq] at hc
      obtain ⟨r, rfl⟩ := List.length_eq_one_iff.1 hc.2
      refine .text ?_
      simp only [List.flatMap_cons, List.flatMap_nil, List.append_nil]
      intro e
      have := encodeRune_pos r
      rw [e] at this
      simp at this
    · exact .list
  | btree h1 h2 h3 h4 h5 ihv ihl ihr =>
    rename_i v l r ll rl len
    rw [optimizeMatcher]
    have side : ∀ o : Option Matcher, (∀ m ∈ o, Ok A (optimizeMatcher m)) → ∀ m ∈ optimizeOpt o, Ok A m := by
      intro o ho m hm
      cases o with
      | none => cases hm
      | some c => simp only [optimizeOpt, Option.mem_def, Option.some.injEq] at hm; subst hm; exact ho c rfl
    have hl := side l ihl
    have hr := side r ihr
    have whole : Ok A (.btree v (optimizeOpt l) (optimizeOpt r) ll rl len) := .btree h1 h2 hl hr h5
    generalize optimizeOpt l = l' at *
    generalize optimizeOpt r = r' at *
    unfold optimizeBTree
    cases v <;> try exact whole
    simp only
    split
    · exact h1
    · exact .contains
    · exact .suffix
    · exact .prefix
    · exact .prefixSuffix
    · exact .prefixSuffix
    · rename_i seps
      have := hl _ rfl
      cases this with
      | any h1 h2 => exact .suffixAny h2
    · exact .prefixAny
    · exact whole
  | text h => exact .text h
  | suffixAny h => exact .suffixAny h
  | everyOf h1 h2 => exact .everyOf h1 h2
  | row h1 h2 h3 => exact .row h1 h2 h3
  | super => exact .super
  | single => exact .single
  | range => exact .range
  | min => exact .min
  | max => exact .max
  | contains => exact .contains
  | «prefix» => exact .prefix
  | suffix => exact .suffix
  | prefixSuffix => exact .prefixSuffix
  | prefixAny => exact .prefixAny

/-! ### Gluing -/

/-- A matcher that may be the value of a BTree. -/
def Val (A : Prop) (m : Matcher) : Prop := A ∨ (∀ ms, m ≠ .anyOf ms) ∧ ∀ q s, m ≠ .suffixAny q s

/-- The parts of a sequence. -/
def Part (A : Prop) (m : Matcher) : Prop := Ok A m ∧ Val A m

theorem leaf_both {m : Matcher} (h : m.children = []) (h1 : ∀ ms, m ≠ .anyOf ms) (h2 : ∀ ms, m ≠ .everyOf ms) (h3 : ∀ l ms, m ≠ .row l ms) (h4 : ∀ q s, m ≠ .suffixAny q s)
    (hr : Returns m.match) : IdxReturns m.index ∧ Returns m.match := ⟨leaf_index h (fun q s e => absurd e (h4 q s)) h1 h2 h3, hr⟩

theorem glueEvery_ok {A : Prop} {ms : List Matcher} {m : Matcher} (h : glueMatchersAsEvery ms = some m) (hms : ∀ c ∈ ms, Part A c) : Part A m := by
  unfold glueMatchersAsEvery at h
  split at h
  · cases h
  · cases h
  · rename_i m0 rest hne
    split at h
    · cases h
    · rename_i sep kind hg
      split at h
      · cases h
      · rename_i hA hS hG N hl
        obtain ⟨k, star, h1, h2, h3, h4, h5, h6⟩ := glueLoop_lang sep _ _ _ _ _ _ _ _ _ hl
        simp only [Bool.false_or, Nat.zero_add, Bool.false_eq_true, false_or] at h1 h2 h3 h4
        replace h5 := h5 (by simp)
        subst h1
        split at h
        · cases h; exact ⟨.super, Or.inr ⟨nofun, nofun⟩⟩
        · rename_i hc1
          split at h
          · rename_i hc
            cases h
            refine ⟨?_, Or.inr ⟨nofun, nofun⟩⟩
            have hp := hms m0 (List.mem_cons_self ..)
            simp only [Bool.and_eq_true, Bool.not_eq_true'] at hc
            -- every matcher is an Any, so is the first one
            have h0 : ∃ sp, m0 = .any sp ∧ sp = sep := by
              have hflag : ∀ (ms : List Matcher) (a s g : Bool) (n : Nat) (r : Bool × Bool × Bool × Nat), glueLoop sep ms (a, s, g, n) = some r →
                  (s = true → r.2.1 = true) ∧ (g = true → r.2.2.1 = true) := by
                intro ms
                induction ms with
                | nil => intro a s g n r h; simp only [glueLoop, Option.some.injEq] at h; subst h; exact ⟨id, id⟩
                | cons c cs ih =>
                  intro a s g n r h
                  simp only [glueLoop] at h
                  split at h
                  · cases h
                  · rename_i sp k hk
                    split at h
                    · cases k with
                      | super => exact ⟨fun _ => (ih _ _ _ _ _ h).1 rfl, (ih _ _ _ _ _ h).2⟩
                      | any => exact ih _ _ _ _ _ h
                      | single => exact ⟨(ih _ _ _ _ _ h).1, fun _ => (ih _ _ _ _ _ h).2 rfl⟩
                    · cases h
              rw [glueLoop, hg] at hl
              simp only at hl
              split at hl
              · cases kind with
                | super =>
                  have := (hflag _ _ _ _ _ _ hl).1 rfl
                  simp only at this
                  rw [hc.1.2] at this; cases this
                | single =>
                  have := (hflag _ _ _ _ _ _ hl).2 rfl
                  simp only at this
                  rw [hc.2] at this; cases this
                | any =>
                  cases m0 <;> simp only [gluable, Option.some.injEq, Prod.mk.injEq, reduceCtorEq, and_false] at hg
                  · exact ⟨_, rfl, hg.1⟩
                  · split at hg <;> simp at hg
              · cases hl
            obtain ⟨sp, rfl, rfl⟩ := h0
            exact hp.1
          · rename_i hc2
            split at h
            · cases h; exact ⟨.min, Or.inr ⟨nofun, nofun⟩⟩
            · rename_i hc3
              cases h
              refine ⟨.everyOf ?_ ?_, Or.inr ⟨nofun, nofun⟩⟩
              · intro e
                rw [List.append_eq_nil_iff] at e
                obtain ⟨e1, e2⟩ := e
                have hN : N = 0 := by
                  by_contra hN
                  rw [if_pos (by omega)] at e1
                  simp at e1
                have hs : sep = [] := by
                  by_contra hs
                  rw [if_pos (List.length_pos_iff.2 hs)] at e2
                  cases e2
                subst hN hs
                -- all are Any or Super without separators; an Any without separators is not a part
                simp only [Nat.lt_irrefl, or_false] at h5
                rw [h5] at h2
                simp only [Nat.lt_irrefl, decide_false] at h3
                subst h3
                have hany : ∀ (ms : List Matcher), (∀ c ∈ ms, Part A c) → ∀ (a s g : Bool) (n : Nat) (r : Bool × Bool × Bool × Nat),
                    glueLoop [] ms (a, s, g, n) = some r → r.1 = a := by
                  intro ms
                  induction ms with
                  | nil => intro _ a s g n r h; simp only [glueLoop, Option.some.injEq] at h; subst h; rfl
                  | cons c cs ih =>
                    intro hp a s g n r h
                    simp only [glueLoop] at h
                    have ih := ih fun c hc => hp c (List.mem_cons_of_mem _ hc)
                    split at h
                    · cases h
                    · rename_i sp k hk
                      split at h
                      · rename_i heq
                        rw [Runes.equal_iff] at heq
                        subst heq
                        cases k with
                        | super => exact ih _ _ _ _ _ h
                        | single => exact ih _ _ _ _ _ h
                        | any =>
                          have := hp c (List.mem_cons_self ..)
                          cases c <;> simp only [gluable, Option.some.injEq, Prod.mk.injEq, reduceCtorEq, and_false] at hk
                          · rw [hk.1] at this
                            cases this.1 with
                            | any h1 h2 => exact absurd rfl h1
                          · split at hk <;> simp at hk
                      · cases h
                have := hany _ hms _ _ _ _ _ hl
                simp only at this
                subst this
                simp only [Bool.false_or] at h2
                subst h2
                simp at hc1
              · intro c hc
                have cases3 : (∃ n, c = .min n) ∨ (∃ n, c = .max n) ∨ ∃ t b, c = .contains t b := by
                  rcases List.mem_append.1 hc with hc | hc
                  · split at hc
                    · rcases List.mem_append.1 hc with hc | hc
                      · rw [List.mem_singleton] at hc; exact Or.inl ⟨_, hc⟩
                      · split at hc
                        · rw [List.mem_singleton] at hc; exact Or.inr (Or.inl ⟨_, hc⟩)
                        · cases hc
                    · cases hc
                  · split at hc
                    · rw [List.mem_singleton] at hc; exact Or.inr (Or.inr ⟨_, _, hc⟩)
                    · cases hc
                rcases cases3 with ⟨n, rfl⟩ | ⟨n, rfl⟩ | ⟨t, b, rfl⟩
                all_goals exact leaf_both rfl nofun nofun nofun nofun fun s => ⟨_, rfl⟩

theorem sumLens_parts : ∀ {ms : List Matcher} {l : Nat}, sumLens (lens ms) = some l → ∀ m ∈ ms, ∃ k, m.len = some k ∧ k ≤ l
  | [], _, _, m, hm => by cases hm
  | c :: cs, l, h, m, hm => by
    obtain ⟨a, b, h1, h2, h3⟩ := sumLens_cons h
    rcases List.mem_cons.1 hm with rfl | hm
    · exact ⟨a, h1, by omega⟩
    · obtain ⟨k, hk, hle⟩ := sumLens_parts h2 m hm
      exact ⟨k, hk, by omega⟩

theorem glue_ok {A : Prop} {ms : List Matcher} {m : Matcher} (h : glueMatchers ms = some m) (hms : ∀ c ∈ ms, Part A c) : Part A m := by
  unfold glueMatchers at h
  split at h
  · rename_i m' h'
    cases h; exact glueEvery_ok h' hms
  · unfold glueMatchersAsRow at h
    split at h
    · cases h
    · rename_i hlen
      rw [Option.map_eq_some_iff] at h
      obtain ⟨l, hl, rfl⟩ := h
      refine ⟨.row ?_ (fun c hc => (hms c hc).1) ?_, Or.inr ⟨nofun, nofun⟩⟩
      · cases ms with
        | nil => simp at hlen
        | cons c cs =>
          obtain ⟨k, hk, hle⟩ := sumLens_parts hl c (List.mem_cons_self ..)
          have := (hms c (List.mem_cons_self ..)).1.len_ne
          rw [hk] at this
          have : k ≠ 0 := by rintro rfl; exact this rfl
          omega
      · intro c hc
        obtain ⟨k, hk, _⟩ := sumLens_parts hl c hc
        exact posLen_iff (hms c hc).1.len_ne ⟨k, hk⟩

/-! ### Compiling a sequence -/

theorem newBTree_ok {A : Prop} {v : Matcher} {l r : Option Matcher} (hv : Part A v) (hl : ∀ m ∈ l, Ok A m) (hr : ∀ m ∈ r, Ok A m) : Ok A (newBTree v l r) := by
  unfold newBTree
  refine .btree hv.1 hv.2 hl hr ?_
  split
  · rename_i a b c h1 h2 h3
    have := hv.1.len_ne
    rw [h2] at this
    have hb : b ≠ 0 := by rintro rfl; exact this rfl
    rw [ne_eq, Option.some.injEq]
    omega
  · simp

theorem compileMatchers_ok {A : Prop} : ∀ (n : Nat) (ms : List Matcher) (m : Matcher), compileMatchers n ms = .ok m → (∀ c ∈ ms, Part A c) → Ok A m
  | 0, _, _, h, _ => by cases h
  | n + 1, ms, m, h, hms => by
    unfold compileMatchers at h
    split at h
    · cases h
    · cases h; exact (hms _ (List.mem_cons_self ..)).1
    · rename_i m0 rest hne
      split at h
      · rename_i g hg
        cases h
        exact (glue_ok hg hms).1
      · split at h
        · split at h
          · rename_i r hr
            cases h
            refine newBTree_ok (hms m0 (List.mem_cons_self ..)) (fun m hm => by cases hm) ?_
            intro m hm
            cases hm
            exact compileMatchers_ok n rest r hr fun c hc => hms c (List.mem_cons_of_mem _ hc)
          · rename_i hno
            exact absurd h (by cases hc : compileMatchers n rest <;> simp_all)
        · rename_i idx l hidx
          simp only at h
          split at h
          · cases h
          · rename_i val hval
            have side : ∀ (part : List Matcher) (o : Option Matcher), (∀ c ∈ part, c ∈ m0 :: rest) →
                (if part.isEmpty then Res.ok none else match compileMatchers n part with
                  | .ok l => .ok (some l)
                  | .err e => .err e
                  | .panic => .panic
                  | .steps => .steps) = Res.ok o → ∀ m ∈ o, Ok A m := by
              intro part o hp ho m hm
              split at ho
              · cases ho; cases hm
              · split at ho <;> try cases ho
                rename_i l' hl'
                cases hm
                exact compileMatchers_ok n part _ hl' fun c hc => hms c (hp c hc)
            split at h <;> try cases h
            rename_i lo hlo
            split at h <;> try cases h
            rename_i ro hro
            exact newBTree_ok (hms val (List.mem_of_getElem? hval)) (side _ _ (fun c hc => List.mem_of_mem_take hc) hlo)
              (side _ _ (fun c hc => List.mem_of_mem_drop hc) hro)

theorem minimizeMatchers_ok {A : Prop} : ∀ (n : Nat) (ms ns : List Matcher), minimizeMatchers n ms = some ns → (∀ c ∈ ms, Part A c) → ∀ c ∈ ns, Part A c
  | 0, _, _, h, _ => by cases h
  | n + 1, ms, ns, h, hms => by
    unfold minimizeMatchers at h
    split at h
    · cases h; exact hms
    · rename_i d hd
      obtain ⟨h1, h2, h3⟩ := minimizeLoops_glued hd
      have hg := glue_ok h1 fun c hc => hms c (List.mem_of_mem_take (List.mem_of_mem_drop hc))
      have hnext : ∀ c ∈ ms.take d.left ++ [d.m] ++ ms.drop d.right, Part A c := by
        intro c hc
        simp only [List.mem_append, List.mem_singleton] at hc
        rcases hc with (hc | rfl) | hc
        · exact hms c (List.mem_of_mem_take hc)
        · exact hg
        · exact hms c (List.mem_of_mem_drop hc)
      simp only at h
      split at h
      · cases h; exact hnext
      · exact minimizeMatchers_ok n _ ns h hnext

end Verif.Glob
