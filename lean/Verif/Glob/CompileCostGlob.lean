import Verif.Glob.CompileCostProps
import Verif.Glob.ParseCost
import Verif.Glob.DocParse
/-
How long compiling a pattern takes (C142).
-/
namespace Verif.Glob

/-! ### Parsing -/

/-- The weight of the open braces. -/
def framesWeight : List Frame → Nat
  | [] => 0
  | f :: fs => weightList f.alts + weightList f.outer + 9 + framesWeight fs

theorem closeFrames_weight : ∀ (fs : List Frame) (cur : List Node), (closeFrames fs cur).weight ≤ framesWeight fs + weightList cur + 1
  | [], cur => by
    simp only [closeFrames, Node.weight, framesWeight]
    omega
  | f :: fs, cur => by
    rw [closeFrames]
    have := closeFrames_weight fs (f.outer ++ [.anyOf (f.alts ++ [.pattern cur])])
    rw [weightList_append] at this
    simp only [weightList, Node.weight, weightList_append] at this
    rw [framesWeight]
    omega

theorem parseRange_node (depth : Nat) : ∀ (n : Nat) (l : Lex) (not : Bool) (lo hi : Nat) (chars : Str) (node : Node) (l' : Lex),
    parseRange depth n l not lo hi chars = .ok (node, l') → node.weight = 6 ∧ node.flat ∧ node.tidy
  | 0, _, _, _, _, _, _, _, h => by rw [parseRange] at h; cases h
  | n + 1, l, not, lo, hi, chars, node, l', h => by
    have ih := parseRange_node depth n
    rw [parseRange] at h
    split at h
    · cases h
    · cases h
    · rename_i t _ _
      cases t <;> simp only at h
      all_goals try (exact ih _ _ _ _ _ _ _ h)
      all_goals try (cases h; done)
      · split at h
        · cases h
        · split at h
          · cases h; exact ⟨rfl, trivial, trivial⟩
          · cases h; exact ⟨rfl, trivial, trivial⟩
      · split at h
        · cases h
        · exact ih _ _ _ _ _ _ _ h
      · split at h
        · cases h
        · split at h
          · cases h
          · exact ih _ _ _ _ _ _ _ h

theorem parseMain_weight (depth : Nat) : ∀ (n : Nat) (l : Lex) (fs : List Frame) (cur : List Node) (t : Node), l.Inv → l.tokens = [] → l.data.length - l.pos + 8 ≤ n →
    l.data.length + 2 ≤ depth → parseMain depth n l fs cur = .ok t → t.weight ≤ framesWeight fs + weightList cur + 1 + 9 * (l.data.length - l.pos)
  | 0, _, _, _, _, _, _, _, _, h => by rw [parseMain] at h; cases h
  | n + 1, l, fs, cur, t, hi, ht, hn, hd, h => by
    obtain ⟨res, l', e, g⟩ := Lex.next_spec depth l hi ht (by omega)
    rw [parseMain, e] at h
    rcases g with ⟨er, rfl⟩ | ⟨tok, ts, rfl, r2, r3, r4, r5, r8⟩
    · cases h
    · simp only at h
      have go : ∀ (l'' : Lex) (fs' : List Frame) (cur' : List Node), l''.Inv → l''.tokens = [] → l''.data = l.data → l.pos < l''.pos →
          framesWeight fs' + weightList cur' ≤ framesWeight fs + weightList cur + 9 →
          parseMain depth n l'' fs' cur' = .ok t → t.weight ≤ framesWeight fs + weightList cur + 1 + 9 * (l.data.length - l.pos) := by
        intro l'' fs' cur' q1 q2 q3 q4 q5 q6
        have hp := q1.pos
        rw [q3] at hp
        have := parseMain_weight depth n l'' fs' cur' t q1 q2 (by rw [q3]; omega) (by rw [q3]; omega) q6
        rw [q3] at this
        omega
      generalize hts : tok :: ts = tts at r8
      cases r8 with
      | eof =>
        simp only [List.cons.injEq] at hts
        obtain ⟨rfl, rfl⟩ := hts
        simp only [Res.ok.injEq] at h
        subst h
        have := closeFrames_weight fs cur
        omega
      | none => cases hts
      | leaf t' q0 q1 q2 =>
        simp only [List.cons.injEq] at hts
        obtain ⟨rfl, rfl⟩ := hts
        cases tok <;> simp only [Lex.leaf, Bool.false_eq_true] at q0
        all_goals exact go _ _ _ r3 r2 r4 q1 (by rw [weightList_append]; simp only [weightList, Node.weight]; omega) h
      | opens q1 q2 =>
        simp only [List.cons.injEq] at hts
        obtain ⟨rfl, rfl⟩ := hts
        exact go _ _ _ r3 r2 r4 q1 (by simp only [framesWeight, weightList]; omega) h
      | sep q1 q2 q3 =>
        simp only [List.cons.injEq] at hts
        obtain ⟨rfl, rfl⟩ := hts
        cases fs with
        | nil => simp at h
        | cons f fs =>
          exact go _ _ _ r3 r2 r4 q1 (by simp only [framesWeight, weightList, weightList_append, Node.weight]; omega) h
      | closes q1 q2 =>
        simp only [List.cons.injEq] at hts
        obtain ⟨rfl, rfl⟩ := hts
        cases fs with
        | nil => simp at h
        | cons f fs =>
          exact go _ _ _ r3 r2 r4 q1 (by simp only [framesWeight, weightList, weightList_append, Node.weight]; omega) h
      | range pre q1 q2 q3 q4 =>
        simp only [List.cons.injEq] at hts
        obtain ⟨rfl, rfl⟩ := hts
        simp only at h
        cases hr : parseRange depth (n + 1) l' false 0 0 [] with
        | err e => rw [hr] at h; cases h
        | panic => rw [hr] at h; cases h
        | steps => rw [hr] at h; cases h
        | ok p =>
          obtain ⟨node, l2⟩ := p
          rw [hr] at h
          simp only at h
          have hleaf := (parseRange_node depth _ _ _ _ _ _ _ _ hr).1
          have hl2 : l2 = { l' with tokens := [] } := by
            obtain ⟨m, rfl⟩ : ∃ m, depth = m + 1 := ⟨depth - 1, by omega⟩
            rcases parseRange_spec m pre (n + 1) l' false 0 0 [] q3 r2 r5 (by omega) with ⟨er, h'⟩ | ⟨node', h'⟩
            · rw [hr] at h'; cases h'
            · rw [hr] at h'
              simp only [Res.ok.injEq, Prod.mk.injEq] at h'
              exact h'.2
          rw [hl2] at h
          refine go { l' with tokens := [] } _ _ (r3.same rfl rfl rfl rfl rfl) rfl r4 q1 ?_ h
          rw [weightList_append]
          simp only [weightList, hleaf]
          omega

/-- The trees that a sequence consists of while parsing. -/
def neat (cs : List Node) : Prop := ∀ c ∈ cs, c.flat ∧ c.tidy

/-- The trees of the open braces. -/
def neatFrame (f : Frame) : Prop := neat f.outer ∧ ∀ c ∈ f.alts, c.altTidy

theorem neat_append {cs : List Node} {c : Node} (h : neat cs) (h1 : c.flat) (h2 : c.tidy) : neat (cs ++ [c]) := by
  intro d hd
  rcases List.mem_append.1 hd with hd | hd
  · exact h d hd
  · rw [List.mem_singleton.1 hd]; exact ⟨h1, h2⟩

theorem neat_pattern {cs : List Node} (h : neat cs) : (Node.pattern cs).altTidy :=
  ⟨by rw [Node.tidy, tidyList_iff]; exact fun c hc => (h c hc).2, fun ds e => by cases e; exact fun d hd => (h d hd).1⟩

theorem alts_append {cs ds : List Node} (h : ∀ c ∈ ds, c.altTidy) (hc : neat cs) : ∀ c ∈ ds ++ [.pattern cs], c.altTidy := by
  intro d hd
  rcases List.mem_append.1 hd with hd | hd
  · exact h d hd
  · rw [List.mem_singleton.1 hd]; exact neat_pattern hc

theorem neat_close {f : Frame} {cs : List Node} (h : neatFrame f) (hc : neat cs) : neat (f.outer ++ [.anyOf (f.alts ++ [.pattern cs])]) :=
  neat_append h.1 trivial (by rw [Node.tidy, tidyAlts_iff]; exact alts_append h.2 hc)

theorem closeFrames_tidy : ∀ (fs : List Frame) (cur : List Node), (∀ f ∈ fs, neatFrame f) → neat cur → (closeFrames fs cur).tidy
  | [], cur, _, h => (neat_pattern h).1
  | f :: fs, cur, hf, h => closeFrames_tidy fs _ (fun g hg => hf g (List.mem_cons_of_mem _ hg)) (neat_close (hf f List.mem_cons_self) h)

theorem parseMain_tidy (depth : Nat) : ∀ (n : Nat) (l : Lex) (fs : List Frame) (cur : List Node) (t : Node), (∀ f ∈ fs, neatFrame f) → neat cur →
    parseMain depth n l fs cur = .ok t → t.tidy
  | 0, _, _, _, _, _, _, h => by rw [parseMain] at h; cases h
  | n + 1, l, fs, cur, t, hf, hc, h => by
    have ih := parseMain_tidy depth n
    have leaf : ∀ (l' : Lex) (c : Node), c.flat → c.tidy → parseMain depth n l' fs (cur ++ [c]) = .ok t → t.tidy :=
      fun l' c h1 h2 h => ih _ _ _ _ hf (neat_append hc h1 h2) h
    rw [parseMain] at h
    split at h
    · cases h
    · cases h
    · rename_i tok l' _
      cases tok <;> simp only at h
      all_goals try (refine leaf _ _ ?_ ?_ h <;> trivial)
      all_goals try (exact ih _ _ _ _ hf hc h)
      all_goals try (cases h; done)
      · cases h; exact closeFrames_tidy fs cur hf hc
      · cases fs with
        | nil => cases h
        | cons f fs =>
          refine ih _ _ _ _ ?_ (fun _ h => by cases h) h
          intro g hg
          rcases List.mem_cons.1 hg with rfl | hg
          · exact ⟨(hf f List.mem_cons_self).1, alts_append (hf f List.mem_cons_self).2 hc⟩
          · exact hf g (List.mem_cons_of_mem _ hg)
      · split at h
        · rename_i node l2 hr
          have := parseRange_node depth _ _ _ _ _ _ _ _ hr
          exact leaf _ _ this.2.1 this.2.2 h
        · cases h
        · cases h
        · cases h
      · refine ih _ _ _ _ ?_ (fun _ h => by cases h) h
        intro g hg
        rcases List.mem_cons.1 hg with rfl | hg
        · exact ⟨hc, fun _ h => by cases h⟩
        · exact hf g hg
      · cases fs with
        | nil => cases h
        | cons f fs => exact ih _ _ _ _ (fun g hg => hf g (List.mem_cons_of_mem _ hg)) (neat_close (hf f List.mem_cons_self) hc) h

/-- C142: compiling a pattern takes, after parsing, at most `39 (9 |p| + 1)⁴` steps. -/
theorem C142_bound (p : Str) (seps : List Nat) : globCompileSteps p seps ≤ 39 * (9 * p.length + 1) ^ 4 := by
  unfold globCompileSteps
  cases hp : parse p with
  | err e => simp
  | panic => simp
  | steps => simp
  | ok t =>
    simp only
    have h1 : t.weight ≤ 9 * p.length + 1 := by
      have h := hp
      unfold parse at h
      have := parseMain_weight _ _ _ _ _ t ⟨by simp [newLexer], by simp [newLexer]⟩ rfl (by simp [newLexer]; omega) (by simp [newLexer]) h
      simp [newLexer, framesWeight, weightList] at this
      omega
    have h2 : t.tidy := by
      have h := hp
      unfold parse at h
      exact parseMain_tidy _ _ _ _ _ t (by simp) (by intro c hc; cases hc) h
    have h3 := compileSteps_le seps (9 * p.length + 1) t.size t h2 h1
    have h4 := Nat.mul_le_mul_right (38 * ((9 * p.length + 1) * (9 * p.length + 1) * (9 * p.length + 1))) h1
    generalize 9 * p.length + 1 = V at *
    have e : V * (38 * (V * V * V)) = 38 * V ^ 4 := by ring
    have h5 : 1 ≤ V ^ 4 := Nat.one_le_pow _ _ (by have := t.weight_pos; omega)
    omega

/-- glob.go:39-51 `Compile`: reading the pattern, and the compiler. -/
def globSteps (p : Str) (seps : List Nat) : Nat := parseSteps p + globCompileSteps p seps

/-- C142: `Compile` takes at most `176 (9 |p| + 1)⁴` steps. -/
theorem C142_total (p : Str) (seps : List Nat) : globSteps p seps ≤ 176 * (9 * p.length + 1) ^ 4 := by
  have h1 := C142_parse p
  have h2 := C142_bound p seps
  have h3 : 9 * p.length + 1 ≤ (9 * p.length + 1) ^ 4 := Nat.le_self_pow (by omega) _
  unfold globSteps
  omega

/-! ### Question marks -/

theorem runesEqual_self (a : List Nat) : Runes.equal a a = true := Runes.equal_iff.2 rfl

theorem glueLoopSteps_singles (seps : List Nat) : ∀ k, glueLoopSteps seps (List.replicate k (.single seps)) = k
  | 0 => rfl
  | k + 1 => by
    rw [List.replicate_succ, glueLoopSteps]
    simp only [gluable, runesEqual_self, if_true, glueLoopSteps_singles seps k]
    omega

theorem glueSteps_singles (seps : List Nat) (k : Nat) : k ≤ glueSteps (List.replicate k (.single seps)) := by
  have h : k ≤ glueEverySteps (List.replicate k (.single seps)) := by
    match k with
    | 0 => omega
    | 1 => simp [glueEverySteps]
    | k + 2 =>
      have e : List.replicate (k + 2) (Matcher.single seps) = .single seps :: .single seps :: List.replicate k (.single seps) := rfl
      have := glueLoopSteps_singles seps (k + 2)
      rw [e] at this ⊢
      simp only [glueEverySteps, gluable, this]
      omega
  unfold glueSteps
  omega

theorem fold_ge (ms : List Matcher) (w : Nat × Nat → Nat) (hw : ∀ done p, w p ≤ minimizeStepSteps ms done p.1 p.2) : ∀ (ps : List (Nat × Nat)) (st : Option Glued × Nat),
    st.2 + (ps.map w).sum ≤ (ps.foldl (fun (st : Option Glued × Nat) lr => (minimizeStep ms st.1 lr.1 lr.2, st.2 + minimizeStepSteps ms st.1 lr.1 lr.2)) st).2
  | [], st => by simp
  | p :: ps, st => by
    have := fold_ge ms w hw ps (minimizeStep ms st.1 p.1 p.2, st.2 + minimizeStepSteps ms st.1 p.1 p.2)
    have := hw st.1 p
    rw [List.foldl_cons, List.map_cons, List.sum_cons]
    simp only at *
    omega

theorem sum_row (n l : Nat) : ∀ k, k ≤ n - l → 2 * (((List.range k).map fun k => (l, n - k)).map fun p => p.2 - p.1).sum + k * k = k * (2 * (n - l) + 1)
  | 0, _ => by simp
  | k + 1, h => by
    have ih := sum_row n l k (by omega)
    rw [List.range_succ, List.map_append, List.map_append, List.sum_append]
    simp only [List.map_cons, List.map_nil, List.sum_cons, List.sum_nil, Nat.add_zero]
    obtain ⟨d, hd⟩ : ∃ d, n - l = k + 1 + d := ⟨n - l - (k + 1), by omega⟩
    have e : n - k - l = d + 1 := by omega
    rw [e]
    rw [hd] at ih ⊢
    generalize (((List.range k).map fun k => (l, n - k)).map fun p => p.2 - p.1).sum = S at *
    nlinarith [ih]

theorem sum_pairs (n : Nat) : ∀ m, m ≤ n →
    6 * (((List.range m).flatMap fun l => ((List.range (n - l)).map fun k => (l, n - k))).map fun p => p.2 - p.1).sum + (n - m) * (n - m + 1) * (n - m + 2) = n * (n + 1) * (n + 2)
  | 0, _ => by simp
  | m + 1, h => by
    have ih := sum_pairs n m (by omega)
    have hr := sum_row n m (n - m) (Nat.le_refl _)
    rw [List.range_succ, List.flatMap_append, List.map_append, List.sum_append]
    simp only [List.flatMap_cons, List.flatMap_nil, List.append_nil]
    generalize (((List.range (n - m)).map fun k => (m, n - k)).map fun p => p.2 - p.1).sum = S at *
    generalize (((List.range m).flatMap fun l => ((List.range (n - l)).map fun k => (l, n - k))).map fun p => p.2 - p.1).sum = T at *
    obtain ⟨d, hd⟩ : ∃ d, n - m = d + 1 := ⟨n - m - 1, by omega⟩
    have e : n - (m + 1) = d := by omega
    rw [hd] at ih hr
    rw [e]
    nlinarith [ih, hr]

theorem minimizeLoopsSteps_singles (seps : List Nat) (n : Nat) : n * (n + 1) * (n + 2) ≤ 6 * minimizeLoopsSteps (List.replicate n (.single seps)) := by
  have h := fold_ge (List.replicate n (.single seps)) (fun p => min p.2 n - p.1) (by
    intro done p
    have := glueSteps_singles seps (min p.2 n - p.1)
    unfold minimizeStepSteps
    rw [List.take_replicate, List.drop_replicate]
    omega) ((List.range n).flatMap fun l => ((List.range (n - l)).map fun k => (l, n - k))) (none, 0)
  have hs := sum_pairs n n (Nat.le_refl _)
  have hps : (((List.range n).flatMap fun l => ((List.range (n - l)).map fun k => (l, n - k))).map fun p => min p.2 n - p.1) =
      ((List.range n).flatMap fun l => ((List.range (n - l)).map fun k => (l, n - k))).map fun p => p.2 - p.1 := by
    refine List.map_congr_left fun p hp => ?_
    rw [List.mem_flatMap] at hp
    obtain ⟨l, -, hp⟩ := hp
    rw [List.mem_map] at hp
    obtain ⟨k, -, rfl⟩ := hp
    simp only; omega
  rw [hps] at h
  unfold minimizeLoopsSteps
  rw [List.length_replicate]
  simp only [Nat.zero_add, Nat.sub_self, Nat.zero_mul, Nat.add_zero] at h hs
  omega

theorem write_singles (n : Nat) : writeTerms (List.replicate n .single) = List.replicate n 63 := by
  induction n with
  | zero => rfl
  | succ n ih => rw [List.replicate_succ, writeTerms, ih]; rfl

theorem ok_singles (n : Nat) : okTerms false (List.replicate n .single) = true := by
  induction n with
  | zero => rfl
  | succ n ih =>
    rw [List.replicate_succ]
    cases n with
    | zero => rfl
    | succ n =>
      rw [List.replicate_succ] at ih ⊢
      simp only [okTerms, Bool.and_eq_true] at ih ⊢
      exact ⟨⟨rfl, rfl⟩, ih⟩

theorem nodes_singles (n : Nat) : nodes (List.replicate n .single) = List.replicate n .single := by
  induction n with
  | zero => rfl
  | succ n ih => rw [List.replicate_succ, nodes, ih]; rfl

theorem sizes_singles (n : Nat) : sizes (List.replicate n .single) = n := by
  induction n with
  | zero => rfl
  | succ n ih => rw [List.replicate_succ, sizes, ih]; simp only [Node.size]; omega

theorem children_singles (seps : List Nat) (k : Nat) : ∀ n, compileChildren (compile seps (k + 1)) (List.replicate n .single) = .ok (List.replicate n (.single seps))
  | 0 => rfl
  | n + 1 => by
    rw [List.replicate_succ, compileChildren, compile, children_singles seps k n]
    rfl

/-- C142: compiling `n` question marks takes at least `n (n + 1) (n + 2) / 6` steps, with any separators. -/
theorem C142_at_least (n : Nat) (seps : List Nat) : n * (n + 1) * (n + 2) ≤ 6 * globCompileSteps (List.replicate n 63) seps := by
  cases n with
  | zero => simp
  | succ n =>
    rw [← write_singles, globCompileSteps, C75_parse_documented _ (ok_singles _), nodes_singles]
    simp only [Node.size, sizes_singles]
    have e : 1 + (n + 1) = (n + 1) + 1 := by omega
    rw [e, compileSteps]
    have h := minimizeLoopsSteps_singles seps (n + 1)
    rw [if_neg (by simp), children_singles]
    simp only [List.length_replicate]
    generalize compileChildrenSteps (compile seps (n + 1)) (compileSteps seps (n + 1)) (List.replicate (n + 1) .single) = C
    have h2 : minimizeLoopsSteps (List.replicate (n + 1) (.single seps)) ≤ minimizeMatchersSteps (n + 1 + 1) (List.replicate (n + 1) (.single seps)) := by
      rw [minimizeMatchersSteps]
      omega
    generalize minimizeMatchersSteps (n + 1 + 1) (List.replicate (n + 1) (.single seps)) = M at *
    split <;> omega

/-- C142: braces with a common prefix beside a star. -/
theorem C142_case : globCompileSteps (lit "{a?,a}*") [46] = 157 := by
  rw [show lit "{a?,a}*" = writeTerms [.alts [.chars [.plain 97], .single] [[.chars [.plain 97]]], .any] by decide, globCompileSteps, C75_parse_documented _ (by decide)]
  decide +kernel

end Verif.Glob
