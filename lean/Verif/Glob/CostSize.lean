import Verif.Glob.CostProps
import Verif.Glob.CompileTotal
import Verif.Glob.LexProps
/-
The size of the matcher of a pattern.
-/
namespace Verif.Glob

mutual
/-- The number of leaves of a tree; an empty sequence counts as a leaf. -/
def Node.leaves : Node → Nat
  | .pattern cs => max 1 (leavesList cs)
  | .anyOf cs => max 1 (leavesList cs)
  | _ => 1
/-- The number of leaves of several trees. -/
def leavesList : List Node → Nat
  | [] => 0
  | c :: cs => c.leaves + leavesList cs
end

theorem Node.leaves_pos (t : Node) : 1 ≤ t.leaves := by
  cases t <;> simp only [Node.leaves] <;> omega

theorem leavesList_append (as bs : List Node) : leavesList (as ++ bs) = leavesList as + leavesList bs := by
  induction as with
  | nil => simp [leavesList]
  | cons a as ih => rw [List.cons_append, leavesList, ih, leavesList, Nat.add_assoc]

theorem leavesList_length (as : List Node) : as.length ≤ leavesList as := by
  induction as with
  | nil => simp [leavesList]
  | cons a as ih => rw [List.length_cons, leavesList]; have := a.leaves_pos; omega

/-! ### Parsing -/

/-- The leaves of the open braces. -/
def framesLeaves : List Frame → Nat
  | [] => 0
  | f :: fs => leavesList f.alts + leavesList f.outer + framesLeaves fs

theorem closeFrames_leaves : ∀ (fs : List Frame) (cur : List Node), (closeFrames fs cur).leaves ≤ framesLeaves fs + leavesList cur + fs.length + 1
  | [], cur => by
    simp only [closeFrames, Node.leaves, framesLeaves, List.length_nil]
    omega
  | f :: fs, cur => by
    rw [closeFrames]
    have := closeFrames_leaves fs (f.outer ++ [.anyOf (f.alts ++ [.pattern cur])])
    rw [leavesList_append] at this
    simp only [leavesList, Node.leaves, leavesList_append] at this
    rw [framesLeaves, List.length_cons]
    omega

theorem parseRange_leaf (depth : Nat) : ∀ (n : Nat) (l : Lex) (not : Bool) (lo hi : Nat) (chars : Str) (node : Node) (l' : Lex),
    parseRange depth n l not lo hi chars = .ok (node, l') → node.leaves = 1
  | 0, _, _, _, _, _, _, _, h => by rw [parseRange] at h; cases h
  | n + 1, l, not, lo, hi, chars, node, l', h => by
    have ih := parseRange_leaf depth n
    rw [parseRange] at h
    split at h
    · cases h
    · cases h
    · rename_i t _ _
      cases t <;> simp only at h
      all_goals try (exact ih _ _ _ _ _ _ _ h)
      all_goals try (cases h; done)
      · split at h
        · cases h
        · split at h
          · cases h; rfl
          · cases h; rfl
      · split at h
        · cases h
        · exact ih _ _ _ _ _ _ _ h
      · split at h
        · cases h
        · split at h
          · cases h
          · exact ih _ _ _ _ _ _ _ h

theorem parseMain_leaves (depth : Nat) : ∀ (n : Nat) (l : Lex) (fs : List Frame) (cur : List Node) (t : Node), l.Inv → l.tokens = [] → l.data.length - l.pos + 8 ≤ n →
    l.data.length + 2 ≤ depth → parseMain depth n l fs cur = .ok t → t.leaves ≤ framesLeaves fs + leavesList cur + fs.length + 1 + (l.data.length - l.pos)
  | 0, _, _, _, _, _, _, _, _, h => by rw [parseMain] at h; cases h
  | n + 1, l, fs, cur, t, hi, ht, hn, hd, h => by
    obtain ⟨res, l', e, g⟩ := Lex.next_spec depth l hi ht (by omega)
    rw [parseMain, e] at h
    rcases g with ⟨er, rfl⟩ | ⟨tok, ts, rfl, r2, r3, r4, r5, r8⟩
    · cases h
    · simp only at h
      have go : ∀ (l'' : Lex) (fs' : List Frame) (cur' : List Node), l''.Inv → l''.tokens = [] → l''.data = l.data → l.pos < l''.pos →
          framesLeaves fs' + leavesList cur' + fs'.length ≤ framesLeaves fs + leavesList cur + fs.length + 1 →
          parseMain depth n l'' fs' cur' = .ok t → t.leaves ≤ framesLeaves fs + leavesList cur + fs.length + 1 + (l.data.length - l.pos) := by
        intro l'' fs' cur' q1 q2 q3 q4 q5 q6
        have hp := q1.pos
        rw [q3] at hp
        have := parseMain_leaves depth n l'' fs' cur' t q1 q2 (by rw [q3]; omega) (by rw [q3]; omega) q6
        rw [q3] at this
        omega
      generalize hts : tok :: ts = tts at r8
      cases r8 with
      | eof =>
        simp only [List.cons.injEq] at hts
        obtain ⟨rfl, rfl⟩ := hts
        simp only [Res.ok.injEq] at h
        subst h
        have := closeFrames_leaves fs cur
        omega
      | none => cases hts
      | leaf t' q0 q1 q2 =>
        simp only [List.cons.injEq] at hts
        obtain ⟨rfl, rfl⟩ := hts
        cases tok <;> simp only [Lex.leaf, Bool.false_eq_true] at q0
        all_goals exact go _ _ _ r3 r2 r4 q1 (by rw [leavesList_append]; simp only [leavesList, Node.leaves]; omega) h
      | opens q1 q2 =>
        simp only [List.cons.injEq] at hts
        obtain ⟨rfl, rfl⟩ := hts
        exact go _ _ _ r3 r2 r4 q1 (by simp only [framesLeaves, leavesList, List.length_cons]; omega) h
      | sep q1 q2 q3 =>
        simp only [List.cons.injEq] at hts
        obtain ⟨rfl, rfl⟩ := hts
        cases fs with
        | nil => simp at h
        | cons f fs =>
          exact go _ _ _ r3 r2 r4 q1 (by simp only [framesLeaves, leavesList, List.length_cons, leavesList_append, Node.leaves]; omega) h
      | closes q1 q2 =>
        simp only [List.cons.injEq] at hts
        obtain ⟨rfl, rfl⟩ := hts
        cases fs with
        | nil => simp at h
        | cons f fs =>
          exact go _ _ _ r3 r2 r4 q1 (by simp only [framesLeaves, leavesList, List.length_cons, leavesList_append, Node.leaves]; omega) h
      | range pre q1 q2 q3 q4 =>
        simp only [List.cons.injEq] at hts
        obtain ⟨rfl, rfl⟩ := hts
        simp only at h
        cases hr : parseRange depth (n + 1) l' false 0 0 [] with
        | err e => rw [hr] at h; cases h
        | panic => rw [hr] at h; cases h
        | steps => rw [hr] at h; cases h
        | ok p =>
          obtain ⟨node, l2⟩ := p
          rw [hr] at h
          simp only at h
          have hleaf := parseRange_leaf depth _ _ _ _ _ _ _ _ hr
          have hl2 : l2 = { l' with tokens := [] } := by
            obtain ⟨m, rfl⟩ : ∃ m, depth = m + 1 := ⟨depth - 1, by omega⟩
            rcases parseRange_spec m pre (n + 1) l' false 0 0 [] q3 r2 r5 (by omega) with ⟨er, h'⟩ | ⟨node', h'⟩
            · rw [hr] at h'; cases h'
            · rw [hr] at h'
              simp only [Res.ok.injEq, Prod.mk.injEq] at h'
              exact h'.2
          rw [hl2] at h
          refine go { l' with tokens := [] } _ _ (r3.same rfl rfl rfl rfl rfl) rfl r4 q1 ?_ h
          rw [leavesList_append]
          simp only [leavesList, hleaf]
          omega

/-- A pattern of `n` bytes has at most `n + 1` leaves. -/
theorem parse_leaves {p : Str} {t : Node} (h : parse p = .ok t) : t.leaves ≤ p.length + 1 := by
  unfold parse at h
  have := parseMain_leaves _ _ _ _ _ t ⟨by simp [newLexer], by simp [newLexer]⟩ rfl (by simp [newLexer]; omega) (by simp [newLexer]) h
  simp [newLexer, framesLeaves, leavesList] at this
  omega

/-! ### Minimising a tree -/

theorem equal_nothing (acc : List Node) (cs : List Node) : ((acc ++ [Node.pattern cs]).any fun n => n.equal .nothing) = acc.any fun n => n.equal .nothing := by
  simp [Node.equal]

/-- Whether the empty alternative is still to come. -/
def noNothing (acc : List Node) : Nat := if acc.any (fun n => n.equal .nothing) then 0 else 1

theorem reduceAlts_leaves {cl cr : Nat} : ∀ (ns : List (List Node)) (acc acc' : List Node), reduceAlts cl cr ns acc = some acc' →
    leavesList acc' ≤ leavesList acc + (ns.map fun cs => leavesList ((cs.take (cs.length - cr)).drop cl)).sum + noNothing acc
  | [], acc, acc', h => by
    simp only [reduceAlts, Option.some.injEq] at h
    subst h
    simp only [List.map_nil, List.sum_nil]
    omega
  | cs :: ns, acc, acc', h => by
    rw [reduceAlts] at h
    split at h
    · cases h
    · have ih := reduceAlts_leaves ns _ acc' h
      rw [List.map_cons, List.sum_cons]
      generalize ((cs.take (cs.length - cr)).drop cl) = reuse at *
      by_cases he : reuse.isEmpty
      · rw [if_pos he] at ih
        unfold appendIfUnique at ih
        split at ih
        · omega
        · rename_i hn
          have h1 : noNothing (acc ++ [Node.nothing]) = 0 := by
            unfold noNothing
            rw [if_pos (by simp [Node.equal])]
          have h2 : noNothing acc = 1 := by unfold noNothing; rw [if_neg hn]
          rw [leavesList_append] at ih
          simp only [leavesList, Node.leaves] at ih
          omega
      · rw [if_neg he] at ih
        have hpos : 1 ≤ leavesList reuse := by
          have := leavesList_length reuse
          have h3 : reuse ≠ [] := by simpa using he
          have := List.length_pos_iff.2 h3
          omega
        unfold appendIfUnique at ih
        split at ih
        · omega
        · have h1 : noNothing (acc ++ [Node.pattern reuse]) = noNothing acc := by
            unfold noNothing
            rw [equal_nothing]
          rw [leavesList_append, h1] at ih
          simp only [leavesList, Node.leaves] at ih
          omega

theorem minimizeTree_leaves {cs : List Node} {t : Node} (h : minimizeTreeAnyOf cs = some (some t)) :
    t.leaves ≤ (Node.anyOf cs).leaves ∧ ∃ ts, t = .pattern ts := by
  unfold minimizeTreeAnyOf at h
  cases hp : patternChildren cs with
  | none => rw [hp] at h; cases h
  | some nodes =>
    obtain ⟨left, right, e, hc⟩ := commonChildren_ok nodes
    rw [hp] at h
    simp only [e] at h
    split at h
    · cases h
    · rename_i hne
      have hcs := patternChildren_some hp
      split at h
      · cases h
      · rename_i alts ha
        simp only [Option.some.injEq] at h
        subst h
        refine ⟨?_, _, rfl⟩
        have h1 := reduceAlts_leaves nodes [] alts ha
        have h2 : leavesList (reducedPart alts) ≤ leavesList alts := by
          rcases alts with _ | ⟨a, _ | ⟨a', as⟩⟩
          · simp [reducedPart, leavesList]
          · cases a <;> simp [reducedPart, leavesList]
          · have := a.leaves_pos
            simp only [reducedPart, leavesList, Node.leaves]
            omega
        have part : ∀ l : List Node, leavesList (if l.length > 0 then [.pattern l] else []) = leavesList l := by
          intro l
          have := leavesList_length l
          split
          · simp only [leavesList, Node.leaves]; omega
          · rename_i hl
            have : l = [] := List.length_eq_zero_iff.1 (by omega)
            subst this
            rfl
        have hl := part left
        have hr := part right
        have htwo : 2 ≤ nodes.length := by
          by_contra hlt
          rw [commonChildren, if_pos (by omega), Option.some.injEq, Prod.mk.injEq] at e
          obtain ⟨rfl, rfl⟩ := e
          simp at hne
        have hmid : ∀ ns : List (List Node), (∀ cs ∈ ns, cs ∈ nodes) →
            (ns.map fun cs => leavesList ((cs.take (cs.length - right.length)).drop left.length)).sum + ns.length * (leavesList left + leavesList right) ≤
              leavesList (ns.map .pattern) := by
          intro ns
          induction ns with
          | nil => simp [leavesList]
          | cons c ns ih =>
            intro hin
            obtain ⟨g1, g2, g3⟩ := hc c (hin c List.mem_cons_self)
            have e2 := congrArg leavesList (mid_split g1 g2 g3)
            rw [leavesList_append, leavesList_append] at e2
            have := ih fun d hd => hin d (List.mem_cons_of_mem _ hd)
            rw [List.map_cons, List.sum_cons, List.map_cons, leavesList, Node.leaves, List.length_cons, Nat.add_mul]
            omega
        have hsum := hmid nodes fun _ h => h
        have hpos : 1 ≤ leavesList left + leavesList right := by
          have := leavesList_length left
          have := leavesList_length right
          simp only [Bool.and_eq_true, decide_eq_true_eq] at hne
          omega
        have h3 : 2 * (leavesList left + leavesList right) ≤ nodes.length * (leavesList left + leavesList right) := Nat.mul_le_mul_right _ htwo
        rw [Node.leaves, Node.leaves, leavesList_append, leavesList_append, hl, hr, hcs]
        have h4 : noNothing [] = 1 := rfl
        simp only [leavesList, Nat.zero_add, h4] at h1
        omega

/-! ### Matchers -/

mutual
theorem optimize_parts : ∀ m : Matcher, (optimizeMatcher m).parts ≤ m.parts
  | .any seps => by
    rw [optimizeMatcher]
    split <;> simp [Matcher.parts]
  | .anyOf [] => Nat.le_refl _
  | .anyOf [m] => by
    show m.parts ≤ _
    simp only [Matcher.parts, partsList]; omega
  | .anyOf (_ :: _ :: _) => Nat.le_refl _
  | .list rs not => by
    rw [optimizeMatcher]
    split <;> simp [Matcher.parts]
  | .btree v l r ll rl len => by
    have h1 := optimizeOpt_parts l
    have h2 := optimizeOpt_parts r
    rw [optimizeMatcher, Matcher.parts]
    unfold optimizeBTree
    simp only
    have h0 := v.parts_pos
    split
    · split <;> simp only [Matcher.parts] <;> omega
    · simp only [Matcher.parts]; omega
  | .nothing | .text _ | .super | .single _ | .range _ _ _ | .min _ | .max _ | .contains _ _ | .prefix _ | .suffix _ | .prefixSuffix _ _ | .prefixAny _ _
  | .suffixAny _ _ | .everyOf _ | .row _ _ => Nat.le_refl _
theorem optimizeOpt_parts : ∀ o : Option Matcher, partsOpt (optimizeOpt o) ≤ partsOpt o
  | none => Nat.le_refl _
  | some m => optimize_parts m
end

theorem partsList_append (as bs : List Matcher) : partsList (as ++ bs) = partsList as + partsList bs := by
  induction as with
  | nil => simp [partsList]
  | cons a as ih => rw [List.cons_append, partsList, ih, partsList, Nat.add_assoc]

theorem partsList_length (as : List Matcher) : as.length ≤ partsList as := by
  induction as with
  | nil => simp [partsList]
  | cons a as ih => rw [List.length_cons, partsList]; have := a.parts_pos; omega

theorem glueEvery_parts {ms : List Matcher} {m : Matcher} (h : glueMatchersAsEvery ms = some m) : m.parts ≤ 4 ∧ 2 ≤ ms.length := by
  unfold glueMatchersAsEvery at h
  split at h
  · cases h
  · cases h
  · rename_i m0 rest hne
    have hl : 2 ≤ (m0 :: rest).length := by
      cases rest with
      | nil => exact (hne rfl).elim
      | cons a as => simp
    refine ⟨?_, hl⟩
    split at h
    · cases h
    · split at h
      · cases h
      · split at h
        · cases h; simp [Matcher.parts]
        · split at h
          · cases h; simp [Matcher.parts]
          · split at h
            · cases h; simp [Matcher.parts]
            · simp only [Option.some.injEq] at h
              subst h
              rw [Matcher.parts, partsList_append]
              split <;> split <;> (try split) <;> simp [partsList, Matcher.parts, partsList_append]

theorem glue_parts {ms : List Matcher} {m : Matcher} (h : glueMatchers ms = some m) : m.parts + 2 ≤ partsList ms + 2 * ms.length := by
  have hp := partsList_length ms
  unfold glueMatchers at h
  split at h
  · rename_i g hg
    cases h
    have := glueEvery_parts hg
    omega
  · unfold glueMatchersAsRow at h
    split at h
    · cases h
    · rw [Option.map_eq_some_iff] at h
      obtain ⟨l, -, rfl⟩ := h
      rw [Matcher.parts]
      omega

theorem split_at (l r : Nat) (hlr : l ≤ r) (ms : List Matcher) : ms = ms.take l ++ (ms.take r).drop l ++ ms.drop r := by
  conv_lhs => rw [← List.take_append_drop r ms]
  congr 1
  conv_lhs => rw [← List.take_append_drop l (ms.take r)]
  rw [List.take_take, Nat.min_eq_left hlr]

theorem minimize_parts : ∀ (n : Nat) (ms ns : List Matcher), minimizeMatchers n ms = some ns → partsList ns + 2 * ns.length ≤ partsList ms + 2 * ms.length
  | 0, _, _, h => by rw [minimizeMatchers] at h; cases h
  | n + 1, ms, ns, h => by
    rw [minimizeMatchers] at h
    split at h
    · cases h; exact Nat.le_refl _
    · rename_i d hd
      have hg := minimizeLoops_glued hd
      have hgp := glue_parts hg.1
      have hlr : d.left ≤ d.right := Nat.le_of_lt hg.2.1
      have hs := split_at d.left d.right hlr ms
      have e1 := congrArg partsList hs
      have e2 := congrArg List.length hs
      rw [partsList_append, partsList_append] at e1
      rw [List.length_append, List.length_append] at e2
      have hstep : partsList (ms.take d.left ++ [d.m] ++ ms.drop d.right) + 2 * (ms.take d.left ++ [d.m] ++ ms.drop d.right).length ≤ partsList ms + 2 * ms.length := by
        rw [partsList_append, partsList_append, List.length_append, List.length_append]
        simp only [partsList, List.length_cons, List.length_nil]
        omega
      simp only at h
      split at h
      · cases h; exact hstep
      · exact le_trans (minimize_parts n _ ns h) hstep

theorem newBTree_parts (v : Matcher) (l r : Option Matcher) : (newBTree v l r).parts = 1 + (v.parts + (partsOpt l + partsOpt r)) := rfl

theorem compileMatchers_parts : ∀ (n : Nat) (ms : List Matcher) (m : Matcher), compileMatchers n ms = .ok m → m.parts + 2 ≤ partsList ms + 2 * ms.length
  | 0, _, _, h => by rw [compileMatchers] at h; cases h
  | n + 1, ms, m, h => by
    rw [compileMatchers.eq_def] at h
    simp only at h
    split at h
    · cases h
    · cases h
      simp [partsList]
    · rename_i m0 rest hne
      split at h
      · rename_i g hg
        cases h
        exact glue_parts hg
      · split at h
        · cases hr : compileMatchers n rest with
          | ok r =>
            rw [hr] at h
            cases h
            have := compileMatchers_parts n rest r hr
            rw [newBTree_parts]
            simp only [partsOpt, partsList, List.length_cons]
            omega
          | err e => rw [hr] at h; cases h
          | panic => rw [hr] at h; cases h
          | steps => rw [hr] at h; cases h
        · rename_i idx _ _
          have hside : ∀ (ps : List Matcher) (o : Option Matcher), (if ps.isEmpty then Res.ok none else match compileMatchers n ps with
              | .ok l => .ok (some l)
              | .err e => .err e
              | .panic => .panic
              | .steps => .steps) = Res.ok o → partsOpt o + (if ps = [] then 0 else 2) ≤ partsList ps + 2 * ps.length := by
            intro ps o ho
            cases ps with
            | nil => simp at ho; subst ho; simp [partsOpt]
            | cons p ps =>
              rw [if_neg (by simp)] at ho
              rw [if_neg (by simp)]
              cases hc : compileMatchers n (p :: ps) with
              | ok l =>
                rw [hc] at ho
                cases ho
                exact compileMatchers_parts n (p :: ps) l hc
              | err e => rw [hc] at ho; cases ho
              | panic => rw [hc] at ho; cases ho
              | steps => rw [hc] at ho; cases ho
          split at h
          · cases h
          · rename_i val hval
            obtain ⟨hi, hv⟩ := List.getElem?_eq_some_iff.1 hval
            have hs : (m0 :: rest) = (m0 :: rest).take idx ++ val :: (m0 :: rest).drop (idx + 1) := by
              rw [← hv, ← List.drop_eq_getElem_cons hi, List.take_append_drop]
            have e1 := congrArg partsList hs
            have e2 := congrArg List.length hs
            have e3 : partsList (val :: (m0 :: rest).drop (idx + 1)) = val.parts + partsList ((m0 :: rest).drop (idx + 1)) := rfl
            rw [partsList_append, e3] at e1
            rw [List.length_append, List.length_cons (a := val)] at e2
            have hlen : 2 ≤ (m0 :: rest).length := by
              cases rest with
              | nil => exact (hne rfl).elim
              | cons a as => simp
            split at h
            · rename_i l hl
              split at h
              · rename_i r hr
                cases h
                have h1 := hside _ _ hl
                have h2 := hside _ _ hr
                rw [newBTree_parts]
                have : (if (m0 :: rest).take idx = [] then 0 else 2) + (if (m0 :: rest).drop (idx + 1) = [] then 0 else 2) ≥ 2 := by
                  by_cases c1 : (m0 :: rest).take idx = []
                  · by_cases c2 : (m0 :: rest).drop (idx + 1) = []
                    · rw [c1, c2] at e2; simp only [List.length_nil] at e2; omega
                    · rw [if_neg c2]; omega
                  · rw [if_neg c1]; omega
                omega
              · cases h
              · cases h
              · cases h
            · cases h
            · cases h
            · cases h

theorem compileChildren_parts {f : Node → Res Matcher} : ∀ {cs : List Node} {ms : List Matcher}, compileChildren f cs = .ok ms →
    (∀ c ∈ cs, ∀ m, f c = .ok m → (optimizeMatcher m).parts + 2 ≤ 3 * c.leaves) → partsList ms + 2 * ms.length ≤ 3 * leavesList cs
  | [], ms, h, _ => by cases h; simp [partsList, leavesList]
  | c :: cs, ms, h, hf => by
    rw [compileChildren] at h
    cases h1 : f c with
    | ok m =>
      cases h2 : compileChildren f cs with
      | ok ms' =>
        rw [h1, h2] at h
        cases h
        have ih := compileChildren_parts h2 fun d hd => hf d (List.mem_cons_of_mem _ hd)
        have hm := hf c List.mem_cons_self m h1
        rw [partsList, List.length_cons, leavesList]
        omega
      | err e => rw [h1, h2] at h; cases h
      | panic => rw [h1, h2] at h; cases h
      | steps => rw [h1, h2] at h; cases h
    | err e => rw [h1] at h; cases h
    | panic => rw [h1] at h; cases h
    | steps => rw [h1] at h; cases h

theorem compile_parts (seps : List Nat) : ∀ (n : Nat) (t : Node) (m : Matcher), compile seps n t = .ok m →
    (optimizeMatcher m).parts + 2 ≤ 3 * t.leaves ∧ ((∃ cs, t = .pattern cs) → m.parts + 2 ≤ 3 * t.leaves)
  | 0, _, _, h => by rw [compile] at h; cases h
  | n + 1, t, m, h => by
    have leaf : ∀ {m' : Matcher} {t' : Node}, t'.leaves = 1 → m'.parts = 1 → (∀ cs, t' ≠ .pattern cs) →
        (optimizeMatcher (optimizeMatcher m')).parts + 2 ≤ 3 * t'.leaves ∧ ((∃ cs, t' = .pattern cs) → (optimizeMatcher m').parts + 2 ≤ 3 * t'.leaves) := by
      intro m' t' h1 h2 h3
      have g1 := optimize_parts m'
      have g2 := optimize_parts (optimizeMatcher m')
      exact ⟨by omega, fun ⟨cs, e⟩ => absurd e (h3 cs)⟩
    cases t with
    | anyOf cs =>
      rw [compile] at h
      refine ⟨?_, fun ⟨_, e⟩ => by cases e⟩
      split at h
      · cases h
      · rename_i t' ht'
        obtain ⟨g1, ts, g2⟩ := minimizeTree_leaves ht'
        have := (compile_parts seps n t' m h).1
        omega
      · cases hc : compileChildren (compile seps n) cs with
        | ok ms =>
          rw [hc] at h
          cases h
          have hp := compileChildren_parts hc fun c _ m' hm => (compile_parts seps n c m' hm).1
          rw [Node.leaves]
          match ms, hp with
          | [], _ => simp [optimizeMatcher, Matcher.parts, partsList]
          | [a], hp =>
            show a.parts + 2 ≤ _
            simp only [partsList, List.length_cons, List.length_nil] at hp
            omega
          | a :: b :: as, hp =>
            show (Matcher.anyOf (a :: b :: as)).parts + 2 ≤ _
            rw [Matcher.parts]
            simp only [List.length_cons] at hp; omega
        | err e => rw [hc] at h; cases h
        | panic => rw [hc] at h; cases h
        | steps => rw [hc] at h; cases h
    | pattern cs =>
      suffices hs : m.parts + 2 ≤ 3 * (Node.pattern cs).leaves from ⟨le_trans (Nat.add_le_add_right (optimize_parts m) 2) hs, fun _ => hs⟩
      rw [compile] at h
      rw [Node.leaves]
      split at h
      · cases h; simp only [Matcher.parts]; omega
      · cases hc : compileChildren (compile seps n) cs with
        | ok ms =>
          rw [hc] at h
          simp only at h
          have hp := compileChildren_parts hc fun c _ m' hm => (compile_parts seps n c m' hm).1
          split at h
          · cases h
          · rename_i ns hns
            have h1 := minimize_parts _ _ _ hns
            cases hm : compileMatchers (ns.length + 1) ns with
            | ok m' =>
              rw [hm] at h
              cases h
              have h2 := compileMatchers_parts _ _ _ hm
              have h3 := optimize_parts m'
              omega
            | err e => rw [hm] at h; cases h
            | panic => rw [hm] at h; cases h
            | steps => rw [hm] at h; cases h
        | err e => rw [hc] at h; cases h
        | panic => rw [hc] at h; cases h
        | steps => rw [hc] at h; cases h
    | any => rw [compile] at h; cases h; exact leaf rfl rfl (by simp)
    | super => rw [compile] at h; cases h; exact leaf rfl rfl (by simp)
    | single => rw [compile] at h; cases h; exact leaf rfl rfl (by simp)
    | nothing => rw [compile] at h; cases h; exact leaf rfl rfl (by simp)
    | list not chars => rw [compile] at h; cases h; exact leaf rfl rfl (by simp)
    | range not lo hi => rw [compile] at h; cases h; exact leaf rfl rfl (by simp)
    | text t => rw [compile] at h; cases h; exact leaf rfl rfl (by simp)

theorem closeFrames_pattern : ∀ (fs : List Frame) (cur : List Node), ∃ cs, closeFrames fs cur = .pattern cs
  | [], cur => ⟨cur, rfl⟩
  | _ :: fs, _ => closeFrames_pattern fs _

theorem parseMain_pattern (depth : Nat) : ∀ (n : Nat) (l : Lex) (fs : List Frame) (cur : List Node) (t : Node), parseMain depth n l fs cur = .ok t → ∃ cs, t = .pattern cs
  | 0, _, _, _, _, h => by rw [parseMain] at h; cases h
  | n + 1, l, fs, cur, t, h => by
    have ih := parseMain_pattern depth n
    rw [parseMain] at h
    split at h
    · cases h
    · cases h
    · rename_i tok l' _
      cases tok <;> simp only at h
      all_goals try (exact ih _ _ _ _ h)
      all_goals try (cases h; done)
      · cases h; exact closeFrames_pattern fs cur
      · cases fs with
        | nil => cases h
        | cons f fs => exact ih _ _ _ _ h
      · split at h
        · exact ih _ _ _ _ h
        · cases h
        · cases h
        · cases h
      · cases fs with
        | nil => cases h
        | cons f fs => exact ih _ _ _ _ h

/-- The matcher of a pattern of `n` bytes has at most `3 n + 1` parts. -/
theorem glob_parts {p : Str} {seps : List Nat} {m : Matcher} (h : globCompile p seps = .ok m) : m.parts ≤ 3 * p.length + 1 := by
  unfold globCompile at h
  cases hp : parse p with
  | ok t =>
    rw [hp] at h
    simp only at h
    have h1 := parse_leaves hp
    obtain ⟨cs, e⟩ := parseMain_pattern _ _ _ _ _ _ (by unfold parse at hp; exact hp)
    have h2 := (compile_parts seps _ t m h).2 ⟨cs, e⟩
    omega
  | err e => rw [hp] at h; cases h
  | panic => rw [hp] at h; cases h
  | steps => rw [hp] at h; cases h

end Verif.Glob
