import Verif.Glob.Spec
import Verif.Glob.Compile
/-
Minimising alternatives preserves what they match, and does not crash.
-/
namespace Verif.Glob

mutual
theorem Node.eq_of_equal : ∀ (a b : Node), a.equal b = true → a = b
  | .nothing, b, h => by cases b <;> simp_all [Node.equal]
  | .pattern cs, b, h => by
    cases b <;> simp only [Node.equal, Bool.false_eq_true] at h
    rw [eq_of_equalNodes cs _ h]
  | .list n1 c1, b, h => by
    cases b <;> simp only [Node.equal, Bool.false_eq_true, Bool.and_eq_true, beq_iff_eq] at h
    rw [h.1, h.2]
  | .range n1 l1 h1, b, h => by
    cases b <;> simp only [Node.equal, Bool.false_eq_true, Bool.and_eq_true, beq_iff_eq] at h
    rw [h.1.1, h.1.2, h.2]
  | .text t1, b, h => by
    cases b <;> simp only [Node.equal, Bool.false_eq_true, beq_iff_eq] at h
    rw [h]
  | .any, b, h => by cases b <;> simp_all [Node.equal]
  | .super, b, h => by cases b <;> simp_all [Node.equal]
  | .single, b, h => by cases b <;> simp_all [Node.equal]
  | .anyOf cs, b, h => by
    cases b <;> simp only [Node.equal, Bool.false_eq_true] at h
    rw [eq_of_equalNodes cs _ h]
theorem eq_of_equalNodes : ∀ (cs ds : List Node), equalNodes cs ds = true → cs = ds
  | [], ds, h => by cases ds <;> simp_all [equalNodes]
  | c :: cs, ds, h => by
    cases ds with
    | nil => simp [equalNodes] at h
    | cons d ds =>
      simp only [equalNodes, Bool.and_eq_true] at h
      rw [Node.eq_of_equal c d h.1, eq_of_equalNodes cs ds h.2]
end

theorem commonInner_ok {idx T i j : Nat} {tl tr : Node} (hi : i < T) (hj : j < T) : ∀ (ns : List (List Node)) (k : Nat) (bl br : Bool),
    (∀ cs ∈ ns, T ≤ cs.length) →
    (∀ q cs, ns[q]? = some cs → k + q = idx → cs[i]? = some tl ∧ cs[j + cs.length - T]? = some tr) →
    ∃ bl' br', commonInner idx T i j tl tr ns k (bl, br) = some (bl', br') ∧ (bl = true → bl' = true) ∧ (br = true → br' = true) ∧
      (bl' = false → ∀ cs ∈ ns, cs[i]? = some tl) ∧ (br' = false → ∀ cs ∈ ns, cs[j + cs.length - T]? = some tr) ∧
      (bl' = false → j ≤ i → (∃ q cs, ns[q]? = some cs ∧ k + q ≠ idx) → br' = true)
  | [], k, bl, br, _, _ => ⟨bl, br, rfl, id, id, fun _ _ h => absurd h (by simp), fun _ _ h => absurd h (by simp), fun _ _ ⟨q, cs, h, _⟩ => by simp at h⟩
  | cs :: ns, k, bl, br, hlen, hidx => by
    unfold commonInner
    by_cases hbb : (bl && br) = true
    · rw [if_pos hbb]
      rw [Bool.and_eq_true] at hbb
      obtain ⟨rfl, rfl⟩ := hbb
      exact ⟨true, true, rfl, id, id, by simp, by simp, by simp⟩
    · rw [if_neg hbb]
      have hlen' : ∀ cs ∈ ns, T ≤ cs.length := fun c hc => hlen c (List.mem_cons_of_mem _ hc)
      have hidx' : ∀ q cs, ns[q]? = some cs → k + 1 + q = idx → cs[i]? = some tl ∧ cs[j + cs.length - T]? = some tr :=
        fun q c hq e => hidx (q + 1) c (by simpa using hq) (by omega)
      by_cases hk : k = idx
      · rw [if_pos hk]
        obtain ⟨bl', br', e, h1, h2, h3, h4, h5⟩ := commonInner_ok hi hj ns (k + 1) bl br hlen' hidx'
        have h0 := hidx 0 cs (by simp) (by omega)
        refine ⟨bl', br', e, h1, h2, ?_, ?_, ?_⟩
        · intro hb c hc
          rcases List.mem_cons.1 hc with rfl | hc
          · exact h0.1
          · exact h3 hb c hc
        · intro hb c hc
          rcases List.mem_cons.1 hc with rfl | hc
          · exact h0.2
          · exact h4 hb c hc
        · rintro hb hji ⟨q, c, hq, hne⟩
          refine h5 hb hji ⟨q - 1, c, ?_, by omega⟩
          cases q with
          | zero => omega
          | succ q => simpa using hq
      · rw [if_neg hk]
        have hl := hlen cs List.mem_cons_self
        have g1 : i < cs.length := by omega
        have g2 : j + cs.length - T < cs.length := by omega
        rw [List.getElem?_eq_getElem g1, List.getElem?_eq_getElem g2]
        simp only
        obtain ⟨bl', br', e, h1, h2, h3, h4, h5⟩ := commonInner_ok hi hj ns (k + 1) (bl || !tl.equal cs[i])
          (br || (!(bl || !tl.equal cs[i]) && decide (j ≤ i)) || !tr.equal cs[j + cs.length - T]) hlen' hidx'
        refine ⟨bl', br', e, fun h => h1 (by simp [h]), fun h => h2 (by simp [h]), ?_, ?_, ?_⟩
        · intro hb c hc
          rcases List.mem_cons.1 hc with rfl | hc
          · have : tl.equal c[i] = true := by
              by_contra hne
              rw [h1 (by simp [hne])] at hb; cases hb
            rw [List.getElem?_eq_getElem g1, ← Node.eq_of_equal _ _ this]
          · exact h3 hb c hc
        · intro hb c hc
          rcases List.mem_cons.1 hc with rfl | hc
          · have : tr.equal c[j + c.length - T] = true := by
              by_contra hne
              rw [h2 (by simp [hne])] at hb; cases hb
            rw [List.getElem?_eq_getElem g2, ← Node.eq_of_equal _ _ this]
          · exact h4 hb c hc
        · intro hb hji _
          refine h2 ?_
          have : (bl || !tl.equal cs[i]) = false := by
            cases hx : (bl || !tl.equal cs[i]) with
            | false => rfl
            | true => rw [h1 hx] at hb; cases hb
          simp [this, hji]

/-- The state of the loop: `left` and `right` are common, of at most `i` nodes, and do not overlap. -/
structure CommonInv (nodes : List (List Node)) (tree : List Node) (i : Nat) (bl br : Bool) (total : Nat) (left right : List Node) : Prop where
  hl : ∀ cs ∈ nodes, cs.take left.length = left
  hr : ∀ cs ∈ nodes, cs.drop (cs.length - right.length) = right
  li : left.length ≤ i
  ri : right.length ≤ i
  bl : bl = false → left.length = i
  br : br = false → right.length = i
  tot : total = left.length + right.length
  le : total ≤ tree.length

theorem commonLoop_ok {nodes : List (List Node)} {idx : Nat} {tree : List Node} (hidx : nodes[idx]? = some tree) (hlen : ∀ cs ∈ nodes, tree.length ≤ cs.length)
    (htwo : 2 ≤ nodes.length) : ∀ (n i : Nat) (bl br : Bool) (total : Nat) (left right : List Node), i + n = tree.length →
    CommonInv nodes tree i bl br total left right →
    ∃ left' right', commonLoop nodes idx tree n i (bl, br) total left right = some (left', right') ∧
      (∀ cs ∈ nodes, cs.take left'.length = left') ∧ (∀ cs ∈ nodes, cs.drop (cs.length - right'.length) = right') ∧ left'.length + right'.length ≤ tree.length
  | 0, i, bl, br, total, left, right, _, h => ⟨left, right, rfl, h.hl, h.hr, by rw [← h.tot]; exact h.le⟩
  | j + 1, i, bl, br, total, left, right, hij, h => by
    unfold commonLoop
    split
    · rename_i hc
      simp only [Bool.and_eq_true, decide_eq_true_eq] at hc
      have gi : i < tree.length := by omega
      have gj : j < tree.length := by omega
      rw [List.getElem?_eq_getElem gi, List.getElem?_eq_getElem gj]
      simp only
      have htree : tree ∈ nodes := List.mem_of_getElem? hidx
      obtain ⟨bl', br', e, h1, h2, h3, h4, h5⟩ := commonInner_ok (idx := idx) (T := tree.length) (i := i) (j := j) (tl := tree[i]) (tr := tree[j]) gi gj nodes 0 bl br hlen (by
        intro q cs hq e
        rw [Nat.zero_add] at e
        subst e
        rw [hidx, Option.some.injEq] at hq
        subst hq
        exact ⟨List.getElem?_eq_getElem gi, by rw [show j + tree.length - tree.length = j by omega]; exact List.getElem?_eq_getElem gj⟩)
      rw [e]
      simp only
      have hother : ∃ q cs, nodes[q]? = some cs ∧ 0 + q ≠ idx := by
        by_cases h0 : idx = 0
        · exact ⟨1, _, List.getElem?_eq_getElem (by omega), by omega⟩
        · exact ⟨0, _, List.getElem?_eq_getElem (by omega), by omega⟩
      refine commonLoop_ok hidx hlen htwo j (i + 1) bl' br' _ _ _ (by omega) ?_
      have hbl : bl' = false → bl = false := by
        intro h'; by_contra hne; rw [h1 (by simpa using hne)] at h'; cases h'
      have hbr : br' = false → br = false := by
        intro h'; by_contra hne; rw [h2 (by simpa using hne)] at h'; cases h'
      have hli := h.li
      have hri := h.ri
      have htot := h.tot
      have hle := h.le
      refine ⟨?_, ?_, ?_, ?_, ?_, ?_, ?_, ?_⟩
      · intro cs hcs
        cases hb : bl' with
        | true => simpa using h.hl cs hcs
        | false =>
          have e1 := h.bl (hbl hb)
          have e2 := h3 hb cs hcs
          have e3 := h.hl cs hcs
          simp only [Bool.not_false, if_true, List.length_append, List.length_singleton]
          rw [List.take_add_one, e3, e1, e2]; rfl
      · intro cs hcs
        cases hb : br' with
        | true => simpa using h.hr cs hcs
        | false =>
          have e1 := h.br (hbr hb)
          have e2 := h4 hb cs hcs
          have e3 := h.hr cs hcs
          have hl := hlen cs hcs
          simp only [Bool.not_false, if_true, List.length_cons]
          have hj : j + cs.length - tree.length = cs.length - (right.length + 1) := by omega
          rw [hj] at e2
          have hlt : cs.length - (right.length + 1) < cs.length := by omega
          rw [List.getElem?_eq_getElem hlt, Option.some.injEq] at e2
          rw [← List.getElem_cons_drop hlt, e2]
          congr 1
          rw [← e3]
          congr 1
          rw [e3]
          omega
      · cases bl' <;> simp <;> omega
      · cases br' <;> simp <;> omega
      · intro hb; rw [hb]; have := h.bl (hbl hb); simp; omega
      · intro hb; rw [hb]; have := h.br (hbr hb); simp; omega
      · cases bl' <;> cases br' <;> simp <;> omega
      · cases hb : bl' with
        | true => cases br' <;> simp <;> omega
        | false =>
          by_cases hji : j ≤ i
          · rw [h5 hb hji hother]; simp; omega
          · cases br' <;> simp <;> omega
    · exact ⟨left, right, rfl, h.hl, h.hr, by rw [← h.tot]; exact h.le⟩

theorem leastChildrenLoop_ok : ∀ (ns : List (List Node)) (i : Nat) (best : Option (Nat × Nat)) (all : List (List Node)),
    (∀ q, ns[q]? = all[i + q]?) →
    (∀ j l, best = some (j, l) → ∃ cs, all[j]? = some cs ∧ cs.length = l ∧ ∀ q < i, ∀ c, all[q]? = some c → l ≤ c.length) → (best = none → i = 0) →
    (leastChildrenLoop ns i best = none → ns = [] ∧ best = none) ∧
    ∀ j l, leastChildrenLoop ns i best = some (j, l) → ∃ cs, all[j]? = some cs ∧ cs.length = l ∧ ∀ c ∈ all, l ≤ c.length
  | [], i, best, all, h1, h2, h3 => by
    refine ⟨fun h => ⟨rfl, h⟩, fun j l h => ?_⟩
    obtain ⟨cs, e1, e2, e3⟩ := h2 j l h
    refine ⟨cs, e1, e2, fun c hc => ?_⟩
    obtain ⟨q, hq⟩ := List.getElem?_of_mem hc
    by_cases hlt : q < i
    · exact e3 q hlt c hq
    · have := h1 (q - i)
      rw [show i + (q - i) = q by omega, hq] at this
      simp at this
  | cs :: ns, i, best, all, h1, h2, h3 => by
    have hcs : all[i]? = some cs := by have := h1 0; simpa using this.symm
    have h1' : ∀ q, ns[q]? = all[i + 1 + q]? := by
      intro q
      have := h1 (q + 1)
      rw [List.getElem?_cons_succ] at this
      rw [this]; congr 1; omega
    have split : ∀ q < i + 1, q < i ∨ q = i := fun q h => by omega
    cases best with
    | none =>
      have := h3 rfl
      subst this
      rw [leastChildrenLoop]
      have ih := leastChildrenLoop_ok ns (0 + 1) (some (0, cs.length)) all h1' (by
        intro j l hjl
        simp only [Option.some.injEq, Prod.mk.injEq] at hjl
        obtain ⟨rfl, rfl⟩ := hjl
        refine ⟨cs, hcs, rfl, fun q hq c hc => ?_⟩
        have : q = 0 := by omega
        subst this
        rw [hcs, Option.some.injEq] at hc; subst hc; exact Nat.le_refl _) (by simp)
      exact ⟨fun h => absurd (ih.1 h).2 (by simp), ih.2⟩
    | some b =>
      obtain ⟨j0, l0⟩ := b
      rw [leastChildrenLoop]
      obtain ⟨c0, e1, e2, e3⟩ := h2 j0 l0 rfl
      have ih := leastChildrenLoop_ok ns (i + 1) (if cs.length < l0 then some (i, cs.length) else some (j0, l0)) all h1' (by
        intro j l hjl
        split at hjl <;> simp only [Option.some.injEq, Prod.mk.injEq] at hjl <;> obtain ⟨rfl, rfl⟩ := hjl
        · refine ⟨cs, hcs, rfl, fun q hq c hc => ?_⟩
          rcases split q hq with h | rfl
          · have := e3 q h c hc; omega
          · rw [hcs, Option.some.injEq] at hc; subst hc; exact Nat.le_refl _
        · refine ⟨c0, e1, e2, fun q hq c hc => ?_⟩
          rcases split q hq with h | rfl
          · exact e3 q h c hc
          · rw [hcs, Option.some.injEq] at hc; subst hc; omega) (by split <;> simp)
      refine ⟨fun h => ?_, ih.2⟩
      have := (ih.1 h).2
      split at this <;> simp at this

/-- `commonChildren` does not crash, and finds a common start and a common end. -/
theorem commonChildren_ok (nodes : List (List Node)) : ∃ left right, commonChildren nodes = some (left, right) ∧
    ∀ cs ∈ nodes, cs.take left.length = left ∧ cs.drop (cs.length - right.length) = right ∧ left.length + right.length ≤ cs.length := by
  unfold commonChildren
  split
  · exact ⟨[], [], rfl, fun cs _ => by simp⟩
  · rename_i htwo
    have hleast := leastChildrenLoop_ok nodes 0 none nodes (fun q => by simp) (by simp) (by simp)
    cases hl : leastChildrenLoop nodes 0 none with
    | none => rw [(hleast.1 hl).1] at htwo; simp at htwo
    | some p =>
      obtain ⟨idx, l⟩ := p
      obtain ⟨tree, e1, e2, e3⟩ := hleast.2 idx l hl
      simp only [e1]
      subst e2
      obtain ⟨left, right, e, g1, g2, g3⟩ := commonLoop_ok e1 e3 (by omega) tree.length 0 false false 0 [] [] (by omega)
        ⟨fun _ _ => by simp, fun _ _ => by simp, by simp, by simp, by simp, by simp, by simp, by simp⟩
      exact ⟨left, right, e, fun cs hcs => ⟨g1 cs hcs, g2 cs hcs, Nat.le_trans g3 (e3 cs hcs)⟩⟩

/-! ### Meaning -/

theorem matchesSome_iff {seps : List Nat} {cs : List Node} {w : List Nat} : MatchesSome seps cs w ↔ ∃ c ∈ cs, Matches seps c w := by
  induction cs with
  | nil => simp [MatchesSome]
  | cons c cs ih => simp [MatchesSome, ih]

theorem matchesSeq_append {seps : List Nat} {cs ds : List Node} {w : List Nat} :
    MatchesSeq seps (cs ++ ds) w ↔ ∃ u v, w = u ++ v ∧ MatchesSeq seps cs u ∧ MatchesSeq seps ds v := by
  induction cs generalizing w with
  | nil =>
    simp only [List.nil_append, MatchesSeq]
    constructor
    · intro h; exact ⟨[], w, rfl, rfl, h⟩
    · rintro ⟨u, v, rfl, rfl, h⟩; exact h
  | cons c cs ih =>
    simp only [List.cons_append, MatchesSeq]
    constructor
    · rintro ⟨a, b, rfl, h1, h2⟩
      obtain ⟨u, v, rfl, h3, h4⟩ := ih.1 h2
      exact ⟨a ++ u, v, by simp, ⟨a, u, rfl, h1, h3⟩, h4⟩
    · rintro ⟨_, v, rfl, ⟨a, u, rfl, h1, h2⟩, h3⟩
      exact ⟨a, u ++ v, by simp, h1, ih.2 ⟨u, v, rfl, h2, h3⟩⟩

theorem matchesSeq_singleton {seps : List Nat} {c : Node} {w : List Nat} : MatchesSeq seps [c] w ↔ Matches seps c w := by
  simp only [MatchesSeq]
  constructor
  · rintro ⟨a, b, rfl, h, rfl⟩; simpa using h
  · intro h; exact ⟨w, [], by simp, h, rfl⟩

theorem matchesSome_appendIfUnique {seps : List Nat} {acc : List Node} {v : Node} {w : List Nat} :
    MatchesSome seps (appendIfUnique acc v) w ↔ MatchesSome seps acc w ∨ Matches seps v w := by
  unfold appendIfUnique
  split
  · rename_i h
    rw [List.any_eq_true] at h
    obtain ⟨n, hn, he⟩ := h
    have := Node.eq_of_equal _ _ he
    subst this
    constructor
    · exact Or.inl
    · rintro (h | h)
      · exact h
      · exact matchesSome_iff.2 ⟨n, hn, h⟩
  · rw [matchesSome_iff, matchesSome_iff]
    simp [or_and_right, exists_or]

theorem appendIfUnique_ne_nil (acc : List Node) (v : Node) : appendIfUnique acc v ≠ [] := by
  unfold appendIfUnique
  split
  · rename_i h; rintro rfl; simp at h
  · simp

theorem reduceAlts_ok {seps : List Nat} {cl cr : Nat} : ∀ (ns : List (List Node)) (acc : List Node), (∀ cs ∈ ns, cl + cr ≤ cs.length) →
    ∃ acc', reduceAlts cl cr ns acc = some acc' ∧ (acc ≠ [] ∨ ns ≠ [] → acc' ≠ []) ∧
      ∀ w, MatchesSome seps acc' w ↔ MatchesSome seps acc w ∨ ∃ cs ∈ ns, MatchesSeq seps ((cs.take (cs.length - cr)).drop cl) w
  | [], acc, _ => ⟨acc, rfl, by simp, by simp⟩
  | cs :: ns, acc, h => by
    rw [reduceAlts, if_neg (by have := h cs List.mem_cons_self; omega)]
    obtain ⟨acc', e1, e2, e3⟩ := reduceAlts_ok (seps := seps) ns
      (appendIfUnique acc (if ((cs.take (cs.length - cr)).drop cl).isEmpty then .nothing else .pattern ((cs.take (cs.length - cr)).drop cl)))
      (fun c hc => h c (List.mem_cons_of_mem _ hc))
    refine ⟨acc', e1, fun _ => e2 (Or.inl ?_), fun w => ?_⟩
    · exact appendIfUnique_ne_nil _ _
    · rw [e3, matchesSome_appendIfUnique, or_assoc]
      have : Matches seps (if ((cs.take (cs.length - cr)).drop cl).isEmpty then .nothing else .pattern ((cs.take (cs.length - cr)).drop cl)) w ↔
          MatchesSeq seps ((cs.take (cs.length - cr)).drop cl) w := by
        split
        · rename_i he
          rw [List.isEmpty_iff] at he
          rw [he, Matches, MatchesSeq]
        · rw [Matches]
      rw [this]
      simp

theorem reducedPart_matches {seps : List Nat} {alts : List Node} (h : alts ≠ []) {w : List Nat} :
    MatchesSeq seps (reducedPart alts) w ↔ MatchesSome seps alts w := by
  rcases alts with _ | ⟨n, _ | ⟨n', ns⟩⟩
  · exact absurd rfl h
  · cases n <;> simp only [reducedPart, matchesSeq_singleton, MatchesSome, or_false]
    rw [MatchesSeq, Matches]
  · simp only [reducedPart, matchesSeq_singleton, Matches]

theorem patternChildren_some : ∀ {cs : List Node} {nodes : List (List Node)}, patternChildren cs = some nodes → cs = nodes.map .pattern
  | [], nodes, h => by simp only [patternChildren, Option.some.injEq] at h; subst h; rfl
  | c :: cs, nodes, h => by
    cases c <;> simp only [patternChildren, reduceCtorEq] at h
    rename_i ds
    rw [Option.map_eq_some_iff] at h
    obtain ⟨ns, e1, rfl⟩ := h
    rw [List.map_cons, patternChildren_some e1]

theorem mid_split {cs left right : List Node} (h1 : cs.take left.length = left) (h2 : cs.drop (cs.length - right.length) = right)
    (h3 : left.length + right.length ≤ cs.length) : cs = left ++ (cs.take (cs.length - right.length)).drop left.length ++ right := by
  have e1 : cs = cs.take (cs.length - right.length) ++ right := by
    conv_lhs => rw [← List.take_append_drop (cs.length - right.length) cs, h2]
  have e2 : left = (cs.take (cs.length - right.length)).take left.length := by
    rw [List.take_take, Nat.min_eq_left (by omega), h1]
  conv_lhs => rw [e1]
  congr 1
  conv_lhs => rw [← List.take_append_drop left.length (cs.take (cs.length - right.length)), ← e2]

/-- `minimizeTree` does not crash; a new tree matches the same. -/
theorem minimizeTree_ok (seps : List Nat) (cs : List Node) : ∃ o, minimizeTreeAnyOf cs = some o ∧
    ∀ t, o = some t → ∀ w, Matches seps t w ↔ Matches seps (.anyOf cs) w := by
  unfold minimizeTreeAnyOf
  cases hp : patternChildren cs with
  | none => exact ⟨none, rfl, by simp⟩
  | some nodes =>
    obtain ⟨left, right, e, hc⟩ := commonChildren_ok nodes
    simp only [e]
    split
    · exact ⟨none, rfl, by simp⟩
    · rename_i hne
      obtain ⟨alts, e1, e2, e3⟩ := reduceAlts_ok (seps := seps) (cl := left.length) (cr := right.length) nodes [] (fun cs hcs => (hc cs hcs).2.2)
      rw [e1]
      refine ⟨_, rfl, ?_⟩
      intro t ht w
      simp only [Option.some.injEq] at ht
      subst ht
      have hnodes : nodes ≠ [] := by
        rintro rfl
        simp only [commonChildren, List.length_nil, Nat.zero_le, if_true, Option.some.injEq, Prod.mk.injEq] at e
        obtain ⟨rfl, rfl⟩ := e
        simp at hne
      have hcs := patternChildren_some hp
      have part : ∀ (l : List Node) (w : List Nat), MatchesSeq seps (if l.length > 0 then [.pattern l] else []) w ↔ MatchesSeq seps l w := by
        intro l w
        split
        · rw [matchesSeq_singleton, Matches]
        · rename_i h
          have : l = [] := List.length_eq_zero_iff.1 (by omega)
          subst this; rfl
      rw [Matches, Matches, hcs, matchesSome_iff, matchesSeq_append]
      simp only [part, matchesSeq_append, reducedPart_matches (e2 (Or.inr hnodes)), e3, List.mem_map]
      constructor
      · rintro ⟨_, v, rfl, ⟨u1, u2, rfl, h1, h2⟩, h3⟩
        rcases h2 with h2 | ⟨c, hc', h2⟩
        · simp [MatchesSome] at h2
        · refine ⟨.pattern c, ⟨c, hc', rfl⟩, ?_⟩
          obtain ⟨g1, g2, g3⟩ := hc c hc'
          rw [Matches, mid_split g1 g2 g3, matchesSeq_append]
          refine ⟨u1 ++ u2, v, rfl, ?_, h3⟩
          rw [matchesSeq_append]
          exact ⟨u1, u2, rfl, h1, h2⟩
      · rintro ⟨_, ⟨c, hc', rfl⟩, h⟩
        obtain ⟨g1, g2, g3⟩ := hc c hc'
        rw [Matches, mid_split g1 g2 g3, matchesSeq_append] at h
        obtain ⟨u, v, rfl, h, h3⟩ := h
        rw [matchesSeq_append] at h
        obtain ⟨u1, u2, rfl, h1, h2⟩ := h
        exact ⟨u1 ++ u2, v, rfl, ⟨u1, u2, rfl, h1, Or.inr ⟨c, hc', h2⟩⟩, h3⟩

end Verif.Glob
