import Verif.Glob.RuneGlob
import Verif.Glob.WideSeq
/-
C57 for braces around alternatives that share their first or last term and are literal otherwise, like `{*.go,*.md}` or `{src/**,doc/**}`: the compiler takes out what they share.
-/
namespace Verif.Glob

/-- The two terms stand for the same tree. -/
def sameTerm (a b : Option Term) : Bool :=
  match a, b with
  | some a, some b => a.node.equal b.node
  | none, none => true
  | _, _ => false

/-! ### Optimising twice -/

mutual
/-- The leaves, as far as `optimizeMatcher` goes down, do not change. -/
def Leafy : Matcher → Prop
  | .btree _ l r _ _ _ => LeafyOpt l ∧ LeafyOpt r
  | m => optimizeMatcher m = m
def LeafyOpt : Option Matcher → Prop
  | none => True
  | some m => Leafy m
end

theorem optimizeBTree_again {v : Matcher} {l r : Option Matcher} {ll rl len : Option Nat} (hl : optimizeOpt l = l) (hr : optimizeOpt r = r) :
    optimizeMatcher (optimizeBTree v l r ll rl len) = optimizeBTree v l r ll rl len := by
  have hb : optimizeMatcher (.btree v l r ll rl len) = optimizeBTree v l r ll rl len := by rw [optimizeMatcher, hl, hr]
  have e : optimizeBTree v l r ll rl len = optimizeBTree v l r ll rl len := rfl
  conv at e => rhs; unfold optimizeBTree
  simp only at e
  split at e
  · split at e <;> first
      | (rw [e]; rfl)
      | (conv_lhs => rw [e]
         exact hb)
  · conv_lhs => rw [e]
    exact hb

mutual
theorem leafy_idem : ∀ (m : Matcher), Leafy m → optimizeMatcher (optimizeMatcher m) = optimizeMatcher m
  | .btree v l r ll rl len, h => by
    rw [Leafy] at h
    rw [optimizeMatcher]
    exact optimizeBTree_again (leafy_idemOpt l h.1) (leafy_idemOpt r h.2)
  | .nothing, h | .any _, h | .super, h | .single _, h | .list _ _, h | .range _ _ _, h | .text _, h | .min _, h | .max _, h | .contains _ _, h
  | .prefix _, h | .suffix _, h | .prefixSuffix _ _, h | .prefixAny _ _, h | .suffixAny _ _, h | .anyOf _, h | .everyOf _, h | .row _ _, h => by
    simp only [Leafy] at h; rw [h]; exact h
theorem leafy_idemOpt : ∀ (m : Option Matcher), LeafyOpt m → optimizeOpt (optimizeOpt m) = optimizeOpt m
  | none, _ => rfl
  | some m, h => by
    rw [LeafyOpt] at h
    rw [optimizeOpt, optimizeOpt, leafy_idem m h]
end

theorem optimizeBTree_same {v : Matcher} {l r l' r' : Option Matcher} {ll rl len : Option Nat} (h : optimizeBTree v l r ll rl len = .btree v l' r' ll rl len) : l = l' ∧ r = r' := by
  unfold optimizeBTree at h
  simp only at h
  split at h
  · split at h <;> first | (cases h; done) | (simp only [Matcher.btree.injEq] at h; exact ⟨h.2.1, h.2.2.1⟩)
  · simp only [Matcher.btree.injEq] at h; exact ⟨h.2.1, h.2.2.1⟩

mutual
theorem leafy_of_fixed : ∀ {m : Matcher}, optimizeMatcher m = m → Leafy m
  | .btree v l r ll rl len, h => by
    rw [optimizeMatcher] at h
    obtain ⟨h1, h2⟩ := optimizeBTree_same h
    rw [Leafy]
    exact ⟨leafyOpt_of_fixed h1, leafyOpt_of_fixed h2⟩
  | .nothing, h | .any _, h | .super, h | .single _, h | .list _ _, h | .range _ _ _, h | .text _, h | .min _, h | .max _, h | .contains _ _, h
  | .prefix _, h | .suffix _, h | .prefixSuffix _ _, h | .prefixAny _ _, h | .suffixAny _ _, h | .anyOf _, h | .everyOf _, h | .row _ _, h => by
    simp only [Leafy]; exact h
theorem leafyOpt_of_fixed : ∀ {m : Option Matcher}, optimizeOpt m = m → LeafyOpt m
  | none, _ => trivial
  | some m, h => by
    rw [LeafyOpt]
    simp only [optimizeOpt, Option.some.injEq] at h
    exact leafy_of_fixed h
end

theorem leafy_compile : ∀ (k : Nat) (ms : List Matcher) (m : Matcher), compileMatchers k ms = .ok m → (∀ e ∈ ms, elem e = true) → NoGlue ms → Leafy m := by
  intro k
  induction k with
  | zero => intro ms m h; cases h
  | succ n ih =>
    intro ms m h hel hng
    have leaf : ∀ e, elem e = true → Leafy e := fun e he => leafy_of_fixed (elem_opt he)
    unfold compileMatchers at h
    split at h
    · cases h
    · simp only [Res.ok.injEq] at h; subst h; exact leaf _ (hel _ (by simp))
    · rename_i m0 rest hne
      rw [hng [] (m0 :: rest) [] (by simp)] at h
      simp only at h
      split at h
      · split at h
        · rename_i r hr
          simp only [Res.ok.injEq] at h
          subst h
          rw [newBTree, Leafy, LeafyOpt, LeafyOpt]
          exact ⟨trivial, ih rest r hr (fun e he => hel e (by simp [he])) (NoGlue.part (as := [m0]) (cs := []) (by simpa using hng))⟩
        · rename_i hno; exact absurd h (hno m)
      · rename_i idx len hidx
        split at h
        · cases h
        · rename_i val hval
          have side : ∀ (part : List Matcher) (o : Option Matcher), (if part.isEmpty then Res.ok none else match compileMatchers n part with
              | .ok l => .ok (some l)
              | .err e => .err e
              | .panic => .panic
              | .steps => .steps) = Res.ok o → (∀ m ∈ part, elem m = true) → NoGlue part → LeafyOpt o := by
            intro part o ho p1 p2
            split at ho
            · simp only [Res.ok.injEq] at ho; subst ho; trivial
            · split at ho <;> simp only [Res.ok.injEq, reduceCtorEq] at ho
              rename_i l hl
              subst ho
              exact ih part l hl p1 p2
          split at h <;> try cases h
          rename_i lo hlo
          split at h <;> try cases h
          rename_i ro hro
          simp only [newBTree, Leafy]
          refine ⟨side _ _ hlo (fun e he => hel e (List.mem_of_mem_take he)) ?_, side _ _ hro (fun e he => hel e (List.mem_of_mem_drop he)) ?_⟩
          · exact NoGlue.part (as := []) (cs := (m0 :: rest).drop idx) (by simpa using hng)
          · exact NoGlue.part (as := (m0 :: rest).take (idx + 1)) (cs := []) (by simpa using hng)

/-! ### The tree -/

mutual
theorem Node.equal_refl : ∀ n : Node, n.equal n = true
  | .nothing | .any | .super | .single => rfl
  | .pattern cs => by rw [Node.equal]; exact equalNodes_refl cs
  | .anyOf cs => by rw [Node.equal]; exact equalNodes_refl cs
  | .list _ _ => by simp [Node.equal]
  | .range _ _ _ => by simp [Node.equal]
  | .text _ => by simp [Node.equal]
theorem equalNodes_refl : ∀ ns : List Node, equalNodes ns ns = true
  | [] => rfl
  | n :: ns => by rw [equalNodes, Node.equal_refl n, equalNodes_refl ns]; rfl
end

theorem sameTerm_of_nodes {a b : Option Term} (h : a.map Term.node = b.map Term.node) : sameTerm a b = true := by
  cases a <;> cases b <;> simp only [Option.map_none, Option.map_some, reduceCtorEq, Option.some.injEq] at h
  · rfl
  · rw [sameTerm, h]; exact Node.equal_refl _

/-! ### What `commonChildren` finds -/

theorem inner_left {idx T i j : Nat} {tl tr : Node} : ∀ (ns : List (List Node)) (k : Nat) (br bl' br' : Bool), (∀ cs ∈ ns, cs[i]? = some tl) →
    commonInner idx T i j tl tr ns k (false, br) = some (bl', br') → bl' = false
  | [], k, br, bl', br', _, h => by simp only [commonInner, Option.some.injEq, Prod.mk.injEq] at h; exact h.1.symm
  | cs :: ns, k, br, bl', br', hl, h => by
    have hl' : ∀ cs ∈ ns, cs[i]? = some tl := fun c hc => hl c (List.mem_cons_of_mem _ hc)
    unfold commonInner at h
    rw [if_neg (by simp)] at h
    split at h
    · exact inner_left ns _ _ _ _ hl' h
    · split at h
      · rename_i a b ha hb
        have := hl cs (by simp)
        rw [this, Option.some.injEq] at ha
        subst ha
        simp only [Node.equal_refl, Bool.not_true, Bool.or_false] at h
        exact inner_left ns _ _ _ _ hl' h
      · cases h

theorem inner_right {idx T i j : Nat} {tl tr : Node} : ∀ (ns : List (List Node)) (k : Nat) (bl bl' br' : Bool), (∀ cs ∈ ns, cs[j + cs.length - T]? = some tr) →
    (i < j ∨ ∀ q cs, ns[q]? = some cs → k + q ≠ idx → ∀ x, cs[i]? = some x → tl.equal x = false) →
    commonInner idx T i j tl tr ns k (bl, false) = some (bl', br') → br' = false
  | [], k, bl, bl', br', _, _, h => by simp only [commonInner, Option.some.injEq, Prod.mk.injEq] at h; exact h.2.symm
  | cs :: ns, k, bl, bl', br', hr, hc, h => by
    have hr' : ∀ cs ∈ ns, cs[j + cs.length - T]? = some tr := fun c hc => hr c (List.mem_cons_of_mem _ hc)
    have hc' : i < j ∨ ∀ q cs, ns[q]? = some cs → k + 1 + q ≠ idx → ∀ x, cs[i]? = some x → tl.equal x = false := by
      rcases hc with h | h
      · exact Or.inl h
      · exact Or.inr fun q c hq hk => h (q + 1) c (by simpa using hq) (by omega)
    unfold commonInner at h
    rw [if_neg (by simp)] at h
    split at h
    · exact inner_right ns _ _ _ _ hr' hc' h
    · rename_i hk
      split at h
      · rename_i a b ha hb
        have := hr cs (by simp)
        rw [this, Option.some.injEq] at hb
        subst hb
        have e : ((!(bl || !tl.equal a)) && decide (j ≤ i)) = false := by
          rcases hc with h | h
          · rw [decide_eq_false (by omega), Bool.and_false]
          · rw [h 0 cs (by simp) hk a ha]; simp
        simp only [Node.equal_refl, Bool.not_true, Bool.or_false, e] at h
        exact inner_right ns _ _ _ _ hr' hc' h
      · cases h

theorem loop_grows {nodes : List (List Node)} {idx : Nat} {tree : List Node} : ∀ (n i : Nat) (bs : Bool × Bool) (total : Nat) (left right L R : List Node),
    commonLoop nodes idx tree n i bs total left right = some (L, R) → left.length ≤ L.length ∧ right.length ≤ R.length
  | 0, i, bs, total, left, right, L, R, h => by
    simp only [commonLoop, Option.some.injEq, Prod.mk.injEq] at h
    rw [h.1, h.2]; exact ⟨Nat.le_refl _, Nat.le_refl _⟩
  | j + 1, i, bs, total, left, right, L, R, h => by
    unfold commonLoop at h
    simp only at h
    split at h
    · split at h
      · split at h
        · cases h
        · have := loop_grows j _ _ _ _ _ L R h
          constructor
          · refine Nat.le_trans ?_ this.1
            split <;> simp
          · refine Nat.le_trans ?_ this.2
            split <;> simp
      · cases h
    · simp only [Option.some.injEq, Prod.mk.injEq] at h
      rw [h.1, h.2]; exact ⟨Nat.le_refl _, Nat.le_refl _⟩

/-- The first step of the loop. -/
theorem common_first {nodes : List (List Node)} (h2 : 2 ≤ nodes.length) (hpos : ∀ cs ∈ nodes, cs ≠ []) {L R : List Node} (h : commonChildren nodes = some (L, R)) :
    ∃ idx tree tl tr, nodes[idx]? = some tree ∧ (∀ cs ∈ nodes, tree.length ≤ cs.length) ∧ tree[0]? = some tl ∧ tree[tree.length - 1]? = some tr ∧
      ∃ bl br, commonInner idx tree.length 0 (tree.length - 1) tl tr nodes 0 (false, false) = some (bl, br) ∧ (bl = false → 1 ≤ L.length) ∧ (br = false → 1 ≤ R.length) := by
  unfold commonChildren at h
  rw [if_neg (by omega)] at h
  have hleast := leastChildrenLoop_ok nodes 0 none nodes (fun q => by simp) (by simp) (by simp)
  cases hl : leastChildrenLoop nodes 0 none with
  | none => rw [(hleast.1 hl).1] at h2; simp at h2
  | some p =>
    obtain ⟨idx, l⟩ := p
    obtain ⟨tree, e1, e2, e3⟩ := hleast.2 idx l hl
    subst e2
    rw [hl] at h
    simp only [e1] at h
    have hne : tree ≠ [] := hpos tree (List.mem_of_getElem? e1)
    obtain ⟨n, hn⟩ : ∃ n, tree.length = n + 1 := ⟨tree.length - 1, by have := List.length_pos_iff.2 hne; omega⟩
    have ha : tree[0]? = some tree[0] := List.getElem?_eq_getElem (by omega)
    have hb : tree[n]? = some tree[n] := List.getElem?_eq_getElem (by omega)
    generalize tree[0] = tl at ha
    generalize tree[n] = tr at hb
    refine ⟨idx, tree, tl, tr, e1, e3, ha, by rw [hn]; exact hb, ?_⟩
    rw [hn, commonLoop, if_pos (by simp [hn]), ha, hb] at h
    simp only at h
    rw [hn, Nat.add_sub_cancel]
    rw [hn] at h
    split at h
    · cases h
    · rename_i bl br hin
      refine ⟨bl, br, hin, ?_, ?_⟩
      · rintro rfl
        have := (loop_grows _ _ _ _ _ _ _ _ h).1
        simpa using this
      · rintro rfl
        have := (loop_grows _ _ _ _ _ _ _ _ h).2
        simpa using this

theorem common_left {nodes : List (List Node)} (h2 : 2 ≤ nodes.length) {x : Node} (hx : ∀ cs ∈ nodes, cs.head? = some x) {L R : List Node}
    (h : commonChildren nodes = some (L, R)) : 1 ≤ L.length := by
  obtain ⟨idx, tree, tl, tr, e1, e3, ha, hb, bl, br, hin, hL, _⟩ := common_first h2 (fun cs hcs e => by have := hx cs hcs; rw [e] at this; cases this) h
  apply hL
  refine inner_left nodes 0 false bl br (fun cs hcs => ?_) hin
  rw [← List.head?_eq_getElem?] at ha ⊢
  rw [hx tree (List.mem_of_getElem? e1)] at ha
  rw [hx cs hcs, ha]

theorem common_right {nodes : List (List Node)} (h2 : 2 ≤ nodes.length) {x : Node} (hx : ∀ cs ∈ nodes, cs.getLast? = some x)
    (hc : (∀ cs ∈ nodes, 2 ≤ cs.length) ∨ ∀ (a b : Nat) cs ds, a ≠ b → nodes[a]? = some cs → nodes[b]? = some ds → cs.head? ≠ ds.head?) {L R : List Node}
    (h : commonChildren nodes = some (L, R)) : 1 ≤ R.length := by
  obtain ⟨idx, tree, tl, tr, e1, e3, ha, hb, bl, br, hin, _, hR⟩ := common_first h2 (fun cs hcs e => by have := hx cs hcs; rw [e] at this; cases this) h
  apply hR
  have hlast : tr = x := by
    rw [← List.getLast?_eq_getElem?, hx tree (List.mem_of_getElem? e1)] at hb
    simpa using hb.symm
  have hpos : 1 ≤ tree.length := by
    by_contra h0
    rw [List.getElem?_eq_none (by omega)] at ha; cases ha
  refine inner_right nodes 0 false bl br (fun cs hcs => ?_) ?_ hin
  · have hle := e3 cs hcs
    rw [show tree.length - 1 + cs.length - tree.length = cs.length - 1 by omega, ← List.getLast?_eq_getElem?, hx cs hcs, hlast]
  · rcases hc with hc | hc
    · left
      have := hc tree (List.mem_of_getElem? e1)
      omega
    · right
      intro q cs hq hne y hy
      rw [Nat.zero_add] at hne
      rw [Bool.eq_false_iff]
      intro he
      have := Node.eq_of_equal _ _ he
      subst this
      apply hc idx q tree cs (Ne.symm hne) e1 hq
      rw [List.head?_eq_getElem?, List.head?_eq_getElem?, ha, hy]

/-- Alternatives that are one of different parts of at most one node, between what they share. -/
theorem common_exact {L0 R0 : List Node} {M : List (List Node)} (hM : ∀ m ∈ M, m.length ≤ 1) (hnd : M.Nodup) (h2 : 2 ≤ M.length) (hL : L0.length ≤ 1) (hR : R0.length ≤ 1)
    (hno : [] ∈ M → ∀ m ∈ M, m ≠ [] → R0 ≠ m ∧ L0 ≠ m) : commonChildren (M.map fun m => L0 ++ m ++ R0) = some (L0, R0) := by
  obtain ⟨left, right, e, hc⟩ := commonChildren_ok (M.map fun m => L0 ++ m ++ R0)
  rw [e]
  have hcl : ∀ m ∈ M, (L0 ++ m ++ R0).take left.length = left := fun m hm => (hc _ (List.mem_map_of_mem hm)).1
  have hcr : ∀ m ∈ M, (L0 ++ m ++ R0).drop ((L0 ++ m ++ R0).length - right.length) = right := fun m hm => (hc _ (List.mem_map_of_mem hm)).2.1
  have hlen : ∀ m ∈ M, left.length + right.length ≤ L0.length + m.length + R0.length := fun m hm => by
    have := (hc _ (List.mem_map_of_mem hm)).2.2
    simpa [Nat.add_assoc] using this
  -- heads and last elements differ
  have heads : ∀ a ∈ M, ∀ b ∈ M, a ≠ b → (a ++ R0).head? = (b ++ R0).head? → (a ++ R0).head? = none := by
    intro a ha b hb hab h
    have key : ∀ y ∈ M, [] ∈ M → y ≠ [] → R0.head? = (y ++ R0).head? → R0.head? = none := by
      intro y hy h0 hne h
      rcases y with _ | ⟨y, _ | ⟨z, ys⟩⟩
      · exact absurd rfl hne
      · rcases R0 with _ | ⟨r, _ | ⟨r', rs⟩⟩
        · rfl
        · simp only [List.head?_cons, List.cons_append, Option.some.injEq] at h
          exact absurd (by rw [h]) (hno h0 _ hy (by simp)).1
        · simp at hR
      · have := hM _ hy; simp at this
    rcases a with _ | ⟨x, _ | ⟨z, ys⟩⟩
    · exact key b hb ha (Ne.symm hab) h
    · rcases b with _ | ⟨y, _ | ⟨z', zs⟩⟩
      · rw [h]; exact key [x] ha hb (by simp) h.symm
      · simp only [List.cons_append, List.head?_cons, Option.some.injEq] at h
        exact absurd (by rw [h]) hab
      · have := hM _ hb; simp at this
    · have := hM _ ha; simp at this
  have lasts : ∀ a ∈ M, ∀ b ∈ M, a ≠ b → (L0 ++ a).getLast? = (L0 ++ b).getLast? → (L0 ++ a).getLast? = none := by
    intro a ha b hb hab h
    have key : ∀ y ∈ M, [] ∈ M → y ≠ [] → L0.getLast? = (L0 ++ y).getLast? → L0.getLast? = none := by
      intro y hy h0 hne h
      rcases y with _ | ⟨y, _ | ⟨z, ys⟩⟩
      · exact absurd rfl hne
      · rcases L0 with _ | ⟨r, _ | ⟨r', rs⟩⟩
        · rfl
        · simp only [List.getLast?_singleton, List.getLast?_append, Option.some_or, Option.some.injEq] at h
          exact absurd (by rw [h]) (hno h0 _ hy (by simp)).2
        · simp at hL
      · have := hM _ hy; simp at this
    rcases a with _ | ⟨x, _ | ⟨z, ys⟩⟩
    · rw [List.append_nil] at h ⊢
      exact key b hb ha (Ne.symm hab) h
    · rcases b with _ | ⟨y, _ | ⟨z', zs⟩⟩
      · rw [h, List.append_nil]; rw [List.append_nil] at h; exact key [x] ha hb (by simp) h.symm
      · simp only [List.getLast?_append, List.getLast?_singleton, Option.some_or, Option.some.injEq] at h
        exact absurd (by rw [h]) hab
      · have := hM _ hb; simp at this
    · have := hM _ ha; simp at this
  obtain ⟨a, b, M', rfl⟩ : ∃ a b M', M = a :: b :: M' := by
    rcases M with _ | ⟨a, _ | ⟨b, M'⟩⟩
    · simp at h2
    · simp at h2
    · exact ⟨_, _, _, rfl⟩
  have hab : a ≠ b := by
    intro e
    rw [List.nodup_cons] at hnd
    exact hnd.1 (by simp [e])
  have hlL : left.length ≤ L0.length := by
    by_contra hlt
    have hh : ∀ m ∈ a :: b :: M', (m ++ R0).head? = left[L0.length]? := by
      intro m hm
      rw [← hcl m hm, List.getElem?_take_of_lt (by omega), List.append_assoc, List.getElem?_append_right (Nat.le_refl _), Nat.sub_self, List.head?_eq_getElem?]
    have := heads a (by simp) b (by simp) hab ((hh a (by simp)).trans (hh b (by simp)).symm)
    rw [hh a (by simp), List.getElem?_eq_none_iff] at this
    omega
  have hrR : right.length ≤ R0.length := by
    by_contra hlt
    have hh : ∀ m ∈ a :: b :: M', (L0 ++ m).getLast? = right[right.length - 1 - R0.length]? := by
      intro m hm
      have h1 := hlen m hm
      have h2 : (L0 ++ m ++ R0).length = L0.length + m.length + R0.length := by simp [Nat.add_assoc]
      have h3 : right[right.length - 1 - R0.length]? = ((L0 ++ m ++ R0).drop ((L0 ++ m ++ R0).length - right.length))[right.length - 1 - R0.length]? := by rw [hcr m hm]
      have h4 : (L0 ++ m).length = L0.length + m.length := by simp
      rw [h3, List.getElem?_drop, h2, List.getLast?_eq_getElem?, h4]
      rw [show L0.length + m.length + R0.length - right.length + (right.length - 1 - R0.length) = L0.length + m.length - 1 by omega]
      exact (List.getElem?_append_left (l₂ := R0) (by rw [h4]; omega)).symm
    have := lasts a (by simp) b (by simp) hab ((hh a (by simp)).trans (hh b (by simp)).symm)
    rw [hh a (by simp), List.getElem?_eq_none_iff] at this
    omega
  have htwo : 2 ≤ ((a :: b :: M').map fun m => L0 ++ m ++ R0).length := by rw [List.length_map]; exact h2
  have el : left = L0 := by
    rw [← hcl a (by simp)]
    rcases L0 with _ | ⟨x, _ | ⟨y, ys⟩⟩
    · rw [List.length_nil] at hlL; rw [show left.length = 0 by omega]; rfl
    · have := common_left htwo (x := x) (fun cs hcs => by obtain ⟨m, _, rfl⟩ := List.mem_map.1 hcs; rfl) e
      rw [List.length_singleton] at hlL
      rw [show left.length = 1 by omega]; rfl
    · simp at hL
  have er : right = R0 := by
    have hr0 := hcr a (by simp)
    rw [← hr0]
    rcases R0 with _ | ⟨x, _ | ⟨y, ys⟩⟩
    · rw [List.length_nil] at hrR; rw [show right.length = 0 by omega]; simp
    · have := common_right htwo (x := x) (fun cs hcs => by obtain ⟨m, _, rfl⟩ := List.mem_map.1 hcs; simp) (by
        rcases L0 with _ | ⟨l, ls⟩
        · right
          intro i j cs ds hij hi hj
          rw [List.getElem?_map, Option.map_eq_some_iff] at hi hj
          obtain ⟨m1, h1, rfl⟩ := hi
          obtain ⟨m2, h2, rfl⟩ := hj
          intro hh
          have hne : m1 ≠ m2 := by
            rintro rfl
            exact hij ((List.getElem?_inj (List.getElem?_eq_some_iff.1 h1).1 hnd).1 (h1.trans h2.symm))
          have := heads m1 (List.mem_of_getElem? h1) m2 (List.mem_of_getElem? h2) hne (by simpa using hh)
          simp at this
        · by_cases h0 : ∃ m ∈ a :: b :: M', True
          · left
            intro cs hcs
            obtain ⟨m, _, rfl⟩ := List.mem_map.1 hcs
            simp; omega
          · exact absurd ⟨a, by simp⟩ h0) e
      rw [List.length_singleton] at hrR
      have hr1 : right.length = 1 := by omega
      rw [hr1, List.length_append, List.length_singleton, Nat.add_sub_cancel, List.drop_left]
    · simp at hR
  rw [el, er]

/-! ### Terms -/

/-- The first term, if all the alternatives have the same. -/
def firstShared (p : List Term) (ps : List (List Term)) : List Term := if !p.isEmpty && ps.all (fun q => sameTerm p.head? q.head?) then p.take 1 else []

/-- The last term after that, if all have the same. -/
def lastShared (p : List Term) (ps : List (List Term)) : List Term :=
  let k := (firstShared p ps).length
  if !(p.drop k).isEmpty && ps.all (fun q => sameTerm (p.drop k).getLast? (q.drop k).getLast?) then (p.drop k).drop ((p.drop k).length - 1) else []

/-- An alternative without what is shared. -/
def ownPart (p : List Term) (ps : List (List Term)) (q : List Term) : List Term :=
  let r := q.drop (firstShared p ps).length
  r.take (r.length - (lastShared p ps).length)

/-- `{xAy,xBy}` is `x{A,B}y`. -/
def sharedOut (p : List Term) (ps : List (List Term)) : List Term :=
  firstShared p ps ++ [.alts (ownPart p ps p) (ps.map (ownPart p ps))] ++ lastShared p ps

theorem sameTerm_nodes {a b : Option Term} (h : sameTerm a b = true) : a.map Term.node = b.map Term.node := by
  cases a <;> cases b <;> simp only [sameTerm, Bool.false_eq_true] at h
  · rfl
  · simp [Node.eq_of_equal _ _ h]

theorem firstShared_len (p : List Term) (ps : List (List Term)) : (firstShared p ps).length ≤ 1 := by
  unfold firstShared; split
  · simp; omega
  · simp

theorem lastShared_len (p : List Term) (ps : List (List Term)) : (lastShared p ps).length ≤ 1 := by
  unfold lastShared
  simp only
  split
  · simp only [List.length_drop]; omega
  · simp

theorem firstShared_split {p : List Term} {ps : List (List Term)} {q : List Term} (hq : q ∈ p :: ps) :
    ∃ l, q = l ++ q.drop (firstShared p ps).length ∧ l.map Term.node = (firstShared p ps).map Term.node ∧ l.length = (firstShared p ps).length := by
  unfold firstShared
  split
  · rename_i h
    simp only [Bool.and_eq_true, Bool.not_eq_true', List.all_eq_true, List.isEmpty_eq_false_iff] at h
    obtain ⟨h0, h⟩ := h
    obtain ⟨x, p', rfl⟩ := List.exists_cons_of_ne_nil h0
    have e : (q.head?).map Term.node = some x.node := by
      rcases List.mem_cons.1 hq with rfl | hq
      · rfl
      · exact (sameTerm_nodes (h q hq)).symm
    cases q with
    | nil => cases e
    | cons y q => exact ⟨[y], by simp, by simpa using e, by simp⟩
  · exact ⟨[], by simp, rfl, rfl⟩

theorem lastShared_split {p : List Term} {ps : List (List Term)} {q : List Term} (hq : q ∈ p :: ps) :
    ∃ r, q.drop (firstShared p ps).length = ownPart p ps q ++ r ∧ r.map Term.node = (lastShared p ps).map Term.node ∧ r.length = (lastShared p ps).length := by
  unfold ownPart lastShared
  simp only
  generalize hk : (firstShared p ps).length = k
  split
  · rename_i h
    simp only [Bool.and_eq_true, Bool.not_eq_true', List.all_eq_true, List.isEmpty_eq_false_iff] at h
    obtain ⟨h0, h⟩ := h
    have hn : 1 ≤ (p.drop k).length := List.length_pos_iff.2 h0
    have e : ((q.drop k).getLast?).map Term.node = ((p.drop k).getLast?).map Term.node := by
      rcases List.mem_cons.1 hq with rfl | hq
      · rfl
      · exact (sameTerm_nodes (h q hq)).symm
    generalize p.drop k = P at *
    generalize q.drop k = Q at *
    rcases List.eq_nil_or_concat P with rfl | ⟨P, x, rfl⟩
    · exact absurd rfl h0
    rcases List.eq_nil_or_concat Q with rfl | ⟨Q, y, rfl⟩
    · simp at e
    refine ⟨[y], ?_, ?_, ?_⟩
    · simp
    · simpa using e
    · simp
  · exact ⟨[], by rw [List.length_nil, Nat.sub_zero, List.take_length, List.append_nil], rfl, rfl⟩

theorem own_nodes {p : List Term} {ps : List (List Term)} {q : List Term} (hq : q ∈ p :: ps) :
    ∃ l r, q = l ++ ownPart p ps q ++ r ∧ l.map Term.node = (firstShared p ps).map Term.node ∧ r.map Term.node = (lastShared p ps).map Term.node := by
  obtain ⟨l, h1, h2, _⟩ := firstShared_split hq
  obtain ⟨r, h3, h4, _⟩ := lastShared_split hq
  exact ⟨l, r, by rw [List.append_assoc, ← h3]; exact h1, h2, h4⟩

/-! ### The factored tree -/

/-- What is left of an alternative. -/
def ownNode (m : List Node) : Node := if m.isEmpty then .nothing else .pattern m

theorem ownNode_inj {a b : List Node} (h : ownNode a = ownNode b) : a = b := by
  unfold ownNode at h
  cases a <;> cases b <;> simp at h ⊢
  exact h

theorem reduce_exact {L0 R0 : List Node} : ∀ (M : List (List Node)) (acc : List Node), M.Nodup → (∀ m ∈ M, ownNode m ∉ acc) →
    reduceAlts L0.length R0.length (M.map fun m => L0 ++ m ++ R0) acc = some (acc ++ M.map ownNode)
  | [], acc, _, _ => by simp [reduceAlts]
  | m :: M, acc, hnd, hacc => by
    rw [List.nodup_cons] at hnd
    rw [List.map_cons, reduceAlts, if_neg (by simp)]
    have e : ((L0 ++ m ++ R0).take ((L0 ++ m ++ R0).length - R0.length)).drop L0.length = m := by
      rw [List.length_append, Nat.add_sub_cancel, List.take_left, List.drop_left]
    rw [e]
    have e2 : appendIfUnique acc (if m.isEmpty then .nothing else .pattern m) = acc ++ [ownNode m] := by
      unfold appendIfUnique
      rw [if_neg]
      · rfl
      · simp only [List.any_eq_true, not_exists, not_and]
        intro n hn he
        have := Node.eq_of_equal _ _ he
        exact hacc m (by simp) (by rw [ownNode, ← this]; exact hn)
    simp only [e2]
    rw [reduce_exact M _ hnd.2]
    · simp
    · intro m' hm' hin
      rcases List.mem_append.1 hin with h | h
      · exact hacc m' (by simp [hm']) h
      · rw [List.mem_singleton] at h
        rw [ownNode_inj h] at hm'
        exact hnd.1 hm'

theorem patternChildren_nothing : ∀ (cs : List Node), Node.nothing ∈ cs → patternChildren cs = none
  | c :: cs, h => by
    rcases List.mem_cons.1 h with rfl | h'
    · rfl
    · have := patternChildren_nothing cs h'
      cases c <;> simp [patternChildren, this]

/-- The alternatives share something, and are literal otherwise, and different. -/
structure Factored (p : List Term) (ps : List (List Term)) : Prop where
  share : firstShared p ps ≠ [] ∨ lastShared p ps ≠ []
  lit : ∀ q ∈ p :: ps, literalAlt (ownPart p ps q) = true
  diff : ((p :: ps).map fun q => altText (ownPart p ps q)).Nodup
  two : ps ≠ []
  ok : ∀ q ∈ p :: ps, okTerms true q = true

theorem okTerms_part {b : Bool} : ∀ (l : List Term) {m r : List Term}, okTerms b (l ++ m ++ r) = true → okTerms b m = true
  | [], [], r, _ => rfl
  | [], t :: m, r, h => by
    simp only [List.nil_append, List.cons_append, okTerms, Bool.and_eq_true] at h ⊢
    refine ⟨⟨h.1.1, ?_⟩, okTerms_part [] (by simpa using h.2)⟩
    cases m with
    | nil => cases t <;> rfl
    | cons u m => cases t <;> cases u <;> simp_all [apart]
  | t :: l, m, r, h => by
    simp only [List.cons_append, okTerms, Bool.and_eq_true] at h
    exact okTerms_part l (by simpa using h.2)

theorem okTerms_apart {b : Bool} : ∀ (l : List Term) {x y : Term} {r : List Term}, okTerms b (l ++ x :: y :: r) = true → apart x [y] = true
  | [], x, y, r, h => by
    simp only [List.nil_append, okTerms, Bool.and_eq_true] at h
    have := h.1.2
    cases x <;> cases y <;> simp_all [apart]
  | t :: l, x, y, r, h => by
    simp only [List.cons_append, okTerms, Bool.and_eq_true] at h
    exact okTerms_apart l h.2

theorem Factored.own_ok {p : List Term} {ps : List (List Term)} (h : Factored p ps) : ∀ q ∈ p :: ps, okTerms true (ownPart p ps q) = true := by
  intro q hq
  obtain ⟨l, r, e, _⟩ := own_nodes hq
  have := h.ok q hq
  rw [e] at this
  exact okTerms_part l this

theorem node_text {t : Term} {s : Str} (h : t.node = .text s) : ∃ cs, t = .chars cs := by
  cases t <;> simp [Term.node] at h
  exact ⟨_, rfl⟩

theorem Factored.minimize {p : List Term} {ps : List (List Term)} (h : Factored p ps) :
    minimizeTreeAnyOf (patterns (p :: ps)) = some (some (.pattern ((firstShared p ps).map (fun t => .pattern [t.node]) ++
      [.anyOf ((p :: ps).map fun q => ownNode (nodes (ownPart p ps q)))] ++ (lastShared p ps).map (fun t => .pattern [t.node])))) := by
  unfold minimizeTreeAnyOf
  have e : patterns (p :: ps) = ((p :: ps).map nodes).map .pattern := by rw [patterns_eq, List.map_map]; rfl
  rw [e, patternChildren_map]
  simp only
  have hlit : ∀ q ∈ p :: ps, (ownPart p ps q = [] ∧ altText (ownPart p ps q) = [] ∧ nodes (ownPart p ps q) = []) ∨
      (altText (ownPart p ps q) ≠ [] ∧ nodes (ownPart p ps q) = [.text (altText (ownPart p ps q))]) := fun q hq => literal_nodes (h.lit q hq) (h.own_ok q hq)
  have key : (p :: ps).map nodes = ((p :: ps).map fun q => nodes (ownPart p ps q)).map fun m => nodes (firstShared p ps) ++ m ++ nodes (lastShared p ps) := by
    rw [List.map_map]
    refine List.map_congr_left fun q hq => ?_
    obtain ⟨l, r, e, e1, e2⟩ := own_nodes hq
    rw [Function.comp]
    simp only [nodes_eq]
    rw [← e1, ← e2, ← List.map_append, ← List.map_append, ← e]
  have hnd : ((p :: ps).map fun q => nodes (ownPart p ps q)).Nodup := by
    have aux : ∀ (f : List Node → Str) (l : List (List Node)), (l.map f).Nodup → l.Nodup := fun f l hl => (List.pairwise_map.1 hl).imp fun hne e => hne (by rw [e])
    refine aux (fun m => match m with | [.text s] => s | _ => []) _ ?_
    rw [List.map_map]
    refine (List.map_congr_left fun q hq => ?_) ▸ h.diff
    rcases hlit q hq with ⟨_, e, e'⟩ | ⟨_, e⟩
    · simp [e, e']
    · simp [e]
  have hc := common_exact (L0 := nodes (firstShared p ps)) (R0 := nodes (lastShared p ps)) (M := (p :: ps).map fun q => nodes (ownPart p ps q))
    (fun m hm => by
      obtain ⟨q, hq, rfl⟩ := List.mem_map.1 hm
      rcases hlit q hq with ⟨_, _, e⟩ | ⟨_, e⟩ <;> rw [e] <;> simp) hnd
    (by rw [List.length_map]; have := List.length_pos_iff.2 h.two; simp; omega)
    (by rw [nodes_eq, List.length_map]; exact firstShared_len p ps) (by rw [nodes_eq, List.length_map]; exact lastShared_len p ps)
    (fun _ m hm hne => by
      obtain ⟨q, hq, rfl⟩ := List.mem_map.1 hm
      rcases hlit q hq with ⟨_, _, e⟩ | ⟨_, e⟩
      · exact absurd e hne
      obtain ⟨l, r, e0, e1, e2⟩ := own_nodes hq
      have hl := h.lit q hq
      have hok := h.ok q hq
      have hm : ∃ cs, ownPart p ps q = [.chars cs] := by
        rcases ho : ownPart p ps q with _ | ⟨t, _ | ⟨t', ts⟩⟩
        · rw [ho] at e; cases e
        · rw [ho] at hl; cases t <;> simp [literalAlt] at hl
          exact ⟨_, rfl⟩
        · rw [ho] at hl; cases t <;> simp [literalAlt] at hl
      obtain ⟨cs, hcs⟩ := hm
      rw [e0, hcs] at hok
      rw [e, nodes_eq, nodes_eq, ← e1, ← e2]
      constructor
      · intro hr
        rcases r with _ | ⟨x, _ | ⟨y, r⟩⟩
        · simp at hr
        · obtain ⟨ds, rfl⟩ := node_text (by simpa using hr)
          have := okTerms_apart l (x := .chars cs) (y := .chars ds) (r := []) (by simpa using hok)
          simp [apart] at this
        · simp at hr
      · intro hl
        rcases l with _ | ⟨x, _ | ⟨y, l⟩⟩
        · simp at hl
        · obtain ⟨ds, rfl⟩ := node_text (by simpa using hl)
          have := okTerms_apart [] (x := .chars ds) (y := .chars cs) (r := r) (by simpa using hok)
          simp [apart] at this
        · simp at hl)
  rw [← key] at hc
  rw [hc]
  simp only
  have hpos : ¬ (nodes (firstShared p ps)).length = 0 ∨ ¬ (nodes (lastShared p ps)).length = 0 := by
    simp only [nodes_eq, List.length_map, List.length_eq_zero_iff]; exact h.share
  rw [if_neg (by simp only [Bool.and_eq_true, decide_eq_true_eq, not_and]; omega), key, reduce_exact _ [] hnd (by simp)]
  simp only [List.nil_append, Option.some.injEq, Node.pattern.injEq]
  have one : ∀ ts : List Term, ts.length ≤ 1 → (if (nodes ts).length > 0 then [Node.pattern (nodes ts)] else []) = ts.map fun t => .pattern [t.node] := by
    intro ts hts
    rcases ts with _ | ⟨t, _ | ⟨u, ts⟩⟩
    · rfl
    · simp [nodes]
    · simp at hts
  rw [one _ (firstShared_len p ps), one _ (lastShared_len p ps)]
  congr 2
  rw [List.map_map]
  obtain ⟨q, ps', hps⟩ := List.exists_cons_of_ne_nil h.two
  rw [hps]
  rfl

/-! ### Compiling it -/

theorem compileChildren_append {f : Node → Res Matcher} : ∀ {xs ys : List Node} {ms : List Matcher}, compileChildren f (xs ++ ys) = .ok ms →
    ∃ a b, ms = a ++ b ∧ compileChildren f xs = .ok a ∧ compileChildren f ys = .ok b
  | [], ys, ms, h => ⟨[], ms, rfl, rfl, h⟩
  | x :: xs, ys, ms, h => by
    simp only [List.cons_append, compileChildren] at h
    split at h <;> try cases h
    rename_i m hm
    split at h <;> try cases h
    rename_i ns hns
    obtain ⟨a, b, rfl, ha, hb⟩ := compileChildren_append hns
    exact ⟨optimizeMatcher m :: a, b, rfl, by simp [compileChildren, hm, ha], hb⟩

theorem compile_single {seps : List Nat} {n : Nat} {t : Term} {m : Matcher} {b : Bool} (hok : t.ok b = true) (hf : flatTerm t = true)
    (hc : compile seps n (.pattern [t.node]) = .ok m) : optimizeMatcher m = matcherOf seps t := by
  cases n with
  | zero => cases hc
  | succ n =>
    have hel := elem_opt (term_facts (seps := seps) hok hf).el
    simp only [compile, List.length_singleton, Nat.one_ne_zero, if_false] at hc
    split at hc <;> try cases hc
    rename_i ms hms
    have := compileChildren_map (xs := [t]) (g := Term.node) (k := matcherOf seps) (fun x hx m hm => by
      rw [List.mem_singleton] at hx; subst hx; exact compile_term hok hf hm) hms
    subst this
    split at hc <;> try cases hc
    rename_i ns hns
    have := minimize_one hns
    subst this
    simp only [compileMatchers, List.length_singleton, Res.ok.injEq] at hc
    subst hc
    rw [hel, hel]

/-- Flat patterns, given the matchers of their terms. -/
theorem seq_flat {seps : List Nat} {n : Nat} {ts : List Term} {cs : List Node} {m : Matcher} {b : Bool} (hok : ∀ t ∈ ts, t.ok b = true) (hflat : ts.all flatTerm = true)
    (hn : neighbours seps ts = true) (hends : endsApart seps ts = true) (hne : cs ≠ [])
    (hcs : ∀ k ms, compileChildren (compile seps k) cs = .ok ms → ms = ts.map (matcherOf seps))
    (hm : compile seps n (.pattern cs) = .ok m) : optimizeMatcher m = m ∧ good m = true ∧ (emptyOk seps ts = true → goodE m = true) ∧
      ((∀ r ∈ seps, validRune r = true) → asciiNeighbours ts = true → goodW m = true) ∧
      (ts.any isStar = true → m.len = none ∧ ((∃ p ps, Term.alts p ps ∈ ts) → emptyOk seps ts = true → elem m = true ∧ (goodW m = true → elemU m = true) ∧ compound m = true)) := by
  have hterm : ∀ t ∈ ts, t.ok b = true ∧ flatTerm t = true := fun t ht => ⟨hok t ht, List.all_eq_true.1 hflat t ht⟩
  have hfacts : ∀ t ∈ ts, TermFacts seps t (matcherOf seps t) := fun t ht => term_facts (hterm t ht).1 (hterm t ht).2
  cases n with
  | zero => cases hm
  | succ n =>
    simp only [compile] at hm
    rw [if_neg (by simpa using hne)] at hm
    split at hm <;> try cases hm
    rename_i ms hms
    have := hcs n ms hms
    subst this
    split at hm <;> try cases hm
    rename_i ns hns
    split at hm
    · rename_i m' hm'
      simp only [Res.ok.injEq] at hm
      subst hm
      have hel : ∀ x ∈ ts.map (matcherOf seps), elem x = true := fun x hx => by
        obtain ⟨t, ht, rfl⟩ := List.mem_map.1 hx
        exact (hfacts t ht).el
      obtain ⟨g1, g2⟩ := sequence_good hel (chain_terms hfacts hn) hns hm' (fun p q => ends_terms hfacts hends)
      obtain ⟨h1, h2, h3, _⟩ := minimize_spec _ _ _ hns hel (chain_terms hfacts hn)
      have hidem := leafy_idem _ (leafy_compile _ _ _ hm' h1 h3)
      have hE : emptyOk seps ts = true → goodE (optimizeMatcher m') = true := fun he => g2 fun e hone => by
        rw [List.map_eq_singleton_iff] at hone
        obtain ⟨t, rfl, rfl⟩ := hone
        exact one_goodE (hterm t (by simp)).1 (hterm t (by simp)).2 he
      refine ⟨hidem, g1, hE, fun hs ha => ?_, fun hstar => ?_⟩
      · exact sequence_goodW hel (fun x hx => by
          obtain ⟨t, ht, rfl⟩ := List.mem_map.1 hx
          exact (term_factsU hs (hterm t ht).1 (hterm t ht).2).1) (chain_terms hfacts hn) (chainU_terms hs hterm ha) hns hm' (fun p q => ends_terms hfacts hends)
      · rw [List.any_eq_true] at hstar
        obtain ⟨t, ht, hst⟩ := hstar
        have ho : ∃ x ∈ ts.map (matcherOf seps), x.len = none := ⟨_, List.mem_map_of_mem ht, (hfacts t ht).len.2 (Or.inl hst)⟩
        refine ⟨sequence_open hel (chain_terms hfacts hn) hns hm' ho, ?_⟩
        rintro ⟨p, ps, hp⟩ he
        exact sequence_elem hel (chain_terms hfacts hn) hns hm' ho ⟨_, List.mem_map_of_mem hp, rfl⟩ g1 (hE he) hidem
    · rename_i hno; exact absurd hm (hno m)

/-- The braces in the middle. -/
theorem Factored.compile_mid {seps : List Nat} {n : Nat} {p : List Term} {ps : List (List Term)} {m : Matcher} (h : Factored p ps)
    (hc : compile seps n (.anyOf ((p :: ps).map fun q => ownNode (nodes (ownPart p ps q)))) = .ok m) :
    optimizeMatcher m = matcherOf seps (.alts (ownPart p ps p) (ps.map (ownPart p ps))) := by
  have hmin : minimizeTreeAnyOf ((p :: ps).map fun q => ownNode (nodes (ownPart p ps q))) = some none := by
    by_cases h0 : ∃ q ∈ p :: ps, nodes (ownPart p ps q) = []
    · obtain ⟨q, hq, e⟩ := h0
      rw [minimizeTreeAnyOf, patternChildren_nothing _ (List.mem_map.2 ⟨q, hq, by rw [e]; rfl⟩)]
    · have e : ((p :: ps).map fun q => ownNode (nodes (ownPart p ps q))) = patterns ((p :: ps).map (ownPart p ps)) := by
        rw [patterns_eq, List.map_map]
        refine List.map_congr_left fun q hq => ?_
        rw [ownNode, if_neg]
        · rfl
        · rw [List.isEmpty_iff]; exact fun e => h0 ⟨q, hq, e⟩
      rw [e]
      obtain ⟨q, ps', hps⟩ := List.exists_cons_of_ne_nil h.two
      have hq : q ∈ p :: ps := by rw [hps]; simp
      refine minimizeTree_literal (fun x hx => ?_) (fun x hx => ?_) (p := ownPart p ps p) (q := ownPart p ps q) (by simp) (List.mem_map_of_mem hq) ?_
      · obtain ⟨y, hy, rfl⟩ := List.mem_map.1 hx; exact h.lit y hy
      · obtain ⟨y, hy, rfl⟩ := List.mem_map.1 hx; exact h.own_ok y hy
      · have hd := h.diff
        rw [List.map_cons, List.nodup_cons] at hd
        intro e
        exact hd.1 (by rw [← e]; exact List.mem_map.2 ⟨q, by rw [hps]; simp, rfl⟩)
  cases n with
  | zero => cases hc
  | succ n =>
    rw [compile, hmin] at hc
    simp only at hc
    split at hc <;> try cases hc
    rename_i ms hms
    have := compileChildren_map (g := fun q => ownNode (nodes (ownPart p ps q))) (k := fun q => altMatcher (ownPart p ps q)) (fun x hx m hm => by
      rcases literal_nodes (h.lit x hx) (h.own_ok x hx) with ⟨_, e, e'⟩ | ⟨_, e⟩
      · simp only [e', ownNode, List.isEmpty_nil, if_true] at hm
        cases n with
        | zero => cases hm
        | succ n =>
          simp only [compile, optimizeMatcher, Res.ok.injEq] at hm
          subst hm
          simp [altMatcher, e, optimizeMatcher]
      · simp only [ownNode] at hm
        rw [if_neg (by simp [e])] at hm
        exact compile_alt (h.lit x hx) (h.own_ok x hx) hm) hms
    subst this
    obtain ⟨q, ps', hps⟩ := List.exists_cons_of_ne_nil h.two
    simp only [matcherOf, hps, List.map_cons, optimizeMatcher, List.map_map, Function.comp_def]

theorem Factored.compile {seps : List Nat} {n : Nat} {p : List Term} {ps : List (List Term)} {m : Matcher} (h : Factored p ps) (hflat : (sharedOut p ps).all flatTerm = true)
    (hn : neighbours seps (sharedOut p ps) = true) (hends : endsApart seps (sharedOut p ps) = true)
    (hc : Verif.Glob.compile seps n (Term.alts p ps).node = .ok m) : optimizeMatcher m = m ∧ good m = true ∧ goodE m = true ∧
      ((∀ r ∈ seps, validRune r = true) → asciiNeighbours (sharedOut p ps) = true → goodW m = true) ∧
      ((sharedOut p ps).any isStar = true → m.len = none ∧ elem m = true ∧ (goodW m = true → elemU m = true) ∧ compound m = true) := by
  cases n with
  | zero => cases hc
  | succ n =>
    rw [Term.node, Verif.Glob.compile, show Node.pattern (nodes p) :: patterns ps = patterns (p :: ps) from rfl, h.minimize] at hc
    simp only at hc
    have hall := List.all_eq_true.1 hflat
    have hok0 : ∀ t ∈ firstShared p ps, t.ok true = true := by
      intro t ht
      refine okTerms_mem (h.ok p (by simp)) t ?_
      unfold firstShared at ht
      split at ht
      · exact List.mem_of_mem_take ht
      · cases ht
    have hok1 : ∀ t ∈ lastShared p ps, t.ok true = true := by
      intro t ht
      refine okTerms_mem (h.ok p (by simp)) t ?_
      unfold lastShared at ht
      simp only at ht
      split at ht
      · exact List.mem_of_mem_drop (List.mem_of_mem_drop ht)
      · cases ht
    have hokm : (Term.alts (ownPart p ps p) (ps.map (ownPart p ps))).ok true = true := by
      rw [Term.ok, Bool.and_eq_true, okAlts_iff]
      refine ⟨h.own_ok p (by simp), fun x hx => ?_⟩
      obtain ⟨y, hy, rfl⟩ := List.mem_map.1 hx
      exact h.own_ok y (by simp [hy])
    obtain ⟨g1, g2, g3, g4, g5⟩ := seq_flat (b := true) (ts := sharedOut p ps) (fun t ht => by
        rw [sharedOut, List.mem_append, List.mem_append, List.mem_singleton] at ht
        rcases ht with (ht | rfl) | ht
        · exact hok0 t ht
        · exact hokm
        · exact hok1 t ht) hflat hn hends (by simp) (fun k ms hms => by
        obtain ⟨a, c, rfl, ha, hc⟩ := compileChildren_append hms
        obtain ⟨a, d, rfl, ha, hd⟩ := compileChildren_append ha
        have e1 := compileChildren_map (k := matcherOf seps) (fun x hx m hm => compile_single (hok0 x hx) (hall x (by simp [sharedOut, hx])) hm) ha
        have e2 := compileChildren_map (k := matcherOf seps) (fun x hx m hm => compile_single (hok1 x hx) (hall x (by simp [sharedOut, hx])) hm) hc
        have e3 := compileChildren_map (xs := [Term.alts (ownPart p ps p) (ps.map (ownPart p ps))]) (g := fun _ => .anyOf ((p :: ps).map fun q => ownNode (nodes (ownPart p ps q))))
          (k := matcherOf seps) (fun x hx m hm => by rw [List.mem_singleton] at hx; subst hx; exact h.compile_mid hm) hd
        rw [e1, e2, e3, sharedOut, List.map_append, List.map_append]) hc
    have hempty : emptyOk seps (sharedOut p ps) = true := ?_
    · refine ⟨g1, g2, g3 hempty, g4, fun hs => ?_⟩
      obtain ⟨k1, k2⟩ := g5 hs
      exact ⟨k1, k2 ⟨ownPart p ps p, ps.map (ownPart p ps), by simp [sharedOut]⟩ hempty⟩
    have := h.share
    rcases hf : firstShared p ps with _ | ⟨a, l⟩
    · rcases hl : lastShared p ps with _ | ⟨b, r⟩
      · rw [hf, hl] at this; simp at this
      · rw [sharedOut, hf, hl]; rfl
    · rw [sharedOut, hf]; cases a <;> cases l <;> rfl

end Verif.Glob
