import Verif.Glob.Draw
import Mathlib.Data.Nat.Digits.Lemmas
import Mathlib.Data.List.Nodup
/-
The drawing of a matcher is a text of the DOT language whose graph is the tree of the matcher (C126).
-/
namespace Verif.Glob

namespace Draw.Spec

/-- A statement of a graph: a node with a label, or an edge. -/
inductive Stmt where
  | node (id label : Str)
  | edge (src dst : Str)
  deriving DecidableEq

/-- A statement in the DOT language, with every name and label in quotation marks. -/
def Stmt.text : Stmt → Str
  | .node id label => lit "\"" ++ id ++ lit "\"[label=\"" ++ label ++ lit "\"];"
  | .edge a b => lit "\"" ++ a ++ lit "\"->\"" ++ b ++ lit "\";"

/-- A graph with a title in the DOT language. -/
def dot (title : Str) (ss : List Stmt) : Str := lit "digraph G {graph[label=\"" ++ title ++ lit "\"];" ++ ss.flatMap Stmt.text ++ lit "}"

/-- A text that means itself between quotation marks: no quotation mark and no backslash. -/
def Plain (s : Str) : Prop := (34 : UInt8) ∉ s ∧ (92 : UInt8) ∉ s

/-- The strings of a statement. -/
def Stmt.Plain : Stmt → Prop
  | .node a b => Spec.Plain a ∧ Spec.Plain b
  | .edge a b => Spec.Plain a ∧ Spec.Plain b

/-- The nodes of a graph, as they are listed. -/
def nodes (ss : List Stmt) : List (Str × Str) := ss.filterMap fun | .node a l => some (a, l) | .edge _ _ => none

/-- The ends of the edges from `a`, in the order in which they are listed (in which Graphviz draws them). -/
def edgesFrom (a : Str) (ss : List Stmt) : List Str := ss.filterMap fun | .node _ _ => none | .edge x y => if x = a then some y else none

/-- A tree of labels, with the subtrees in order. -/
inductive LTree where
  | node (label : Str) (kids : List LTree)

def LTree.label : LTree → Str | .node l _ => l
def LTree.kids : LTree → List LTree | .node _ ks => ks

/-- The subtree at a position: the path from the root, by the numbers of the branches. -/
def LTree.at : LTree → List Nat → Option LTree
  | t, [] => some t
  | .node _ ks, i :: p => match ks[i]? with
    | some k => k.at p
    | none => none

mutual
/-- The number of nodes of a tree. -/
def LTree.size : LTree → Nat
  | .node _ ks => 1 + LTree.sizes ks
def LTree.sizes : List LTree → Nat
  | [] => 0
  | k :: ks => k.size + LTree.sizes ks
end

/-- The graph shows the tree: with different names for different positions, the nodes are the positions with their labels, each once, and the edges go from each
position to its branches, in order, and nowhere else. -/
structure Shows (ss : List Stmt) (t : LTree) (name : List Nat → Str) : Prop where
  distinct : ∀ p q, t.at p ≠ none → t.at q ≠ none → name p = name q → p = q
  once : ((nodes ss).map Prod.fst).Nodup
  nodes_iff : ∀ a l, (a, l) ∈ nodes ss ↔ ∃ p s, t.at p = some s ∧ a = name p ∧ l = s.label
  edges : ∀ p s, t.at p = some s → edgesFrom (name p) ss = (List.range s.kids.length).map fun i => name (p ++ [i])
  sources : ∀ a b, Stmt.edge a b ∈ ss → ∃ p s, t.at p = some s ∧ a = name p

mutual
/-- The tree to be drawn for a matcher: a tree of the matchers for the parts of a pattern has its middle at the root, and what is left and right of it as branches; a
choice (AnyOf) or conjunction (EveryOf) has its matchers as branches; everything else is one node. -/
def treeOf : Matcher → LTree
  | .btree v l r _ _ _ => .node v.string [treeOfBranch l, treeOfBranch r]
  | .anyOf ms => .node (lit "AnyOf") (treesOf ms)
  | .everyOf ms => .node (lit "EveryOf") (treesOf ms)
  | m => .node m.string []
def treeOfBranch : Option Matcher → LTree
  | none => .node (lit "<nil>") []
  | some m => treeOf m
def treesOf : List Matcher → List LTree
  | [] => []
  | m :: ms => treeOf m :: treesOf ms
end

end Draw.Spec
open Draw.Spec

/-! ### The text determines the graph -/

theorem quote_split {a b x y : Str} (ha : (34 : UInt8) ∉ a) (hb : (34 : UInt8) ∉ b) (h : a ++ 34 :: x = b ++ 34 :: y) : a = b ∧ x = y := by
  induction a generalizing b with
  | nil =>
    cases b with
    | nil => simpa using h
    | cons c b => simp at h hb; exact absurd h.1 (fun e => hb.1 e)
  | cons c a ih =>
    cases b with
    | nil => simp at h ha; exact absurd h.1.symm (fun e => ha.1 e)
    | cons d b =>
      simp only [List.cons_append, List.cons.injEq] at h
      simp only [List.mem_cons, not_or] at ha hb
      obtain ⟨rfl, h⟩ := h
      obtain ⟨rfl, e⟩ := ih ha.2 hb.2 h
      exact ⟨rfl, e⟩

theorem stmts_inj : ∀ (ss ss' : List Stmt), (∀ s ∈ ss, s.Plain) → (∀ s ∈ ss', s.Plain) → ss.flatMap Stmt.text ++ lit "}" = ss'.flatMap Stmt.text ++ lit "}" → ss = ss'
  | [], [], _, _, _ => rfl
  | [], .node a b :: ss', _, _, h => by simp [Stmt.text, lit] at h
  | [], .edge a b :: ss', _, _, h => by simp [Stmt.text, lit] at h
  | .node a b :: ss', [], _, _, h => by simp [Stmt.text, lit] at h
  | .edge a b :: ss', [], _, _, h => by simp [Stmt.text, lit] at h
  | .node a b :: ss, .node a' b' :: ss', h1, h2, h => by
    have p1 := h1 _ List.mem_cons_self
    have p2 := h2 _ List.mem_cons_self
    simp only [List.flatMap_cons, Stmt.text, lit, List.append_assoc] at h
    simp only [show ("\"".toList.map fun c => UInt8.ofNat c.toNat) = [34] from by decide, show ("\"[label=\"".toList.map fun c => UInt8.ofNat c.toNat) = 34 :: lit "[label=\"" from by decide,
      show ("\"];".toList.map fun c => UInt8.ofNat c.toNat) = 34 :: lit "];" from by decide, List.cons_append, List.nil_append, List.cons.injEq, true_and] at h
    obtain ⟨e1, h3⟩ := quote_split p1.1.1 p2.1.1 h
    rw [List.append_cancel_left_eq] at h3
    obtain ⟨e2, h4⟩ := quote_split p1.2.1 p2.2.1 h3
    rw [List.append_cancel_left_eq] at h4
    rw [e1, e2, stmts_inj ss ss' (fun s hs => h1 s (by simp [hs])) (fun s hs => h2 s (by simp [hs])) h4]
  | .edge a b :: ss, .edge a' b' :: ss', h1, h2, h => by
    have p1 := h1 _ List.mem_cons_self
    have p2 := h2 _ List.mem_cons_self
    simp only [List.flatMap_cons, Stmt.text, lit, List.append_assoc] at h
    simp only [show ("\"".toList.map fun c => UInt8.ofNat c.toNat) = [34] from by decide, show ("\"->\"".toList.map fun c => UInt8.ofNat c.toNat) = 34 :: lit "->\"" from by decide,
      show ("\";".toList.map fun c => UInt8.ofNat c.toNat) = 34 :: lit ";" from by decide, List.cons_append, List.nil_append, List.cons.injEq, true_and] at h
    obtain ⟨e1, h3⟩ := quote_split p1.1.1 p2.1.1 h
    rw [List.append_cancel_left_eq] at h3
    obtain ⟨e2, h4⟩ := quote_split p1.2.1 p2.2.1 h3
    rw [List.append_cancel_left_eq] at h4
    rw [e1, e2, stmts_inj ss ss' (fun s hs => h1 s (by simp [hs])) (fun s hs => h2 s (by simp [hs])) h4]
  | .node a b :: ss, .edge a' b' :: ss', h1, h2, h => by
    have p1 := h1 _ List.mem_cons_self
    have p2 := h2 _ List.mem_cons_self
    simp only [List.flatMap_cons, Stmt.text, lit, List.append_assoc] at h
    simp only [show ("\"".toList.map fun c => UInt8.ofNat c.toNat) = [34] from by decide, show ("\"[label=\"".toList.map fun c => UInt8.ofNat c.toNat) = 34 :: lit "[label=\"" from by decide,
      show ("\"->\"".toList.map fun c => UInt8.ofNat c.toNat) = 34 :: lit "->\"" from by decide, List.cons_append, List.nil_append, List.cons.injEq, true_and] at h
    obtain ⟨-, h3⟩ := quote_split p1.1.1 p2.1.1 h
    simp [lit] at h3
  | .edge a b :: ss, .node a' b' :: ss', h1, h2, h => by
    have p1 := h1 _ List.mem_cons_self
    have p2 := h2 _ List.mem_cons_self
    simp only [List.flatMap_cons, Stmt.text, lit, List.append_assoc] at h
    simp only [show ("\"".toList.map fun c => UInt8.ofNat c.toNat) = [34] from by decide, show ("\"[label=\"".toList.map fun c => UInt8.ofNat c.toNat) = 34 :: lit "[label=\"" from by decide,
      show ("\"->\"".toList.map fun c => UInt8.ofNat c.toNat) = 34 :: lit "->\"" from by decide, List.cons_append, List.nil_append, List.cons.injEq, true_and] at h
    obtain ⟨-, h3⟩ := quote_split p1.1.1 p2.1.1 h
    simp [lit] at h3

/-- A text of the DOT language is the text of at most one graph: reading it gives back the title and the statements. -/
theorem dot_injective {t t' : Str} {ss ss' : List Stmt} (ht : Plain t) (ht' : Plain t') (hs : ∀ s ∈ ss, s.Plain) (hs' : ∀ s ∈ ss', s.Plain) (h : dot t ss = dot t' ss') :
    t = t' ∧ ss = ss' := by
  unfold dot at h
  simp only [List.append_assoc, List.append_cancel_left_eq] at h
  have e : lit "\"];" = 34 :: lit "];" := by decide
  rw [e, List.cons_append, List.cons_append] at h
  obtain ⟨e1, h3⟩ := quote_split ht.1 ht'.1 h
  rw [List.append_cancel_left_eq] at h3
  exact ⟨e1, stmts_inj ss ss' hs hs' h3⟩

/-! ### Trees with names -/

/-- A tree with a name at every node. -/
inductive NTree where
  | node (id label : Str) (kids : List NTree)

def NTree.id : NTree → Str | .node a _ _ => a

def NTree.at : NTree → List Nat → Option NTree
  | t, [] => some t
  | .node _ _ ks, i :: p => match ks[i]? with
    | some k => k.at p
    | none => none

mutual
/-- The tree without the names. -/
def NTree.erase : NTree → LTree
  | .node _ l ks => .node l (NTree.erases ks)
def NTree.erases : List NTree → List LTree
  | [] => []
  | k :: ks => k.erase :: NTree.erases ks
end

theorem erases_eq (ks : List NTree) : NTree.erases ks = ks.map NTree.erase := by
  induction ks with
  | nil => rfl
  | cons k ks ih => rw [NTree.erases, ih]; rfl

mutual
/-- The names and labels, each node before its branches. -/
def NTree.pre : NTree → List (Str × Str)
  | .node a l ks => (a, l) :: NTree.pres ks
def NTree.pres : List NTree → List (Str × Str)
  | [] => []
  | k :: ks => k.pre ++ NTree.pres ks
end

mutual
/-- The statements draw the named tree: the node, and for each branch an edge and its drawing, in either order. -/
inductive Draws : NTree → List Stmt → Prop
  | node {a l : Str} {ks : List NTree} {ss : List Stmt} (h : DrawsAll a ks ss) : Draws (.node a l ks) (.node a l :: ss)
inductive DrawsAll : Str → List NTree → List Stmt → Prop
  | nil (a : Str) : DrawsAll a [] []
  | edgeFirst {a : Str} {k : NTree} {ks : List NTree} {s ss : List Stmt} (h : Draws k s) (hs : DrawsAll a ks ss) : DrawsAll a (k :: ks) (.edge a k.id :: s ++ ss)
  | edgeLast {a : Str} {k : NTree} {ks : List NTree} {s ss : List Stmt} (h : Draws k s) (hs : DrawsAll a ks ss) : DrawsAll a (k :: ks) (s ++ .edge a k.id :: ss)
end

theorem nodes_append (s t : List Stmt) : nodes (s ++ t) = nodes s ++ nodes t := by simp [nodes]
theorem edgesFrom_append (a : Str) (s t : List Stmt) : edgesFrom a (s ++ t) = edgesFrom a s ++ edgesFrom a t := by simp [edgesFrom]

mutual
theorem draws_nodes : ∀ {t : NTree} {ss : List Stmt}, Draws t ss → nodes ss = t.pre
  | _, _, .node h => by
    rw [NTree.pre, ← drawsAll_nodes h]
    simp [nodes]
theorem drawsAll_nodes : ∀ {a : Str} {ks : List NTree} {ss : List Stmt}, DrawsAll a ks ss → nodes ss = NTree.pres ks
  | _, _, _, .nil _ => rfl
  | _, _, _, .edgeFirst h hs => by
    rw [NTree.pres, ← draws_nodes h, ← drawsAll_nodes hs, List.cons_append, ← nodes_append]
    simp [nodes]
  | _, _, _, .edgeLast h hs => by
    rw [NTree.pres, ← draws_nodes h, ← drawsAll_nodes hs, nodes_append]
    simp [nodes]
end

theorem id_mem_pre (t : NTree) : t.id ∈ t.pre.map Prod.fst := by
  cases t; simp [NTree.pre, NTree.id]

mutual
/-- Edges start at the nodes of the drawing. -/
theorem draws_sources : ∀ {t : NTree} {ss : List Stmt}, Draws t ss → ∀ a b, Stmt.edge a b ∈ ss → a ∈ t.pre.map Prod.fst
  | _, _, .node h => fun a b hm => by
    simp only [List.mem_cons, reduceCtorEq, false_or] at hm
    rcases drawsAll_sources h a b hm with rfl | h
    · simp [NTree.pre]
    · rw [NTree.pre, List.map_cons]; exact List.mem_cons_of_mem _ h
theorem drawsAll_sources : ∀ {x : Str} {ks : List NTree} {ss : List Stmt}, DrawsAll x ks ss → ∀ a b, Stmt.edge a b ∈ ss → a = x ∨ a ∈ (NTree.pres ks).map Prod.fst
  | _, _, _, .nil _ => fun a b hm => by cases hm
  | _, _, _, .edgeFirst h hs => fun a b hm => by
    rw [NTree.pres, List.map_append, List.mem_append]
    simp only [List.cons_append, List.mem_cons, Stmt.edge.injEq, List.mem_append] at hm
    rcases hm with hm | hm | hm
    · exact Or.inl hm.1
    · exact Or.inr (Or.inl (draws_sources h a b hm))
    · rcases drawsAll_sources hs a b hm with h | h
      · exact Or.inl h
      · exact Or.inr (Or.inr h)
  | _, _, _, .edgeLast h hs => fun a b hm => by
    rw [NTree.pres, List.map_append, List.mem_append]
    simp only [List.mem_cons, Stmt.edge.injEq, List.mem_append] at hm
    rcases hm with hm | hm | hm
    · exact Or.inr (Or.inl (draws_sources h a b hm))
    · exact Or.inl hm.1
    · rcases drawsAll_sources hs a b hm with h | h
      · exact Or.inl h
      · exact Or.inr (Or.inr h)
end

theorem edgesFrom_nil {a : Str} {ss : List Stmt} (h : ∀ b, Stmt.edge a b ∉ ss) : edgesFrom a ss = [] := by
  induction ss with
  | nil => rfl
  | cons s ss ih =>
    have h' := ih (fun b hb => h b (by simp [hb]))
    unfold edgesFrom at h' ⊢
    rw [List.filterMap_cons, h']
    cases s with
    | node _ _ => rfl
    | edge x y =>
      have : x ≠ a := fun e => h y (by simp [e])
      simp [this]

theorem drawsAll_edges_outside {x a : Str} {ks : List NTree} {ss : List Stmt} (h : DrawsAll x ks ss) (hx : a ≠ x) (ha : a ∉ (NTree.pres ks).map Prod.fst) : edgesFrom a ss = [] :=
  edgesFrom_nil fun b hb => by
    rcases drawsAll_sources h a b hb with h | h
    · exact hx h
    · exact ha h

theorem draws_edges_outside {a : Str} {t : NTree} {ss : List Stmt} (h : Draws t ss) (ha : a ∉ t.pre.map Prod.fst) : edgesFrom a ss = [] :=
  edgesFrom_nil fun b hb => ha (draws_sources h a b hb)

/-- The edges from the root. -/
theorem drawsAll_edges_root : ∀ {x : Str} {ks : List NTree} {ss : List Stmt}, DrawsAll x ks ss → x ∉ (NTree.pres ks).map Prod.fst → edgesFrom x ss = ks.map NTree.id
  | _, _, _, .nil _, _ => rfl
  | x, _, _, .edgeFirst h hs, hn => by
    rw [NTree.pres, List.map_append, List.mem_append, not_or] at hn
    rw [List.cons_append, show ∀ (s : Stmt) l, s :: l = [s] ++ l from fun _ _ => rfl, edgesFrom_append, edgesFrom_append, draws_edges_outside h hn.1, drawsAll_edges_root hs hn.2]
    simp [edgesFrom]
  | x, _, _, .edgeLast (k := k) (ss := ss) h hs, hn => by
    rw [NTree.pres, List.map_append, List.mem_append, not_or] at hn
    rw [edgesFrom_append, show Stmt.edge x k.id :: ss = [Stmt.edge x k.id] ++ ss from rfl, edgesFrom_append, draws_edges_outside h hn.1, drawsAll_edges_root hs hn.2]
    simp [edgesFrom]

theorem at_mem_pre : ∀ (p : List Nat) (t s : NTree), t.at p = some s → s.id ∈ t.pre.map Prod.fst
  | [], t, s, h => by cases t; cases h; exact id_mem_pre _
  | i :: p, .node a l ks, s, h => by
    rw [NTree.at] at h
    cases hk : ks[i]? with
    | none => rw [hk] at h; cases h
    | some k =>
      rw [hk] at h
      have := at_mem_pre p k s h
      rw [NTree.pre, List.map_cons]
      refine List.mem_cons_of_mem _ ?_
      clear h
      induction ks generalizing i with
      | nil => simp at hk
      | cons k' ks ih =>
        rw [NTree.pres, List.map_append, List.mem_append]
        cases i with
        | zero => simp at hk; subst hk; exact Or.inl this
        | succ i => exact Or.inr (ih i (by simpa using hk))

theorem kid_mem_pres {ks : List NTree} {i : Nat} {k : NTree} (hk : ks[i]? = some k) {a : Str} (ha : a ∈ k.pre.map Prod.fst) : a ∈ (NTree.pres ks).map Prod.fst := by
  induction ks generalizing i with
  | nil => simp at hk
  | cons k' ks ih =>
    rw [NTree.pres, List.map_append, List.mem_append]
    cases i with
    | zero => simp at hk; subst hk; exact Or.inl ha
    | succ i => exact Or.inr (ih (by simpa using hk))

/-- The edges from a node, at any position. -/
theorem draws_edges : ∀ (p : List Nat) {t : NTree} {ss : List Stmt}, Draws t ss → (t.pre.map Prod.fst).Nodup → ∀ {a l : Str} {ks : List NTree}, t.at p = some (.node a l ks) →
    edgesFrom a ss = ks.map NTree.id
  | [], t, ss, h, hn, a, l, ks, e => by
    cases h with
    | @node a' l' ks' ss' hs =>
      rw [NTree.at] at e
      simp only [Option.some.injEq, NTree.node.injEq] at e
      obtain ⟨rfl, rfl, rfl⟩ := e
      rw [NTree.pre, List.map_cons, List.nodup_cons] at hn
      have := drawsAll_edges_root hs hn.1
      simpa [edgesFrom] using this
  | i :: p, t, ss, h, hn, a, l, ks, e => by
    cases h with
    | @node a' l' ks' ss' hs =>
      rw [NTree.at] at e
      cases hk : ks'[i]? with
      | none => rw [hk] at e; cases e
      | some k =>
        rw [hk] at e
        simp only at e
        rw [NTree.pre, List.map_cons, List.nodup_cons] at hn
        have ha : a ∈ k.pre.map Prod.fst := at_mem_pre p k _ e
        have hx : a ≠ a' := fun e' => hn.1 (e' ▸ kid_mem_pres hk ha)
        have h1 : edgesFrom a (Stmt.node a' l' :: ss') = edgesFrom a ss' := by simp [edgesFrom]
        rw [h1]
        have hn2 := hn.2
        clear hn h1
        induction ks' generalizing i ss' with
        | nil => simp at hk
        | cons k' ks' ih =>
          rw [NTree.pres, List.map_append, List.nodup_append] at hn2
          cases i with
          | zero =>
            simp at hk; subst hk
            have hout : a ∉ (NTree.pres ks').map Prod.fst := fun h => hn2.2.2 a ha a h rfl
            cases hs with
            | edgeFirst hd hs' =>
              rw [List.cons_append, show ∀ (s : Stmt) l, s :: l = [s] ++ l from fun _ _ => rfl, edgesFrom_append, edgesFrom_append, drawsAll_edges_outside hs' hx hout, draws_edges p hd hn2.1 e]
              simp [edgesFrom, Ne.symm hx]
            | edgeLast hd hs' =>
              rw [edgesFrom_append, show ∀ (s : Stmt) l, s :: l = [s] ++ l from fun _ _ => rfl, edgesFrom_append, drawsAll_edges_outside hs' hx hout, draws_edges p hd hn2.1 e]
              simp [edgesFrom, Ne.symm hx]
          | succ i =>
            have hk' : ks'[i]? = some k := by simpa using hk
            have hout : a ∉ k'.pre.map Prod.fst := fun h => hn2.2.2 a h a (kid_mem_pres hk' ha) rfl
            cases hs with
            | edgeFirst hd hs' =>
              rw [List.cons_append, show ∀ (s : Stmt) l, s :: l = [s] ++ l from fun _ _ => rfl, edgesFrom_append, edgesFrom_append, draws_edges_outside hd hout, ih _ hs' hk' hn2.2.1]
              simp [edgesFrom, Ne.symm hx]
            | edgeLast hd hs' =>
              rw [edgesFrom_append, show ∀ (s : Stmt) l, s :: l = [s] ++ l from fun _ _ => rfl, edgesFrom_append, draws_edges_outside hd hout, ih _ hs' hk' hn2.2.1]
              simp [edgesFrom, Ne.symm hx]

theorem distinct_names : ∀ (p q : List Nat) (t : NTree), (t.pre.map Prod.fst).Nodup → ∀ s s', t.at p = some s → t.at q = some s' → s.id = s'.id → p = q
  | [], [], _, _, _, _, _, _, _ => rfl
  | [], j :: q, .node a l ks, hn, s, s', hp, hq, e => by
    rw [NTree.at] at hp
    cases hp
    rw [NTree.at] at hq
    rw [NTree.pre, List.map_cons, List.nodup_cons] at hn
    cases hk : ks[j]? with
    | none => rw [hk] at hq; cases hq
    | some k =>
      rw [hk] at hq
      have h1 : NTree.id (.node a l ks) = a := rfl
      rw [h1] at e
      exact absurd (e ▸ kid_mem_pres hk (at_mem_pre q k s' hq)) hn.1
  | i :: p, [], .node a l ks, hn, s, s', hp, hq, e => by
    rw [NTree.at] at hq
    cases hq
    rw [NTree.at] at hp
    rw [NTree.pre, List.map_cons, List.nodup_cons] at hn
    cases hk : ks[i]? with
    | none => rw [hk] at hp; cases hp
    | some k =>
      rw [hk] at hp
      have h1 : NTree.id (.node a l ks) = a := rfl
      rw [h1] at e
      exact absurd (e ▸ kid_mem_pres hk (at_mem_pre p k s hp)) hn.1
  | i :: p, j :: q, .node a l ks, hn, s, s', hp, hq, e => by
    rw [NTree.at] at hp hq
    rw [NTree.pre, List.map_cons, List.nodup_cons] at hn
    cases hk : ks[i]? with
    | none => rw [hk] at hp; cases hp
    | some k =>
      cases hk' : ks[j]? with
      | none => rw [hk'] at hq; cases hq
      | some k' =>
        rw [hk] at hp
        rw [hk'] at hq
        simp only at hp hq
        have ha := at_mem_pre p k s hp
        have hb := at_mem_pre q k' s' hq
        have key : i = j ∧ (k.pre.map Prod.fst).Nodup := by
          have hn2 := hn.2
          clear hn hp hq
          induction ks generalizing i j with
          | nil => simp at hk
          | cons x ks ih =>
            rw [NTree.pres, List.map_append, List.nodup_append] at hn2
            cases i with
            | zero =>
              simp at hk; subst hk
              cases j with
              | zero => exact ⟨rfl, hn2.1⟩
              | succ j => exact absurd e (hn2.2.2 _ ha _ (kid_mem_pres (by simpa using hk') hb))
            | succ i =>
              cases j with
              | zero =>
                simp at hk'; subst hk'
                exact absurd e.symm (hn2.2.2 _ hb _ (kid_mem_pres (by simpa using hk) ha))
              | succ j =>
                have := ih i j (by simpa using hk) (by simpa using hk') hn2.2.1
                exact ⟨by rw [this.1], this.2⟩
        obtain ⟨rfl, hnd⟩ := key
        rw [hk] at hk'
        cases hk'
        rw [distinct_names p q k hnd s s' hp hq e]

theorem erase_at : ∀ (p : List Nat) (t : NTree), t.erase.at p = (t.at p).map NTree.erase
  | [], t => by cases t; rfl
  | i :: p, .node a l ks => by
    rw [NTree.erase, LTree.at, NTree.at, erases_eq, List.getElem?_map]
    cases hk : ks[i]? with
    | none => rfl
    | some k => simp only [Option.map_some]; exact erase_at p k

mutual
theorem mem_pre : ∀ {t : NTree} {a l : Str}, (a, l) ∈ t.pre → ∃ p ks, t.at p = some (.node a l ks)
  | .node a' l' ks, a, l, h => by
    rw [NTree.pre, List.mem_cons] at h
    rcases h with h | h
    · cases h; exact ⟨[], ks, rfl⟩
    · obtain ⟨i, k, p, ks', hk, e⟩ := mem_pres h
      exact ⟨i :: p, ks', by rw [NTree.at, hk]; exact e⟩
theorem mem_pres : ∀ {ts : List NTree} {a l : Str}, (a, l) ∈ NTree.pres ts → ∃ (i : Nat) (k : NTree) (p : List Nat) (ks : List NTree), ts[i]? = some k ∧ k.at p = some (.node a l ks)
  | [], _, _, h => by cases h
  | t :: ts, a, l, h => by
    rw [NTree.pres, List.mem_append] at h
    rcases h with h | h
    · obtain ⟨p, ks, e⟩ := mem_pre h
      exact ⟨0, t, p, ks, rfl, e⟩
    · obtain ⟨i, k, p, ks, e1, e2⟩ := mem_pres h
      exact ⟨i + 1, k, p, ks, by simpa using e1, e2⟩
end

theorem at_mem_pre' : ∀ (p : List Nat) (t : NTree) {a l : Str} {ks : List NTree}, t.at p = some (.node a l ks) → (a, l) ∈ t.pre
  | [], t, a, l, ks, h => by cases t; cases h; simp [NTree.pre]
  | i :: p, .node a' l' ks', a, l, ks, h => by
    rw [NTree.at] at h
    cases hk : ks'[i]? with
    | none => rw [hk] at h; cases h
    | some k =>
      rw [hk] at h
      have := at_mem_pre' p k h
      rw [NTree.pre]
      refine List.mem_cons_of_mem _ ?_
      clear h
      induction ks' generalizing i with
      | nil => simp at hk
      | cons k' ks ih =>
        rw [NTree.pres, List.mem_append]
        cases i with
        | zero => simp at hk; subst hk; exact Or.inl this
        | succ i => exact Or.inr (ih i (by simpa using hk))

theorem at_append : ∀ (p : List Nat) (t : NTree) {a l : Str} {ks : List NTree} (i : Nat), t.at p = some (.node a l ks) → t.at (p ++ [i]) = ks[i]?
  | [], t, a, l, ks, i, h => by
    cases t; cases h
    rw [List.nil_append, NTree.at]
    cases ks[i]? with
    | none => rfl
    | some k => cases k; rfl
  | j :: p, .node a' l' ks', a, l, ks, i, h => by
    rw [NTree.at] at h
    rw [List.cons_append, NTree.at]
    cases hk : ks'[j]? with
    | none => rw [hk] at h; cases h
    | some k => rw [hk] at h; exact at_append p k i h

/-- A drawing of a tree with different names shows the tree. -/
theorem draws_shows {t : NTree} {ss : List Stmt} (h : Draws t ss) (hn : (t.pre.map Prod.fst).Nodup) :
    Shows ss t.erase fun p => ((t.at p).map NTree.id).getD [] where
  distinct p q hp hq e := by
    rw [erase_at] at hp hq
    cases h1 : t.at p with
    | none => rw [h1] at hp; exact absurd rfl hp
    | some s =>
      cases h2 : t.at q with
      | none => rw [h2] at hq; exact absurd rfl hq
      | some s' =>
        simp only [h1, h2, Option.map_some, Option.getD_some] at e
        exact distinct_names p q t hn s s' h1 h2 e
  once := by rw [draws_nodes h]; exact hn
  nodes_iff a l := by
    rw [draws_nodes h]
    constructor
    · intro hm
      obtain ⟨p, ks, e⟩ := mem_pre hm
      exact ⟨p, _, by rw [erase_at, e]; rfl, by rw [e]; rfl, rfl⟩
    · rintro ⟨p, s, e, rfl, rfl⟩
      rw [erase_at] at e
      cases h1 : t.at p with
      | none => rw [h1] at e; cases e
      | some s' =>
        rw [h1] at e
        cases s' with
        | node a l ks =>
          cases e
          exact at_mem_pre' p t h1
  edges p s e := by
    rw [erase_at] at e
    cases h1 : t.at p with
    | none => rw [h1] at e; cases e
    | some s' =>
      rw [h1] at e
      cases s' with
      | node a l ks =>
        cases e
        have := draws_edges p h hn h1
        simp only [Option.map_some, Option.getD_some]
        rw [show NTree.id (.node a l ks) = a from rfl, this]
        apply List.ext_getElem?
        intro i
        rw [List.getElem?_map, List.getElem?_map, show LTree.kids (NTree.erase (.node a l ks)) = NTree.erases ks from rfl, erases_eq, List.length_map]
        by_cases hi : i < ks.length
        · rw [List.getElem?_range hi, Option.map_some, at_append p t i h1, List.getElem?_eq_getElem hi]
          rfl
        · rw [List.getElem?_eq_none (by omega), List.getElem?_eq_none (by rw [List.length_range]; omega)]
          rfl
  sources a b hb := by
    obtain ⟨x, hx, rfl⟩ := List.mem_map.1 (draws_sources h a b hb)
    obtain ⟨p, ks, e⟩ := mem_pre hx
    exact ⟨p, _, by rw [erase_at, e]; rfl, by simp only [e]; rfl⟩

/-! ### The names -/

theorem hex_digit_inj : ∀ a < 16, ∀ b < 16, (if a < 10 then UInt8.ofNat (48 + a) else UInt8.ofNat (87 + a)) = (if b < 10 then UInt8.ofNat (48 + b) else UInt8.ofNat (87 + b)) → a = b := by
  decide

theorem map_hex_inj : ∀ {l l' : List Nat}, (∀ d ∈ l, d < 16) → (∀ d ∈ l', d < 16) →
    l.map (fun d => if d < 10 then UInt8.ofNat (48 + d) else UInt8.ofNat (87 + d)) = l'.map (fun d => if d < 10 then UInt8.ofNat (48 + d) else UInt8.ofNat (87 + d)) → l = l'
  | [], [], _, _, _ => rfl
  | [], _ :: _, _, _, h => by simp at h
  | _ :: _, [], _, _, h => by simp at h
  | a :: l, b :: l', h1, h2, h => by
    simp only [List.map_cons, List.cons.injEq] at h
    rw [hex_digit_inj a (h1 a (by simp)) b (h2 b (by simp)) h.1, map_hex_inj (fun d hd => h1 d (by simp [hd])) (fun d hd => h2 d (by simp [hd])) h.2]

theorem hex_zero_ne {n : Nat} (hn : n ≠ 0) : hex n ≠ lit "0" := by
  intro h
  rw [hex, if_neg hn, show lit "0" = [0].map (fun d => if d < 10 then UInt8.ofNat (48 + d) else UInt8.ofNat (87 + d)) from by decide] at h
  have := map_hex_inj (fun d hd => Nat.digits_lt_base (by omega) (List.mem_reverse.1 hd)) (by decide) h
  have h1 : Nat.digits 16 n = [0] := by rw [← List.reverse_reverse (Nat.digits 16 n), this]; rfl
  have := Nat.ofDigits_digits 16 n
  rw [h1] at this
  exact hn (by simpa using this.symm)

theorem hex_injective {m n : Nat} (h : hex m = hex n) : m = n := by
  by_cases hm : m = 0
  · by_cases hn : n = 0
    · rw [hm, hn]
    · rw [hm] at h; exact absurd (h.symm.trans (by decide)) (hex_zero_ne hn)
  · by_cases hn : n = 0
    · rw [hn] at h; exact absurd (h.trans (by decide)) (hex_zero_ne hm)
    · rw [hex, hex, if_neg hm, if_neg hn] at h
      have := map_hex_inj (fun d hd => Nat.digits_lt_base (by omega) (List.mem_reverse.1 hd)) (fun d hd => Nat.digits_lt_base (by omega) (List.mem_reverse.1 hd)) h
      exact Nat.digits_inj_iff.1 (List.reverse_injective this)

/-- No percent sign, quotation mark or backslash. -/
def Harmless (s : Str) : Prop := ∀ b ∈ s, b ≠ 37 ∧ b ≠ 34 ∧ b ≠ 92

theorem harmless_append {a b : Str} : Harmless (a ++ b) ↔ Harmless a ∧ Harmless b := by
  unfold Harmless
  constructor
  · exact fun h => ⟨fun x hx => h x (List.mem_append_left _ hx), fun x hx => h x (List.mem_append_right _ hx)⟩
  · exact fun h x hx => (List.mem_append.1 hx).elim (h.1 x) (h.2 x)

theorem hex_harmless (n : Nat) : Harmless (hex n) := by
  unfold hex
  split
  · unfold Harmless; decide
  · intro b hb
    obtain ⟨d, hd, rfl⟩ := List.mem_map.1 hb
    have hd := Nat.digits_lt_base (by omega) (List.mem_reverse.1 hd)
    have : ∀ d < 16, (if d < 10 then UInt8.ofNat (48 + d) else UInt8.ofNat (87 + d)) ≠ 37 ∧ (if d < 10 then UInt8.ofNat (48 + d) else UInt8.ofNat (87 + d)) ≠ 34 ∧
      (if d < 10 then UInt8.ofNat (48 + d) else UInt8.ofNat (87 + d)) ≠ 92 := by decide
    exact this d hd

/-! ### The program draws the tree -/

theorem fprintAux_plain : ∀ (n : Nat) (s : Str), s.length ≤ n → (37 : UInt8) ∉ s → fprintAux n s = some s
  | 0, s, hl, _ => by
    have : s = [] := List.length_eq_zero_iff.1 (by omega)
    subst this; rfl
  | _ + 1, [], _, _ => rfl
  | n + 1, b :: s, hl, h => by
    simp only [List.mem_cons, not_or] at h
    rw [fprintAux.eq_def]
    simp only
    rw [if_pos (fun e => h.1 e.symm), fprintAux_plain n s (by simpa using hl) h.2]
    rfl

theorem fprint_plain {s : Str} (h : (37 : UInt8) ∉ s) : fprint s = some s := fprintAux_plain _ _ (Nat.le_refl _) h

mutual
/-- All labels of a tree are harmless. -/
def TreeHarmless : LTree → Prop
  | .node l ks => Harmless l ∧ TreesHarmless ks
def TreesHarmless : List LTree → Prop
  | [] => True
  | k :: ks => TreeHarmless k ∧ TreesHarmless ks
end

/-- The statements have harmless strings. -/
def StmtsHarmless (ss : List Stmt) : Prop := ∀ s ∈ ss, match s with
  | .node a b => Harmless a ∧ Harmless b
  | .edge a b => Harmless a ∧ Harmless b

theorem stmts_no_percent {ss : List Stmt} (h : StmtsHarmless ss) : (37 : UInt8) ∉ ss.flatMap Stmt.text := by
  intro hm
  obtain ⟨s, hs, hb⟩ := List.mem_flatMap.1 hm
  have := h s hs
  cases s with
  | node a b =>
    simp only [Stmt.text, List.mem_append] at hb
    rcases hb with (((hb | hb) | hb) | hb) | hb
    · revert hb; decide
    · exact (this.1 _ hb).1 rfl
    · revert hb; decide
    · exact (this.2 _ hb).1 rfl
    · revert hb; decide
  | edge a b =>
    simp only [Stmt.text, List.mem_append] at hb
    rcases hb with (((hb | hb) | hb) | hb) | hb
    · revert hb; decide
    · exact (this.1 _ hb).1 rfl
    · revert hb; decide
    · exact (this.2 _ hb).1 rfl
    · revert hb; decide

theorem stmtsHarmless_append {s t : List Stmt} (h1 : StmtsHarmless s) (h2 : StmtsHarmless t) : StmtsHarmless (s ++ t) := fun x hx =>
  (List.mem_append.1 hx).elim (h1 x) (h2 x)

theorem stmtsHarmless_cons {s : Stmt} {t : List Stmt} (h1 : StmtsHarmless [s]) (h2 : StmtsHarmless t) : StmtsHarmless (s :: t) :=
  stmtsHarmless_append h1 h2

/-- `n` names from the `k`-th random number on. -/
def names (rnd : Nat → Nat) (k n : Nat) : List Str := (List.range' k n).map fun i => hex (rnd i)

theorem names_append (rnd : Nat → Nat) (k m n : Nat) : names rnd k (m + n) = names rnd k m ++ names rnd (k + m) n := by
  unfold names
  rw [← List.map_append, List.range'_append_1]

theorem names_succ (rnd : Nat → Nat) (k n : Nat) : names rnd k (1 + n) = hex (rnd k) :: names rnd (k + 1) n := by
  rw [names_append]; rfl

theorem leaf_ok (rnd : Nat → Nat) (id label : Str) (k : Nat) (hid : Harmless id) (hl : Harmless label) (r : Option (Str × Nat)) (hr : r = some (nodeText id label, k)) :
    ∃ A ss, r = some (ss.flatMap Stmt.text, k + ((LTree.node label []).size - 1)) ∧ Draws A ss ∧ A.erase = .node label [] ∧ A.id = id ∧ StmtsHarmless ss ∧
      A.pre.map Prod.fst = id :: names rnd k ((LTree.node label []).size - 1) := by
  refine ⟨.node id label [], [.node id label], ?_, .node (.nil id), rfl, rfl, ?_, rfl⟩
  · rw [hr]; simp [Stmt.text, nodeText, LTree.size, LTree.sizes]
  · intro s hs
    rw [List.mem_singleton] at hs
    subst hs
    exact ⟨hid, hl⟩

mutual
theorem graphviz_ok (rnd : Nat → Nat) : ∀ (m : Matcher) (id : Str) (k : Nat), Harmless id → TreeHarmless (treeOf m) →
    ∃ A ss, graphviz rnd m id k = some (ss.flatMap Stmt.text, k + ((treeOf m).size - 1)) ∧ Draws A ss ∧ A.erase = treeOf m ∧ A.id = id ∧ StmtsHarmless ss ∧
      A.pre.map Prod.fst = id :: names rnd k ((treeOf m).size - 1)
  | .btree v l r _ _ _, id, k, hid, h => by
    rw [treeOf, TreeHarmless, TreesHarmless, TreesHarmless] at h
    obtain ⟨A, ss, e, hd, he, hh, hp⟩ := branch_ok rnd l id k hid h.2.1
    obtain ⟨B, ss', e', hd', he', hh', hp'⟩ := branch_ok rnd r id (k + (treeOfBranch l).size) hid h.2.2.1
    refine ⟨.node id v.string [A, B], .node id v.string :: (ss ++ ss'), ?_, .node (hd [B] ss' (by simpa using hd' [] [] (.nil _))), ?_, rfl, ?_, ?_⟩
    · rw [graphviz, treeOf, LTree.size, LTree.sizes, LTree.sizes, LTree.sizes]
      simp only [e, Option.bind_eq_bind, Option.bind_some]
      rw [e']
      simp [Stmt.text, nodeText, Nat.add_assoc]
    · rw [NTree.erase, erases_eq, treeOf]; simp [he, he']
    · exact stmtsHarmless_cons (fun s hs => by rw [List.mem_singleton] at hs; subst hs; exact ⟨hid, h.1⟩) (stmtsHarmless_append hh hh')
    · rw [NTree.pre, NTree.pres, NTree.pres, NTree.pres, treeOf, LTree.size, LTree.sizes, LTree.sizes, LTree.sizes]
      simp only [List.map_cons, List.map_append, List.append_nil, hp, hp', Nat.add_zero, Nat.add_sub_cancel_left]
      rw [names_append]
  | .anyOf ms, id, k, hid, h => by
    rw [treeOf, TreeHarmless] at h
    obtain ⟨ks, ss, e, hd, he, hh, hp⟩ := all_ok rnd ms id k hid h.2
    refine ⟨.node id (lit "AnyOf") ks, .node id (lit "AnyOf") :: ss, ?_, .node hd, ?_, rfl, ?_, ?_⟩
    · rw [graphviz, treeOf, LTree.size]; simp [e, Stmt.text, nodeText]
    · rw [NTree.erase, he, treeOf]
    · exact stmtsHarmless_cons (fun s hs => by rw [List.mem_singleton] at hs; subst hs; exact ⟨hid, h.1⟩) hh
    · rw [NTree.pre, List.map_cons, hp, treeOf, LTree.size, Nat.add_sub_cancel_left]
  | .everyOf ms, id, k, hid, h => by
    rw [treeOf, TreeHarmless] at h
    obtain ⟨ks, ss, e, hd, he, hh, hp⟩ := all_ok rnd ms id k hid h.2
    refine ⟨.node id (lit "EveryOf") ks, .node id (lit "EveryOf") :: ss, ?_, .node hd, ?_, rfl, ?_, ?_⟩
    · rw [graphviz, treeOf, LTree.size]; simp [e, Stmt.text, nodeText]
    · rw [NTree.erase, he, treeOf]
    · exact stmtsHarmless_cons (fun s hs => by rw [List.mem_singleton] at hs; subst hs; exact ⟨hid, h.1⟩) hh
    · rw [NTree.pre, List.map_cons, hp, treeOf, LTree.size, Nat.add_sub_cancel_left]
  | .nothing, id, k, hid, h => leaf_ok rnd id _ k hid h.1 _ rfl
  | .text _, id, k, hid, h => leaf_ok rnd id _ k hid h.1 _ rfl
  | .any _, id, k, hid, h => leaf_ok rnd id _ k hid h.1 _ rfl
  | .super, id, k, hid, h => leaf_ok rnd id _ k hid h.1 _ rfl
  | .single _, id, k, hid, h => leaf_ok rnd id _ k hid h.1 _ rfl
  | .list _ _, id, k, hid, h => leaf_ok rnd id _ k hid h.1 _ rfl
  | .range _ _ _, id, k, hid, h => leaf_ok rnd id _ k hid h.1 _ rfl
  | .min _, id, k, hid, h => leaf_ok rnd id _ k hid h.1 _ rfl
  | .max _, id, k, hid, h => leaf_ok rnd id _ k hid h.1 _ rfl
  | .contains _ _, id, k, hid, h => leaf_ok rnd id _ k hid h.1 _ rfl
  | .prefix _, id, k, hid, h => leaf_ok rnd id _ k hid h.1 _ rfl
  | .suffix _, id, k, hid, h => leaf_ok rnd id _ k hid h.1 _ rfl
  | .prefixSuffix _ _, id, k, hid, h => leaf_ok rnd id _ k hid h.1 _ rfl
  | .prefixAny _ _, id, k, hid, h => leaf_ok rnd id _ k hid h.1 _ rfl
  | .suffixAny _ _, id, k, hid, h => leaf_ok rnd id _ k hid h.1 _ rfl
  | .row _ _, id, k, hid, h => leaf_ok rnd id _ k hid h.1 _ rfl

theorem branch_ok (rnd : Nat → Nat) : ∀ (m : Option Matcher) (id : Str) (k : Nat), Harmless id → TreeHarmless (treeOfBranch m) →
    ∃ A ss, graphvizBranch rnd m id k = some (ss.flatMap Stmt.text, k + (treeOfBranch m).size) ∧
      (∀ ks ts, DrawsAll id ks ts → DrawsAll id (A :: ks) (ss ++ ts)) ∧ A.erase = treeOfBranch m ∧ StmtsHarmless ss ∧
      A.pre.map Prod.fst = names rnd k (treeOfBranch m).size
  | none, id, k, hid, h => by
    refine ⟨.node (hex (rnd k)) (lit "<nil>") [], [.node (hex (rnd k)) (lit "<nil>"), .edge id (hex (rnd k))], ?_, ?_, rfl, ?_, rfl⟩
    · rw [graphvizBranch, treeOfBranch, LTree.size, LTree.sizes]; simp [Stmt.text, nodeText, edgeText]
    · intro ks ts hts
      exact DrawsAll.edgeLast (s := [.node (hex (rnd k)) (lit "<nil>")]) (.node (.nil _)) hts
    · intro s hs
      simp only [List.mem_cons, List.not_mem_nil, or_false] at hs
      rcases hs with rfl | rfl
      · exact ⟨hex_harmless _, h.1⟩
      · exact ⟨hid, hex_harmless _⟩
  | some m, id, k, hid, h => by
    obtain ⟨A, ss, e, hd, he, hi, hh, hp⟩ := graphviz_ok rnd m (hex (rnd k)) (k + 1) (hex_harmless _) h
    have hsz : 1 + ((treeOf m).size - 1) = (treeOf m).size := by
      cases treeOf m with
      | node l ks => rw [LTree.size]; omega
    refine ⟨A, .edge id (hex (rnd k)) :: ss, ?_, ?_, he, ?_, ?_⟩
    · rw [graphvizBranch, treeOfBranch]
      simp only [e, Option.bind_eq_bind, Option.bind_some]
      rw [fprint_plain (stmts_no_percent hh), Nat.add_assoc, hsz]
      simp [Stmt.text, edgeText]
    · intro ks ts hts
      have := DrawsAll.edgeFirst hd hts
      rw [hi] at this
      exact this
    · exact stmtsHarmless_cons (fun s hs => by rw [List.mem_singleton] at hs; subst hs; exact ⟨hid, hex_harmless _⟩) hh
    · rw [hp, treeOfBranch, ← hsz, names_succ, Nat.add_sub_cancel_left]

theorem all_ok (rnd : Nat → Nat) : ∀ (ms : List Matcher) (id : Str) (k : Nat), Harmless id → TreesHarmless (treesOf ms) →
    ∃ ks ss, graphvizAll rnd ms id k = some (ss.flatMap Stmt.text, k + LTree.sizes (treesOf ms)) ∧ DrawsAll id ks ss ∧ NTree.erases ks = treesOf ms ∧ StmtsHarmless ss ∧
      (NTree.pres ks).map Prod.fst = names rnd k (LTree.sizes (treesOf ms))
  | [], id, k, _, _ => ⟨[], [], rfl, .nil _, rfl, (fun s hs => by cases hs), rfl⟩
  | m :: ms, id, k, hid, h => by
    rw [treesOf, TreesHarmless] at h
    obtain ⟨A, ss, e, hd, he, hi, hh, hp⟩ := graphviz_ok rnd m (hex (rnd k)) (k + 1) (hex_harmless _) h.1
    have hsz : 1 + ((treeOf m).size - 1) = (treeOf m).size := by
      cases treeOf m with
      | node l ks => rw [LTree.size]; omega
    obtain ⟨ks, ts, e', hd', he', hh', hp'⟩ := all_ok rnd ms id (k + (treeOf m).size) hid h.2
    refine ⟨A :: ks, ss ++ .edge id A.id :: ts, ?_, .edgeLast hd hd', ?_, ?_, ?_⟩
    · rw [graphvizAll, treesOf, LTree.sizes]
      simp only [e, Option.bind_eq_bind, Option.bind_some]
      rw [fprint_plain (stmts_no_percent hh), Nat.add_assoc, hsz]
      simp only [Option.bind_some]
      rw [e', hi]
      simp [Stmt.text, edgeText, Nat.add_assoc]
    · rw [NTree.erases, he, he', treesOf]
    · refine stmtsHarmless_append hh (stmtsHarmless_cons (fun s hs => ?_) hh')
      rw [List.mem_singleton] at hs; subst hs
      exact ⟨hid, hi ▸ hex_harmless _⟩
    · rw [NTree.pres, List.map_append, hp, hp', treesOf, LTree.sizes, names_append, show names rnd k (treeOf m).size = names rnd k (1 + ((treeOf m).size - 1)) from by rw [hsz], names_succ]
end

/-- **C126**, the part that holds: if the random numbers for the nodes are different and no label has a percent sign, a quotation mark or a backslash, the drawing is a text
of the DOT language, and its graph shows the tree of the matcher. -/
theorem C126_draw_partial (rnd : Nat → Nat) (pattern : Str) (m : Matcher) (hm : TreeHarmless (treeOf m))
    (hr : ∀ i < (treeOf m).size, ∀ j < (treeOf m).size, rnd i = rnd j → i = j) :
    ∃ ss name, drawMatcher rnd pattern m = some (dot pattern ss) ∧ Shows ss (treeOf m) name ∧ ∀ s ∈ ss, s.Plain := by
  obtain ⟨A, ss, e, hd, he, hi, hh, hp⟩ := graphviz_ok rnd m (hex (rnd 0)) 1 (hex_harmless _) hm
  have hsz : 1 + ((treeOf m).size - 1) = (treeOf m).size := by
    cases treeOf m with
    | node l ks => rw [LTree.size]; omega
  have hn : (A.pre.map Prod.fst).Nodup := by
    rw [hp, ← names_succ, hsz]
    unfold names
    refine List.Nodup.map_on (fun x hx y hy hxy => ?_) List.nodup_range'
    simp only [List.mem_range'_1] at hx hy
    exact hr x (by omega) y (by omega) (hex_injective hxy)
  refine ⟨ss, _, ?_, he ▸ draws_shows hd hn, fun s hs => ?_⟩
  · unfold drawMatcher
    rw [e]
    rfl
  · have := hh s hs
    cases s with
    | node a b => exact ⟨⟨fun h => (this.1 _ h).2.1 rfl, fun h => (this.1 _ h).2.2 rfl⟩, ⟨fun h => (this.2 _ h).2.1 rfl, fun h => (this.2 _ h).2.2 rfl⟩⟩
    | edge a b => exact ⟨⟨fun h => (this.1 _ h).2.1 rfl, fun h => (this.1 _ h).2.2 rfl⟩, ⟨fun h => (this.2 _ h).2.1 rfl, fun h => (this.2 _ h).2.2 rfl⟩⟩

end Verif.Glob
