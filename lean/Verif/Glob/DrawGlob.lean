import Verif.Glob.DrawLabels
import Verif.Glob.ToolProps
/-
What globdraw prints (C126).
-/
namespace Verif.Glob
open Draw.Spec

theorem separators_fine : ∀ {cs : List Str} {seps : List Nat}, (∀ c ∈ cs, Harmless c) → Tool.separators cs = some seps → ∀ r ∈ seps, FineRune r
  | [], seps, _, h => by cases h; intro r hr; cases hr
  | c :: cs, seps, hc, h => by
    rw [Tool.separators] at h
    split at h
    · cases h
    · simp only [Option.map_eq_some_iff] at h
      obtain ⟨rs, h1, rfl⟩ := h
      intro r hr
      rcases List.mem_cons.1 hr with rfl | hr
      · exact fine_decode (hc c List.mem_cons_self)
      · exact separators_fine (fun c hc' => hc c (List.mem_cons_of_mem _ hc')) h1 r hr

theorem splitComma_harmless : ∀ {s : Str}, Harmless s → ∀ c ∈ Tool.splitComma s, Harmless c
  | [], _ => by
    intro c hc
    simp only [Tool.splitComma, List.mem_singleton] at hc
    subst hc
    intro b hb; cases hb
  | b :: s, h => by
    have ih := splitComma_harmless (s := s) fun x hx => h x (List.mem_cons_of_mem _ hx)
    intro c hc
    rw [Tool.splitComma] at hc
    split at hc
    · rcases List.mem_cons.1 hc with rfl | hc
      · intro b hb; cases hb
      · exact ih c hc
    · split at hc
      · simp only [List.mem_singleton] at hc
        subst hc
        intro x hx
        simp only [List.mem_singleton] at hx
        subst hx
        exact h x List.mem_cons_self
      · rename_i p ps e
        rcases List.mem_cons.1 hc with rfl | hc
        · intro x hx
          rcases List.mem_cons.1 hx with rfl | hx
          · exact h x List.mem_cons_self
          · exact ih p (by rw [e]; exact List.mem_cons_self) x hx
        · exact ih c (by rw [e]; exact List.mem_cons_of_mem _ hc)

theorem plain_of_harmless {s : Str} (h : Harmless s) : Draw.Spec.Plain s := ⟨fun hb => (h _ hb).2.1 rfl, fun hb => (h _ hb).2.2 rfl⟩

/-- **C126** The label of a class or of a search for a text starts with a `!` exactly if it is negated. -/
theorem C126_negation (b : Bool) (rs : List Nat) (lo hi : Nat) (n : Str) :
    (lit "<list:!" <+: (Matcher.list rs b).string ↔ b = true) ∧ (lit "<range:!" <+: (Matcher.range lo hi b).string ↔ b = true) ∧
    (lit "<contains:!" <+: (Matcher.contains n b).string ↔ b = true) := by
  have key : ∀ (a c : Str), lit "!" <+: c → ((a ++ lit "!") <+: (a ++ c)) := fun a c h => (List.prefix_append_right_inj a).2 h
  cases b
  · refine ⟨⟨fun h => ?_, nofun⟩, ⟨fun h => ?_, nofun⟩, ⟨fun h => ?_, nofun⟩⟩
    · have e : lit "<list:!" = lit "<list:" ++ lit "!" := by decide
      unfold Matcher.string notText at h
      rw [e] at h
      simp only [List.append_assoc] at h
      rw [List.prefix_append_right_inj] at h
      obtain ⟨t, h⟩ := h
      have : lit "!" = [33] := by decide
      rw [this] at h
      have : lit "[" = [91] := by decide
      rw [this] at h
      simp at h
    · have e : lit "<range:!" = lit "<range:" ++ lit "!" := by decide
      unfold Matcher.string notText at h
      rw [e] at h
      simp only [List.append_assoc] at h
      rw [List.prefix_append_right_inj] at h
      obtain ⟨t, h⟩ := h
      have : lit "!" = [33] := by decide
      rw [this] at h
      have : lit "[" = [91] := by decide
      rw [this] at h
      simp at h
    · have e : lit "<contains:!" = lit "<contains:" ++ lit "!" := by decide
      unfold Matcher.string notText at h
      rw [e] at h
      simp only [List.append_assoc] at h
      rw [List.prefix_append_right_inj] at h
      obtain ⟨t, h⟩ := h
      have : lit "!" = [33] := by decide
      rw [this] at h
      have : lit "[" = [91] := by decide
      rw [this] at h
      simp at h
  · refine ⟨⟨fun _ => rfl, fun _ => ?_⟩, ⟨fun _ => rfl, fun _ => ?_⟩, ⟨fun _ => rfl, fun _ => ?_⟩⟩
    · have e : lit "<list:!" = lit "<list:" ++ lit "!" := by decide
      rw [e]
      unfold Matcher.string notText
      simp only [List.append_assoc]
      exact key _ _ (List.prefix_append _ _)
    · have e : lit "<range:!" = lit "<range:" ++ lit "!" := by decide
      rw [e]
      unfold Matcher.string notText
      simp only [List.append_assoc]
      exact key _ _ (List.prefix_append _ _)
    · have e : lit "<contains:!" = lit "<contains:" ++ lit "!" := by decide
      rw [e]
      unfold Matcher.string notText
      simp only [List.append_assoc]
      exact key _ _ (List.prefix_append _ _)

/-- **C126**, the part that holds: if neither the pattern nor the list of separators has a percent sign, a quotation mark or a backslash, then `globdraw` prints a text
of the DOT language, which can be read in one way only: its title is the pattern, and its graph shows the tree of the compiled matcher. (The random numbers
that name the nodes have to be different.) -/
theorem C126_globdraw_partial (rnd : Nat → Nat) (pattern sep : Str) (m : Matcher) (hp : Harmless pattern) (hs : Harmless sep) (h : Tool.globdraw pattern sep = .result m)
    (hr : ∀ i < (treeOf m).size, ∀ j < (treeOf m).size, rnd i = rnd j → i = j) :
    ∃ text ss name, globdrawText rnd pattern sep = .result (some text) ∧ text = dot pattern ss ∧ Shows ss (treeOf m) name ∧
      ∀ title ss', Draw.Spec.Plain title → (∀ s ∈ ss', s.Plain) → text = dot title ss' → title = pattern ∧ ss' = ss := by
  have hm : FineMatcher m := by
    unfold Tool.globdraw at h
    split at h
    · cases h
    · split at h
      · cases h
      · rename_i seps hseps
        split at h <;> try cases h
        rename_i m' e
        refine globCompile_fine hp ?_ e
        split at hseps
        · exact separators_fine (splitComma_harmless hs) hseps
        · cases hseps; intro r hr; cases hr
  obtain ⟨ss, name, h1, h2, h3⟩ := C126_draw_partial rnd pattern m (tree_harmless hm) hr
  refine ⟨_, ss, name, ?_, rfl, h2, fun title ss' ht hss e => ?_⟩
  · unfold globdrawText
    rw [h]
    simp only [h1]
  · obtain ⟨e1, e2⟩ := dot_injective (plain_of_harmless hp) ht h3 hss e
    exact ⟨e1.symm, e2.symm⟩

/-- The pattern "a*[xy]?b{c,*d?}" with the separators "." and "/" meets the hypotheses: the tree of its matcher has seven nodes. -/
theorem C126_case : ∃ m, Tool.globdraw (lit "a*[xy]?b{c,*d?}") (lit ".,/") = .result m ∧ (treeOf m).size = 7 ∧ Harmless (lit "a*[xy]?b{c,*d?}") ∧ Harmless (lit ".,/") := by
  have key : (match Tool.globdraw (lit "a*[xy]?b{c,*d?}") (lit ".,/") with
    | .result m => (treeOf m).size == 7
    | _ => false) = true := by decide +kernel
  generalize Tool.globdraw (lit "a*[xy]?b{c,*d?}") (lit ".,/") = r at key
  cases r with
  | result m => exact ⟨m, rfl, by simpa using key, by unfold Harmless; decide, by unfold Harmless; decide⟩
  | usage => cases key
  | badSeparators => cases key
  | badPattern => cases key
  | panic => cases key

/-! ### Where it fails -/

/-- The graph that `globdraw` prints for "{a%,b*}". -/
def percentGraph : List Stmt := [.node (lit "0") (lit "AnyOf"), .node (lit "1") (lit "<text:`a%!`(MISSING)>"), .edge (lit "0") (lit "1"), .node (lit "2") (lit "<prefix:b>"),
  .edge (lit "0") (lit "2")]

/-- **C126** is false for a percent sign: it is taken for a verb of a format. With the random numbers 0, 1, 2, … the program prints for "{a%,b*}" a graph that does not show the
tree of the matcher. -/
theorem C126_percent_false : ∃ m text, Tool.globdraw (lit "{a%,b*}") [] = .result m ∧ globdrawText (fun i => i) (lit "{a%,b*}") [] = .result (some text) ∧
    ¬ ∃ ss name, text = dot (lit "{a%,b*}") ss ∧ (∀ s ∈ ss, s.Plain) ∧ Shows ss (treeOf m) name := by
  have key : (match Tool.globdraw (lit "{a%,b*}") [] with
    | .result m => decide (drawMatcher (fun i => i) (lit "{a%,b*}") m = some (dot (lit "{a%,b*}") percentGraph)) &&
        decide (((treeOf m).at [0]).map LTree.label = some (lit "<text:`a%`>"))
    | _ => false) = true := by decide +kernel
  unfold globdrawText
  generalize Tool.globdraw (lit "{a%,b*}") [] = r at key
  cases r with
  | result m =>
    simp only [Bool.and_eq_true, decide_eq_true_eq] at key
    refine ⟨m, _, rfl, congrArg Tool.End.result key.1, ?_⟩
    rintro ⟨ss, name, e, hss, hsh⟩
    have hpl : ∀ s ∈ percentGraph, s.Plain := by
      intro s hs
      simp only [percentGraph, List.mem_cons, List.not_mem_nil, or_false] at hs
      rcases hs with rfl | rfl | rfl | rfl | rfl <;> (simp only [Stmt.Plain, Draw.Spec.Plain]; decide)
    obtain ⟨-, rfl⟩ := dot_injective (by unfold Draw.Spec.Plain; decide) (by unfold Draw.Spec.Plain; decide) hpl hss e
    cases ht : (treeOf m).at [0] with
    | none => rw [ht] at key; simp at key
    | some s =>
      rw [ht] at key
      have hl : s.label = lit "<text:`a%`>" := by simpa using key.2
      have := (hsh.nodes_iff (name [0]) (lit "<text:`a%`>")).2 ⟨[0], s, ht, rfl, hl.symm⟩
      have hno : lit "<text:`a%`>" ∉ (Draw.Spec.nodes percentGraph).map Prod.snd := by decide
      exact hno (List.mem_map.2 ⟨_, this, rfl⟩)
  | usage => cases key
  | badSeparators => cases key
  | badPattern => cases key
  | panic => cases key

theorem count_quotes {ss : List Stmt} (h : ∀ s ∈ ss, s.Plain) : (ss.flatMap Stmt.text).count 34 = 4 * ss.length := by
  induction ss with
  | nil => rfl
  | cons s ss ih =>
    rw [List.flatMap_cons, List.count_append, ih fun s hs => h s (List.mem_cons_of_mem _ hs), List.length_cons]
    have : s.text.count 34 = 4 := by
      have := h s List.mem_cons_self
      cases s with
      | node a b =>
        simp only [Stmt.text, List.count_append, List.count_eq_zero.2 this.1.1, List.count_eq_zero.2 this.2.1]
        decide
      | edge a b =>
        simp only [Stmt.text, List.count_append, List.count_eq_zero.2 this.1.1, List.count_eq_zero.2 this.2.1]
        decide
    omega

/-- **C126** is false for a quotation mark: it is not escaped. Whatever the random numbers are, the program prints for `a"b` a text that is not the text of any graph. -/
theorem C126_quote_false (rnd : Nat → Nat) : ∃ text, globdrawText rnd (lit "a\"b") [] = .result (some text) ∧
    ¬ ∃ title ss, Draw.Spec.Plain title ∧ (∀ s ∈ ss, s.Plain) ∧ text = dot title ss := by
  have key : (match Tool.globdraw (lit "a\"b") [] with
    | .result (.text t) => decide (t = lit "a\"b")
    | _ => false) = true := by decide +kernel
  unfold globdrawText
  generalize Tool.globdraw (lit "a\"b") [] = r at key
  split at key
  · rename_i t
    rw [decide_eq_true_eq] at key
    subst key
    refine ⟨_, rfl, ?_⟩
    rintro ⟨title, ss, h1, h2, e⟩
    have e := congrArg (List.count 34) e
    have hx : (hex (rnd 0)).count 34 = 0 := List.count_eq_zero.2 fun hb => (hex_harmless _ _ hb).2.1 rfl
    simp only [dot, nodeText, Matcher.string, List.count_append, List.count_eq_zero.2 h1.1, count_quotes h2, hx] at e
    have c1 : (lit "digraph G {graph[label=\"").count 34 = 1 := by decide
    have c2 : (lit "a\"b").count 34 = 1 := by decide
    have c3 : (lit "\"];").count 34 = 1 := by decide
    have c4 : (lit "\"").count 34 = 1 := by decide
    have c5 : (lit "\"[label=\"").count 34 = 2 := by decide
    have c6 : (lit "<text:`").count 34 = 0 := by decide
    have c7 : (lit "`>").count 34 = 0 := by decide
    have c8 : (lit "}").count 34 = 0 := by decide
    rw [c1, c2, c3, c4, c5, c6, c7, c8] at e
    omega
  · cases key

end Verif.Glob
