import Verif.Closest.JsonPrefix
/-
C147: the text that `Save` writes, and what `Load` reads of it.
-/
namespace Verif.Closest.Json

theorem sorted_unique {α : Type} {R : α → α → Prop} (irr : ∀ a, ¬ R a a) (tr : ∀ a b c, R a b → R b c → R a c) : ∀ {l m : List α}, l.Pairwise R → m.Pairwise R →
    (∀ x, x ∈ l ↔ x ∈ m) → l = m
  | [], [], _, _, _ => rfl
  | [], b :: m, _, _, h => by have := (h b).2 (by simp); simp at this
  | a :: l, [], _, _, h => by have := (h a).1 (by simp); simp at this
  | a :: l, b :: m, hl, hm, h => by
    rw [List.pairwise_cons] at hl hm
    have e : a = b := by
      rcases List.mem_cons.1 ((h a).1 (by simp)) with h1 | h1
      · exact h1
      rcases List.mem_cons.1 ((h b).2 (by simp)) with h2 | h2
      · exact h2.symm
      exact absurd (tr _ _ _ (hl.1 b h2) (hm.1 a h1)) (irr a)
    subst e
    congr 1
    refine sorted_unique irr tr hl.2 hm.2 fun x => ⟨fun hx => ?_, fun hx => ?_⟩
    · rcases List.mem_cons.1 ((h x).1 (List.mem_cons_of_mem _ hx)) with rfl | h1
      · exact absurd (hl.1 _ hx) (irr _)
      · exact h1
    · rcases List.mem_cons.1 ((h x).2 (List.mem_cons_of_mem _ hx)) with rfl | h1
      · exact absurd (hm.1 _ hx) (irr _)
      · exact h1

/-- **C147** Every index made by `New` and any calls of `Add` has a text. -/
theorem C147_text (short isNil : Bool) (other : Str → Str) (words : List Str) (sizes : List Int) (more : List (List Str)) (cm : CM)
    (h : ((new other words sizes).bind fun cm => more.foldlM (CM.add other) cm) = some cm) : ∃ text, Written short isNil cm text := by
  rw [Option.bind_eq_some_iff] at h
  obtain ⟨c0, h0, h1⟩ := h
  have hf := finite_new h0
  clear h0
  apply written_exists
  induction more generalizing c0 with
  | nil => cases h1; exact hf
  | cons w more ih =>
    rw [List.foldlM_cons, Option.bind_eq_bind, Option.bind_eq_some_iff] at h1
    obtain ⟨c1, h2, h3⟩ := h1
    exact ih c1 h3 (finite_add hf h2)

/-- **C147** The text does not depend on the order in which the maps are visited: an index has only one. -/
theorem C147_unique (short isNil : Bool) (cm : CM) (t u : Str) (ht : Written short isNil cm t) (hu : Written short isNil cm u) : t = u := by
  obtain ⟨frs, infos, rfl, a1, a2, a3, a4, a5⟩ := ht
  obtain ⟨frs', infos', rfl, b1, b2, b3, b4, b5⟩ := hu
  have irr : ∀ s : Str, ¬ strLt s s = true := fun s h => by rw [strLt_irrefl] at h; cases h
  have e1 : infos = infos' := sorted_unique (R := fun a b : Nat × IDInfo => strLt (dec a.1) (dec b.1) = true) (fun a => irr _) (fun _ _ _ => strLt_trans) a4 b4
    fun x => by rw [show x = (x.1, x.2) from rfl, a5, b5]
  have mem : ∀ {f1 f2 : List (Str × List Nat)}, (∀ f, (cm.sub f).isSome ↔ f ∈ f1.map Prod.fst) → (∀ f, (cm.sub f).isSome ↔ f ∈ f2.map Prod.fst) →
      (∀ x ∈ f1, (∃ ids, cm.sub x.1 = some ids ∧ x.2.Perm ids) ∧ x.2.Pairwise fun a b => strLt (dec a) (dec b) = true) →
      (∀ x ∈ f2, (∃ ids, cm.sub x.1 = some ids ∧ x.2.Perm ids) ∧ x.2.Pairwise fun a b => strLt (dec a) (dec b) = true) → ∀ x ∈ f1, x ∈ f2 := by
    intro f1 f2 k1 k2 v1 v2 x hx
    obtain ⟨y, hy, e⟩ := List.mem_map.1 ((k2 x.1).1 ((k1 x.1).2 (List.mem_map.2 ⟨x, hx, rfl⟩)))
    obtain ⟨⟨ids, p1, p2⟩, p3⟩ := v1 x hx
    obtain ⟨⟨ids', q1, q2⟩, q3⟩ := v2 y hy
    rw [e, p1] at q1
    cases q1
    have : x.2 = y.2 := sorted_unique (R := fun a b : Nat => strLt (dec a) (dec b) = true) (fun a => irr _) (fun _ _ _ => strLt_trans) p3 q3
      fun i => by rw [p2.mem_iff, q2.mem_iff]
    rw [show x = y from Prod.ext e.symm this]; exact hy
  have e2 : frs = frs' := by
    rw [List.pairwise_map] at a1 b1
    exact sorted_unique (R := fun a b : Str × List Nat => strLt a.1 b.1 = true) (fun a => irr _) (fun _ _ _ => strLt_trans) a1 b1
      fun x => ⟨mem a2 b2 a3 b3 x, mem b2 a2 b3 a3 x⟩
  rw [e1, e2]

/-- **C147** `Load` reads the text of an index as the index with every byte that is not valid UTF-8 replaced (`SaveLoad`, of which C69 and C111 speak), but
for the order of lists that stand for sets, and every search in the two finds the same. -/
theorem C147_read (short isNil : Bool) (cm : CM) (text : Str) (h : Written short isNil cm text) :
    ∃ cm' cm'', decode (text ++ lit "\n") = some cm' ∧ SaveLoad cm cm'' ∧ Same cm' cm'' ∧
      ∀ q, (∀ m, Match cm' q m ↔ Match cm'' q m) ∧ (MatchPanics cm' q ↔ MatchPanics cm'' q) := by
  obtain ⟨cm', cm'', h1, h2, h3⟩ := decode_written short isNil h []
  exact ⟨cm', cm'', h1, h2, h3, fun q => ⟨match_same h3 q, panics_same h3 q⟩⟩

/-- **C147** If all fragments and words are valid UTF-8, the loaded index is the saved one, whatever characters they contain. -/
theorem C147_round_trip (short isNil : Bool) (cm : CM) (text : Str) (h : Written short isNil cm text) (hs : ∀ f, (cm.sub f).isSome → validUtf8 f = true)
    (hi : ∀ i inf, cm.id i = some inf → validUtf8 inf.key = true) :
    ∃ cm', decode (text ++ lit "\n") = some cm' ∧ Same cm' cm ∧ ∀ q, (∀ out, Closest cm' q out ↔ Closest cm q out) ∧ (∀ n out, ClosestN cm' q n out ↔ ClosestN cm q n out) ∧
      (MatchPanics cm' q ↔ MatchPanics cm q) := by
  obtain ⟨cm', cm'', h1, h2, h3⟩ := decode_written short isNil h []
  rw [C69_round_trip_partial cm cm'' hs hi h2] at h3
  refine ⟨cm', h1, h3, fun q => ⟨fun out => ?_, fun n out => ?_, panics_same h3 q⟩⟩
  · unfold Closest; simp only [match_same h3 q]
  · unfold ClosestN; simp only [match_same h3 q]

/-- **C147** Words of ASCII characters, among them quotation marks, backslashes and control characters: an index of them is loaded unchanged. -/
theorem C147_ascii (short isNil : Bool) (other : Str → Str) (words : List Str) (sizes : List Nat) (hw : ∀ w ∈ words, Ascii w) (cm : CM)
    (hc : new other words (sizes.map Int.ofNat) = some cm) :
    ∃ text cm', Written short isNil cm text ∧ decode (text ++ lit "\n") = some cm' ∧ Same cm' cm := by
  obtain ⟨text, ht⟩ := written_exists short isNil (finite_new hc)
  obtain ⟨cm', cm'', h1, h2, h3⟩ := decode_written short isNil ht []
  rw [C69_ascii_partial other words sizes cm cm'' hw hc h2] at h3
  exact ⟨text, cm', ht, h1, h3⟩

/-- **C147** A text that ends within the value is not read as an index at all. -/
theorem C147_cut (short isNil : Bool) (cm : CM) (p q : Str) (h : Written short isNil cm (p ++ q)) (hq : q ≠ []) : decode p = none :=
  decode_cut short isNil h rfl hq

/-- A word with a quotation mark, a line break and an ampersand, in the text of its index. -/
theorem quote_text : new id [lit "\"&\n"] [3] = some ⟨[3], fun g => if g = lit "\"&\n" then some [0] else none, fun i => if i = 0 then some ⟨lit "\"&\n", 1⟩ else none⟩ ∧
    Written false false ⟨[3], fun g => if g = lit "\"&\n" then some [0] else none, fun i => if i = 0 then some ⟨lit "\"&\n", 1⟩ else none⟩
      (lit "{\"SubstringSizes\":[3],\"SubstringToID\":{\"\\\"\\u0026\\n\":{\"0\":{}}},\"ID\":{\"0\":{\"Key\":\"\\\"\\u0026\\n\",\"NumSubstrings\":1}}}") := by
  refine ⟨?_, [(lit "\"&\n", [0])], [(0, ⟨lit "\"&\n", 1⟩)], ?_, by simp, ?_, ?_, by simp, ?_⟩
  · unfold new
    simp only [addWords, addWord]
    have e : splitWord [3] (toLower id (lit "\"&\n")) = some [lit "\"&\n"] := by decide
    rw [e]
    simp only [Option.map_some, Option.bind_some, List.foldl_cons, List.foldl_nil, List.length_cons, List.length_nil]
    congr 2
  · decide +kernel
  · intro f
    simp only [List.map_cons, List.map_nil, List.mem_singleton]
    split <;> simp_all
  · intro x hx
    rw [List.mem_singleton] at hx
    subst hx
    exact ⟨⟨[0], by simp, List.Perm.refl _⟩, by simp⟩
  · intro k inf
    simp only [List.mem_singleton, Prod.mk.injEq]
    split
    · rename_i h; subst h; simp [eq_comm]
    · simp_all

end Verif.Closest.Json
