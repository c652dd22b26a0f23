import Verif.Closest.JsonLemmas
/-
What `Load` makes of the text that `Save` wrote (Closest/Json.lean): the round trip of `SaveLoad`.
-/
namespace Verif.Closest.Json

theorem jsonString_dec (n : Nat) : jsonString (dec n) = dec n := by
  apply jsonString_valid
  apply valid_ascii
  intro b hb
  have := dec_digits n b hb
  simp only [isDigit, Bool.and_eq_true, decide_eq_true_eq] at this
  exact UInt8.lt_of_le_of_lt this.2 (by decide)

/-- The members of a map. -/
theorem parses_map {α : Type} (short : Bool) {l : List α} {k t : α → Str} {j : α → J} (h : ∀ x ∈ l, Parses (t x) (j x)) :
    Parses (objText short (l.map fun x => (k x, t x))) (.obj (l.map fun x => (jsonString (k x), j x))) := by
  have hf : List.Forall₂ (fun m j => Parses m.2 j) (l.map fun x => (k x, t x)) (l.map j) := by
    rw [List.forall₂_map_left_iff, List.forall₂_map_right_iff, List.forall₂_same]
    exact h
  have := parses_obj short hf
  rw [List.map_map] at this
  have e : (l.map ((fun m : Str × Str => jsonString m.1) ∘ fun x => (k x, t x))).zip (l.map j) = l.map fun x => (jsonString (k x), j x) := by
    rw [List.zip_map', ]; rfl
  rw [e] at this
  exact this

/-! ### Identifiers -/

theorem idMembers : ∀ (ids acc : List Nat), ids.Nodup → (∀ i ∈ ids, i ∉ acc) → (ids.map fun i => (jsonString (dec i), J.obj [])).foldlM idMember acc = some (ids.reverse ++ acc)
  | [], acc, _, _ => rfl
  | i :: ids, acc, hn, hd => by
    rw [List.nodup_cons] at hn
    have e : idMember acc (jsonString (dec i), J.obj []) = some (i :: acc) := by
      unfold idMember
      rw [jsonString_dec, toNat?_dec]
      simp only
      rw [List.insert_of_not_mem (hd i (by simp))]
    rw [List.map_cons, List.foldlM_cons, e]
    show (ids.map _).foldlM idMember (i :: acc) = _
    rw [idMembers ids (i :: acc) hn.2]
    · simp
    · intro x hx hm
      rcases List.mem_cons.1 hm with rfl | hm
      · exact hn.1 hx
      · exact hd x (List.mem_cons_of_mem _ hx) hm

theorem parses_ids (short : Bool) {ids : List Nat} (hn : ids.Nodup) : ∃ j, Parses (idsText short ids) j ∧ idsOf j = some ids.reverse ∧ j.isNul = false := by
  refine ⟨_, parses_map short (l := ids) (k := dec) (t := fun _ => objText short []) (j := fun _ => .obj []) ?_, ?_, rfl⟩
  · intro x _
    exact parses_obj short (ms := []) (js := []) .nil
  · unfold idsOf
    simp only
    rw [idMembers ids [] hn (by simp), List.append_nil]

theorem parses_info (short : Bool) (inf : IDInfo) : ∃ j, Parses (infoText short inf) j ∧ infoOf j = some { inf with key := jsonString inf.key } := by
  have h := parses_obj short (ms := [(lit "Key", quote short inf.key), (lit "NumSubstrings", dec inf.numSubstrings)])
    (.cons (parses_str short inf.key) (.cons (parses_dec inf.numSubstrings) .nil))
  refine ⟨_, h, ?_⟩
  have e1 : jsonString (lit "Key") = lit "Key" := by decide
  have e2 : jsonString (lit "NumSubstrings") = lit "NumSubstrings" := by decide
  have e3 : ¬ lit "NumSubstrings" = lit "Key" := by decide
  simp only [List.map_cons, List.map_nil, List.zip_cons_cons, List.zip_nil_left, e1, e2, infoOf, List.foldlM_cons, List.foldlM_nil, infoMember, if_true, if_neg e3]
  rfl

/-! ### Maps -/

/-- The last entry for a key counts; `h` is what becomes of a key. -/
def lastFor {β : Type} (h : Str → Str) (l : List (Str × β)) : Str → Option β :=
  l.foldl (fun acc x g => if g = h x.1 then some x.2 else acc g) fun _ => none

theorem lastFor_append {β : Type} (h : Str → Str) (l : List (Str × β)) (x : Str × β) (g : Str) :
    lastFor h (l ++ [x]) g = if g = h x.1 then some x.2 else lastFor h l g := by
  unfold lastFor; rw [List.foldl_append]; rfl

theorem lastFor_iff {β : Type} (h : Str → Str) (l : List (Str × β)) (hs : (l.map Prod.fst).Pairwise fun a b => strLt a b = true) (g : Str) (v : β) :
    lastFor h l g = some v ↔ ∃ f, (f, v) ∈ l ∧ h f = g ∧ ∀ f' ∈ l.map Prod.fst, h f' = g → ¬ strLt f f' = true := by
  induction l using List.reverseRecOn with
  | nil => simp [lastFor]
  | append_singleton l x ih =>
    rw [lastFor_append]
    rw [List.map_append, List.pairwise_append] at hs
    obtain ⟨h1, -, h2⟩ := hs
    split
    · rename_i hg
      constructor
      · intro e
        cases e
        refine ⟨x.1, by simp, hg.symm, ?_⟩
        intro f' hf' _ hlt
        rw [List.map_append, List.mem_append] at hf'
        rcases hf' with hf' | hf'
        · have := strLt_trans hlt (h2 f' hf' x.1 (by simp))
          rw [strLt_irrefl] at this; cases this
        · simp at hf'
          subst hf'
          rw [strLt_irrefl] at hlt; cases hlt
      · rintro ⟨f, hf, h3, h4⟩
        rw [List.mem_append] at hf
        rcases hf with hf | hf
        · exfalso
          have hm : f ∈ l.map Prod.fst := List.mem_map.2 ⟨_, hf, rfl⟩
          exact h4 x.1 (by simp) hg.symm (h2 f hm x.1 (by simp))
        · simp at hf
          rw [← hf]
    · rename_i hg
      rw [ih h1]
      constructor
      · rintro ⟨f, hf, h3, h4⟩
        refine ⟨f, by simp [hf], h3, ?_⟩
        intro f' hf' h5
        rw [List.map_append, List.mem_append] at hf'
        rcases hf' with hf' | hf'
        · exact h4 f' hf' h5
        · simp at hf'
          subst hf'
          exact absurd h5.symm hg
      · rintro ⟨f, hf, h3, h4⟩
        rw [List.mem_append] at hf
        rcases hf with hf | hf
        · exact ⟨f, hf, h3, fun f' hf' => h4 f' (by rw [List.map_append, List.mem_append]; exact Or.inl hf')⟩
        · simp at hf
          subst hf
          exact absurd h3.symm hg

theorem subMembers {l : List (Str × List Nat)} {j : Str × List Nat → J} (h : ∀ x ∈ l, idsOf (j x) = some x.2.reverse) (acc : Str → Option (List Nat)) :
    (l.map fun x => (jsonString x.1, j x)).foldlM subMember acc =
      some (l.foldl (fun acc x g => if g = jsonString x.1 then some x.2.reverse else acc g) acc) := by
  induction l generalizing acc with
  | nil => rfl
  | cons x l ih =>
    have e : subMember acc (jsonString x.1, j x) = some fun g => if g = jsonString x.1 then some x.2.reverse else acc g := by
      unfold subMember; rw [h x (by simp)]; rfl
    rw [List.map_cons, List.foldlM_cons, e]
    exact ih (fun y hy => h y (List.mem_cons_of_mem _ hy)) _

theorem idMembersOf {l : List (Nat × IDInfo)} {j : Nat × IDInfo → J} (h : ∀ x ∈ l, infoOf (j x) = some { x.2 with key := jsonString x.2.key }) (acc : Nat → Option IDInfo) :
    (l.map fun x => (jsonString (dec x.1), j x)).foldlM idEntry acc =
      some (l.foldl (fun acc x k => if k = x.1 then some { x.2 with key := jsonString x.2.key } else acc k) acc) := by
  induction l generalizing acc with
  | nil => rfl
  | cons x l ih =>
    have e : idEntry acc (jsonString (dec x.1), j x) = some fun k => if k = x.1 then some { x.2 with key := jsonString x.2.key } else acc k := by
      unfold idEntry; rw [h x (by simp), jsonString_dec, toNat?_dec]
    rw [List.map_cons, List.foldlM_cons, e]
    exact ih (fun y hy => h y (List.mem_cons_of_mem _ hy)) _

theorem idFold {β : Type} (F : IDInfo → β) : ∀ (l : List (Nat × IDInfo)) (acc : Nat → Option β), (l.map Prod.fst).Nodup → ∀ k,
    l.foldl (fun acc x k => if k = x.1 then some (F x.2) else acc k) acc k =
      match (l.find? fun x => x.1 = k) with | some x => some (F x.2) | none => acc k
  | [], acc, _, k => rfl
  | x :: l, acc, hn, k => by
    rw [List.map_cons, List.nodup_cons] at hn
    rw [List.foldl_cons, idFold F l _ hn.2 k, List.find?_cons]
    by_cases hk : x.1 = k
    · have : l.find? (fun y => y.1 = k) = none := by
        rw [List.find?_eq_none]
        intro y hy hc
        simp only [decide_eq_true_eq] at hc
        exact hn.1 (List.mem_map.2 ⟨y, hy, by rw [hc, hk]⟩)
      rw [this]
      simp [hk]
    · have hk' : ¬ k = x.1 := fun h => hk h.symm
      simp [hk, hk']

/-- The two indexes are equal, but for the order of the lists that stand for sets of identifiers. -/
def Same (a b : CM) : Prop := a.sizes = b.sizes ∧ a.id = b.id ∧
  ∀ g, (a.sub g = none ∧ b.sub g = none) ∨ ∃ x y, a.sub g = some x ∧ b.sub g = some y ∧ x.Perm y

theorem parses_cm (short isNil : Bool) (sizes : List Int) (frs : List (Str × List Nat)) (infos : List (Nat × IDInfo)) (hn : ∀ x ∈ frs, x.2.Nodup) :
    ∃ j, Parses (cmText short isNil sizes frs infos) j ∧ cmOf j = some ⟨sizes,
      frs.foldl (fun acc x g => if g = jsonString x.1 then some x.2.reverse else acc g) (fun _ => none),
      infos.foldl (fun acc x k => if k = x.1 then some { x.2 with key := jsonString x.2.key } else acc k) (fun _ => none)⟩ ∧ mapsOf j = ⟨true, true, fun _ => true⟩ := by
  obtain ⟨j1, p1, q1⟩ := parses_sizes isNil sizes
  have hj2 : ∀ x : Str × List Nat, ∃ j, x ∈ frs → Parses (idsText short x.2) j ∧ idsOf j = some x.2.reverse ∧ j.isNul = false := by
    intro x
    by_cases hx : x ∈ frs
    · obtain ⟨j, h1, h2⟩ := parses_ids short (hn x hx)
      exact ⟨j, fun _ => ⟨h1, h2⟩⟩
    · exact ⟨.nul, fun h => absurd h hx⟩
  choose j2 hj2 using hj2
  have hj3 : ∀ x : Nat × IDInfo, ∃ j, Parses (infoText short x.2) j ∧ infoOf j = some { x.2 with key := jsonString x.2.key } := fun x => parses_info short x.2
  choose j3 hj3 using hj3
  have p2 := parses_map short (l := frs) (k := Prod.fst) (t := fun x => idsText short x.2) (j := j2) fun x hx => (hj2 x hx).1
  have p3 := parses_map short (l := infos) (k := fun x => dec x.1) (t := fun x => infoText short x.2) (j := j3) fun x _ => (hj3 x).1
  have q2 := subMembers (l := frs) (j := j2) (fun x hx => (hj2 x hx).2.1) fun _ => none
  have q3 := idMembersOf (l := infos) (j := j3) (fun x _ => (hj3 x).2) fun _ => none
  have h := parses_obj short (ms := [(lit "SubstringSizes", sizesText isNil sizes),
    (lit "SubstringToID", objText short (frs.map fun x => (x.1, idsText short x.2))),
    (lit "ID", objText short (infos.map fun x => (dec x.1, infoText short x.2)))]) (.cons p1 (.cons p2 (.cons p3 .nil)))
  have hin : ∀ l : List (Str × List Nat), (∀ x ∈ l, x ∈ frs) →
      (l.map fun x => (jsonString x.1, j2 x)).foldl (fun (inner : Str → Bool) y g => if g = y.1 then !y.2.isNul else inner g) (fun _ => true) = fun _ => true := by
    intro l
    induction l with
    | nil => intro _; rfl
    | cons x l ih =>
      intro hl
      rw [List.map_cons, List.foldl_cons, (hj2 x (hl x (by simp))).2.2]
      have : (fun g : Str => if g = jsonString x.1 then !false else true) = fun _ => true := by funext g; simp
      rw [this]
      exact ih fun y hy => hl y (List.mem_cons_of_mem _ hy)
  refine ⟨_, h, ?_⟩
  have e1 : jsonString (lit "SubstringSizes") = lit "SubstringSizes" := by decide
  have e2 : jsonString (lit "SubstringToID") = lit "SubstringToID" := by decide
  have e3 : jsonString (lit "ID") = lit "ID" := by decide
  have n1 : ¬ lit "SubstringToID" = lit "SubstringSizes" := by decide
  have n2 : ¬ lit "ID" = lit "SubstringSizes" := by decide
  have n3 : ¬ lit "ID" = lit "SubstringToID" := by decide
  constructor
  swap
  · simp only [List.map_cons, List.map_nil, List.zip_cons_cons, List.zip_nil_left, e1, e2, e3, mapsOf, List.foldl_cons, List.foldl_nil, mapsMember, if_true, if_neg n1, if_neg n2,
      if_neg n3, if_neg (show ¬ lit "SubstringSizes" = lit "SubstringToID" by decide), if_neg (show ¬ lit "SubstringSizes" = lit "ID" by decide), hin frs fun _ h => h]
  simp only [List.map_cons, List.map_nil, List.zip_cons_cons, List.zip_nil_left, e1, e2, e3, cmOf, List.foldlM_cons, List.foldlM_nil, cmMember, if_true, if_neg n1, if_neg n2,
    if_neg n3, q1, subOf, idOf]
  simp only [Option.map_some, Option.bind_eq_bind, Option.bind_some, q2, q3]
  rfl

theorem dec_sorted_nodup {ids : List Nat} (h : ids.Pairwise fun a b => strLt (dec a) (dec b) = true) : ids.Nodup := by
  refine List.Pairwise.imp ?_ h
  rintro a b hab rfl
  rw [strLt_irrefl] at hab; cases hab

/-- What `Load` reads of the text that `Save` writes is what `SaveLoad` says, but for the order of the lists that stand for sets. -/
theorem decode_written (short isNil : Bool) {cm : CM} {text : Str} (h : Written short isNil cm text) (rest : Str) :
    ∃ cm' cm'', decode (text ++ 10 :: rest) = some cm' ∧ SaveLoad cm cm'' ∧ Same cm' cm'' := by
  obtain ⟨frs, infos, rfl, hs, hk, hf, his, hi⟩ := h
  have hn : ∀ x ∈ frs, x.2.Nodup := fun x hx => dec_sorted_nodup (hf x hx).2
  obtain ⟨j, p, q, -⟩ := parses_cm short isNil cm.sizes frs infos hn
  have hin : (infos.map Prod.fst).Nodup := by
    refine dec_sorted_nodup ?_
    rw [List.pairwise_map]; exact his
  have hp : value ((cmText short isNil cm.sizes frs infos ++ 10 :: rest).length + 1) (cmText short isNil cm.sizes frs infos ++ 10 :: rest) = some (j, 10 :: rest) :=
    p _ _ (by simp) (by intro b hb; cases hb; decide)
  have hd : decode (cmText short isNil cm.sizes frs infos ++ 10 :: rest) = cmOf j := by unfold decode; rw [hp]
  refine ⟨_, ⟨cm.sizes, lastFor jsonString (frs.map fun x => (x.1, (cm.sub x.1).getD [])), fun i => (cm.id i).map fun inf => { inf with key := jsonString inf.key }⟩, hd.trans q, ?_, ?_⟩
  · refine ⟨rfl, ?_, fun _ => rfl⟩
    intro g ids
    show lastFor jsonString _ g = some ids ↔ _
    rw [lastFor_iff _ _ (by rw [List.map_map]; exact hs)]
    rw [List.map_map]
    constructor
    · rintro ⟨f, h1, h2, h3⟩
      rw [List.mem_map] at h1
      obtain ⟨x, hx, e⟩ := h1
      obtain ⟨⟨ids', e', -⟩, -⟩ := hf x hx
      rw [e'] at e
      cases e
      exact ⟨x.1, e', h2, fun f' hf' hg => h3 f' ((hk f').1 hf') hg⟩
    · rintro ⟨f, h1, h2, h3⟩
      have hm := (hk f).1 (by rw [h1]; rfl)
      refine ⟨f, ?_, h2, fun f' hf' hg => h3 f' ((hk f').2 hf') hg⟩
      obtain ⟨x, hx, rfl⟩ := List.mem_map.1 hm
      exact List.mem_map.2 ⟨x, hx, by rw [h1]; rfl⟩
  · refine ⟨rfl, ?_, ?_⟩
    · funext k
      refine (idFold (fun inf => { inf with key := jsonString inf.key }) infos (fun _ => none) hin k).trans ?_
      show _ = (cm.id k).map fun inf => { inf with key := jsonString inf.key }
      cases e : infos.find? (fun x => decide (x.1 = k)) with
      | none =>
        cases e' : cm.id k with
        | none => rfl
        | some inf =>
          have := List.find?_eq_none.1 e _ ((hi k inf).2 e')
          simp at this
      | some x =>
        have h1 := List.find?_some e
        simp only [decide_eq_true_eq] at h1
        have h2 := (hi x.1 x.2).1 (List.mem_of_find?_eq_some e)
        rw [h1] at h2
        rw [h2]; rfl
    · intro g
      show (frs.foldl (fun acc x g => if g = jsonString x.1 then some x.2.reverse else acc g) (fun _ => none) g = none ∧ lastFor jsonString _ g = none) ∨ _
      clear p q hp hs hk hin his hi
      have key : ∀ l : List (Str × List Nat), (∀ x ∈ l, x ∈ frs) → ∀ a b : Str → Option (List Nat),
          (∀ g, (a g = none ∧ b g = none) ∨ ∃ x y, a g = some x ∧ b g = some y ∧ x.Perm y) →
          ∀ g, (l.foldl (fun acc x g => if g = jsonString x.1 then some x.2.reverse else acc g) a g = none ∧
              (l.map fun x => (x.1, (cm.sub x.1).getD [])).foldl (fun acc x g => if g = jsonString x.1 then some x.2 else acc g) b g = none) ∨
            ∃ x y, l.foldl (fun acc x g => if g = jsonString x.1 then some x.2.reverse else acc g) a g = some x ∧
              (l.map fun x => (x.1, (cm.sub x.1).getD [])).foldl (fun acc x g => if g = jsonString x.1 then some x.2 else acc g) b g = some y ∧ x.Perm y := by
        intro l
        induction l with
        | nil => intro _ a b h g; exact h g
        | cons x l ih =>
          intro hl a b h g
          rw [List.map_cons, List.foldl_cons, List.foldl_cons]
          refine ih (fun y hy => hl y (List.mem_cons_of_mem _ hy)) _ _ ?_ g
          intro g
          by_cases hg : g = jsonString x.1
          · obtain ⟨⟨ids, e, hp⟩, -⟩ := hf x (hl x (by simp))
            refine Or.inr ⟨x.2.reverse, ids, by rw [if_pos hg], by rw [if_pos hg, e]; rfl, (List.reverse_perm _).trans hp⟩
          · simp only [if_neg hg]; exact h g
      exact key frs (fun _ h => h) _ _ (fun _ => Or.inl ⟨rfl, rfl⟩) g

/-! ### The searches do not notice the order -/

theorem same_symm {a b : CM} (h : Same a b) : Same b a := by
  refine ⟨h.1.symm, h.2.1.symm, fun g => ?_⟩
  rcases h.2.2 g with ⟨h1, h2⟩ | ⟨x, y, h1, h2, h3⟩
  · exact Or.inl ⟨h2, h1⟩
  · exact Or.inr ⟨y, x, h2, h1, h3.symm⟩

theorem scoreIds_same {a b : CM} (h : a.id = b.id) (w : Nat) (o : List Nat) (m : Scores) : scoreIds a w o m = scoreIds b w o m := by
  induction o generalizing m with
  | nil => rfl
  | cons i o ih => simp only [scoreIds, h, ih]

theorem lookup_same {a b : CM} (h : Same a b) (f : Str) (o : List Nat) : lookup a f o = lookup b f o := by
  unfold lookup
  rcases h.2.2 f with ⟨h1, h2⟩ | ⟨x, y, h1, h2, h3⟩
  · rw [h1, h2]
  · rw [h1, h2]
    simp only [h3.length_eq, scoreIds_same h.2.1]

theorem perm_same {a b : CM} (h : Same a b) {f : Str} {o : List Nat} (hp : o.Perm ((a.sub f).getD [])) : o.Perm ((b.sub f).getD []) := by
  rcases h.2.2 f with ⟨h1, h2⟩ | ⟨x, y, h1, h2, h3⟩
  · rw [h1] at hp; rw [h2]; exact hp
  · rw [h1] at hp; rw [h2]; exact hp.trans h3

theorem step_same {a b : CM} (h : Same a b) {cap : Nat} {c : Conf} {o : Option Conf} (hs : Step a cap c o) : Step b cap c o := by
  cases hs with
  | send f r h1 h2 => exact .send c f r h1 h2
  | close h1 h2 => exact .close c h1 h2
  | take f r l₁ l₂ h1 h2 => exact .take c f r l₁ l₂ h1 h2
  | exit l₁ l₂ h1 h2 h3 => exact .exit c l₁ l₂ h1 h2 h3
  | lock f l₁ l₂ h1 h2 => exact .lock c f l₁ l₂ h1 h2
  | compute f l₁ l₂ order m h1 h2 h3 => exact .compute c f l₁ l₂ order m h1 (perm_same h h2) (by rw [← lookup_same h]; exact h3)
  | crash f l₁ l₂ order h1 h2 h3 => exact .crash c f l₁ l₂ order h1 (perm_same h h2) (by rw [← lookup_same h]; exact h3)
  | result m l₁ l₂ h1 h2 => exact .result c m l₁ l₂ h1 h2
  | receive m r n h1 h2 h3 => exact .receive c m r n h1 h2 h3

theorem steps_same {a b : CM} (h : Same a b) {cap : Nat} {c : Conf} {o : Option Conf} (hs : Steps a cap c o) : Steps b cap c o := by
  induction hs with
  | refl => exact .refl _
  | step _ h2 ih => exact .step ih (step_same h h2)

theorem match_same {a b : CM} (h : Same a b) (q : Str) (m : Scores) : Match a q m ↔ Match b q m := by
  have key : ∀ {a b : CM}, Same a b → Match a q m → Match b q m := by
    rintro a b h ⟨fs, o, c, h1, h2, h3, h4⟩
    exact ⟨fs, o, c, by rw [← h.1]; exact h1, h2, steps_same h h3, h4⟩
  exact ⟨key h, key (same_symm h)⟩

theorem panics_same {a b : CM} (h : Same a b) (q : Str) : MatchPanics a q ↔ MatchPanics b q := by
  have key : ∀ {a b : CM}, Same a b → MatchPanics a q → MatchPanics b q := by
    rintro a b h (h1 | ⟨fs, o, h1, h2, h3⟩)
    · exact Or.inl (by rw [← h.1]; exact h1)
    · exact Or.inr ⟨fs, o, by rw [← h.1]; exact h1, h2, steps_same h h3⟩
  exact ⟨key h, key (same_symm h)⟩

end Verif.Closest.Json
