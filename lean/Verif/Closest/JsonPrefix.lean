import Verif.Closest.JsonRead
/-
A text that was cut off is not read as a value; and every index has a text.
-/
namespace Verif.Closest.Json

/-! ### Strings -/

theorem getu4_shape {s : Str} {v : Nat × Str} (h : getu4 s = some v) : ∃ a b c d r, s = 92 :: 117 :: a :: b :: c :: d :: r ∧ v.2 = r := by
  unfold getu4 at h
  split at h
  · rename_i a b c d r
    refine ⟨a, b, c, d, r, rfl, ?_⟩
    split at h
    · cases h; rfl
    · cases h
  · cases h

theorem getu4_ext {s : Str} {v : Nat × Str} (h : getu4 s = some v) (q : Str) : getu4 (s ++ q) = some (v.1, v.2 ++ q) := by
  obtain ⟨a, b, c, d, r, rfl, e⟩ := getu4_shape h
  simp only [List.cons_append, getu4] at h ⊢
  split at h
  · cases h; rfl
  · cases h

theorem getu4_suffix {s : Str} {v : Nat × Str} (h : getu4 s = some v) : ∃ p, s = p ++ v.2 := by
  obtain ⟨a, b, c, d, r, rfl, e⟩ := getu4_shape h
  exact ⟨[92, 117, a, b, c, d], by rw [e]; rfl⟩

/-- A string that is read has a closing quotation mark. -/
theorem unq_mem : ∀ (n : Nat) (s : Str) (v : Str × Str), unq n s = some v → (34 : UInt8) ∈ s
  | 0, s, v, h => by simp [unq] at h
  | n + 1, [], v, h => by simp [unq] at h
  | n + 1, b :: r, v, h => by
    rw [unq.eq_def] at h
    simp only at h
    split at h
    · rename_i hb; rw [hb]; simp
    split at h
    · cases r with
      | nil => simp at h
      | cons e r' =>
        simp only at h
        split at h
        · cases hg : getu4 (92 :: e :: r') with
          | none => rw [hg] at h; simp at h
          | some w =>
            obtain ⟨r1, rest⟩ := w
            rw [hg] at h
            simp only at h
            obtain ⟨a', b', c', d', r'', e1, e2⟩ := getu4_shape hg
            have hm : ∀ x ∈ rest, x ∈ e :: r' := by
              intro x hx
              injection e1 with _ e1
              rw [e1, show r'' = rest from e2.symm]; simp [hx]
            split at h
            · split at h
              · rename_i c rest' hc
                rw [Option.bind_eq_some_iff] at hc
                obtain ⟨w, hw, hc⟩ := hc
                rw [Option.map_eq_some_iff] at hc h
                obtain ⟨_, _, hc⟩ := hc
                obtain ⟨y, hy, _⟩ := h
                have := unq_mem n rest' y hy
                obtain ⟨p, hp⟩ := getu4_suffix hw
                cases hc
                exact List.mem_cons_of_mem _ (hm _ (by rw [hp]; simp [this]))
              · rw [Option.map_eq_some_iff] at h
                obtain ⟨y, hy, _⟩ := h
                exact List.mem_cons_of_mem _ (hm _ (unq_mem n rest y hy))
            · rw [Option.map_eq_some_iff] at h
              obtain ⟨y, hy, _⟩ := h
              exact List.mem_cons_of_mem _ (hm _ (unq_mem n rest y hy))
        · split at h
          · cases h
          · rw [Option.map_eq_some_iff] at h
            obtain ⟨y, hy, _⟩ := h
            exact List.mem_cons_of_mem _ (List.mem_cons_of_mem _ (unq_mem n r' y hy))
    split at h
    · cases h
    · rw [Option.map_eq_some_iff] at h
      obtain ⟨y, hy, _⟩ := h
      exact List.mem_of_mem_drop (unq_mem n _ y hy)

/-- What follows does not matter to the first rune if there is a quotation mark before it. -/
theorem decodeRune_quote {b : UInt8} {r : Str} (hm : (34 : UInt8) ∈ b :: r) (hb : b ≠ 34) (q : Str) : decodeRune ((b :: r) ++ q) = decodeRune (b :: r) := by
  obtain ⟨u, v, e⟩ := List.append_of_mem hm
  have hu : u ≠ [] := by
    rintro rfl
    injection e with e _
    exact hb e
  have hst : ∀ t : Str, ∀ x, ((34 : UInt8) :: t).head? = some x → Glob.StartByte x := by
    intro t x hx; cases hx; unfold Glob.StartByte; decide
  rw [e, List.append_assoc, List.cons_append, Glob.decodeRune_append hu (hst _), Glob.decodeRune_append hu (hst _)]

theorem unq_ext : ∀ (n : Nat) (s : Str) (v : Str × Str), unq n s = some v → ∀ m, n ≤ m → ∀ q, unq m (s ++ q) = some (v.1, v.2 ++ q)
  | 0, s, v, h, _, _, _ => by simp [unq] at h
  | n + 1, [], v, h, _, _, _ => by simp [unq] at h
  | n + 1, b :: r, v, h, m, hm, q => by
    obtain ⟨m, rfl⟩ : ∃ m', m = m' + 1 := ⟨m - 1, by omega⟩
    have hm' : n ≤ m := by omega
    have hmem := unq_mem _ _ _ h
    have map_ext : ∀ {F : Str → Str} {s' : Str} {w : Str × Str}, (unq n s').map (fun x => (F x.1, x.2)) = some w →
        (unq m (s' ++ q)).map (fun x => (F x.1, x.2)) = some (w.1, w.2 ++ q) := by
      intro F s' w hw
      rw [Option.map_eq_some_iff] at hw
      obtain ⟨y, hy, rfl⟩ := hw
      rw [unq_ext n s' y hy m hm' q]; rfl
    rw [unq.eq_def] at h
    rw [List.cons_append, unq.eq_def]
    simp only at h ⊢
    by_cases c1 : b = 34
    · rw [if_pos c1] at h ⊢; cases h; rfl
    rw [if_neg c1] at h ⊢
    by_cases c2 : b = 92
    · rw [if_pos c2] at h ⊢
      cases r with
      | nil => simp at h
      | cons e r' =>
        simp only [List.cons_append] at h ⊢
        by_cases c3 : e = 117
        · rw [if_pos c3] at h ⊢
          cases hg : getu4 (92 :: e :: r') with
          | none => rw [hg] at h; simp at h
          | some w =>
            have hg' := getu4_ext hg q
            simp only [List.cons_append] at hg'
            rw [hg'] 
            rw [hg] at h
            obtain ⟨r1, rest⟩ := w
            simp only at h ⊢
            by_cases c4 : isSurrogate r1 = true
            · rw [if_pos c4] at h ⊢
              cases hb : (getu4 rest).bind fun x => (pair r1 x.1).map fun c => (c, x.2) with
              | some y =>
                rw [hb] at h
                rw [Option.bind_eq_some_iff] at hb
                obtain ⟨w, hw, hb⟩ := hb
                rw [Option.map_eq_some_iff] at hb
                obtain ⟨c, hc, rfl⟩ := hb
                rw [getu4_ext hw q, Option.bind_some, hc]
                exact map_ext (F := fun x => encodeRune c ++ x) h
              | none =>
                rw [hb] at h
                simp only at h
                have hn : ((getu4 (rest ++ q)).bind fun x => (pair r1 x.1).map fun c => (c, x.2)) = none := by
                  cases hg2 : getu4 rest with
                  | some w =>
                    rw [hg2, Option.bind_some, Option.map_eq_none_iff] at hb
                    rw [getu4_ext hg2 q, Option.bind_some, hb]; rfl
                  | none =>
                    cases hg3 : getu4 (rest ++ q) with
                    | none => rfl
                    | some z =>
                      exfalso
                      rw [Option.map_eq_some_iff] at h
                      obtain ⟨y, hy, _⟩ := h
                      obtain ⟨a', b', c', d', t', e1, -⟩ := getu4_shape hg3
                      rcases n with _ | n
                      · simp [unq] at hy
                      rcases rest with _ | ⟨x1, _ | ⟨x2, rest⟩⟩
                      · simp [unq] at hy
                      · simp only [List.cons_append, List.nil_append] at e1
                        injection e1 with e1 _
                        subst e1
                        simp [unq] at hy
                      · simp only [List.cons_append] at e1
                        injection e1 with e1 e2
                        injection e2 with e2 _
                        subst e1 e2
                        rw [unq.eq_def] at hy
                        simp only [hg2] at hy
                        simp at hy
                rw [hn]
                exact map_ext (F := fun x => encodeRune runeError ++ x) h
            · rw [if_neg c4] at h ⊢
              exact map_ext (F := fun x => encodeRune r1 ++ x) h
        · rw [if_neg c3] at h ⊢
          cases hs : shortEsc e with
          | none => rw [hs] at h; simp at h
          | some c =>
            rw [hs] at h
            exact map_ext (F := fun x => c :: x) h
    rw [if_neg c2] at h ⊢
    by_cases c3 : b < 32
    · rw [if_pos c3] at h; cases h
    rw [if_neg c3] at h ⊢
    have hd := decodeRune_quote hmem c1 q
    rw [List.cons_append] at hd
    have hle := (decodeRune_size (b :: r)).1
    have hdrop : (b :: (r ++ q)).drop (decodeRune (b :: r)).2 = (b :: r).drop (decodeRune (b :: r)).2 ++ q := by
      rw [← List.cons_append, List.drop_append_of_le_length hle]
    rw [hd, hdrop]
    exact map_ext (F := fun x => encodeRune (decodeRune (b :: r)).1 ++ x) h

/-! ### Values -/

theorem while_ext {r : Str} (h : r.dropWhile isDigit ≠ []) (q : Str) :
    (r ++ q).takeWhile isDigit = r.takeWhile isDigit ∧ (r ++ q).dropWhile isDigit = r.dropWhile isDigit ++ q := by
  induction r with
  | nil => simp at h
  | cons b r ih =>
    rw [List.cons_append]
    by_cases hb : isDigit b = true
    · rw [List.dropWhile_cons_of_pos hb] at h
      obtain ⟨h1, h2⟩ := ih h
      rw [List.takeWhile_cons_of_pos hb, List.takeWhile_cons_of_pos hb, List.dropWhile_cons_of_pos hb, List.dropWhile_cons_of_pos hb, h1, h2]
      exact ⟨rfl, rfl⟩
    · rw [List.takeWhile_cons_of_neg hb, List.takeWhile_cons_of_neg hb, List.dropWhile_cons_of_neg hb, List.dropWhile_cons_of_neg hb]
      exact ⟨rfl, rfl⟩

theorem number_ext {b : UInt8} {s : Str} {v : J × Str} (h : number (b :: s) = some v) (hr : v.2 ≠ []) (q : Str) : number (b :: (s ++ q)) = some (v.1, v.2 ++ q) := by
  by_cases hb : b = 45
  · subst hb
    simp only [number] at h ⊢
    by_cases ht : s.takeWhile isDigit = []
    · rw [if_pos ht] at h; cases h
    · rw [if_neg ht] at h
      cases h
      obtain ⟨h1, h2⟩ := while_ext hr q
      rw [h1, h2, if_neg ht]
  · have e : ∀ t : Str, number (b :: t) = if ((b :: t).takeWhile isDigit) = [] then none else some (.num (ofDec ((b :: t).takeWhile isDigit)), (b :: t).dropWhile isDigit) := by
      intro t
      unfold number
      split
      · rename_i heq; injection heq with heq _; exact absurd heq hb
      · rfl
    rw [e] at h ⊢
    by_cases ht : (b :: s).takeWhile isDigit = []
    · rw [if_pos ht] at h; cases h
    · rw [if_neg ht] at h
      cases h
      obtain ⟨h1, h2⟩ := while_ext hr q
      rw [← List.cons_append, h1, h2, if_neg ht]

/-- What follows a value does not matter: an object that was read is read the same if the text goes on. -/
theorem value_ext : ∀ (n : Nat),
    (∀ s v, value n s = some v → (v.2 ≠ [] ∨ s.head? = some 123) → ∀ m, n ≤ m → ∀ q, value m (s ++ q) = some (v.1, v.2 ++ q)) ∧
    (∀ s v, elements n s = some v → ∀ m, n ≤ m → ∀ q, elements m (s ++ q) = some (v.1, v.2 ++ q)) ∧
    (∀ s v, members n s = some v → ∀ m, n ≤ m → ∀ q, members m (s ++ q) = some (v.1, v.2 ++ q))
  | 0 => ⟨fun s v h => by simp [value] at h, fun s v h => by simp [elements] at h, fun s v h => by simp [members] at h⟩
  | n + 1 => by
    obtain ⟨ihv, ihe, ihm⟩ := value_ext n
    refine ⟨?_, ?_, ?_⟩
    · intro s v h hr m hm q
      obtain ⟨m, rfl⟩ : ∃ m', m = m' + 1 := ⟨m - 1, by omega⟩
      have hm' : n ≤ m := by omega
      cases s with
      | nil => simp [value] at h
      | cons b r =>
        rw [value.eq_def] at h
        rw [List.cons_append, value.eq_def]
        simp only at h ⊢
        by_cases c1 : b = 123
        · rw [if_pos c1] at h ⊢
          cases r with
          | nil => simp at h
          | cons c r' =>
            simp only [List.cons_append] at h ⊢
            by_cases c2 : c = 125
            · rw [if_pos c2] at h ⊢; cases h; rfl
            · rw [if_neg c2] at h ⊢
              rw [Option.map_eq_some_iff] at h
              obtain ⟨y, hy, rfl⟩ := h
              rw [← List.cons_append, ihm _ _ hy m hm' q]; rfl
        rw [if_neg c1] at h ⊢
        by_cases c2 : b = 91
        · rw [if_pos c2] at h ⊢
          cases r with
          | nil => simp at h
          | cons c r' =>
            simp only [List.cons_append] at h ⊢
            by_cases c3 : c = 93
            · rw [if_pos c3] at h ⊢; cases h; rfl
            · rw [if_neg c3] at h ⊢
              rw [Option.map_eq_some_iff] at h
              obtain ⟨y, hy, rfl⟩ := h
              rw [← List.cons_append, ihe _ _ hy m hm' q]; rfl
        rw [if_neg c2] at h ⊢
        by_cases c3 : b = 34
        · rw [if_pos c3] at h ⊢
          rw [Option.map_eq_some_iff] at h
          obtain ⟨y, hy, rfl⟩ := h
          rw [unq_ext _ _ _ hy _ (by simp) q]; rfl
        rw [if_neg c3] at h ⊢
        by_cases c4 : b = 110
        · rw [if_pos c4] at h ⊢
          by_cases c5 : r.take 3 = [117, 108, 108]
          · rw [if_pos c5] at h
            cases h
            have hl : 3 ≤ r.length := by
              have := congrArg List.length c5
              rw [List.length_take] at this
              simp at this; omega
            rw [if_pos (by rw [List.take_append_of_le_length hl, c5]), List.drop_append_of_le_length hl]
          · rw [if_neg c5] at h; cases h
        rw [if_neg c4] at h ⊢
        refine number_ext h ?_ q
        rcases hr with hr | hr
        · exact hr
        · simp at hr; exact absurd hr c1
    · intro s v h m hm q
      obtain ⟨m, rfl⟩ : ∃ m', m = m' + 1 := ⟨m - 1, by omega⟩
      have hm' : n ≤ m := by omega
      rw [elements] at h ⊢
      cases hv : value n s with
      | none => rw [hv] at h; cases h
      | some x =>
        obtain ⟨j, r⟩ := x
        rw [hv] at h
        cases r with
        | nil => cases h
        | cons c r =>
          rw [ihv s _ hv (Or.inl (by simp)) m hm' q]
          simp only [List.cons_append] at h ⊢
          by_cases c1 : c = 93
          · rw [if_pos c1] at h ⊢; cases h; rfl
          rw [if_neg c1] at h ⊢
          by_cases c2 : c = 44
          · rw [if_pos c2] at h ⊢
            rw [Option.map_eq_some_iff] at h
            obtain ⟨y, hy, rfl⟩ := h
            rw [ihe _ _ hy m hm' q]; rfl
          · rw [if_neg c2] at h; cases h
    · intro s v h m hm q
      obtain ⟨m, rfl⟩ : ∃ m', m = m' + 1 := ⟨m - 1, by omega⟩
      have hm' : n ≤ m := by omega
      cases s with
      | nil => simp [members] at h
      | cons b s =>
        rw [List.cons_append]
        rw [members] at h ⊢
        by_cases c0 : b = 34
        · rw [if_pos c0] at h ⊢
          cases hu : unq (s.length + 1) s with
          | none => rw [hu] at h; cases h
          | some x =>
            obtain ⟨k, r⟩ := x
            rw [hu] at h
            rw [unq_ext _ _ _ hu _ (by simp) q]
            cases r with
            | nil => cases h
            | cons c r =>
              simp only [List.cons_append] at h ⊢
              by_cases c1 : c = 58
              · rw [if_pos c1] at h ⊢
                cases hv : value n r with
                | none => rw [hv] at h; cases h
                | some x =>
                  obtain ⟨j, r2⟩ := x
                  rw [hv] at h
                  cases r2 with
                  | nil => cases h
                  | cons c r2 =>
                    rw [ihv r _ hv (Or.inl (by simp)) m hm' q]
                    simp only [List.cons_append] at h ⊢
                    by_cases c1 : c = 125
                    · rw [if_pos c1] at h ⊢; cases h; rfl
                    rw [if_neg c1] at h ⊢
                    by_cases c2 : c = 44
                    · rw [if_pos c2] at h ⊢
                      rw [Option.map_eq_some_iff] at h
                      obtain ⟨y, hy, rfl⟩ := h
                      rw [ihm _ _ hy m hm' q]; rfl
                    · rw [if_neg c2] at h; cases h
              · rw [if_neg c1] at h; cases h
        · rw [if_neg c0] at h; cases h

/-- A text that was cut off within the value is not read. -/
theorem decode_cut (short isNil : Bool) {cm : CM} {text p q : Str} (h : Written short isNil cm text) (e : text = p ++ q) (hq : q ≠ []) : decode p = none := by
  obtain ⟨frs, infos, rfl, -, -, hf, -, -⟩ := h
  obtain ⟨j, pj, -⟩ := parses_cm short isNil cm.sizes frs infos fun x hx => dec_sorted_nodup (hf x hx).2
  have hfull := pj ((cmText short isNil cm.sizes frs infos).length + 1) [] (by omega) (by intro b hb; cases hb)
  rw [List.append_nil, e] at hfull
  unfold decode
  cases hv : value (p.length + 1) p with
  | none => rfl
  | some v =>
    exfalso
    cases p with
    | nil => simp [value] at hv
    | cons b p =>
      have hb : b = 123 := by
        have := congrArg List.head? e
        simpa [cmText, objText] using this.symm
      have := (value_ext _).1 _ _ hv (Or.inr (by rw [hb]; rfl)) ((b :: p ++ q).length + 1) (by simp) q
      rw [this] at hfull
      injection hfull with hfull
      have h2 := congrArg Prod.snd hfull
      simp only [List.append_eq_nil_iff] at h2
      exact hq h2.2

/-! ### Every index has a text -/

theorem exists_sorted {α : Type} [DecidableEq α] (key : α → Str) (hk : ∀ a b, key a = key b → a = b) (l : List α) :
    ∃ l' : List α, l'.Pairwise (fun a b => strLt (key a) (key b) = true) ∧ ∀ x, x ∈ l' ↔ x ∈ l := by
  induction l with
  | nil => exact ⟨[], .nil, by simp⟩
  | cons a l ih =>
    obtain ⟨l', h1, h2⟩ := ih
    by_cases ha : a ∈ l
    · exact ⟨l', h1, fun x => by rw [h2]; simp only [List.mem_cons]; exact ⟨Or.inr, fun h => h.elim (fun h => h ▸ ha) id⟩⟩
    · refine ⟨l'.filter (fun x => strLt (key x) (key a)) ++ a :: l'.filter (fun x => strLt (key a) (key x)), ?_, ?_⟩
      · rw [List.pairwise_append, List.pairwise_cons]
        refine ⟨h1.filter _, ⟨fun x hx => (List.mem_filter.1 hx).2, h1.filter _⟩, ?_⟩
        intro x hx y hy
        have hx := (List.mem_filter.1 hx).2
        rcases List.mem_cons.1 hy with rfl | hy
        · exact hx
        · exact strLt_trans hx (List.mem_filter.1 hy).2
      · intro x
        simp only [List.mem_append, List.mem_filter, List.mem_cons, h2]
        constructor
        · rintro (h | h | h)
          · exact Or.inr h.1
          · exact Or.inl h
          · exact Or.inr h.1
        · rintro (h | h)
          · exact Or.inr (Or.inl h)
          · rcases strLt_total (key x) (key a) with h3 | h3 | h3
            · exact Or.inl ⟨h, h3⟩
            · exact Or.inr (Or.inl (hk _ _ h3))
            · exact Or.inr (Or.inr ⟨h, h3⟩)

/-- An index with finitely many fragments and words, whose lists of identifiers are sets. -/
def Finite (cm : CM) : Prop := (∃ ks : List Str, ∀ f, (cm.sub f).isSome → f ∈ ks) ∧ (∃ n, ∀ k, (cm.id k).isSome → k < n) ∧ ∀ f ids, cm.sub f = some ids → ids.Nodup

theorem written_exists (short isNil : Bool) {cm : CM} (h : Finite cm) : ∃ text, Written short isNil cm text := by
  obtain ⟨⟨ks, hks⟩, ⟨n, hn⟩, hd⟩ := h
  obtain ⟨ks', h1, h2⟩ := exists_sorted (fun s : Str => s) (fun _ _ h => h) (ks.filter fun f => (cm.sub f).isSome)
  obtain ⟨is', h3, h4⟩ := exists_sorted dec (fun _ _ h => dec_inj h) ((List.range n).filter fun k => (cm.id k).isSome)
  have hids : ∀ f, ∃ l : List Nat, l.Pairwise (fun a b => strLt (dec a) (dec b) = true) ∧ ∀ ids, cm.sub f = some ids → l.Perm ids := by
    intro f
    obtain ⟨l, h5, h6⟩ := exists_sorted dec (fun _ _ h => dec_inj h) ((cm.sub f).getD [])
    refine ⟨l, h5, fun ids e => ?_⟩
    rw [List.perm_ext_iff_of_nodup (dec_sorted_nodup h5) (hd f ids e)]
    intro x; rw [h6, e]; rfl
  choose L hL1 hL2 using hids
  refine ⟨_, ks'.map fun f => (f, L f), is'.map fun k => (k, (cm.id k).getD ⟨[], 0⟩), rfl, ?_, ?_, ?_, ?_, ?_⟩
  · rw [List.map_map]
    have : (Prod.fst ∘ fun f => (f, L f)) = id := rfl
    rw [this, List.map_id]; exact h1
  · intro f
    rw [List.map_map]
    have : (Prod.fst ∘ fun f => (f, L f)) = id := rfl
    rw [this, List.map_id, h2, List.mem_filter]
    exact ⟨fun h => ⟨hks f h, h⟩, fun h => h.2⟩
  · intro x hx
    obtain ⟨f, hf, rfl⟩ := List.mem_map.1 hx
    rw [h2, List.mem_filter] at hf
    obtain ⟨ids, e⟩ := Option.isSome_iff_exists.1 hf.2
    exact ⟨⟨ids, e, hL2 f ids e⟩, hL1 f⟩
  · rw [List.pairwise_map]; exact h3
  · intro k inf
    rw [List.mem_map]
    constructor
    · rintro ⟨k', hk, e⟩
      cases e
      rw [h4, List.mem_filter] at hk
      obtain ⟨inf, e⟩ := Option.isSome_iff_exists.1 hk.2
      rw [e]; rfl
    · intro e
      refine ⟨k, ?_, by rw [e]; rfl⟩
      rw [h4, List.mem_filter, e]
      exact ⟨List.mem_range.2 (hn k (by rw [e]; rfl)), rfl⟩

theorem finite_addId {i : Nat} {sub : Str → Option (List Nat)} (fs : List Str) (h : (∃ ks : List Str, ∀ f, (sub f).isSome → f ∈ ks) ∧ ∀ f ids, sub f = some ids → ids.Nodup) :
    (∃ ks : List Str, ∀ f, (fs.foldl (addId i) sub f).isSome → f ∈ ks) ∧ ∀ f ids, fs.foldl (addId i) sub f = some ids → ids.Nodup := by
  induction fs generalizing sub with
  | nil => exact h
  | cons f fs ih =>
    refine ih ⟨?_, ?_⟩
    · obtain ⟨ks, hk⟩ := h.1
      refine ⟨f :: ks, fun g hg => ?_⟩
      unfold addId at hg
      split at hg
      · rename_i e; rw [e]; simp
      · exact List.mem_cons_of_mem _ (hk g hg)
    · intro g ids hg
      unfold addId at hg
      split at hg
      · cases hg
        refine List.Nodup.insert ?_
        cases e : sub f with
        | none => simp
        | some l => exact h.2 f l e
      · exact h.2 g ids hg

theorem finite_addWords {other : Str → Str} : ∀ (words : List Str) (i : Nat) (cm cm' : CM), Finite cm → addWords other i words cm = some cm' → Finite cm'
  | [], i, cm, cm', h, e => by cases e; exact h
  | s :: ss, i, cm, cm', h, e => by
    rw [addWords, Option.bind_eq_some_iff] at e
    obtain ⟨c1, e1, e2⟩ := e
    refine finite_addWords ss (i + 1) c1 cm' ?_ e2
    unfold addWord at e1
    rw [Option.map_eq_some_iff] at e1
    obtain ⟨fs, -, rfl⟩ := e1
    obtain ⟨h1, ⟨n, h2⟩, h3⟩ := h
    have := finite_addId (i := i) fs ⟨h1, h3⟩
    refine ⟨this.1, ⟨max n (i + 1), ?_⟩, this.2⟩
    intro k hk
    simp only at hk
    split at hk
    · omega
    · have := h2 k hk; omega

theorem finite_new {other : Str → Str} {words : List Str} {sizes : List Int} {cm : CM} (h : new other words sizes = some cm) : Finite cm :=
  finite_addWords words 0 _ cm ⟨⟨[], by simp⟩, ⟨0, by simp⟩, by simp⟩ h

theorem finite_add {other : Str → Str} {words : List Str} {cm cm' : CM} (hf : Finite cm) (h : cm.add other words = some cm') : Finite cm' :=
  finite_addWords words 0 _ cm' hf h

end Verif.Closest.Json
