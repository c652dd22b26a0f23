import Verif.Glob.Flat
import Verif.Glob.RuneGood
/-
Which sequences of matchers are compiled to a matcher that passes the check of `Verif.Glob.RuneGood`.
-/
namespace Verif.Glob

/-- An alternative: a valid text or nothing. -/
def leafAltU : Matcher → Bool
  | .nothing => true
  | .text t => validText t
  | _ => false

/-- What is asked besides `elem` of the matchers in a sequence. -/
def elemU : Matcher → Bool
  | .text t => validText t
  | .single s => scalars s
  | .list rs _ => scalars rs
  | .range _ _ _ => true
  | .super => true
  | .any s => scalars s
  | .min _ => true
  | .everyOf ms => ms.all idxZero
  | .row l ms => asciiM (.row l ms)
  | .anyOf ms => goodWs ms &&
      match anyOfLen none (lens ms) with
      | none => true
      | some _ => idxFirsts ms
  | .btree v l r ll rl len => goodW (.btree v l r ll rl len)
  | _ => false

/-- Literal alternatives. -/
theorem leafAlts_elemU {ms : List Matcher} (h : ms.all leafAlt = true) (hu : ms.all leafAltU = true) (h0 : anyOfLen none (lens ms) ≠ some 0) : elemU (.anyOf ms) = true := by
  have h3 := List.all_eq_true.1 h
  have h4 := List.all_eq_true.1 hu
  rw [elemU, Bool.and_eq_true]
  constructor
  · rw [goodWs_iff]
    intro m hm
    have := h3 m hm
    have := h4 m hm
    cases m <;> simp_all [leafAlt, leafAltU, goodW]
  · split
    · rfl
    · rename_i k hk
      have hk0 : k ≠ 0 := by rintro rfl; exact h0 hk
      have h1 := leafAlts_len h hk
      rw [idxFirsts_iff]
      intro m hm
      have a1 := h3 m hm
      have a2 := h4 m hm
      have a3 := h1 m hm
      cases m <;> simp [leafAlt, leafAltU, idxFirst, Matcher.len] at a1 a2 a3 ⊢
      · omega
      · exact ⟨a2, a1⟩

/-- Neighbours with a length, of which a row is made, match ASCII strings only. -/
def FineU (a b : Matcher) : Prop := a.len ≠ none → b.len ≠ none → asciiM a = true ∧ asciiM b = true

/-- An element without a length. -/
theorem elemU_open {m : Matcher} (h : elem m = true) (hu : elemU m = true) (hk : m.len = none) : goodW m = true ∧ (badIdx m = false → idxStart m = true) := by
  cases m <;> simp only [elem, Bool.false_eq_true, Bool.and_eq_true, Matcher.len, reduceCtorEq] at h hk
  case any s =>
    refine ⟨hu, fun h => ?_⟩
    simp only [idxStart, Bool.and_eq_true, decide_eq_true_eq]
    exact ⟨hu, by simp only [badIdx, decide_eq_false_iff_not] at h; omega⟩
  case super => exact ⟨rfl, fun _ => rfl⟩
  case min n => exact ⟨by simpa [goodW] using h, fun _ => by simpa [idxStart] using h⟩
  case anyOf ms =>
    rw [elemU, Bool.and_eq_true] at hu
    refine ⟨by rw [goodW]; exact hu.1, fun hb => ?_⟩
    simp only [badIdx, Bool.not_eq_false', List.all_eq_true] at hb
    have h4 := goodWs_iff.1 hu.1
    rw [idxStart, idxStarts_iff]
    intro m hm
    have := hb m hm
    have := h4 m hm
    cases m <;> simp_all [leafAlt, goodW, idxStart]
  case btree => exact ⟨hu, nofun⟩
  case everyOf ms =>
    have h4 := List.all_eq_true.1 hu
    have hne : ms ≠ [] := by rintro rfl; simp [startsMin] at h
    refine ⟨?_, fun _ => ?_⟩
    · rw [goodW, goodWs_iff]
      intro m hm
      have := h4 m hm
      cases m <;> simp_all [idxZero, goodW]
    · simp only [idxStart, Bool.and_eq_true]
      exact ⟨hu, by simpa using hne⟩

/-- An element with a length. -/
theorem elemU_fixed {m : Matcher} (h : elem m = true) (hu : elemU m = true) {k : Nat} (hk : m.len = some k) : idxFirst m = true ∧ goodW m = true := by
  have hp := (elem_fixed h hk).1
  cases m <;> simp only [elem, Bool.false_eq_true, Bool.and_eq_true, Matcher.len, reduceCtorEq, Option.some.injEq] at h hk
  case text t => exact ⟨by simp only [idxFirst, Bool.and_eq_true]; exact ⟨hu, h⟩, hu⟩
  case single => exact ⟨hu, hu⟩
  case list => exact ⟨hu, hu⟩
  case range => exact ⟨rfl, rfl⟩
  case anyOf ms =>
    rw [elemU, hk, Bool.and_eq_true] at hu
    exact ⟨by rw [idxFirst]; exact hu.2, by rw [goodW]; exact hu.1⟩
  case btree => rw [hk] at h; simp at h
  case everyOf ms =>
    cases ms with
    | nil => simp [startsMin] at h
    | cons => simp at hk
  case row l ms =>
    refine ⟨hu, ?_⟩
    rw [goodW]
    rw [elemU] at hu
    rw [hu]; rfl

theorem gluable_scalars {m : Matcher} {s : List Nat} {k} (hu : elemU m = true) (h : gluable m = some (s, k)) : scalars s = true := by
  cases m <;> simp only [gluable, Option.some.injEq, Prod.mk.injEq, reduceCtorEq] at h
  · rw [← h.1]; exact hu
  · rw [← h.1]; rfl
  · rw [← h.1]; exact hu
  · split at h
    · cases h
    · simp only [Option.some.injEq, Prod.mk.injEq] at h
      rw [← h.1]; exact hu

theorem fineU_all : ∀ {S : List Matcher}, S.IsChain FineU → 2 ≤ S.length → (∀ m ∈ S, m.len ≠ none) → ∀ m ∈ S, asciiM m = true
  | [], _, h, _ => by simp at h
  | [_], _, h, _ => by simp at h
  | a :: b :: S, hc, _, hf => by
    obtain ⟨h1, h2⟩ := List.isChain_cons_cons.1 hc
    have hab := h1 (hf a (by simp)) (hf b (by simp))
    intro m hm
    rcases List.mem_cons.1 hm with rfl | hm
    · exact hab.1
    · cases S with
      | nil =>
        rw [List.mem_singleton] at hm
        subst hm; exact hab.2
      | cons c S => exact fineU_all h2 (by simp) (fun m hm => hf m (List.mem_cons_of_mem _ hm)) m hm

/-- Gluing. -/
theorem glueU {S : List Matcher} {g : Matcher} (h : glueMatchers S = some g) (hel : ∀ m ∈ S, elem m = true) (hU : ∀ m ∈ S, elemU m = true) (hch : S.IsChain Fine)
    (hcu : S.IsChain FineU) : elemU g = true ∧ (g.len ≠ none → asciiM g = true ∧ ∀ m ∈ S, m.len ≠ none) := by
  have hspec := glue_spec h hel hch
  unfold glueMatchers at h
  split at h
  · rename_i g' h'
    simp only [Option.some.injEq] at h
    subst h
    unfold glueMatchersAsEvery at h'
    split at h'
    · cases h'
    · cases h'
    · rename_i m0 rest hne
      obtain ⟨m1, rest', rfl⟩ : ∃ m1 r, rest = m1 :: r := by
        cases rest with
        | nil => exact absurd rfl (hne)
        | cons a b => exact ⟨a, b, rfl⟩
      split at h'
      · cases h'
      · rename_i sep kind hg
        have hsc := gluable_scalars (hU m0 (by simp)) hg
        split at h'
        · cases h'
        · rename_i A Su G N hl
          obtain ⟨-, -, -, -, h5, hA', hS', h6⟩ := glueLoop_all sep _ _ _ _ _ _ _ _ _ hl
          have hsep : sep.length ≤ 1 := by
            by_contra hc
            obtain ⟨k, e, _⟩ := h6 m0 (by simp)
            obtain ⟨k', e', _⟩ := h6 m1 (by simp)
            exact (List.isChain_cons_cons.1 hch).1 (Or.inl ⟨sep, k, k', e, e', by omega⟩)
          split at h'
          · simp only [Option.some.injEq] at h'
            subst h'
            exact ⟨rfl, fun h => absurd rfl h⟩
          · split at h'
            · simp only [Option.some.injEq] at h'
              subst h'
              exact ⟨hsc, fun h => absurd rfl h⟩
            · split at h'
              · simp only [Option.some.injEq] at h'
                subst h'
                exact ⟨rfl, fun h => absurd rfl h⟩
              · simp only [Option.some.injEq] at h'
                subst h'
                refine ⟨?_, fun h => ?_⟩
                · rw [elemU, List.all_eq_true]
                  have he := hspec.1
                  rw [elem, Bool.and_eq_true, List.all_eq_true] at he
                  intro m hm
                  have hz := he.1 m hm
                  cases m <;> simp only [goodIdxZero, Bool.false_eq_true] at hz
                  case min n => exact hz
                  case max => rfl
                  case contains needle nt =>
                    rcases List.mem_append.1 hm with hm | hm
                    · exfalso
                      split at hm
                      · rcases List.mem_append.1 hm with hm | hm
                        · simp at hm
                        · split at hm <;> simp at hm
                      · simp at hm
                    · split at hm
                      · rw [List.mem_singleton] at hm
                        simp only [Matcher.contains.injEq] at hm
                        obtain ⟨rfl, rfl⟩ := hm
                        obtain ⟨c, rfl⟩ := List.length_eq_one_iff.1 (show sep.length = 1 by omega)
                        have hs := scalars_iff.1 hsc
                        have e : runesIn (List.flatMap encodeRune [c]) = [c] := runesIn_enc hs
                        simp only [idxZero, needleW, validText, e]
                        simp [enc]
                      · simp at hm
                · exfalso
                  have he := hspec.1
                  rw [elem, Bool.and_eq_true] at he
                  rw [Matcher.len] at h
                  cases hx : ((if N > 0 then [Matcher.min N] ++ if (!A && !Su) = true then [Matcher.max N] else [] else []) ++
                    if sep.length > 0 then [Matcher.contains (List.flatMap encodeRune sep) true] else []) with
                  | nil => rw [hx] at he; simp [startsMin] at he
                  | cons a as => rw [hx] at h; exact h rfl
  · unfold glueMatchersAsRow at h
    split at h
    · cases h
    · rw [Option.map_eq_some_iff] at h
      obtain ⟨l, hl, rfl⟩ := h
      have hfix : ∀ m ∈ S, m.len ≠ none := fun m hm => sumLens_some hl m.len (by rw [lens_eq]; exact List.mem_map_of_mem hm)
      have ha := fineU_all hcu hspec.2.2.1 hfix
      have he := hspec.1
      have : asciiM (.row l S) = true := by
        simp only [elem, Bool.and_eq_true] at he
        simp only [asciiM, Bool.and_eq_true]
        exact ⟨⟨⟨asciiMs_iff.2 ha, he.1.1.2⟩, he.1.2⟩, he.2⟩
      exact ⟨this, fun _ => ⟨this, hfix⟩⟩

/-- Minimising. -/
theorem minimizeU : ∀ (n : Nat) (ms ns : List Matcher), minimizeMatchers n ms = some ns → (∀ m ∈ ms, elem m = true) → (∀ m ∈ ms, elemU m = true) → ms.IsChain Fine →
    ms.IsChain FineU → ∀ m ∈ ns, elemU m = true
  | 0, _, _, h, _, _, _, _ => by cases h
  | n + 1, ms, ns, h, hel, hU, hch, hcu => by
    unfold minimizeMatchers at h
    split at h
    · rename_i hno
      simp only [Option.some.injEq] at h
      subst h
      exact hU
    · rename_i d hd
      obtain ⟨h1, h2, h3⟩ := minimizeLoops_glued hd
      have hms : ms = ms.take d.left ++ (ms.take d.right).drop d.left ++ ms.drop d.right := by
        have : ms.take d.left = (ms.take d.right).take d.left := by rw [List.take_take]; congr 1; omega
        rw [this, List.take_append_drop, List.take_append_drop]
      generalize has : ms.take d.left = as at h hms
      generalize hss : (ms.take d.right).drop d.left = ss at hms h1
      generalize hcs : ms.drop d.right = cs at h hms
      rw [hms] at hel hch hU hcu
      have hch' := hch
      have hcu' := hcu
      rw [List.isChain_append, List.isChain_append] at hch' hcu'
      obtain ⟨g1, g2, g3, g4⟩ := glue_spec h1 (fun m hm => hel m (by simp [hm])) hch'.1.2.1
      obtain ⟨u1, u2⟩ := glueU h1 (fun m hm => hel m (by simp [hm])) (fun m hm => hU m (by simp [hm])) hch'.1.2.1 hcu'.1.2.1
      have hne : ss ≠ [] := by rintro rfl; simp at g3
      have lift : ∀ {P : Matcher → Prop}, P d.m → (∀ m ∈ as ++ ss ++ cs, P m) → ∀ m ∈ as ++ [d.m] ++ cs, P m := by
        intro P hp hall m hm
        simp only [List.mem_append, List.mem_singleton] at hm
        rcases hm with (hm | rfl) | hm
        · exact hall m (by simp [hm])
        · exact hp
        · exact hall m (by simp [hm])
      have c2 := chain_glued hch g4 h1 hne
      have cu : (as ++ [d.m] ++ cs).IsChain FineU := by
        rw [List.isChain_append, List.isChain_append]
        obtain ⟨⟨h1, h2, h3⟩, h4, h5⟩ := hcu'
        refine ⟨⟨h1, by simp, ?_⟩, h4, ?_⟩
        · intro x hx y hy
          simp only [List.head?_cons, Option.mem_def, Option.some.injEq] at hy
          subst hy
          obtain ⟨f, hf⟩ : ∃ f, ss.head? = some f := by
            cases ss with
            | nil => exact absurd rfl hne
            | cons f _ => exact ⟨f, rfl⟩
          intro a1 a2
          obtain ⟨b1, b2⟩ := u2 a2
          exact ⟨(h3 x hx f hf a1 (b2 f (List.mem_of_mem_head? hf))).1, b1⟩
        · intro x hx y hy
          simp only [List.getLast?_append, List.getLast?_singleton, Option.some_or, Option.mem_def, Option.some.injEq] at hx
          subst hx
          obtain ⟨z, hz⟩ : ∃ z, ss.getLast? = some z := by
            rw [List.getLast?_eq_some_getLast hne]; exact ⟨_, rfl⟩
          intro a1 a2
          obtain ⟨b1, b2⟩ := u2 a1
          exact ⟨b1, (h5 z (by rw [List.getLast?_append, hz]; rfl) y hy (b2 z (List.mem_of_mem_getLast? hz)) a2).2⟩
      simp only at h
      split at h
      · rename_i hl
        exfalso
        rw [hms] at hl
        simp at hl; omega
      · exact minimizeU n _ ns h (lift g1 hel) (lift u1 hU) c2 cu

end Verif.Glob
