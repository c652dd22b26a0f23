import Verif.Glob.WideDoc
/-
C57 for the patterns of `Verif.Glob.WideDoc`.
-/
namespace Verif.Glob

theorem wideParts_iff {seps : List Nat} {ps : List (List Term)} : wideParts seps ps = true ↔ ∀ p ∈ ps, widePart seps p = true := by
  induction ps with
  | nil => simp [wideParts]
  | cons p ps ih => simp [wideParts, ih]

theorem wideTerms_iff {seps : List Nat} {ts : List Term} : wideTerms seps ts = true ↔ ∀ t ∈ ts, t.wideOk seps = true := by
  induction ts with
  | nil => simp [wideTerms]
  | cons p ps ih => simp [wideTerms, ih]

theorem wideAsciis_iff {ps : List (List Term)} : wideAsciis ps = true ↔ ∀ p ∈ ps, wideAscii p = true := by
  induction ps with
  | nil => simp [wideAsciis]
  | cons p ps ih => simp [wideAsciis, ih]

theorem wideAsciiTerms_iff {ts : List Term} : wideAsciiTerms ts = true ↔ ∀ t ∈ ts, t.wideAscii = true := by
  induction ts with
  | nil => simp [wideAsciiTerms]
  | cons p ps ih => simp [wideAsciiTerms, ih]

mutual
/-- `nullable` is what it says. -/
theorem term_nullable {seps : List Nat} : ∀ {t : Term} {b : Bool}, t.ok b = true → t.Lang seps [] → t.nullable = true
  | .chars cs, b, h, hl => by
    simp only [Term.ok, Bool.and_eq_true] at h
    rw [Term.Lang] at hl
    have : cs = [] := by simpa using hl.symm
    subst this; simp at h
  | .any, _, _, _ => rfl
  | .super, _, _, _ => rfl
  | .single, _, _, hl => by obtain ⟨r, e, _⟩ := hl; cases e
  | .list _ _, _, _, hl => by obtain ⟨r, e, _⟩ := hl; cases e
  | .range _ _ _, _, _, hl => by obtain ⟨r, e, _⟩ := hl; cases e
  | .alts p ps, b, h, hl => by
    simp only [Term.ok, Bool.and_eq_true] at h
    rw [Term.nullable, Bool.or_eq_true]
    rw [Term.Lang] at hl
    exact hl.imp (terms_nullable h.1) (alts_nullable h.2)
theorem terms_nullable {seps : List Nat} : ∀ {ts : List Term} {b : Bool}, okTerms b ts = true → TermsLang seps ts [] → nullable ts = true
  | [], _, _, _ => rfl
  | t :: ts, b, h, hl => by
    simp only [okTerms, Bool.and_eq_true] at h
    obtain ⟨u, v, e, h1, h2⟩ := hl
    obtain ⟨rfl, rfl⟩ := List.append_eq_nil_iff.1 e.symm
    rw [nullable, term_nullable h.1.1 h1, terms_nullable h.2 h2]; rfl
theorem alts_nullable {seps : List Nat} : ∀ {ps : List (List Term)}, okAlts ps = true → AltsLang seps ps [] → nullableSome ps = true
  | [], _, hl => hl.elim
  | p :: ps, h, hl => by
    simp only [okAlts, Bool.and_eq_true] at h
    rw [nullableSome, Bool.or_eq_true]
    rw [AltsLang] at hl
    exact hl.imp (terms_nullable h.1) (alts_nullable h.2)
end

/-- What is known of the matcher of braces that are not literal. -/
structure WideFacts (seps : List Nat) (t : Term) (m : Matcher) : Prop where
  el : elem m = true
  kind : compound m = true
  len : m.len = none
  empty : m.match [] = some true → t.nullable = true
  utf8 : Scalars seps → t.wideAscii = true → elemU m = true

/-- What is known of the matcher of a term. -/
def TermWide (seps : List Nat) (t : Term) (m : Matcher) : Prop := (flatTerm t = true ∧ m = matcherOf seps t) ∨ (flatTerm t = false ∧ WideFacts seps t m)

/-- What is known of the matcher of a pattern. -/
structure PartWide (seps : List Nat) (ts : List Term) (m : Matcher) : Prop where
  opt : optimizeMatcher m = m
  good : good m = true
  empty : emptyPart seps ts = true → goodE m = true
  utf8 : Scalars seps → wideAscii ts = true → goodW m = true
  «open» : openAlt ts = true → m.len = none
  lit : literalAlt ts = true → m.len = some (runesOf (altText ts)).length

/-- All patterns that are compiled in `n` steps. -/
def AllWide (seps : List Nat) (n : Nat) : Prop := ∀ (ts : List Term) (m : Matcher) (b : Bool), okTerms b ts = true → widePart seps ts = true →
  compile seps n (.pattern (nodes ts)) = .ok m → PartWide seps ts m

theorem flat_of_not_alts {t : Term} (h : flatTerm t = false) : isStar t = false ∧ (∀ seps, excludes seps t = none) ∧ theText t = none ∧ ∃ p ps, t = .alts p ps := by
  cases t <;> simp only [flatTerm, Bool.true_eq_false] at h
  exact ⟨rfl, fun _ => rfl, rfl, _, _, rfl⟩

theorem compound_ne {m : Matcher} (h : compound m = true) : (∀ s, m ≠ .text s) ∧ m ≠ .super ∧ gluable m = none := by
  cases m <;> simp only [compound, Bool.false_eq_true] at h <;> exact ⟨nofun, nofun, rfl⟩

/-- The facts that neighbours are judged by. -/
structure SeqFacts (seps : List Nat) (t : Term) (m : Matcher) : Prop where
  el : elem m = true
  glue : (gluable m).map Prod.fst = excludes seps t
  len : m.len = none ↔ isStar t = true ∨ wideVarying t = true
  empty : m.len = none → m.match [] = some true → wideEmpty t = true
  idx : badIdx m = true → flatTerm t = false ∨ ∃ s, isStar t = true ∧ excludes seps t = some s ∧ 2 ≤ s.length
  text : ∀ s, m = .text s → theText t = some s
  super : m = .super → isStar t = true ∧ excludes seps t = some []
  star : isStar t = true → m = matcherOf seps t

theorem TermWide.facts {seps : List Nat} {t : Term} {m : Matcher} {b : Bool} (hok : t.ok b = true) (h : TermWide seps t m) : SeqFacts seps t m := by
  rcases h with ⟨hf, rfl⟩ | ⟨hf, w⟩
  · have f := term_facts (seps := seps) hok hf
    refine ⟨f.el, f.glue, ?_, fun h1 h2 => ?_, fun h => Or.inr (f.idx h), f.text, f.super, fun _ => rfl⟩
    · rw [f.len, wideVarying, hf]; simp
    · rw [wideEmpty, if_pos hf]; exact f.empty h1 h2
  · obtain ⟨h1, h2, h3, -⟩ := flat_of_not_alts hf
    obtain ⟨k1, k2, k3⟩ := compound_ne w.kind
    refine ⟨w.el, by rw [k3, h2]; rfl, ?_, fun _ h => ?_, fun _ => Or.inl hf, fun s e => absurd e (k1 s), fun e => absurd e k2, fun h => ?_⟩
    · rw [w.len, wideVarying, hf]; simp
    · rw [wideEmpty, hf, if_neg (by simp)]; exact w.empty h
    · rw [h1] at h; cases h

theorem wideFine_ok {seps : List Nat} {a b : Term} {ma mb : Matcher} (fa : SeqFacts seps a ma) (fb : SeqFacts seps b mb) (h : wideFine seps a b = true) : Fine ma mb := by
  simp only [wideFine, Bool.and_eq_true, Bool.not_eq_true', Bool.and_eq_false_iff] at h
  obtain ⟨⟨h1, h2⟩, h3⟩ := h
  rintro (⟨s, k, k', e1, e2, e3⟩ | ⟨e1, e2, e3, e4, e5⟩ | ⟨e1, e2, e3⟩)
  · have ea := fa.glue
    have eb := fb.glue
    rw [e1] at ea
    rw [e2] at eb
    simp only [Option.map_some] at ea eb
    rw [← ea, ← eb] at h1
    simp at h1
    omega
  · rw [fa.empty e1 e3, fb.empty e2 e4] at h2
    simp only [Bool.true_eq_false, Bool.not_eq_false', Bool.and_eq_true, beq_iff_eq, false_or] at h2
    rw [fa.star h2.1.1, fb.star h2.1.2] at e5
    exact glue_stars h2.1.1 h2.1.2 h2.2 e5
  · have hb : ((excludes seps b).isSome || wideVarying b) = true ∨ isStar b = true := by
      rcases e3 with e3 | e3
      · left
        rw [← fb.glue]
        obtain ⟨x, hx⟩ := Option.ne_none_iff_exists'.1 e3
        simp [hx]
      · rcases fb.len.1 e3 with h | h
        · exact Or.inr h
        · left; simp [h]
    have hb' : ((excludes seps b).isSome || wideVarying b) = true := by
      rcases hb with h | h
      · exact h
      · cases b <;> simp only [isStar, Bool.false_eq_true] at h <;> rfl
    rw [hb'] at h3
    simp only [Bool.true_eq_false, or_false, Bool.or_eq_false_iff, Bool.and_eq_false_iff, Bool.not_eq_false', decide_eq_false_iff_not] at h3
    rcases fa.idx e2 with hf | ⟨s, sa, ea, hs⟩
    · rw [h3.2] at hf; cases hf
    · rcases h3.1 with h | h
      · rw [sa] at h; cases h
      · rw [ea] at h; exact h hs

theorem wide_chain {seps : List Nat} : ∀ {ts : List Term} {ms : List Matcher}, List.Forall₂ (SeqFacts seps) ts ms → wideNeighbours seps ts = true → ms.IsChain Fine
  | [], _, .nil, _ => by simp
  | [_], _, .cons _ .nil, _ => by simp
  | a :: b :: ts, _, .cons f1 (.cons f2 f3), h => by
    simp only [wideNeighbours, Bool.and_eq_true] at h
    rw [List.isChain_cons_cons]
    exact ⟨wideFine_ok f1 f2 h.1, wide_chain (.cons f2 f3) h.2⟩

theorem forall₂_split {P : α → Matcher → Prop} : ∀ {xs : List α} {as bs : List Matcher}, List.Forall₂ P xs (as ++ bs) →
    ∃ us vs, xs = us ++ vs ∧ List.Forall₂ P us as ∧ List.Forall₂ P vs bs
  | xs, [], bs, h => ⟨[], xs, rfl, .nil, h⟩
  | x :: xs, a :: as, bs, .cons h1 h2 => by
    obtain ⟨us, vs, rfl, h3, h4⟩ := forall₂_split h2
    exact ⟨x :: us, vs, rfl, .cons h1 h3, h4⟩

theorem forall₂_left {P : α → Matcher → Prop} {xs : List α} {ms : List Matcher} (h : List.Forall₂ P xs ms) : ∀ x ∈ xs, ∃ m ∈ ms, P x m := by
  induction h with
  | nil => simp
  | cons h1 _ ih =>
    intro m hm
    rcases List.mem_cons.1 hm with rfl | hm
    · exact ⟨_, by simp, h1⟩
    · obtain ⟨x, hx, hp⟩ := ih m hm
      exact ⟨x, by simp [hx], hp⟩

theorem wide_ends {seps : List Nat} {ts : List Term} {ms : List Matcher} (hf : List.Forall₂ (SeqFacts seps) ts ms) (h : endsApart seps ts = true) {p q : Str}
    (hp : PrefSuf ms p q) : noOverlap p q = true := by
  obtain ⟨mid, e, h1, h2⟩ := hp
  subst e
  cases hf with
  | cons f0 hf =>
  rename_i t0 rest
  obtain ⟨tm, tl, rfl, hm, hl⟩ := forall₂_split hf
  cases hl with
  | cons f1 hl =>
  cases hl
  rename_i t1
  have e0 := f0.text p rfl
  have e1 := f1.text q rfl
  have hlast : (t0 :: (tm ++ [t1])).getLast? = some t1 := by
    rw [← List.cons_append, List.getLast?_append]; rfl
  unfold endsApart at h
  rw [hlast] at h
  simp only [List.head?_cons, Option.bind_some, e0, e1, List.tail_cons, List.dropLast_concat, Bool.or_eq_true, Bool.not_eq_true', Bool.and_eq_false_iff, decide_eq_false_iff_not] at h
  rcases h with (h | h) | h
  · exfalso
    have : tm ≠ [] := by rintro rfl; cases hm; exact h1 rfl
    have := List.length_pos_iff.2 this
    simp only [List.length_cons, List.length_append, List.length_nil] at h
    omega
  · exfalso
    rw [List.all_eq_false] at h
    obtain ⟨t, ht, hne⟩ := h
    obtain ⟨m, hm, hx⟩ := forall₂_left hm t ht
    have := hx.super (h2 _ hm)
    rw [this.1, this.2] at hne
    simp at hne
  · exact h

theorem wide_chainU {bb : Bool} {seps : List Nat} (hs : Scalars seps) : ∀ {ts : List Term} {ms : List Matcher}, List.Forall₂ (TermWide seps) ts ms → (∀ t ∈ ts, t.ok bb = true) →
    wideAsciiNeighbours ts = true → ms.IsChain FineU
  | [], _, .nil, _, _ => by simp
  | [_], _, .cons _ .nil, _, _ => by simp
  | a :: b :: ts, _, .cons f1 (.cons f2 f3), hok, h => by
    simp only [wideAsciiNeighbours, Bool.and_eq_true] at h
    rw [List.isChain_cons_cons]
    refine ⟨?_, wide_chainU hs (.cons f2 f3) (fun t h => hok t (List.mem_cons_of_mem _ h)) h.2⟩
    intro ha hb
    have key : ∀ t m, t.ok bb = true → TermWide seps t m → m.len ≠ none → (!isStar t && !wideVarying t) = true ∧ (asciiTerm t = true → asciiM m = true) := by
      intro t m hok ht hl
      have f := ht.facts hok
      have h1 : ¬ (isStar t = true ∨ wideVarying t = true) := fun h => hl (f.len.2 h)
      rw [not_or] at h1
      refine ⟨by simp [h1], fun ha => ?_⟩
      rcases ht with ⟨hf, rfl⟩ | ⟨hf, w⟩
      · exact (term_factsU hs hok hf).2 hl ha
      · exact absurd w.len hl
    obtain ⟨a1, a2⟩ := key a _ (hok a (by simp)) f1 ha
    obtain ⟨b1, b2⟩ := key b _ (hok b (by simp)) f2 hb
    have h1 := h.1
    rw [a1, b1] at h1
    simp only [Bool.and_true, Bool.not_true, Bool.false_or, Bool.and_eq_true] at h1
    exact ⟨a2 h1.1, b2 h1.2⟩

/-- A sequence. -/
theorem seq_wide {seps : List Nat} {n : Nat} {ts : List Term} {m : Matcher} {b : Bool} (hok : okTerms b ts = true) (hne : ts ≠ [])
    (hn : wideNeighbours seps ts = true) (hends : endsApart seps ts = true)
    (hterm : ∀ t ∈ ts, ∀ m, compile seps n t.node = .ok m → TermWide seps t (optimizeMatcher m))
    (hm : compile seps (n + 1) (.pattern (nodes ts)) = .ok m) : PartWide seps ts m := by
  simp only [compile] at hm
  rw [if_neg (by rw [nodes_eq, List.length_map]; simpa using hne)] at hm
  split at hm <;> try cases hm
  rename_i ms hms
  rw [nodes_eq] at hms
  have hrel := compileChildren_rel (P := TermWide seps) hterm hms
  have hoks := okTerms_mem hok
  have hfacts : List.Forall₂ (SeqFacts seps) ts ms := by
    clear hn hends hterm hm hms hne hok
    induction hrel with
    | nil => exact .nil
    | cons h1 _ ih => exact .cons (h1.facts (hoks _ (by simp))) (ih fun t ht => hoks t (List.mem_cons_of_mem _ ht))
  split at hm <;> try cases hm
  rename_i ns hns
  split at hm
  · rename_i m' hm'
    simp only [Res.ok.injEq] at hm
    subst hm
    have hel : ∀ x ∈ ms, elem x = true := fun x hx => by
      obtain ⟨t, _, hf⟩ := forall₂_right hfacts x hx
      exact hf.el
    have hch := wide_chain hfacts hn
    obtain ⟨g1, g2⟩ := sequence_good hel hch hns hm' (fun p q => wide_ends hfacts hends)
    obtain ⟨h1, h2, h3, _⟩ := minimize_spec _ _ _ hns hel hch
    refine ⟨leafy_idem _ (leafy_compile _ _ _ hm' h1 h3), g1, fun he => g2 fun e hone => ?_, fun hs ha => ?_, fun hstar => ?_, fun hlit => ?_⟩
    · subst hone
      cases hrel with
      | cons hr hr' =>
      cases hr'
      rename_i t
      rcases hr with ⟨hf, rfl⟩ | ⟨hf, w⟩
      · exact one_goodE (hoks t (by simp)) hf (emptyOk_of_part he)
      · exact (elem_open w.el w.len).2.1
    · obtain ⟨t0, ts0, rfl⟩ := List.exists_cons_of_ne_nil hne
      simp only [wideAscii, Bool.and_eq_true, wideAsciiTerms_iff] at ha
      refine sequence_goodW hel (fun x hx => ?_) hch (wide_chainU hs hrel hoks ha.1.1) hns hm' (fun p q => wide_ends hfacts hends)
      obtain ⟨t, ht, hf⟩ := forall₂_right hrel x hx
      have hta : t.wideAscii = true := by
        rcases List.mem_cons.1 ht with rfl | ht
        · exact ha.1.2
        · exact ha.2 t ht
      rcases hf with ⟨hf, rfl⟩ | ⟨hf, w⟩
      · exact (term_factsU hs (hoks t ht) hf).1
      · exact w.utf8 hs hta
    · simp only [openAlt, Bool.or_eq_true, Bool.and_eq_true, List.any_eq_true] at hstar
      obtain ⟨t, ht, hst⟩ : ∃ t ∈ ts, isStar t = true ∨ wideVarying t = true := by
        rcases hstar with ⟨t, ht, h⟩ | ⟨_, t, ht, h⟩
        · exact ⟨t, ht, Or.inl h⟩
        · exact ⟨t, ht, Or.inr h⟩
      obtain ⟨x, hx, hf⟩ := forall₂_left hfacts t ht
      exact sequence_open hel hch hns hm' ⟨x, hx, hf.len.2 hst⟩
    · rcases ts with _ | ⟨t, _ | ⟨t', ts⟩⟩
      · exact absurd rfl hne
      · cases t <;> simp only [literalAlt, Bool.false_eq_true] at hlit
        rename_i cs
        cases hrel with
        | cons hr hr' =>
        cases hr'
        rcases hr with ⟨_, rfl⟩ | ⟨hf, _⟩
        · have := minimize_one hns
          subst this
          simp only [matcherOf, compileMatchers, Res.ok.injEq] at hm'
          subst hm'
          rfl
        · cases hf
      · cases t <;> simp [literalAlt] at hlit
  · rename_i hno; exact absurd hm (hno m)

/-- The alternatives of braces that share nothing. -/
theorem alts_wide {seps : List Nat} {n : Nat} (ih : AllWide seps n) {p : List Term} {ps : List (List Term)} {m : Matcher} {b : Bool} (hok : (Term.alts p ps).ok b = true)
    (hsh : nothingShared p ps = true) (hall : ∀ q ∈ p :: ps, widePart seps q = true) (hA : compile seps (n + 1) (Term.alts p ps).node = .ok m) :
    ∃ ms, m = .anyOf ms ∧ List.Forall₂ (PartWide seps) (p :: ps) ms := by
  have hoks : ∀ q ∈ p :: ps, okTerms true q = true := by
    simp only [Term.ok, Bool.and_eq_true, okAlts_iff] at hok
    simpa using hok
  rw [Term.node, compile] at hA
  rw [show Node.pattern (nodes p) :: patterns ps = patterns (p :: ps) from rfl, minimizeTree_shared hsh] at hA
  simp only at hA
  split at hA <;> try cases hA
  rename_i ms hcc
  rw [patterns_eq] at hcc
  refine ⟨ms, rfl, compileChildren_rel (P := PartWide seps) (fun q hq m' hm' => ?_) hcc⟩
  have := ih q m' true (hoks q hq) (hall q hq) hm'
  rw [this.opt]; exact this

theorem anyOfLen_none {k : Nat} : ∀ {ls : List (Option Nat)}, (∃ l ∈ ls, l ≠ some k) → anyOfLen (some k) ls = none
  | [], h => by simp at h
  | none :: ls, _ => rfl
  | some l :: ls, h => by
    rw [anyOfLen]
    split
    · rfl
    · rename_i hk
      simp only [ne_eq, Decidable.not_not] at hk
      subst hk
      refine anyOfLen_none ?_
      obtain ⟨x, hx, hne⟩ := h
      rcases List.mem_cons.1 hx with rfl | hx
      · exact absurd rfl hne
      · exact ⟨x, hx, hne⟩

theorem altsOpen_len {seps : List Nat} : ∀ {qs : List (List Term)} {ms : List Matcher}, List.Forall₂ (PartWide seps) qs ms → altsOpen qs = true → ∀ k, anyOfLen k (lens ms) = none
  | [], _, _, h, _ => by cases h
  | [q], _, .cons h1 .nil, h, k => by
    rw [altsOpen] at h
    rw [lens, lens, h1.open h]
    cases k <;> rfl
  | q :: q' :: qs, _, .cons (b := m) (l₂ := ms) h1 h2, h, k => by
    rw [altsOpen, Bool.or_eq_true] at h
    · rcases h with h | h
      · have ih := altsOpen_len h2 h
        rw [lens]
        cases k with
        | none => rw [anyOfLen]; exact ih _
        | some k =>
          cases hm : m.len with
          | none => rfl
          | some l =>
            rw [anyOfLen]
            split
            · rfl
            · exact ih _
      · simp only [Bool.and_eq_true, List.any_eq_true, Bool.or_eq_true, bne_iff_ne, ne_eq] at h
        obtain ⟨hl, r, hr, h⟩ := h
        obtain ⟨x, hx, hpx⟩ := forall₂_left h2 r hr
        have hlm := h1.lit hl
        have hne : ∃ l ∈ lens ms, l ≠ some (runesOf (altText q)).length := by
          refine ⟨x.len, by rw [lens_eq]; exact List.mem_map_of_mem hx, ?_⟩
          rcases h with hs | ⟨hl', hd⟩
          · rw [hpx.open hs]; simp
          · rw [hpx.lit hl']; simpa using hd
        rw [lens, hlm]
        cases k with
        | none => rw [anyOfLen]; exact anyOfLen_none hne
        | some k =>
          rw [anyOfLen]
          split
          · rfl
          · rename_i hk
            simp only [ne_eq, Decidable.not_not] at hk
            subst hk
            exact anyOfLen_none hne
    · simp

/-- Braces in a sequence. -/
theorem braces_wide {seps : List Nat} {n : Nat} (ih : ∀ k < n, AllWide seps k) {p : List Term} {ps : List (List Term)} {m : Matcher} {b : Bool}
    (hok : (Term.alts p ps).ok b = true) (hw : (Term.alts p ps).wideOk seps = true) (hf : flatTerm (.alts p ps) = false)
    (hA : compile seps n (Term.alts p ps).node = .ok m) : WideFacts seps (.alts p ps) (optimizeMatcher m) := by
  have himp := compile_implements seps _ _ _ hA
  have hempty : elem (optimizeMatcher m) = true → (optimizeMatcher m).len = none → (optimizeMatcher m).match [] = some true → (Term.alts p ps).nullable = true := by
    intro h1 h2 h3
    obtain ⟨b', e1, e2⟩ := goodE_ok _ (elem_open h1 h2).2.1
    rw [h3, Option.some.injEq] at e1
    have := e2.1 e1.symm
    rw [optimize_lang m [] (by intro x hx; cases hx), himp [] (by intro x hx; cases hx), List.map_nil, term_lang hok] at this
    exact term_nullable hok this
  rw [Term.wideOk, hf, Bool.false_or, Bool.or_eq_true] at hw
  rcases hw with hw | hw
  · simp only [Bool.and_eq_true, Bool.not_eq_true', List.isEmpty_eq_false_iff] at hw
    obtain ⟨⟨⟨⟨⟨⟨hps, hsh⟩, hst⟩, hw1⟩, hw2⟩, he1⟩, he2⟩ := hw
    rw [wideParts_iff] at hw2
    rw [emptyParts_iff] at he2
    have hall : ∀ q ∈ p :: ps, widePart seps q = true := by simpa using And.intro hw1 hw2
    have hemp : ∀ q ∈ p :: ps, emptyPart seps q = true := by simpa using And.intro he1 he2
    cases n with
    | zero => cases hA
    | succ n =>
    obtain ⟨ms, rfl, hrel⟩ := alts_wide (ih n (by omega)) hok hsh hall hA
    obtain ⟨q0, ps', rfl⟩ := List.exists_cons_of_ne_nil hps
    obtain ⟨a, c, d, rfl⟩ : ∃ a b c, ms = a :: b :: c := by
      cases hrel with
      | cons h1 h2 => cases h2 with | cons h3 h4 => exact ⟨_, _, _, rfl⟩
    have hopt : optimizeMatcher (.anyOf (a :: c :: d)) = .anyOf (a :: c :: d) := rfl
    rw [hopt] at hempty ⊢
    generalize a :: c :: d = ms at *
    have h2 : 2 ≤ ms.length := by rw [← hrel.length_eq]; simp
    have hopen : anyOfLen none (lens ms) = none := by
      exact altsOpen_len hrel hst none
    have hel : elem (.anyOf ms) = true := by
      simp only [elem, hopen, Bool.and_eq_true, decide_eq_true_eq, goods_iff, goodEs_iff]
      refine ⟨⟨h2, fun x hx => ?_⟩, fun x hx => ?_⟩
      · obtain ⟨q, _, hpx⟩ := forall₂_right hrel x hx
        exact hpx.good
      · obtain ⟨q, hq, hpx⟩ := forall₂_right hrel x hx
        exact hpx.empty (hemp q hq)
    refine ⟨hel, rfl, by rw [Matcher.len]; exact hopen, hempty hel (by rw [Matcher.len]; exact hopen), fun hs ha => ?_⟩
    rw [elemU, hopen, Bool.and_true, goodWs_iff]
    intro x hx
    obtain ⟨q, hq, hpx⟩ := forall₂_right hrel x hx
    refine hpx.utf8 hs ?_
    simp only [Term.wideAscii, Bool.and_eq_true, wideAsciis_iff] at ha
    rcases List.mem_cons.1 hq with rfl | hq
    · exact ha.1.1
    · exact ha.1.2 q hq
  · rw [Bool.and_eq_true] at hw
    obtain ⟨h, hst⟩ := hw
    simp only [factoredOk, Bool.and_eq_true, Bool.not_eq_true', Bool.and_eq_false_iff, List.isEmpty_eq_false_iff, decide_eq_true_eq, List.all_eq_true, flatPart] at h
    obtain ⟨⟨⟨⟨h1, h2⟩, h3⟩, h4⟩, ⟨h5, h6⟩, h7⟩ := h
    have hF : Factored p ps := ⟨h2, h3, h4, h1, by
      simp only [Term.ok, Bool.and_eq_true, okAlts_iff] at hok
      simpa using hok⟩
    obtain ⟨g1, g2, g3, g4, g5⟩ := hF.compile (List.all_eq_true.2 h5) h6 h7 hA
    obtain ⟨k1, k2, k3, k4⟩ := g5 hst
    rw [g1] at hempty ⊢
    refine ⟨k2, k4, k1, hempty k2 k1, fun hs ha => k3 (g4 hs ?_)⟩
    simp only [Term.wideAscii, Bool.and_eq_true] at ha
    exact ha.2

/-- Every pattern. -/
theorem all_wide (seps : List Nat) : ∀ n, AllWide seps n := by
  intro n
  induction n using Nat.strong_induction_on with
  | _ n ih =>
  intro ts m b hok h hm
  cases n with
  | zero => cases hm
  | succ n =>
  cases ts with
  | nil =>
    simp only [nodes, compile, List.length_nil, if_true, Res.ok.injEq] at hm
    subst hm; exact ⟨rfl, rfl, fun _ => rfl, fun _ _ => rfl, nofun, fun _ => rfl⟩
  | cons t ts =>
  rw [widePart, Bool.or_eq_true] at h
  rcases h with h | h
  · simp only [Bool.and_eq_true, wideTerms_iff] at h
    obtain ⟨⟨⟨hw1, hw2⟩, hn⟩, hends⟩ := h
    refine seq_wide hok (by simp) hn hends (fun x hx m' hm' => ?_) hm
    have hxok := okTerms_mem hok x hx
    have hxw : x.wideOk seps = true := by
      rcases List.mem_cons.1 hx with rfl | hx
      · exact hw1
      · exact hw2 x hx
    cases hf : flatTerm x with
    | true => exact Or.inl ⟨hf, compile_term hxok hf hm'⟩
    | false =>
      obtain ⟨-, -, -, p, ps, rfl⟩ := flat_of_not_alts hf
      exact Or.inr ⟨hf, braces_wide (fun k hk => ih k (by omega)) hxok hxw hf hm'⟩
  rw [Bool.and_eq_true, List.isEmpty_iff] at h
  obtain ⟨rfl, h⟩ := h
  cases t with
  | alts p ps =>
    have htok := okTerms_mem hok (.alts p ps) (by simp)
    rw [compile] at hm
    simp only [nodes, List.length_singleton, Nat.one_ne_zero, if_false, compileChildren] at hm
    generalize hA : compile seps n (Term.alts p ps).node = A at hm
    cases A with
    | ok m0 =>
      simp only at hm
      split at hm <;> try cases hm
      rename_i ns hns
      have := minimize_one hns
      subst this
      simp only [compileMatchers, List.length_singleton, Res.ok.injEq] at hm
      rw [Term.loneOk, Bool.or_eq_true] at h
      rcases h with h | h
      · rw [Bool.and_eq_true, Bool.and_eq_true, wideParts_iff] at h
        obtain ⟨⟨hsh, hp⟩, hps⟩ := h
        have hall : ∀ q ∈ p :: ps, widePart seps q = true := by simpa using And.intro hp hps
        cases n with
        | zero => cases hA
        | succ n =>
        obtain ⟨ms, rfl, hrel⟩ := alts_wide (ih n (by omega)) htok hsh hall hA
        have hgood : Verif.Glob.good (.anyOf ms) = true ∧ (emptyPart seps [.alts p ps] = true → goodE (.anyOf ms) = true) ∧
            (Scalars seps → wideAscii [.alts p ps] = true → goodW (.anyOf ms) = true) := by
          refine ⟨?_, fun he => ?_, fun hs ha => ?_⟩
          · rw [Verif.Glob.good, goods_iff]
            intro m hm
            obtain ⟨x, _, hx⟩ := forall₂_right hrel m hm
            exact hx.good
          · rw [goodE, goodEs_iff]
            intro m hm
            obtain ⟨x, hx, hx'⟩ := forall₂_right hrel m hm
            refine hx'.empty ?_
            simp only [emptyPart, List.isEmpty_nil, Bool.not_true, Bool.false_or, Term.emptyOk, Bool.and_eq_true, emptyParts_iff] at he
            rcases List.mem_cons.1 hx with rfl | hx
            · exact he.1
            · exact he.2 x hx
          · rw [goodW, goodWs_iff]
            intro m hm
            obtain ⟨x, hx, hx'⟩ := forall₂_right hrel m hm
            refine hx'.utf8 hs ?_
            simp only [wideAscii, Term.wideAscii, Bool.and_eq_true, wideAsciis_iff] at ha
            rcases List.mem_cons.1 hx with rfl | hx
            · exact ha.1.2.1.1
            · exact ha.1.2.1.2 x hx
        cases ps with
        | nil =>
          cases hrel with
          | cons h1 h2 =>
          cases h2
          rename_i m1
          simp only [optimizeMatcher] at hm
          rw [h1.opt] at hm
          subst hm
          refine ⟨h1.opt, h1.good, fun he => ?_, fun hs ha => ?_, nofun, nofun⟩
          · have := hgood.2.1 he
            simpa [goodE, goodEs] using this
          · have := hgood.2.2 hs ha
            simpa [goodW, goodWs] using this
        | cons q ps =>
          have h2 : ∃ a b c, ms = a :: b :: c := by
            cases hrel with
            | cons h1 h2 => cases h2 with | cons h3 h4 => exact ⟨_, _, _, rfl⟩
          have hf : optimizeMatcher (.anyOf ms) = .anyOf ms := by
            obtain ⟨a, b, c, rfl⟩ := h2; rfl
          rw [hf, hf] at hm
          subst hm
          exact ⟨hf, hgood.1, hgood.2.1, hgood.2.2, nofun, nofun⟩
      · simp only [factoredOk, Bool.and_eq_true, Bool.not_eq_true', Bool.and_eq_false_iff, List.isEmpty_eq_false_iff, decide_eq_true_eq, List.all_eq_true, flatPart] at h
        obtain ⟨⟨⟨⟨h1, h2⟩, h3⟩, h4⟩, ⟨h5, h6⟩, h7⟩ := h
        have hF : Factored p ps := ⟨h2, h3, h4, h1, by
          simp only [Term.ok, Bool.and_eq_true, okAlts_iff] at htok
          simpa using htok⟩
        obtain ⟨g1, g2, g3, g4, _⟩ := hF.compile (List.all_eq_true.2 h5) h6 h7 hA
        rw [g1, g1] at hm
        subst hm
        refine ⟨g1, g2, fun _ => g3, fun hs ha => g4 hs ?_, nofun, nofun⟩
        simp only [wideAscii, Term.wideAscii, Bool.and_eq_true] at ha
        exact ha.1.2.2
    | _ => cases hm
  | _ => simp [Term.loneOk] at h

/-- C57 for patterns with braces beside other terms whose alternatives need not be literal (`src/{*.go,doc*}`, `src/{*.go,*.md}`, `**/{a*,{x[a-c],*y}z}.txt`), and ASCII subjects. It
contains `C57_braces_partial` (`wide_of_braces`). Missing: the patterns and subjects for which it is false, alternatives that share more than one term or are not literal otherwise, braces
without a star that are not literal beside other terms, and the neighbours that `wideFine` excludes (but see `C57_checked_partial`). -/
theorem C57_wide_partial (seps : List Nat) (ts : List Term) (h : wideOk seps ts = true) : ∃ m, globCompile (writeTerms ts) seps = .ok m ∧
    ∀ s, Ascii s → s ≠ [] ∨ emptyPart seps ts = true → ∃ b, m.match s = some b ∧ (b = true ↔ TermsLang seps ts (s.map UInt8.toNat)) := by
  rw [wideOk, Bool.and_eq_true] at h
  obtain ⟨hok, hp⟩ := h
  obtain ⟨m, hm⟩ := compile_total seps _ (.pattern (nodes ts)) (Nat.le_refl _)
  refine ⟨m, by rw [globCompile, C75_parse_documented ts hok]; exact hm, ?_⟩
  have himp := compile_implements seps _ _ _ hm
  have hg := all_wide seps _ ts m false hok hp hm
  intro s ha hs
  have hd : Dec m.match (MLang m) s := by
    rcases hs with hs | hs
    · exact (good_ok m).1 hg.good s ha hs
    · exact wellBehaved_ok (by rw [wellBehaved, hg.good, hg.empty hs]; rfl) ha
  obtain ⟨b, e1, e2⟩ := hd
  exact ⟨b, e1, e2.trans ((himp s ha).trans (pattern_lang hok))⟩

/-- The same for valid UTF-8, where neighbours of a fixed number of runes are ASCII, also in braces. -/
theorem C57_utf8_wide_partial (seps : List Nat) (ts : List Term) (hs : ∀ r ∈ seps, validRune r = true) (h : wideOk seps ts = true) (hn : wideAscii ts = true) :
    ∃ m, globCompile (writeTerms ts) seps = .ok m ∧ ∀ w : List Nat, (∀ r ∈ w, validRune r = true) → w ≠ [] ∨ emptyPart seps ts = true →
      ∃ b, m.match (w.flatMap encodeRune) = some b ∧ (b = true ↔ TermsLang seps ts w) := by
  rw [wideOk, Bool.and_eq_true] at h
  obtain ⟨hok, hp⟩ := h
  obtain ⟨m, hm⟩ := compile_total seps _ (.pattern (nodes ts)) (Nat.le_refl _)
  refine ⟨m, by rw [globCompile, C75_parse_documented ts hok]; exact hm, ?_⟩
  have himp := compile_rimplements hs _ _ _ hm
  have hg := all_wide seps _ ts m false hok hp hm
  intro w hw h0
  have hd : DecW m.match (RLang m) w := by
    rcases h0 with h0 | h0
    · exact goodW_ok m (hg.utf8 hs hn) w hw h0
    · exact wellBehavedU_ok (by rw [wellBehavedU, hg.utf8 hs hn, hg.empty h0]; rfl) hw
  obtain ⟨b, e1, e2⟩ := hd
  exact ⟨b, e1, e2.trans ((himp w).trans (pattern_lang hok))⟩

/-! ### It contains the patterns of `C57_braces_partial` -/

theorem wideNeighbours_flat {seps : List Nat} : ∀ {ts : List Term}, ts.all flatTerm = true → neighbours seps ts = true → wideNeighbours seps ts = true
  | [], _, _ => rfl
  | [_], _, _ => rfl
  | a :: b :: ts, hf, h => by
    simp only [List.all_cons, Bool.and_eq_true] at hf
    simp only [neighbours, Bool.and_eq_true] at h
    rw [wideNeighbours, wideNeighbours_flat (by simp [hf]) h.2, Bool.and_true]
    have e : wideFine seps a b = fineTerms seps a b := by
      simp [wideFine, fineTerms, wideEmpty, wideVarying, hf]
    rw [e]; exact h.1

theorem wideOk_flat {seps : List Nat} {t : Term} (h : flatTerm t = true) : t.wideOk seps = true := by
  cases t with
  | alts p ps => rw [Term.wideOk, h]; rfl
  | _ => rfl

theorem widePart_flat {seps : List Nat} {ts : List Term} (h : flatPart seps ts = true) : widePart seps ts = true := by
  simp only [flatPart, Bool.and_eq_true] at h
  obtain ⟨⟨h1, h2⟩, h3⟩ := h
  cases ts with
  | nil => rfl
  | cons t ts =>
    have hn := wideNeighbours_flat h1 h2
    rw [List.all_eq_true] at h1
    rw [widePart, wideOk_flat (h1 t (by simp)), wideTerms_iff.2 fun x hx => wideOk_flat (h1 x (List.mem_cons_of_mem _ hx)), hn, h3]; rfl

mutual
theorem wide_of_part {seps : List Nat} : ∀ {ts : List Term}, partOk seps ts = true → widePart seps ts = true
  | [], _ => rfl
  | t :: ts, h => by
    rw [partOk, Bool.or_eq_true] at h
    rcases h with h | h
    · exact widePart_flat h
    · rw [Bool.and_eq_true] at h
      rw [widePart, h.1, lone_of_braces h.2]; simp
theorem wide_of_parts {seps : List Nat} : ∀ {ps : List (List Term)}, partsOk seps ps = true → wideParts seps ps = true
  | [], _ => rfl
  | p :: ps, h => by
    rw [partsOk, Bool.and_eq_true] at h
    rw [wideParts, wide_of_part h.1, wide_of_parts h.2]; rfl
theorem lone_of_braces {seps : List Nat} : ∀ {t : Term}, t.bracesOk seps = true → t.loneOk seps = true
  | .alts p ps, h => by
    rw [Term.bracesOk, Bool.or_eq_true, Bool.and_eq_true, Bool.and_eq_true] at h
    rw [Term.loneOk, Bool.or_eq_true, Bool.and_eq_true, Bool.and_eq_true]
    exact h.imp_left fun h => ⟨⟨h.1.1, wide_of_part h.1.2⟩, wide_of_parts h.2⟩
  | .chars _, h | .any, h | .super, h | .single, h | .list _ _, h | .range _ _ _, h => by cases h
end

/-- The patterns of `C57_braces_partial` are among those of `C57_wide_partial`. -/
theorem wide_of_braces {seps : List Nat} {ts : List Term} (h : bracesOk seps ts = true) : wideOk seps ts = true := by
  rw [bracesOk, Bool.and_eq_true] at h
  rw [wideOk, h.1, wide_of_part h.2]; rfl

/-! ### Cases -/

/-- The terms of `src/{*.go,doc*}`. -/
def caseWide : List Term := [.chars (plains (lit "src/")), .alts [.any, .chars (plains (lit ".go"))] [[.chars (plains (lit "doc")), .any]]]
/-- The terms of `src/{*.go,*.md}`. -/
def caseWide2 : List Term := [.chars (plains (lit "src/")), .alts [.any, .chars (plains (lit ".go"))] [[.any, .chars (plains (lit ".md"))]]]
/-- The terms of `**/{a*,{x[a-c],*y}z}.txt`. -/
def caseWide3 : List Term := [.super, .chars (plains (lit "/")), .alts [.chars (plains (lit "a")), .any]
  [[.alts [.chars (plains (lit "x")), .range false 97 99] [[.any, .chars (plains (lit "y"))]], .chars (plains (lit "z"))]], .chars (plains (lit ".txt"))]

/-- They meet the conditions for the separator `/`, and not those of `C57_braces_partial`. -/
theorem C57_wide_case : wideOk [47] caseWide = true ∧ emptyPart [47] caseWide = true ∧ wideAscii caseWide = true ∧ writeTerms caseWide = lit "src/{*.go,doc*}" ∧
    wideOk [47] caseWide2 = true ∧ wideAscii caseWide2 = true ∧ writeTerms caseWide2 = lit "src/{*.go,*.md}" ∧
    wideOk [47] caseWide3 = true ∧ wideAscii caseWide3 = true ∧ writeTerms caseWide3 = lit "**/{a*,{x[a-c],*y}z}.txt" ∧
    bracesOk [47] caseWide = false ∧ bracesOk [47] caseWide2 = false ∧ bracesOk [47] caseWide3 = false ∧
    globMatch (writeTerms caseWide) [47] (lit "src/a.go") = some (some true) ∧ globMatch (writeTerms caseWide) [47] (lit "src/a/b.go") = some (some false) ∧
    globMatch (writeTerms caseWide2) [47] (lit "src/a.md") = some (some true) ∧ globMatch (writeTerms caseWide3) [47] (lit "u/v/wyz.txt") = some (some true) ∧
    globMatch (writeTerms caseWide3) [47] (lit "u/v/wy.txt") = some (some false) := by
  decide +kernel

/-- The terms of `src/{*.go,README}`. -/
def caseLength : List Term := [.chars (plains (lit "src/")), .alts [.any, .chars (plains (lit ".go"))] [[.chars (plains (lit "README"))]]]

/-- C57 is false where an alternative without a length comes first, and those after it have the same length: the braces are taken to have this length. `src/{*.go,README}` does
not match `src/main.go` (only names of six characters), while `src/{README,*.go}` and `{*.go,README}` match as documented. -/
theorem C57_length_false : okTerms false caseLength = true ∧ writeTerms caseLength = lit "src/{*.go,README}" ∧ wideOk [47] caseLength = false ∧
    globMatch (writeTerms caseLength) [47] (lit "src/main.go") = some (some false) ∧ TermsLang [47] caseLength ((lit "src/main.go").map UInt8.toNat) ∧
    globMatch (writeTerms caseLength) [47] (lit "src/abc.go") = some (some true) ∧
    globMatch (lit "src/{README,*.go}") [47] (lit "src/main.go") = some (some true) ∧ globMatch (lit "{*.go,README}") [47] (lit "main.go") = some (some true) := by
  refine ⟨by decide +kernel, by decide +kernel, by decide +kernel, by decide +kernel, ?_, by decide +kernel, by decide +kernel, by decide +kernel⟩
  refine ⟨(lit "src/").map UInt8.toNat, (lit "main.go").map UInt8.toNat, by decide, by rw [Term.Lang]; decide, (lit "main.go").map UInt8.toNat, [], by decide, ?_, rfl⟩
  refine Or.inl ⟨(lit "main").map UInt8.toNat, (lit ".go").map UInt8.toNat, by decide, by rw [Term.Lang]; decide, (lit ".go").map UInt8.toNat, [], by decide, by rw [Term.Lang]; decide, rfl⟩

end Verif.Glob
