import Verif.Glob.Factored
/-
C57 for patterns that are braces around alternatives which need not be literal, like `{src/*.go,?[a-c]*,**/x}`; alternatives may again be braces.
-/
namespace Verif.Glob

/-! ### The condition -/

/-- The alternatives do not all begin with the same term, and do not all end with the same term (or there is only one, or one is empty). -/
def nothingShared (p : List Term) (ps : List (List Term)) : Bool :=
  ps.isEmpty || (p :: ps).any (fun q => q.isEmpty) ||
    (ps.any (fun q => !sameTerm p.head? q.head?) && ps.any (fun q => !sameTerm p.getLast? q.getLast?))

/-- The conditions of `C57_flat_partial` on the terms. -/
def flatPart (seps : List Nat) (ts : List Term) : Bool := ts.all flatTerm && neighbours seps ts && endsApart seps ts

/-- All the alternatives begin or end with the same term, and without it they are literal and different: `{*.go,*.md}`. The conditions hold for what this stands for,
`*{.go,.md}`. -/
def factoredOk (seps : List Nat) (p : List Term) (ps : List (List Term)) : Bool :=
  !ps.isEmpty && !((firstShared p ps).isEmpty && (lastShared p ps).isEmpty) && (p :: ps).all (fun q => literalAlt (ownPart p ps q)) &&
    decide ((p :: ps).map fun q => altText (ownPart p ps q)).Nodup && flatPart seps (sharedOut p ps)

mutual
/-- Braces around such patterns that share nothing, or that share one term at the start or end and are literal otherwise. -/
def Term.bracesOk (seps : List Nat) : Term → Bool
  | .alts p ps => (nothingShared p ps && partOk seps p && partsOk seps ps) || factoredOk seps p ps
  | _ => false
/-- A pattern that is flat, or braces around such patterns. -/
def partOk (seps : List Nat) : List Term → Bool
  | [] => true
  | t :: ts => flatPart seps (t :: ts) || (ts.isEmpty && t.bracesOk seps)
/-- Such patterns. -/
def partsOk (seps : List Nat) : List (List Term) → Bool
  | [] => true
  | p :: ps => partOk seps p && partsOk seps ps
end

mutual
/-- A term that is right on the empty string if it is alone. -/
def Term.emptyOk (seps : List Nat) : Term → Bool
  | .alts p ps => emptyPart seps p && emptyParts seps ps
  | t => Verif.Glob.emptyOk seps [t]
/-- The pattern, and each pattern of braces that are alone, is not `?` alone, or a class alone that has U+FFFD in it. -/
def emptyPart (seps : List Nat) : List Term → Bool
  | [] => true
  | t :: ts => !ts.isEmpty || t.emptyOk seps
/-- All of them. -/
def emptyParts (seps : List Nat) : List (List Term) → Bool
  | [] => true
  | p :: ps => emptyPart seps p && emptyParts seps ps
end

mutual
/-- The neighbours in the alternatives. -/
def Term.asciiPart : Term → Bool
  | .alts p ps => asciiPart p && asciiParts ps && asciiNeighbours (sharedOut p ps)
  | _ => true
/-- Neighbours of a fixed number of runes are ASCII, also in the alternatives of braces that are alone. -/
def asciiPart : List Term → Bool
  | [] => true
  | t :: ts => asciiNeighbours (t :: ts) && (!ts.isEmpty || t.asciiPart)
/-- All of them. -/
def asciiParts : List (List Term) → Bool
  | [] => true
  | p :: ps => asciiPart p && asciiParts ps
end

/-- The conditions. -/
def bracesOk (seps : List Nat) (ts : List Term) : Bool := okTerms false ts && partOk seps ts

/-- Alternatives that share nothing are not changed. -/
theorem minimizeTree_shared {p : List Term} {ps : List (List Term)} (h : nothingShared p ps = true) : minimizeTreeAnyOf (patterns (p :: ps)) = some none := by
  unfold minimizeTreeAnyOf
  have e : patterns (p :: ps) = ((p :: ps).map nodes).map .pattern := by rw [patterns_eq, List.map_map]; rfl
  rw [e, patternChildren_map]
  simp only
  obtain ⟨left, right, e1, hc⟩ := commonChildren_ok ((p :: ps).map nodes)
  rw [e1]
  simp only
  have hcl : ∀ x ∈ p :: ps, (nodes x).take left.length = left := fun x hx => (hc _ (List.mem_map_of_mem hx)).1
  have hcr : ∀ x ∈ p :: ps, (nodes x).drop ((nodes x).length - right.length) = right := fun x hx => (hc _ (List.mem_map_of_mem hx)).2.1
  have hlen : ∀ x ∈ p :: ps, left.length + right.length ≤ (nodes x).length := fun x hx => (hc _ (List.mem_map_of_mem hx)).2.2
  rw [if_pos]
  simp only [nothingShared, Bool.or_eq_true, Bool.and_eq_true, List.any_eq_true] at h
  rcases h with (h | ⟨x, hx, h0⟩) | ⟨⟨x, hx, h1⟩, ⟨y, hy, h2⟩⟩
  · rw [List.isEmpty_iff] at h
    subst h
    simp only [List.map_cons, List.map_nil, commonChildren, List.length_singleton, Nat.le_refl, if_true, Option.some.injEq, Prod.mk.injEq] at e1
    obtain ⟨rfl, rfl⟩ := e1
    rfl
  · have := hlen x hx
    rw [List.isEmpty_iff] at h0
    rw [h0, nodes, List.length_nil] at this
    simp only [Bool.and_eq_true, decide_eq_true_eq]
    omega
  · simp only [Bool.and_eq_true, decide_eq_true_eq]
    constructor
    · by_contra hne
      have hh : ∀ z ∈ p :: ps, (z.head?).map Term.node = left.head? := by
        intro z hz
        rw [← List.head?_map, ← nodes_eq, ← hcl z hz, List.head?_take, if_neg hne]
      rw [sameTerm_of_nodes ((hh p (by simp)).trans (hh x (by simp [hx])).symm)] at h1
      cases h1
    · by_contra hne
      have hh : ∀ z ∈ p :: ps, (z.getLast?).map Term.node = right.getLast? := by
        intro z hz
        have := hlen z hz
        rw [← List.getLast?_map, ← nodes_eq, ← hcr z hz, List.getLast?_drop, if_neg (by omega)]
      rw [sameTerm_of_nodes ((hh p (by simp)).trans (hh y (by simp [hy])).symm)] at h2
      cases h2

theorem okTerms_weak {ts : List Term} {b : Bool} (h : okTerms b ts = true) : ∀ t ∈ ts, ∃ b, t.ok b = true := fun t ht => ⟨b, okTerms_mem h t ht⟩

theorem partsOk_iff {seps : List Nat} {ps : List (List Term)} : partsOk seps ps = true ↔ ∀ p ∈ ps, partOk seps p = true := by
  induction ps with
  | nil => simp [partsOk]
  | cons p ps ih => simp [partsOk, ih]

theorem emptyParts_iff {seps : List Nat} {ps : List (List Term)} : emptyParts seps ps = true ↔ ∀ p ∈ ps, emptyPart seps p = true := by
  induction ps with
  | nil => simp [emptyParts]
  | cons p ps ih => simp [emptyParts, ih]

theorem asciiParts_iff {ps : List (List Term)} : asciiParts ps = true ↔ ∀ p ∈ ps, asciiPart p = true := by
  induction ps with
  | nil => simp [asciiParts]
  | cons p ps ih => simp [asciiParts, ih]

/-- What is known of the matcher of a pattern. -/
structure PartGood (seps : List Nat) (ts : List Term) (m : Matcher) : Prop where
  opt : optimizeMatcher m = m
  good : good m = true
  empty : emptyPart seps ts = true → goodE m = true
  utf8 : (∀ r ∈ seps, validRune r = true) → asciiPart ts = true → goodW m = true

theorem emptyOk_of_part {seps : List Nat} {ts : List Term} (h : emptyPart seps ts = true) : emptyOk seps ts = true := by
  rcases ts with _ | ⟨t, _ | ⟨t', ts⟩⟩
  · rfl
  · simp only [emptyPart, List.isEmpty_nil, Bool.not_true, Bool.false_or] at h
    cases t with
    | alts p ps => rfl
    | _ => exact h
  · cases t <;> rfl

/-- A flat part. -/
theorem part_flat {seps : List Nat} {n : Nat} {ts : List Term} {m : Matcher} {b : Bool} (hok : okTerms b ts = true) (h : flatPart seps ts = true)
    (hm : compile seps n (.pattern (nodes ts)) = .ok m) : PartGood seps ts m := by
  simp only [flatPart, Bool.and_eq_true] at h
  obtain ⟨⟨hflat, hn⟩, hends⟩ := h
  cases ts with
  | nil =>
    cases n with
    | zero => cases hm
    | succ n =>
      simp only [nodes, compile, List.length_nil, if_true, Res.ok.injEq] at hm
      subst hm; exact ⟨rfl, rfl, fun _ => rfl, fun _ _ => rfl⟩
  | cons t ts =>
    obtain ⟨g1, g2, g3, g4, _⟩ := seq_flat (okTerms_mem hok) hflat hn hends (by simp [nodes]) (fun k ms hms => by
      rw [nodes_eq] at hms
      exact compileChildren_map (fun x hx m hm => compile_term (okTerms_mem hok x hx) (List.all_eq_true.1 hflat x hx) hm) hms) hm
    refine ⟨g1, g2, fun he => g3 (emptyOk_of_part he), fun hs ha => g4 hs ?_⟩
    simp only [asciiPart, Bool.and_eq_true] at ha
    exact ha.1

theorem compileChildren_rel {f : Node → Res Matcher} {g : α → Node} {P : α → Matcher → Prop} : ∀ {xs : List α} {ms : List Matcher},
    (∀ x ∈ xs, ∀ m, f (g x) = .ok m → P x (optimizeMatcher m)) → compileChildren f (xs.map g) = .ok ms → List.Forall₂ P xs ms
  | [], ms, _, h => by simp only [List.map_nil, compileChildren, Res.ok.injEq] at h; subst h; exact .nil
  | x :: xs, ms, hx, h => by
    simp only [List.map_cons, compileChildren] at h
    split at h <;> try cases h
    rename_i m hm
    split at h <;> try cases h
    rename_i ns hns
    exact .cons (hx x (by simp) m hm) (compileChildren_rel (fun y hy => hx y (List.mem_cons_of_mem _ hy)) hns)

theorem forall₂_right {P : α → Matcher → Prop} {xs : List α} {ms : List Matcher} (h : List.Forall₂ P xs ms) : ∀ m ∈ ms, ∃ x ∈ xs, P x m := by
  induction h with
  | nil => simp
  | cons h1 _ ih =>
    intro m hm
    rcases List.mem_cons.1 hm with rfl | hm
    · exact ⟨_, by simp, h1⟩
    · obtain ⟨x, hx, hp⟩ := ih m hm
      exact ⟨x, by simp [hx], hp⟩

/-- Every part. -/
theorem part_good {seps : List Nat} : ∀ (n : Nat) (ts : List Term) (m : Matcher) (b : Bool), okTerms b ts = true → partOk seps ts = true →
    compile seps n (.pattern (nodes ts)) = .ok m → PartGood seps ts m := by
  intro n
  induction n using Nat.strong_induction_on with
  | _ n ih =>
  intro ts m b hok h hm
  cases ts with
  | nil => exact part_flat hok rfl hm
  | cons t ts =>
  rw [partOk, Bool.or_eq_true] at h
  rcases h with h | h
  · exact part_flat hok h hm
  rw [Bool.and_eq_true, List.isEmpty_iff] at h
  obtain ⟨rfl, h⟩ := h
  cases t with
  | alts p ps =>
    rw [Term.bracesOk, Bool.or_eq_true] at h
    rcases h with h | h
    case inr =>
      simp only [factoredOk, Bool.and_eq_true, Bool.not_eq_true', Bool.and_eq_false_iff, List.isEmpty_eq_false_iff, decide_eq_true_eq, List.all_eq_true, flatPart] at h
      obtain ⟨⟨⟨⟨h1, h2⟩, h3⟩, h4⟩, ⟨h5, h6⟩, h7⟩ := h
      have hF : Factored p ps := ⟨h2, h3, h4, h1, by
        simp only [okTerms, Term.ok, Bool.and_eq_true, okAlts_iff] at hok
        simpa using hok.1.1⟩
      cases n with
      | zero => cases hm
      | succ n =>
      rw [compile] at hm
      simp only [nodes, List.length_singleton, Nat.one_ne_zero, if_false, compileChildren] at hm
      generalize hA : compile seps n (Term.alts p ps).node = A at hm
      cases A with
      | ok m0 =>
        obtain ⟨g1, g2, g3, g4, _⟩ := hF.compile (List.all_eq_true.2 h5) h6 h7 hA
        simp only at hm
        split at hm <;> try cases hm
        rename_i ns hns
        have := minimize_one hns
        subst this
        simp only [compileMatchers, List.length_singleton, Res.ok.injEq] at hm
        rw [g1, g1] at hm
        subst hm
        refine ⟨g1, g2, fun _ => g3, fun hs ha => g4 hs ?_⟩
        simp only [asciiPart, List.isEmpty_nil, Bool.not_true, Bool.false_or, Term.asciiPart, Bool.and_eq_true] at ha
        exact ha.2.2
      | _ => cases hm
    rw [Bool.and_eq_true, Bool.and_eq_true, partsOk_iff] at h
    obtain ⟨⟨hsh, hp⟩, hps⟩ := h
    have hall : ∀ q ∈ p :: ps, partOk seps q = true := by simpa using And.intro hp hps
    have hoks : ∀ q ∈ p :: ps, okTerms true q = true := by
      simp only [okTerms, Term.ok, Bool.and_eq_true, okAlts_iff] at hok
      simpa using hok.1.1
    cases n with
    | zero => cases hm
    | succ n =>
    cases n with
    | zero => simp [nodes, compile, compileChildren] at hm
    | succ n =>
    rw [compile] at hm
    simp only [nodes, List.length_singleton, Nat.one_ne_zero, if_false, compileChildren] at hm
    generalize hA : compile seps (n + 1) (Term.alts p ps).node = A at hm
    rw [Term.node, compile] at hA
    rw [show Node.pattern (nodes p) :: patterns ps = patterns (p :: ps) from rfl, minimizeTree_shared hsh] at hA
    simp only at hA
    generalize hcc : compileChildren (compile seps n) (patterns (p :: ps)) = cc at hA
    cases cc with
    | ok ms =>
      simp only at hA
      subst hA
      simp only at hm
      rw [patterns_eq] at hcc
      have hrel := compileChildren_rel (P := fun q m => PartGood seps q m) (fun q hq m' hm' => by
        have := ih n (by omega) q m' true (hoks q hq) (hall q hq) hm'
        rw [this.opt]; exact this) hcc
      split at hm <;> try cases hm
      rename_i ns hns
      have := minimize_one hns
      subst this
      simp only [compileMatchers, List.length_singleton, Res.ok.injEq] at hm
      have hgood : Verif.Glob.good (.anyOf ms) = true ∧ (emptyPart seps [.alts p ps] = true → goodE (.anyOf ms) = true) ∧
          ((∀ r ∈ seps, validRune r = true) → asciiPart [.alts p ps] = true → goodW (.anyOf ms) = true) := by
        refine ⟨?_, fun he => ?_, fun hs ha => ?_⟩
        · rw [Verif.Glob.good, goods_iff]
          intro m hm
          obtain ⟨x, _, hx⟩ := forall₂_right hrel m hm
          exact hx.good
        · rw [goodE, goodEs_iff]
          intro m hm
          obtain ⟨x, hx, hx'⟩ := forall₂_right hrel m hm
          refine hx'.empty ?_
          simp only [emptyPart, List.isEmpty_nil, Bool.not_true, Bool.false_or, Term.emptyOk, Bool.and_eq_true, emptyParts_iff] at he
          rcases List.mem_cons.1 hx with rfl | hx
          · exact he.1
          · exact he.2 x hx
        · rw [goodW, goodWs_iff]
          intro m hm
          obtain ⟨x, hx, hx'⟩ := forall₂_right hrel m hm
          refine hx'.utf8 hs ?_
          simp only [asciiPart, List.isEmpty_nil, Bool.not_true, Bool.false_or, Term.asciiPart, Bool.and_eq_true, asciiParts_iff, asciiNeighbours, true_and] at ha
          rcases List.mem_cons.1 hx with rfl | hx
          · exact ha.1.1
          · exact ha.1.2 x hx
      cases ps with
      | nil =>
        cases hrel with
        | cons h1 h2 =>
        cases h2
        rename_i m1
        simp only [optimizeMatcher] at hm
        rw [h1.opt] at hm
        subst hm
        refine ⟨h1.opt, h1.good, fun he => ?_, fun hs ha => ?_⟩
        · have := hgood.2.1 he
          simpa [goodE, goodEs] using this
        · have := hgood.2.2 hs ha
          simpa [goodW, goodWs] using this
      | cons q ps =>
        have h2 : ∃ a b c, ms = a :: b :: c := by
          cases hrel with
          | cons h1 h2 => cases h2 with | cons h3 h4 => exact ⟨_, _, _, rfl⟩
        have hf : optimizeMatcher (.anyOf ms) = .anyOf ms := by
          obtain ⟨a, b, c, rfl⟩ := h2; rfl
        rw [hf, hf] at hm
        subst hm
        exact ⟨hf, hgood.1, hgood.2.1, hgood.2.2⟩
    | _ => simp only at hA; subst hA; cases hm
  | _ => simp [Term.bracesOk] at h

/-- C57 for braces around any flat patterns (`{src/*.go,?[a-c]*,**/x}`), or around braces again, where the alternatives do not all begin or all end with the same term, or
share one and are literal otherwise (`{*.go,*.md}`), and ASCII subjects. It contains `C57_flat_partial`. Missing: the patterns and subjects for which it is false,
alternatives that share more (but see `C57_checked_partial`), and braces that are not literal beside other terms. -/
theorem C57_braces_partial (seps : List Nat) (ts : List Term) (h : bracesOk seps ts = true) : ∃ m, globCompile (writeTerms ts) seps = .ok m ∧
    ∀ s, Ascii s → s ≠ [] ∨ emptyPart seps ts = true → ∃ b, m.match s = some b ∧ (b = true ↔ TermsLang seps ts (s.map UInt8.toNat)) := by
  rw [bracesOk, Bool.and_eq_true] at h
  obtain ⟨hok, hp⟩ := h
  obtain ⟨m, hm⟩ := compile_total seps _ (.pattern (nodes ts)) (Nat.le_refl _)
  refine ⟨m, by rw [globCompile, C75_parse_documented ts hok]; exact hm, ?_⟩
  have himp := compile_implements seps _ _ _ hm
  have hg := part_good _ ts m false hok hp hm
  intro s ha hs
  have hd : Dec m.match (MLang m) s := by
    rcases hs with hs | hs
    · exact (good_ok m).1 hg.good s ha hs
    · exact wellBehaved_ok (by rw [wellBehaved, hg.good, hg.empty hs]; rfl) ha
  obtain ⟨b, e1, e2⟩ := hd
  exact ⟨b, e1, e2.trans ((himp s ha).trans (pattern_lang hok))⟩

/-- The same for valid UTF-8, where in each alternative neighbours of a fixed number of runes are ASCII. -/
theorem C57_utf8_braces_partial (seps : List Nat) (ts : List Term) (hs : ∀ r ∈ seps, validRune r = true) (h : bracesOk seps ts = true) (hn : asciiPart ts = true) :
    ∃ m, globCompile (writeTerms ts) seps = .ok m ∧ ∀ w : List Nat, (∀ r ∈ w, validRune r = true) → w ≠ [] ∨ emptyPart seps ts = true →
      ∃ b, m.match (w.flatMap encodeRune) = some b ∧ (b = true ↔ TermsLang seps ts w) := by
  rw [bracesOk, Bool.and_eq_true] at h
  obtain ⟨hok, hp⟩ := h
  obtain ⟨m, hm⟩ := compile_total seps _ (.pattern (nodes ts)) (Nat.le_refl _)
  refine ⟨m, by rw [globCompile, C75_parse_documented ts hok]; exact hm, ?_⟩
  have himp := compile_rimplements hs _ _ _ hm
  have hg := part_good _ ts m false hok hp hm
  intro w hw h0
  have hd : DecW m.match (RLang m) w := by
    rcases h0 with h0 | h0
    · exact goodW_ok m (hg.utf8 hs hn) w hw h0
    · exact wellBehavedU_ok (by rw [wellBehavedU, hg.utf8 hs hn, hg.empty h0]; rfl) hw
  obtain ⟨b, e1, e2⟩ := hd
  exact ⟨b, e1, e2.trans ((himp w).trans (pattern_lang hok))⟩

/-- The terms of `{*.go,*.md}` and of `{src/**,doc/**}`. -/
def caseFactored : List Term := [.alts [.any, .chars (plains (lit ".go"))] [[.any, .chars (plains (lit ".md"))]]]
/-- The second. -/
def caseFactored2 : List Term := [.alts [.chars (plains (lit "src/")), .super] [[.chars (plains (lit "doc/")), .super]]]

/-- They meet the conditions for the separator `/`. -/
theorem C57_factored_case : bracesOk [47] caseFactored = true ∧ emptyPart [47] caseFactored = true ∧ asciiPart caseFactored = true ∧
    writeTerms caseFactored = lit "{*.go,*.md}" ∧ writeTerms (sharedOut [.any, .chars (plains (lit ".go"))] [[.any, .chars (plains (lit ".md"))]]) = lit "*{.go,.md}" ∧
    bracesOk [47] caseFactored2 = true ∧ asciiPart caseFactored2 = true ∧ writeTerms caseFactored2 = lit "{src/**,doc/**}" ∧
    globMatch (writeTerms caseFactored2) [47] (lit "src/a/b.go") = some (some true) ∧ globMatch (writeTerms caseFactored2) [47] (lit "bin/a") = some (some false) := by
  decide +kernel

/-- The terms of `{src/*.go,?[a-c]*,{x,**/y*},}`. -/
def caseBraces : List Term := [.alts [.chars (plains (lit "src/")), .any, .chars (plains (lit ".go"))]
  [[.single, .range false 97 99, .any], [.alts [.chars (plains (lit "x"))] [[.super, .chars (plains (lit "/y")), .any]]], []]]

/-- They meet the conditions for the separator `/`. -/
theorem C57_braces_case : bracesOk [47] caseBraces = true ∧ emptyPart [47] caseBraces = true ∧ writeTerms caseBraces = lit "{src/*.go,?[a-c]*,{x,**/y*},}" ∧
    globMatch (writeTerms caseBraces) [47] (lit "src/a.go") = some (some true) ∧ globMatch (writeTerms caseBraces) [47] (lit "src/a/b.go") = some (some false) ∧
    globMatch (writeTerms caseBraces) [47] (lit "xbz") = some (some true) ∧ globMatch (writeTerms caseBraces) [47] (lit "a/b/yz") = some (some true) := by
  decide +kernel

end Verif.Glob
