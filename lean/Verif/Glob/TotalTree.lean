import Verif.Glob.TotalCompile
import Verif.Glob.GlobLang
/-
C93: patterns whose compiled matcher never crashes.
-/
namespace Verif.Glob

/-! ### Specification -/

/-- An alternative disappears when what all alternatives share is taken out: all of them begin with a first part of it and end with the rest of it. -/
def Absorbed (alts : List (List Node)) (a : List Node) : Prop := ∃ x y, a = x ++ y ∧ ∀ b ∈ alts, ∃ z, b = x ++ z ++ y

/-- The trees of plain patterns: the alternatives between braces are not empty and none of them disappears when what they share is taken out; a group may have
empty alternatives if one of the others is just a text, as in `{s,}`. -/
inductive Plain : Node → Prop
  | text {t : Str} : t ≠ [] → Plain (.text t)
  | any : Plain .any
  | super : Plain .super
  | single : Plain .single
  | list {n : Bool} {chars : Str} : Plain (.list n chars)
  | range {n : Bool} {lo hi : Nat} : Plain (.range n lo hi)
  | pattern {cs : List Node} : cs ≠ [] → (∀ c ∈ cs, Plain c) → Plain (.pattern cs)
  | anyOf {alts : List (List Node)} : (∀ a ∈ alts, Plain (.pattern a)) → (2 ≤ alts.length → ∀ a ∈ alts, ¬ Absorbed alts a) → Plain (.anyOf (alts.map .pattern))
  | optional {alts : List (List Node)} : (∀ a ∈ alts, a ≠ [] → Plain (.pattern a)) → [] ∈ alts → (∃ t, [.text t] ∈ alts) → Plain (.anyOf (alts.map .pattern))

/-! ### Reducing the alternatives -/

theorem mem_appendIfUnique {acc : List Node} {v n : Node} : n ∈ appendIfUnique acc v ↔ n ∈ acc ∨ n = v := by
  unfold appendIfUnique
  split
  · rename_i h
    rw [List.any_eq_true] at h
    obtain ⟨m, hm, he⟩ := h
    have := Node.eq_of_equal _ _ he
    subst this
    constructor
    · exact Or.inl
    · rintro (h | rfl)
      · exact h
      · exact hm
  · simp

/-- What is left of an alternative. -/
def mid (cl cr : Nat) (cs : List Node) : List Node := (cs.take (cs.length - cr)).drop cl

theorem reduceAlts_mem {cl cr : Nat} : ∀ (ns : List (List Node)) (acc acc' : List Node), (∀ cs ∈ ns, mid cl cr cs ≠ []) → reduceAlts cl cr ns acc = some acc' →
    ∀ n, n ∈ acc' ↔ n ∈ acc ∨ ∃ cs ∈ ns, n = .pattern (mid cl cr cs)
  | [], acc, acc', _, h, n => by simp only [reduceAlts, Option.some.injEq] at h; subst h; simp
  | cs :: ns, acc, acc', hne, h, n => by
    rw [reduceAlts] at h
    split at h
    · cases h
    · have he : ((cs.take (cs.length - cr)).drop cl).isEmpty = false := by
        have := hne cs List.mem_cons_self
        cases e : ((cs.take (cs.length - cr)).drop cl) with
        | nil => exact absurd e this
        | cons _ _ => rfl
      simp only [he, Bool.false_eq_true, if_false] at h
      rw [reduceAlts_mem ns _ acc' (fun c hc => hne c (List.mem_cons_of_mem _ hc)) h n, mem_appendIfUnique]
      simp [mid, or_assoc]

theorem Plain.pattern_inv {cs : List Node} (h : Plain (.pattern cs)) : cs ≠ [] ∧ ∀ c ∈ cs, Plain c := by
  cases h with
  | pattern h1 h2 => exact ⟨h1, h2⟩

theorem map_pattern_inj {a b : List (List Node)} (h : a.map Node.pattern = b.map Node.pattern) : a = b :=
  List.map_injective_iff.2 (fun _ _ h => by injection h) h

/-- The alternatives of a plain group. -/
theorem Plain.anyOf_inv {alts : List (List Node)} (h : Plain (.anyOf (alts.map .pattern))) :
    ((∀ a ∈ alts, Plain (.pattern a)) ∧ (2 ≤ alts.length → ∀ a ∈ alts, ¬ Absorbed alts a)) ∨
    ((∀ a ∈ alts, a ≠ [] → Plain (.pattern a)) ∧ [] ∈ alts ∧ ∃ t, [.text t] ∈ alts) := by
  generalize e : Node.anyOf (alts.map .pattern) = n at h
  cases h with
  | anyOf h1 h2 =>
    rename_i alts'
    injection e with e
    have := map_pattern_inj e
    subst this
    exact Or.inl ⟨h1, h2⟩
  | optional h1 h2 h3 =>
    rename_i alts'
    injection e with e
    have := map_pattern_inj e
    subst this
    exact Or.inr ⟨h1, h2, h3⟩
  | _ => cases e

theorem mid_eq_nil {cs left right : List Node} (h1 : cs.take left.length = left) (h2 : cs.drop (cs.length - right.length) = right)
    (h3 : left.length + right.length ≤ cs.length) : cs = left ++ mid left.length right.length cs ++ right := mid_split h1 h2 h3

/-- A reduced tree is plain. -/
theorem minimize_plain {cs : List Node} {t : Node} (hp : Plain (.anyOf cs)) (h : minimizeTreeAnyOf cs = some (some t)) : Plain t := by
  unfold minimizeTreeAnyOf at h
  cases hc : patternChildren cs with
  | none => rw [hc] at h; cases h
  | some nodes =>
    obtain ⟨left, right, e, hk⟩ := commonChildren_ok nodes
    rw [hc] at h
    simp only [e] at h
    split at h
    · cases h
    · rename_i hne
      have hcs := patternChildren_some hc
      subst hcs
      have htwo : 2 ≤ nodes.length := by
        by_contra hlt
        rw [commonChildren, if_pos (by omega), Option.some.injEq, Prod.mk.injEq] at e
        obtain ⟨rfl, rfl⟩ := e
        simp at hne
      rcases hp.anyOf_inv with ⟨hp, ha⟩ | ⟨_, he, _⟩
      swap
      · have := (hk [] he).2.2
        simp only [List.length_nil, Nat.le_zero, Nat.add_eq_zero_iff] at this
        exact absurd hne (by simp [this])
      have hsplit := fun c hc => mid_eq_nil (hk c hc).1 (hk c hc).2.1 (hk c hc).2.2
      have hmid : ∀ c ∈ nodes, mid left.length right.length c ≠ [] := by
        intro c hc hm
        refine ha htwo c hc ⟨left, right, ?_, fun b hb => ⟨_, hsplit b hb⟩⟩
        have := hsplit c hc
        rw [hm, List.append_nil] at this
        exact this
      split at h
      · cases h
      · rename_i alts hr
        cases h
        have hmem := reduceAlts_mem nodes [] alts hmid hr
        simp only [List.not_mem_nil, false_or] at hmem
        have hsub : ∀ c ∈ nodes, ∀ d ∈ c, Plain d := fun c hc => ((hp c hc).pattern_inv).2
        obtain ⟨c0, hc0⟩ : ∃ c, c ∈ nodes := by
          cases nodes with
          | nil => simp at htwo
          | cons c _ => exact ⟨c, List.mem_cons_self⟩
        have hpl : ∀ c ∈ nodes, Plain (.pattern (mid left.length right.length c)) := by
          intro c hc
          refine .pattern (hmid c hc) fun d hd => hsub c hc d ?_
          rw [hsplit c hc]
          simp [hd]
        have hside : ∀ l : List Node, (∀ d ∈ l, d ∈ c0) → ∀ n ∈ (if l.length > 0 then [.pattern l] else []), Plain n := by
          intro l hl n hn
          split at hn
          · rename_i hpos
            rw [List.mem_singleton] at hn
            subst hn
            exact .pattern (List.length_pos_iff.1 hpos) fun d hd => hsub c0 hc0 d (hl d hd)
          · cases hn
        refine .pattern ?_ ?_
        · intro e
          simp only [List.append_eq_nil_iff] at e
          obtain ⟨⟨e1, _⟩, e2⟩ := e
          apply hne
          have : ∀ l : List Node, (if l.length > 0 then [Node.pattern l] else []) = [] → l.length = 0 := by
            intro l h
            split at h
            · cases h
            · omega
          simp [this _ e1, this _ e2]
        · intro n hn
          simp only [List.mem_append] at hn
          rcases hn with (hn | hn) | hn
          · exact hside left (fun d hd => by rw [hsplit c0 hc0]; simp [hd]) n hn
          · have halt : ∀ n ∈ alts, Plain n := by
              intro n hn
              obtain ⟨c, hc, rfl⟩ := (hmem n).1 hn
              exact hpl c hc
            rcases alts with _ | ⟨a, _ | ⟨a', as⟩⟩
            · cases hn
            · have hpa := halt a List.mem_cons_self
              cases a <;> simp only [reducedPart, List.mem_singleton, List.not_mem_nil] at hn <;> (try (subst hn; exact hpa))
            · simp only [reducedPart, List.mem_singleton] at hn
              subst hn
              obtain ⟨al, hal⟩ : ∃ al : List (List Node), a :: a' :: as = al.map .pattern := by
                have : ∀ l : List Node, (∀ n ∈ l, ∃ c, n = .pattern c) → ∃ al : List (List Node), l = al.map .pattern := by
                  intro l
                  induction l with
                  | nil => exact fun _ => ⟨[], rfl⟩
                  | cons x xs ih =>
                    intro h
                    obtain ⟨c, rfl⟩ := h x List.mem_cons_self
                    obtain ⟨al, rfl⟩ := ih fun n hn => h n (List.mem_cons_of_mem _ hn)
                    exact ⟨c :: al, rfl⟩
                refine this _ fun n hn => ?_
                obtain ⟨c, hc, rfl⟩ := (hmem n).1 hn
                exact ⟨_, rfl⟩
              rw [hal] at hmem halt ⊢
              refine .anyOf (fun x hx => halt _ (List.mem_map_of_mem hx)) fun _ x hx => ?_
              rintro ⟨u, v, e1, e2⟩
              obtain ⟨c, hc, hxc⟩ := (hmem _).1 (List.mem_map_of_mem hx)
              injection hxc with hxc
              refine ha htwo c hc ⟨left ++ u, v ++ right, ?_, ?_⟩
              · conv_lhs => rw [hsplit c hc, ← hxc, e1]
                simp
              · intro b hb
                have := (hmem _).2 ⟨b, hb, rfl⟩
                obtain ⟨y, hy, e3⟩ := List.mem_map.1 this
                injection e3 with e3
                obtain ⟨z, hz⟩ := e2 y hy
                refine ⟨z, ?_⟩
                conv_lhs => rw [hsplit b hb, ← e3, hz]
                simp
          · exact hside right (fun d hd => by rw [hsplit c0 hc0]; simp [hd]) n hn

/-! ### Compiling a plain tree -/

theorem compileChildren_mem {f : Node → Res Matcher} : ∀ {cs : List Node} {ms : List Matcher}, compileChildren f cs = .ok ms →
    (∀ m ∈ ms, ∃ c m0, c ∈ cs ∧ f c = .ok m0 ∧ m = optimizeMatcher m0) ∧ ∀ c ∈ cs, ∃ m0, f c = .ok m0 ∧ optimizeMatcher m0 ∈ ms
  | [], ms, h => by simp only [compileChildren, Res.ok.injEq] at h; subst h; simp
  | c :: cs, ms, h => by
    simp only [compileChildren] at h
    split at h <;> try cases h
    rename_i m hm
    split at h <;> try cases h
    rename_i ms' hms
    obtain ⟨h1, h2⟩ := compileChildren_mem hms
    constructor
    · intro x hx
      rcases List.mem_cons.1 hx with rfl | hx
      · exact ⟨c, m, List.mem_cons_self, hm, rfl⟩
      · obtain ⟨d, m0, hd, h3⟩ := h1 x hx
        exact ⟨d, m0, List.mem_cons_of_mem _ hd, h3⟩
    · intro d hd
      rcases List.mem_cons.1 hd with rfl | hd
      · exact ⟨m, hm, List.mem_cons_self⟩
      · obtain ⟨m0, h3, h4⟩ := h2 d hd
        exact ⟨m0, h3, List.mem_cons_of_mem _ h4⟩

theorem anyOfLen_zero : ∀ (l : Option Nat) (ls : List (Option Nat)), anyOfLen l ls = some 0 → (∀ k, l = some k → k = 0) ∧ ∀ k, some k ∈ ls → k = 0
  | l, [], h => by
    have : l = some 0 := by cases l <;> simpa [anyOfLen] using h
    subst this
    exact ⟨fun k e => by cases e; rfl, fun k hk => by cases hk⟩
  | none, ml :: ls, h => by
    rw [anyOfLen] at h
    obtain ⟨h1, h2⟩ := anyOfLen_zero ml ls h
    refine ⟨nofun, fun k hk => ?_⟩
    rcases List.mem_cons.1 hk with e | hk
    · exact h1 k e.symm
    · exact h2 k hk
  | some l, none :: ls, h => by simp [anyOfLen] at h
  | some l, some ml :: ls, h => by
    rw [anyOfLen] at h
    split at h
    · cases h
    · rename_i heq
      obtain ⟨h1, h2⟩ := anyOfLen_zero (some l) ls h
      have hl := h1 l rfl
      refine ⟨h1, fun k hk => ?_⟩
      rcases List.mem_cons.1 hk with e | hk
      · cases e; omega
      · exact h2 k hk

theorem compile_text_alt {seps : List Nat} {n : Nat} {t : Str} {m : Matcher} (h : compile seps n (.pattern [.text t]) = .ok m) : m = .text t := by
  match n, h with
  | 0, h => cases h
  | 1, h => simp [compile, compileChildren] at h
  | n + 2, h =>
    have e : compile seps (n + 2) (.pattern [.text t]) = .ok (.text t) := by
      simp only [compile, compileChildren, List.length_cons, List.length_nil, Nat.zero_add, Nat.succ_ne_zero, if_false]
      rfl
    rw [e] at h
    cases h; rfl

theorem compile_empty_alt {seps : List Nat} {n : Nat} {m : Matcher} (h : compile seps n (.pattern []) = .ok m) : m = .nothing := by
  cases n with
  | zero => cases h
  | succ n => simp only [compile, List.length_nil, if_true, Res.ok.injEq] at h; exact h.symm

theorem Plain.anyOf_alts {cs : List Node} (h : Plain (.anyOf cs)) : ∃ alts : List (List Node), cs = alts.map .pattern := by
  cases h with
  | anyOf => exact ⟨_, rfl⟩
  | optional => exact ⟨_, rfl⟩

/-- With ASCII separators, the matcher of a plain tree always returns. -/
theorem compile_plain {seps : List Nat} (hs : asciiSeps seps) : ∀ (n : Nat) (t : Node) (m : Matcher), Plain t → compile seps n t = .ok m → Ok True m
  | 0, _, _, _, h => by cases h
  | n + 1, t, m, hp, h => by
    cases t with
    | nothing => cases hp
    | text t =>
      cases hp with
      | text ht =>
        simp only [compile, Res.ok.injEq] at h; subst h
        exact optimize_ok (.text ht)
    | any =>
      simp only [compile, Res.ok.injEq] at h; subst h
      rw [optimizeMatcher]
      split
      · exact .super
      · rename_i hne
        exact .any (by rwa [List.length_eq_zero_iff] at hne) fun _ => hs
    | super => simp only [compile, Res.ok.injEq] at h; subst h; exact .super
    | single => simp only [compile, Res.ok.injEq] at h; subst h; exact .single
    | list nt chars => simp only [compile, Res.ok.injEq] at h; subst h; exact optimize_ok .list
    | range nt lo hi => simp only [compile, Res.ok.injEq] at h; subst h; exact .range
    | pattern cs =>
      obtain ⟨h1, h2⟩ := hp.pattern_inv
      simp only [compile] at h
      rw [if_neg (by rw [List.length_eq_zero_iff]; exact h1)] at h
      split at h <;> try cases h
      rename_i ms hms
      split at h <;> try cases h
      rename_i ns hns
      have hparts : ∀ c ∈ ms, Part True c := by
        intro c hc
        obtain ⟨d, m', hd, e, rfl⟩ := (compileChildren_mem hms).1 c hc
        exact ⟨optimize_ok (compile_plain hs n d m' (h2 d hd) e), Or.inl trivial⟩
      split at h
      · rename_i m1 hm1
        cases h
        exact optimize_ok (compileMatchers_ok _ ns m1 hm1 (minimizeMatchers_ok _ ms ns hns hparts))
      · rename_i hno
        exact absurd h (by intro h; exact hno _ h)
    | anyOf cs =>
      simp only [compile] at h
      split at h
      · cases h
      · rename_i t ht
        exact compile_plain hs n t m (minimize_plain hp ht) h
      · split at h <;> try cases h
        rename_i ms hms
        obtain ⟨h1, h2⟩ := compileChildren_mem hms
        obtain ⟨alts, rfl⟩ := hp.anyOf_alts
        rcases hp.anyOf_inv with ⟨hp, _⟩ | ⟨hp, _, t, ht⟩
        · have hall : ∀ m ∈ ms, Ok True m := by
            intro m hm
            obtain ⟨c, m0, hc, e, rfl⟩ := h1 m hm
            obtain ⟨a, ha, rfl⟩ := List.mem_map.1 hc
            exact optimize_ok (compile_plain hs n _ m0 (hp a ha) e)
          refine .anyOf (fun m hm _ => hall m hm) ?_
          rw [Matcher.len, lens_eq]
          refine anyOfLen_ne_zero none _ (by simp) fun x hx => ?_
          obtain ⟨m, hm, rfl⟩ := List.mem_map.1 hx
          exact (hall m hm).len_ne
        · refine .anyOf (fun m hm hne => ?_) ?_
          · obtain ⟨c, m0, hc, e, rfl⟩ := h1 m hm
            obtain ⟨a, ha, rfl⟩ := List.mem_map.1 hc
            by_cases hae : a = []
            · subst hae
              rw [compile_empty_alt e] at hne
              exact absurd rfl hne
            · exact optimize_ok (compile_plain hs n _ m0 (hp a ha hae) e)
          · intro hz
            rw [Matcher.len, lens_eq] at hz
            obtain ⟨m0, e, hm⟩ := h2 _ (List.mem_map_of_mem ht)
            have := compile_text_alt e
            subst this
            have hlen := List.mem_map_of_mem (f := Matcher.len) hm
            have hok : Ok True (.text t) := by
              have := ((hp _ ht (by simp)).pattern_inv).2 _ (List.mem_singleton_self _)
              cases this with
              | text ht => exact .text ht
            have hk := (anyOfLen_zero _ _ hz).2 (runesOf t).length hlen
            exact hok.len_ne (by rw [Matcher.len, hk])

/-- Without braces the separators do not matter. -/
theorem compile_flat {seps : List Nat} {n : Nat} {cs : List Node} {m : Matcher} (hp : ∀ c ∈ cs, Plain c) (hf : ∀ c ∈ cs, (∀ as, c ≠ .anyOf as) ∧ ∀ as, c ≠ .pattern as)
    (hne : cs ≠ []) (h : compile seps n (.pattern cs) = .ok m) : Ok False m := by
  cases n with
  | zero => cases h
  | succ n =>
    simp only [compile] at h
    rw [if_neg (by rw [List.length_eq_zero_iff]; exact hne)] at h
    split at h <;> try cases h
    rename_i ms hms
    split at h <;> try cases h
    rename_i ns hns
    have hparts : ∀ c ∈ ms, Part False c := by
      intro c hc
      obtain ⟨d, m', hd, e, rfl⟩ := (compileChildren_mem hms).1 c hc
      have h1 := hp d hd
      have h2 := hf d hd
      cases n with
      | zero => cases e
      | succ n =>
        have hopt : ∀ x : Matcher, Ok False x → (∀ ms, x ≠ .anyOf ms) → (∀ v l r ll rl len, x ≠ .btree v l r ll rl len) → (∀ q s, x ≠ .suffixAny q s) →
            Part False (optimizeMatcher x) ∧ (∀ v l r ll rl len, optimizeMatcher x ≠ .btree v l r ll rl len) := by
          intro x hx g1 g2 g3
          refine ⟨⟨optimize_ok hx, Or.inr ⟨?_, ?_⟩⟩, ?_⟩
          all_goals
            cases hx <;> first
              | exact absurd rfl (g1 _)
              | exact absurd rfl (g2 _ _ _ _ _ _)
              | exact absurd rfl (g3 _ _)
              | (simp only [optimizeMatcher]; (try split) <;> nofun)
        have twice : ∀ x : Matcher, Ok False x → (∀ ms, x ≠ .anyOf ms) → (∀ v l r ll rl len, x ≠ .btree v l r ll rl len) → (∀ q s, x ≠ .suffixAny q s) →
            Part False (optimizeMatcher (optimizeMatcher x)) := by
          intro x hx g1 g2 g3
          obtain ⟨⟨k1, k2⟩, k3⟩ := hopt x hx g1 g2 g3
          rcases k2 with k2 | k2
          · exact k2.elim
          · exact (hopt _ k1 k2.1 k3 k2.2).1
        cases d with
        | anyOf as => exact absurd rfl (h2.1 as)
        | pattern as => exact absurd rfl (h2.2 as)
        | nothing => cases h1
        | text t =>
          cases h1 with
          | text ht =>
            simp only [compile, Res.ok.injEq] at e; subst e
            exact twice _ (.text ht) nofun nofun nofun
        | any =>
          simp only [compile, Res.ok.injEq] at e; subst e
          by_cases hs : seps = []
          · subst hs; exact ⟨.super, Or.inr ⟨nofun, nofun⟩⟩
          · exact twice _ (.any hs False.elim) nofun nofun nofun
        | super => simp only [compile, Res.ok.injEq] at e; subst e; exact twice _ .super nofun nofun nofun
        | single => simp only [compile, Res.ok.injEq] at e; subst e; exact twice _ .single nofun nofun nofun
        | list nt chars => simp only [compile, Res.ok.injEq] at e; subst e; exact twice _ .list nofun nofun nofun
        | range nt lo hi => simp only [compile, Res.ok.injEq] at e; subst e; exact twice _ .range nofun nofun nofun
    split at h
    · rename_i m1 hm1
      cases h
      exact optimize_ok (compileMatchers_ok _ ns m1 hm1 (minimizeMatchers_ok _ ms ns hns hparts))
    · rename_i hno
      exact absurd h (by intro h; exact hno _ h)

end Verif.Glob
