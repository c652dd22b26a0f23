import Verif.Glob.DrawProps
import Verif.Glob.TotalLex
import Verif.Glob.Props
/-
The labels of a drawing have no bytes that are special in the drawing unless the pattern or the separators have them (C126).
-/
namespace Verif.Glob

/-- A character that means itself in the drawing: not a percent sign, a quotation mark or a backslash. -/
def FineRune (r : Nat) : Prop := r ≠ 37 ∧ r ≠ 34 ∧ r ≠ 92

theorem harmless_encode {r : Nat} (h : FineRune r) : Harmless (encodeRune r) := by
  intro b hb
  have hof : ∀ n : Nat, n < 256 → n ≠ 37 → n ≠ 34 → n ≠ 92 → UInt8.ofNat n ≠ 37 ∧ UInt8.ofNat n ≠ 34 ∧ UInt8.ofNat n ≠ 92 := by
    intro n hn h1 h2 h3
    refine ⟨fun e => h1 ?_, fun e => h2 ?_, fun e => h3 ?_⟩ <;>
    · have := congrArg UInt8.toNat e
      rw [toNat_ofNat_lt (by omega)] at this
      exact this
  unfold encodeRune at hb
  obtain ⟨g1, g2, g3⟩ := h
  split at hb
  · simp only [List.mem_singleton] at hb
    subst hb
    exact hof r (by omega) g1 g2 g3
  · split at hb
    · simp only [List.mem_cons, List.not_mem_nil, or_false] at hb
      rcases hb with rfl | rfl <;> exact hof _ (by omega) (by omega) (by omega) (by omega)
    · split at hb
      · revert b; decide
      · rename_i hv
        simp only [Bool.or_eq_true, Bool.and_eq_true, decide_eq_true_eq, not_or, Nat.not_lt] at hv
        split at hb
        · simp only [List.mem_cons, List.not_mem_nil, or_false] at hb
          rcases hb with rfl | rfl | rfl <;> exact hof _ (by omega) (by omega) (by omega) (by omega)
        · simp only [List.mem_cons, List.not_mem_nil, or_false] at hb
          rcases hb with rfl | rfl | rfl | rfl <;> exact hof _ (by omega) (by omega) (by omega) (by omega)

theorem harmless_flatMap {rs : List Nat} (h : ∀ r ∈ rs, FineRune r) : Harmless (rs.flatMap encodeRune) := by
  intro b hb
  obtain ⟨r, hr, hb⟩ := List.mem_flatMap.1 hb
  exact harmless_encode (h r hr) b hb

theorem fine_decode {s : Str} (h : Harmless s) : FineRune (decodeRune s).1 := by
  cases s with
  | nil => refine ⟨?_, ?_, ?_⟩ <;> decide
  | cons b t =>
    by_cases hb : (decodeRune (b :: t)).1 < 0x80
    · rw [decodeRune_ascii (decodeRune_lt hb)]
      obtain ⟨h1, h2, h3⟩ := h b List.mem_cons_self
      exact ⟨fun e => h1 (UInt8.toNat_inj.1 e), fun e => h2 (UInt8.toNat_inj.1 e), fun e => h3 (UInt8.toNat_inj.1 e)⟩
    · unfold FineRune; omega

theorem harmless_drop {s : Str} (h : Harmless s) (n : Nat) : Harmless (s.drop n) := fun b hb => h b (List.mem_of_mem_drop hb)

theorem fine_runesAux : ∀ (n : Nat) {s : Str}, Harmless s → ∀ r ∈ runesAux n s, FineRune r.1
  | 0, _, _, _, hr => by cases hr
  | _ + 1, [], _, _, hr => by cases hr
  | n + 1, b :: s, h, r, hr => by
    rw [runesAux, List.mem_cons] at hr
    rcases hr with rfl | hr
    · exact fine_decode h
    · exact fine_runesAux n (harmless_drop h _) r hr

theorem fine_runesOf {s : Str} (h : Harmless s) : ∀ r ∈ (runesOf s).map Prod.fst, FineRune r := by
  intro r hr
  obtain ⟨x, hx, rfl⟩ := List.mem_map.1 hr
  exact fine_runesAux _ h x hx

/-! ### The lexer -/

namespace Lex

/-- The strings of a token are harmless. -/
def FineTok : Tok → Prop
  | .text raw => Harmless raw
  | .rangeLo raw => Harmless raw
  | .rangeHi raw => Harmless raw
  | _ => True

/-- The pattern, the last rune and the tokens of a lexer are harmless. -/
structure Fine (l : Lex) : Prop where
  data : Harmless l.data
  last : FineRune l.lastRune
  toks : ∀ t ∈ l.tokens, FineTok t

theorem Fine.same {l l' : Lex} (h : l.Fine) (h1 : l'.data = l.data) (h2 : l'.lastRune = l.lastRune) (h3 : l'.tokens = l.tokens) : l'.Fine :=
  ⟨h1 ▸ h.data, h2 ▸ h.last, h3 ▸ h.toks⟩

theorem fine_zero : FineRune 0 := by unfold FineRune; decide

theorem Fine.peek {l : Lex} (h : l.Fine) : FineRune l.peek.1.1 ∧ l.peek.2.Fine := by
  constructor
  · rw [peek_eq]
    split
    · exact fine_zero
    · split
      · exact fine_zero
      · exact fine_decode (harmless_drop h.data _)
  · rw [peek_snd]; exact h.same rfl rfl rfl

theorem Fine.read {l : Lex} (h : l.Fine) : FineRune l.read.1 ∧ l.read.2.Fine := by
  unfold Lex.read
  split
  · exact ⟨h.last, h.same rfl rfl rfl⟩
  · exact ⟨h.peek.1, ⟨h.peek.2.data, h.peek.1, h.peek.2.toks⟩⟩

theorem Fine.unread {l : Lex} (h : l.Fine) : l.unread.Fine := by
  unfold Lex.unread
  split <;> exact h.same rfl rfl rfl

theorem Fine.push {l : Lex} {t : Tok} (h : l.Fine) (ht : FineTok t) : (l.push t).Fine := by
  refine ⟨h.data, h.last, fun x hx => ?_⟩
  simp only [Lex.push, List.mem_append, List.mem_singleton] at hx
  rcases hx with hx | rfl
  · exact h.toks x hx
  · exact ht

theorem fetchTextLoop_fine (breakers : List Nat) : ∀ (n : Nat) (l : Lex) (data : List Nat) (escaped : Bool) (d' : List Nat) (l' : Lex), l.Fine → (∀ r ∈ data, FineRune r) →
    fetchTextLoop breakers n l data escaped = some (d', l') → l'.Fine ∧ ∀ r ∈ d', FineRune r
  | 0, _, _, _, _, _, _, _, h => by cases h
  | n + 1, l, data, escaped, d', l', hf, hd, h => by
    simp only [fetchTextLoop] at h
    split at h
    · cases h; exact ⟨hf.read.2, hd⟩
    · split at h
      · exact fetchTextLoop_fine breakers n _ _ _ _ _ hf.read.2 hd h
      · split at h
        · cases h; exact ⟨hf.read.2.unread, hd⟩
        · refine fetchTextLoop_fine breakers n _ _ _ _ _ hf.read.2 (fun r hr => ?_) h
          rw [List.mem_append, List.mem_singleton] at hr
          rcases hr with hr | rfl
          · exact hd r hr
          · exact hf.read.1

theorem fetchText_fine {l l' : Lex} {breakers : List Nat} (hf : l.Fine) (h : l.fetchText breakers = some l') : l'.Fine := by
  unfold fetchText at h
  split at h
  · cases h
  · rename_i data l1 e
    obtain ⟨h1, h2⟩ := fetchTextLoop_fine _ _ _ _ _ _ _ hf (fun _ hr => by cases hr) e
    cases h
    split
    · exact h1.push (harmless_flatMap h2)
    · exact h1

theorem fetchRangeLoop_fine : ∀ (n : Nat) (l : Lex) (a b c : Bool) (l' : Lex), l.Fine → fetchRangeLoop n l a b c = some l' → l'.Fine
  | 0, _, _, _, _, _, _, h => by cases h
  | n + 1, l, a, b, c, l', hf, h => by
    have hr := hf.read.2
    simp only [fetchRangeLoop] at h
    split at h
    · cases h; exact hr.same rfl rfl rfl
    · split at h
      · split at h
        · cases h; exact hr.same rfl rfl rfl
        · cases h; exact hr.push trivial
      · split at h
        · exact fetchRangeLoop_fine n _ _ _ _ _ (by exact hr.push (harmless_encode hf.read.1)) h
        · split at h
          · exact fetchRangeLoop_fine n _ _ _ _ _ (by exact hr.push trivial) h
          · split at h
            · refine fetchRangeLoop_fine n _ _ _ _ _ ?_ h
              exact Fine.push (Fine.push (hr.peek.2.same rfl rfl rfl) (harmless_encode hf.read.1)) trivial
            · split at h
              · cases h
              · rename_i l1 e
                exact fetchRangeLoop_fine n _ _ _ _ _ (fetchText_fine hr.peek.2.unread e) h

theorem fetchItem_fine {l l' : Lex} (hf : l.Fine) (h : l.fetchItem = some l') : l'.Fine := by
  have hr := hf.read.2
  unfold fetchItem at h
  simp only at h
  split at h
  · cases h; exact hr.push trivial
  · split at h
    · cases h
      exact Fine.push (l := { l.read.2 with termsLevel := l.read.2.termsLevel + 1 }) (hr.same rfl rfl rfl) trivial
    · split at h
      · cases h; exact hr.push trivial
      · split at h
        · cases h; exact (hr.push (t := .termsClose) trivial).same rfl rfl rfl
        · split at h
          · exact fetchRangeLoop_fine _ _ _ _ _ _ (by exact hr.push trivial) h
          · split at h
            · cases h; exact hr.push trivial
            · split at h
              · split at h
                · cases h; exact hr.read.2.push trivial
                · cases h; exact hr.read.2.unread.push trivial
              · exact fetchText_fine hr.unread h

theorem next_fine : ∀ (n : Nat) (l l' : Lex) (t : Tok), l.Fine → l.next n = some (.ok t, l') → FineTok t ∧ l'.Fine
  | 0, _, _, _, _, h => by cases h
  | n + 1, l, l', t, hg, h => by
    rw [next] at h
    split at h
    · cases h
    · split at h
      · rename_i t' ts e
        cases h
        exact ⟨hg.toks t (by rw [e]; exact List.mem_cons_self), ⟨hg.data, hg.last, fun x hx => hg.toks x (by rw [e]; exact List.mem_cons_of_mem _ hx)⟩⟩
      · split at h
        · cases h
        · rename_i l1 e1
          exact next_fine n l1 l' t (fetchItem_fine hg e1) h

end Lex

/-! ### The parser -/

/-- The strings and characters of a tree are harmless. -/
inductive FineNode : Node → Prop
  | nothing : FineNode .nothing
  | any : FineNode .any
  | super : FineNode .super
  | single : FineNode .single
  | text {t : Str} (h : Harmless t) : FineNode (.text t)
  | list {n : Bool} {cs : Str} (h : Harmless cs) : FineNode (.list n cs)
  | range {n : Bool} {lo hi : Nat} (h1 : FineRune lo) (h2 : FineRune hi) : FineNode (.range n lo hi)
  | pattern {cs : List Node} (h : ∀ c ∈ cs, FineNode c) : FineNode (.pattern cs)
  | anyOf {cs : List Node} (h : ∀ c ∈ cs, FineNode c) : FineNode (.anyOf cs)

theorem parseRange_fine (depth : Nat) : ∀ (n : Nat) (l : Lex) (not : Bool) (lo hi : Nat) (chars : Str) (node : Node) (l' : Lex), l.Fine → FineRune lo → FineRune hi →
    Harmless chars → parseRange depth n l not lo hi chars = .ok (node, l') → l'.Fine ∧ FineNode node
  | 0, _, _, _, _, _, _, _, _, _, _, _, h => by cases h
  | n + 1, l, not, lo, hi, chars, node, l', hg, h1, h2, h3, h => by
    rw [parseRange] at h
    split at h
    · cases h
    · cases h
    · rename_i t l1 e
      obtain ⟨ht, g⟩ := Lex.next_fine _ _ _ _ hg e
      split at h
      · cases h
      · exact parseRange_fine depth n _ _ _ _ _ _ _ g h1 h2 h3 h
      · simp only at h
        split at h
        · cases h
        · exact parseRange_fine depth n _ _ _ _ _ _ _ g (fine_decode ht) h2 h3 h
      · simp only at h
        split at h
        · cases h
        · split at h
          · cases h
          · exact parseRange_fine depth n _ _ _ _ _ _ _ g h1 (fine_decode ht) h3 h
      · exact parseRange_fine depth n _ _ _ _ _ _ _ g h1 h2 ht h
      · simp only at h
        split at h
        · cases h
        · split at h
          · cases h; exact ⟨g, .range h1 h2⟩
          · cases h; exact ⟨g, .list h3⟩
      · exact parseRange_fine depth n _ _ _ _ _ _ _ g h1 h2 h3 h

theorem fine_snoc {cs : List Node} {c : Node} (h : ∀ x ∈ cs, FineNode x) (hc : FineNode c) : ∀ x ∈ cs ++ [c], FineNode x := by
  intro x hx
  rw [List.mem_append, List.mem_singleton] at hx
  rcases hx with hx | rfl
  · exact h x hx
  · exact hc

/-- The nodes of the open braces are harmless. -/
def FineFrames (fs : List Frame) : Prop := ∀ f ∈ fs, (∀ x ∈ f.alts, FineNode x) ∧ ∀ x ∈ f.outer, FineNode x

theorem closeFrames_fine : ∀ (fs : List Frame) (cur : List Node), FineFrames fs → (∀ c ∈ cur, FineNode c) → FineNode (closeFrames fs cur)
  | [], cur, _, h => .pattern h
  | f :: fs, cur, hf, h => by
    rw [closeFrames]
    have := hf f List.mem_cons_self
    exact closeFrames_fine fs _ (fun x hx => hf x (List.mem_cons_of_mem _ hx)) (fine_snoc this.2 (.anyOf (fine_snoc this.1 (.pattern h))))

theorem parseMain_fine (depth : Nat) : ∀ (n : Nat) (l : Lex) (fs : List Frame) (cur : List Node) (t : Node), l.Fine → FineFrames fs → (∀ c ∈ cur, FineNode c) →
    parseMain depth n l fs cur = .ok t → FineNode t
  | 0, _, _, _, _, _, _, _, h => by cases h
  | n + 1, l, fs, cur, t, hg, hf, hc, h => by
    rw [parseMain] at h
    split at h
    · cases h
    · cases h
    · rename_i tk l1 e
      obtain ⟨gt, g⟩ := Lex.next_fine _ _ _ _ hg e
      split at h
      · cases h; exact closeFrames_fine _ _ hf hc
      · exact parseMain_fine depth n l1 _ _ t g hf (fine_snoc hc (.text gt)) h
      · exact parseMain_fine depth n l1 _ _ t g hf (fine_snoc hc .any) h
      · exact parseMain_fine depth n l1 _ _ t g hf (fine_snoc hc .super) h
      · exact parseMain_fine depth n l1 _ _ t g hf (fine_snoc hc .single) h
      · split at h
        · rename_i node l2 e2
          obtain ⟨g2, hn⟩ := parseRange_fine depth _ _ _ _ _ _ _ _ g Lex.fine_zero Lex.fine_zero (fun _ hb => by cases hb) e2
          exact parseMain_fine depth n l2 _ _ t g2 hf (fine_snoc hc hn) h
        all_goals cases h
      · refine parseMain_fine depth n l1 _ _ t g (fun f hf' => ?_) (fun _ hx => by cases hx) h
        rcases List.mem_cons.1 hf' with rfl | hf'
        · exact ⟨fun _ hx => (by cases hx), hc⟩
        · exact hf f hf'
      · split at h
        · cases h
        · rename_i f fs'
          have h0 := hf f List.mem_cons_self
          refine parseMain_fine depth n l1 _ _ t g (fun f' hf' => ?_) (fun _ hx => by cases hx) h
          rcases List.mem_cons.1 hf' with rfl | hf'
          · exact ⟨fine_snoc h0.1 (.pattern hc), h0.2⟩
          · exact hf f' (List.mem_cons_of_mem _ hf')
      · split at h
        · cases h
        · rename_i f fs'
          have h0 := hf f List.mem_cons_self
          exact parseMain_fine depth n l1 _ _ t g (fun f' hf' => hf f' (List.mem_cons_of_mem _ hf')) (fine_snoc h0.2 (.anyOf (fine_snoc h0.1 (.pattern hc)))) h
      · cases h

theorem parse_fine {p : Str} {t : Node} (hp : Harmless p) (h : parse p = .ok t) : FineNode t :=
  parseMain_fine _ _ _ [] [] t ⟨hp, Lex.fine_zero, fun _ hx => by cases hx⟩ (fun _ hx => by cases hx) (fun _ hx => by cases hx) h

/-! ### The compiler -/

/-- The strings and characters of a matcher are harmless. -/
inductive FineMatcher : Matcher → Prop
  | nothing : FineMatcher .nothing
  | super : FineMatcher .super
  | min {l : Nat} : FineMatcher (.min l)
  | max {l : Nat} : FineMatcher (.max l)
  | text {s : Str} (h : Harmless s) : FineMatcher (.text s)
  | any {rs : List Nat} (h : ∀ r ∈ rs, FineRune r) : FineMatcher (.any rs)
  | single {rs : List Nat} (h : ∀ r ∈ rs, FineRune r) : FineMatcher (.single rs)
  | list {rs : List Nat} {n : Bool} (h : ∀ r ∈ rs, FineRune r) : FineMatcher (.list rs n)
  | range {lo hi : Nat} {n : Bool} (h1 : FineRune lo) (h2 : FineRune hi) : FineMatcher (.range lo hi n)
  | contains {s : Str} {n : Bool} (h : Harmless s) : FineMatcher (.contains s n)
  | prefix {s : Str} (h : Harmless s) : FineMatcher (.prefix s)
  | suffix {s : Str} (h : Harmless s) : FineMatcher (.suffix s)
  | prefixSuffix {p q : Str} (h1 : Harmless p) (h2 : Harmless q) : FineMatcher (.prefixSuffix p q)
  | prefixAny {s : Str} {rs : List Nat} (h : Harmless s) (hr : ∀ r ∈ rs, FineRune r) : FineMatcher (.prefixAny s rs)
  | suffixAny {s : Str} {rs : List Nat} (h : Harmless s) (hr : ∀ r ∈ rs, FineRune r) : FineMatcher (.suffixAny s rs)
  | anyOf {ms : List Matcher} (h : ∀ m ∈ ms, FineMatcher m) : FineMatcher (.anyOf ms)
  | everyOf {ms : List Matcher} (h : ∀ m ∈ ms, FineMatcher m) : FineMatcher (.everyOf ms)
  | row {n : Nat} {ms : List Matcher} (h : ∀ m ∈ ms, FineMatcher m) : FineMatcher (.row n ms)
  | btree {v : Matcher} {l r : Option Matcher} {a b c : Option Nat} (hv : FineMatcher v) (hl : ∀ m ∈ l, FineMatcher m) (hr : ∀ m ∈ r, FineMatcher m) :
      FineMatcher (.btree v l r a b c)

theorem optimize_fine {m : Matcher} (h : FineMatcher m) : FineMatcher (optimizeMatcher m) := by
  induction h with
  | any h1 =>
    rw [optimizeMatcher]
    split
    · exact .super
    · exact .any h1
  | anyOf h ih =>
    rename_i ms
    match ms, h with
    | [], h => exact .anyOf h
    | [m], h => exact h m List.mem_cons_self
    | _ :: _ :: _, h => exact .anyOf h
  | list h =>
    rw [optimizeMatcher]
    split
    · exact .text (harmless_flatMap h)
    · exact .list h
  | btree h1 h2 h3 ihv ihl ihr =>
    rename_i v l r ll rl len
    rw [optimizeMatcher]
    have side : ∀ o : Option Matcher, (∀ m ∈ o, FineMatcher (optimizeMatcher m)) → ∀ m ∈ optimizeOpt o, FineMatcher m := by
      intro o ho m hm
      cases o with
      | none => cases hm
      | some c => simp only [optimizeOpt, Option.mem_def, Option.some.injEq] at hm; subst hm; exact ho c rfl
    have hl := side l ihl
    have hr := side r ihr
    have whole : FineMatcher (.btree v (optimizeOpt l) (optimizeOpt r) ll rl len) := .btree h1 hl hr
    generalize optimizeOpt l = l' at *
    generalize optimizeOpt r = r' at *
    unfold optimizeBTree
    cases v <;> try exact whole
    have ht : ∀ {s}, FineMatcher (.text s) → Harmless s := fun h => by cases h; assumption
    simp only
    split
    · exact h1
    · exact .contains (ht h1)
    · exact .suffix (ht h1)
    · exact .prefix (ht h1)
    · have := hr _ rfl
      cases this with
      | suffix h => exact .prefixSuffix (ht h1) h
    · have := hl _ rfl
      cases this with
      | «prefix» h => exact .prefixSuffix h (ht h1)
    · have := hl _ rfl
      cases this with
      | any h => exact .suffixAny (ht h1) h
    · have := hr _ rfl
      cases this with
      | any h => exact .prefixAny (ht h1) h
    · exact whole
  | text h => exact .text h
  | suffixAny h hr => exact .suffixAny h hr
  | everyOf h1 => exact .everyOf h1
  | row h1 => exact .row h1
  | nothing => exact .nothing
  | super => exact .super
  | single h => exact .single h
  | range h1 h2 => exact .range h1 h2
  | min => exact .min
  | max => exact .max
  | contains h => exact .contains h
  | «prefix» h => exact .prefix h
  | suffix h => exact .suffix h
  | prefixSuffix h1 h2 => exact .prefixSuffix h1 h2
  | prefixAny h hr => exact .prefixAny h hr

theorem gluable_fine {m : Matcher} {sep : List Nat} {k : Gluable} (hm : FineMatcher m) (h : gluable m = some (sep, k)) : ∀ r ∈ sep, FineRune r := by
  cases hm <;> simp only [gluable, Option.some.injEq, Prod.mk.injEq, reduceCtorEq] at h
  · rw [← h.1]; intro r hr; cases hr
  · rw [← h.1]; assumption
  · rw [← h.1]; assumption
  · split at h
    · cases h
    · simp only [Option.some.injEq, Prod.mk.injEq] at h
      rw [← h.1]; assumption

theorem glue_fine {ms : List Matcher} {m : Matcher} (h : glueMatchers ms = some m) (hms : ∀ c ∈ ms, FineMatcher c) : FineMatcher m := by
  unfold glueMatchers at h
  split at h
  · rename_i m' he
    cases h
    unfold glueMatchersAsEvery at he
    split at he
    · cases he
    · cases he
    · rename_i m0 rest hne
      split at he
      · cases he
      · rename_i sep kind hg
        have hsep := gluable_fine (hms m0 List.mem_cons_self) hg
        split at he
        · cases he
        · split at he
          · cases he; exact .super
          · split at he
            · cases he; exact .any hsep
            · split at he
              · cases he; exact .min
              · simp only [Option.some.injEq] at he
                subst he
                refine .everyOf fun m hm => ?_
                rw [List.mem_append] at hm
                rcases hm with hm | hm
                · split at hm
                  · rw [List.mem_append, List.mem_singleton] at hm
                    rcases hm with rfl | hm
                    · exact .min
                    · split at hm
                      · rw [List.mem_singleton] at hm; subst hm; exact .max
                      · cases hm
                  · cases hm
                · split at hm
                  · rw [List.mem_singleton] at hm; subst hm
                    exact .contains (harmless_flatMap hsep)
                  · cases hm
  · unfold glueMatchersAsRow at h
    split at h
    · cases h
    · simp only [Option.map_eq_some_iff] at h
      obtain ⟨l, _, rfl⟩ := h
      exact .row hms

theorem compileMatchers_fine : ∀ (n : Nat) (ms : List Matcher) (m : Matcher), compileMatchers n ms = .ok m → (∀ c ∈ ms, FineMatcher c) → FineMatcher m
  | 0, _, _, h, _ => by cases h
  | n + 1, ms, m, h, hms => by
    unfold compileMatchers at h
    split at h
    · cases h
    · cases h; exact hms _ (List.mem_cons_self ..)
    · rename_i m0 rest hne
      split at h
      · rename_i g hg
        cases h
        exact glue_fine hg hms
      · split at h
        · split at h
          · rename_i r hr
            cases h
            refine .btree (hms m0 (List.mem_cons_self ..)) (fun m hm => by cases hm) ?_
            intro m hm
            cases hm
            exact compileMatchers_fine n rest r hr fun c hc => hms c (List.mem_cons_of_mem _ hc)
          · rename_i hno
            exact absurd h (by cases hc : compileMatchers n rest <;> simp_all)
        · rename_i idx l hidx
          simp only at h
          split at h
          · cases h
          · rename_i val hval
            have side : ∀ (part : List Matcher) (o : Option Matcher), (∀ c ∈ part, c ∈ m0 :: rest) →
                (if part.isEmpty then Res.ok none else match compileMatchers n part with
                  | .ok l => .ok (some l)
                  | .err e => .err e
                  | .panic => .panic
                  | .steps => .steps) = Res.ok o → ∀ m ∈ o, FineMatcher m := by
              intro part o hp ho m hm
              split at ho
              · cases ho; cases hm
              · split at ho <;> try cases ho
                rename_i l' hl'
                cases hm
                exact compileMatchers_fine n part _ hl' fun c hc => hms c (hp c hc)
            split at h <;> try cases h
            rename_i lo hlo
            split at h <;> try cases h
            rename_i ro hro
            exact .btree (hms val (List.mem_of_getElem? hval)) (side _ _ (fun c hc => List.mem_of_mem_take hc) hlo)
              (side _ _ (fun c hc => List.mem_of_mem_drop hc) hro)

theorem minimizeMatchers_fine : ∀ (n : Nat) (ms ns : List Matcher), minimizeMatchers n ms = some ns → (∀ c ∈ ms, FineMatcher c) → ∀ c ∈ ns, FineMatcher c
  | 0, _, _, h, _ => by cases h
  | n + 1, ms, ns, h, hms => by
    unfold minimizeMatchers at h
    split at h
    · cases h; exact hms
    · rename_i d hd
      obtain ⟨h1, h2, h3⟩ := minimizeLoops_glued hd
      have hg := glue_fine h1 fun c hc => hms c (List.mem_of_mem_take (List.mem_of_mem_drop hc))
      have hnext : ∀ c ∈ ms.take d.left ++ [d.m] ++ ms.drop d.right, FineMatcher c := by
        intro c hc
        simp only [List.mem_append, List.mem_singleton] at hc
        rcases hc with (hc | rfl) | hc
        · exact hms c (List.mem_of_mem_take hc)
        · exact hg
        · exact hms c (List.mem_of_mem_drop hc)
      simp only at h
      split at h
      · cases h; exact hnext
      · exact minimizeMatchers_fine n _ ns h hnext

theorem reduceAlts_fine {cl cr : Nat} : ∀ (ns : List (List Node)) (acc acc' : List Node), (∀ cs ∈ ns, ∀ c ∈ cs, FineNode c) → (∀ c ∈ acc, FineNode c) →
    reduceAlts cl cr ns acc = some acc' → ∀ c ∈ acc', FineNode c
  | [], acc, acc', _, ha, h => by simp only [reduceAlts, Option.some.injEq] at h; subst h; exact ha
  | cs :: ns, acc, acc', hn, ha, h => by
    rw [reduceAlts] at h
    split at h
    · cases h
    · refine reduceAlts_fine ns _ acc' (fun c hc => hn c (List.mem_cons_of_mem _ hc)) (fun c hc => ?_) h
      rw [mem_appendIfUnique] at hc
      rcases hc with hc | rfl
      · exact ha c hc
      · split
        · exact .nothing
        · exact .pattern fun d hd => hn cs List.mem_cons_self d (List.mem_of_mem_take (List.mem_of_mem_drop hd))

theorem minimize_fine {cs : List Node} {t : Node} (hp : ∀ c ∈ cs, FineNode c) (h : minimizeTreeAnyOf cs = some (some t)) : FineNode t := by
  unfold minimizeTreeAnyOf at h
  cases hc : patternChildren cs with
  | none => rw [hc] at h; cases h
  | some nodes =>
    obtain ⟨left, right, e, hk⟩ := commonChildren_ok nodes
    rw [hc] at h
    simp only [e] at h
    split at h
    · cases h
    · rename_i hne
      have hcs := patternChildren_some hc
      subst hcs
      have hn : ∀ c ∈ nodes, ∀ d ∈ c, FineNode d := by
        intro c hc
        have := hp (.pattern c) (List.mem_map_of_mem hc)
        cases this with
        | pattern h => exact h
      obtain ⟨c0, hc0⟩ : ∃ c, c ∈ nodes := by
        cases nodes with
        | nil => simp [commonChildren] at e; obtain ⟨rfl, rfl⟩ := e; simp at hne
        | cons c _ => exact ⟨c, List.mem_cons_self⟩
      have hl : ∀ d ∈ left, FineNode d := fun d hd => hn c0 hc0 d (by rw [← (hk c0 hc0).1] at hd; exact List.mem_of_mem_take hd)
      have hr : ∀ d ∈ right, FineNode d := fun d hd => hn c0 hc0 d (by rw [← (hk c0 hc0).2.1] at hd; exact List.mem_of_mem_drop hd)
      split at h
      · cases h
      · rename_i alts hra
        cases h
        have ha := reduceAlts_fine nodes [] alts hn (fun _ hx => by cases hx) hra
        have hside : ∀ l : List Node, (∀ d ∈ l, FineNode d) → ∀ n ∈ (if l.length > 0 then [Node.pattern l] else []), FineNode n := by
          intro l hl n hn
          split at hn
          · rw [List.mem_singleton] at hn; subst hn; exact .pattern hl
          · cases hn
        refine .pattern fun n hn => ?_
        simp only [List.mem_append] at hn
        rcases hn with (hn | hn) | hn
        · exact hside left hl n hn
        · rcases alts with _ | ⟨a, _ | ⟨a', as⟩⟩
          · cases hn
          · have hpa := ha a List.mem_cons_self
            cases a <;> simp only [reducedPart, List.mem_singleton, List.not_mem_nil] at hn <;> (try (subst hn; exact hpa))
          · simp only [reducedPart, List.mem_singleton] at hn
            subst hn
            exact .anyOf ha
        · exact hside right hr n hn

theorem compile_fine {seps : List Nat} (hs : ∀ r ∈ seps, FineRune r) : ∀ (n : Nat) (t : Node) (m : Matcher), FineNode t → compile seps n t = .ok m → FineMatcher m
  | 0, _, _, _, h => by cases h
  | n + 1, t, m, ht, h => by
    have kids : ∀ (cs : List Node) (ms : List Matcher), (∀ c ∈ cs, FineNode c) → compileChildren (compile seps n) cs = .ok ms → ∀ m ∈ ms, FineMatcher m := by
      intro cs ms hcs h m hm
      obtain ⟨c, m0, hc, e, rfl⟩ := (compileChildren_mem h).1 m hm
      exact optimize_fine (compile_fine hs n c m0 (hcs c hc) e)
    cases ht with
    | nothing => cases h; exact optimize_fine .nothing
    | any => cases h; exact optimize_fine (.any hs)
    | super => cases h; exact optimize_fine .super
    | single => cases h; exact optimize_fine (.single hs)
    | text ht => cases h; exact optimize_fine (.text ht)
    | list ht => cases h; exact optimize_fine (.list (fine_runesOf ht))
    | range h1 h2 => cases h; exact optimize_fine (.range h1 h2)
    | pattern hcs =>
      rename_i cs
      simp only [compile] at h
      split at h
      · cases h; exact .nothing
      · split at h <;> try cases h
        rename_i ms hms
        split at h <;> try cases h
        rename_i ms' hms'
        have h1 := minimizeMatchers_fine _ _ _ hms' (kids cs ms hcs hms)
        split at h
        · rename_i m' hm'
          cases h
          exact optimize_fine (compileMatchers_fine _ _ _ hm' h1)
        · rename_i hno
          exact absurd h (by cases hc : compileMatchers (ms'.length + 1) ms' <;> simp_all)
    | anyOf hcs =>
      rename_i cs
      simp only [compile] at h
      split at h
      · cases h
      · rename_i t ht
        exact compile_fine hs n t m (minimize_fine hcs ht) h
      · split at h <;> try cases h
        rename_i ms hms
        exact .anyOf (kids cs ms hcs hms)

theorem globCompile_fine {p : Str} {seps : List Nat} {m : Matcher} (hp : Harmless p) (hs : ∀ r ∈ seps, FineRune r) (h : globCompile p seps = .ok m) : FineMatcher m := by
  unfold globCompile at h
  split at h <;> try cases h
  rename_i t ht
  exact compile_fine hs _ t m (parse_fine hp ht) h

/-! ### The labels -/

theorem harmless_decimal (n : Nat) : Harmless (decimal n) := by
  intro b hb
  unfold decimal lit at hb
  obtain ⟨c, hc, rfl⟩ := List.mem_map.1 hb
  have hd : c.isDigit = true := by
    have : c ∈ Nat.toDigits 10 n := by
      have e : (toString n).toList = Nat.toDigits 10 n := by
        show (Nat.repr n).toList = _
        simp [Nat.repr]
      rw [← e]; exact hc
    exact Nat.isDigit_of_mem_toDigits (by omega) (by omega) this
  have hb : 48 ≤ c.toNat ∧ c.toNat ≤ 57 := by
    simp only [Char.isDigit, Bool.and_eq_true, decide_eq_true_eq] at hd
    exact ⟨hd.1, hd.2⟩
  have : ∀ n : Nat, n < 58 → 48 ≤ n → UInt8.ofNat n ≠ 37 ∧ UInt8.ofNat n ≠ 34 ∧ UInt8.ofNat n ≠ 92 := by decide
  exact this c.toNat (by omega) hb.1

theorem harmless_not (b : Bool) : Harmless (notText b) := by cases b <;> (unfold Harmless notText; decide)

theorem strings_harmless {ms : List Matcher} (h : ∀ m ∈ ms, Harmless m.string) : Harmless (Matcher.strings ms) := by
  induction ms with
  | nil => rw [Matcher.strings]; unfold Harmless; decide
  | cons m ms ih =>
    rw [Matcher.strings, harmless_append, harmless_append]
    refine ⟨⟨h m List.mem_cons_self, ?_⟩, ih fun m hm => h m (List.mem_cons_of_mem _ hm)⟩
    split <;> (unfold Harmless; decide)

theorem stringOpt_harmless {o : Option Matcher} (h : ∀ m ∈ o, Harmless m.string) : Harmless (Matcher.stringOpt o) := by
  cases o with
  | none => rw [Matcher.stringOpt]; unfold Harmless; decide
  | some m => rw [Matcher.stringOpt]; exact h m rfl

theorem string_harmless {m : Matcher} (h : FineMatcher m) : Harmless m.string := by
  have l : ∀ s : String, (lit s).all (fun b => b != 37 && b != 34 && b != 92) = true → Harmless (lit s) := by
    intro s hs b hb
    have := List.all_eq_true.1 hs b hb
    simpa [and_assoc] using this
  induction h <;> simp only [Matcher.string, harmless_append, runesText] <;> (repeat' constructor) <;>
    first
    | exact l _ (by decide)
    | assumption
    | exact harmless_not _
    | exact harmless_decimal _
    | (apply harmless_flatMap; assumption)
    | (apply harmless_encode; assumption)
    | (apply strings_harmless; assumption)
    | (apply stringOpt_harmless; assumption)

theorem treesHarmless_iff (ts : List Draw.Spec.LTree) : TreesHarmless ts ↔ ∀ t ∈ ts, TreeHarmless t := by
  induction ts with
  | nil => simp [TreesHarmless]
  | cons t ts ih => rw [TreesHarmless, ih]; simp

theorem treesOf_eq (ms : List Matcher) : Draw.Spec.treesOf ms = ms.map Draw.Spec.treeOf := by
  induction ms with
  | nil => rfl
  | cons m ms ih => rw [Draw.Spec.treesOf, ih]; rfl

theorem tree_harmless {m : Matcher} (h : FineMatcher m) : TreeHarmless (Draw.Spec.treeOf m) := by
  have leaf : ∀ {m : Matcher}, FineMatcher m → TreeHarmless (.node m.string []) := fun h => ⟨string_harmless h, trivial⟩
  induction h with
  | anyOf h ih =>
    refine ⟨by unfold Harmless; decide, ?_⟩
    rw [treesOf_eq, treesHarmless_iff]
    intro t ht
    obtain ⟨m, hm, rfl⟩ := List.mem_map.1 ht
    exact ih m hm
  | everyOf h ih =>
    refine ⟨by unfold Harmless; decide, ?_⟩
    rw [treesOf_eq, treesHarmless_iff]
    intro t ht
    obtain ⟨m, hm, rfl⟩ := List.mem_map.1 ht
    exact ih m hm
  | btree hv hl hr _ ihl ihr =>
    have side : ∀ o : Option Matcher, (∀ m ∈ o, TreeHarmless (Draw.Spec.treeOf m)) → TreeHarmless (Draw.Spec.treeOfBranch o) := by
      intro o ho
      cases o with
      | none => exact ⟨by unfold Harmless; decide, trivial⟩
      | some m => exact ho m rfl
    exact ⟨string_harmless hv, side _ ihl, side _ ihr, trivial⟩
  | nothing => exact leaf .nothing
  | super => exact leaf .super
  | min => exact leaf .min
  | max => exact leaf .max
  | text h => exact leaf (.text h)
  | any h => exact leaf (.any h)
  | single h => exact leaf (.single h)
  | list h => exact leaf (.list h)
  | range h1 h2 => exact leaf (.range h1 h2)
  | contains h => exact leaf (.contains h)
  | «prefix» h => exact leaf (.prefix h)
  | suffix h => exact leaf (.suffix h)
  | prefixSuffix h1 h2 => exact leaf (.prefixSuffix h1 h2)
  | prefixAny h hr => exact leaf (.prefixAny h hr)
  | suffixAny h hr => exact leaf (.suffixAny h hr)
  | row h => exact leaf (.row h)

end Verif.Glob
