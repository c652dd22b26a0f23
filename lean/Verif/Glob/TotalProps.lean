import Verif.Glob.TotalLex
import Verif.Glob.Quote
/-
C93: `Match` of a compiled pattern returns.
-/
namespace Verif.Glob

/-- Without an opening brace in its text, a pattern that compiles has a matcher that returns for every string, whatever bytes the pattern and the string are
made of and whatever the separators are. -/
theorem C93_no_braces_partial (p : Str) (seps : List Nat) (m : Matcher) (hb : (123 : UInt8) ∉ p) (h : globCompile p seps = .ok m) (s : Str) : ∃ b, m.match s = some b := by
  unfold globCompile at h
  split at h <;> try cases h
  rename_i t ht
  obtain ⟨cs, rfl, hf⟩ := parse_flat hb ht
  by_cases hne : cs = []
  · subst hne
    rw [compile_empty_alt h]
    exact ⟨_, rfl⟩
  · exact (compile_flat (fun c hc => (hf c hc).1) (fun c hc => (hf c hc).2) hne h).returns.1 s

/-- With braces: if all separators are ASCII and the tree of the pattern is plain, the matcher returns for every string. -/
theorem C93_plain_partial (p : Str) (seps : List Nat) (t : Node) (m : Matcher) (ha : ∀ r ∈ seps, r < 0x80) (ht : parse p = .ok t) (hp : Plain t) (h : globCompile p seps = .ok m)
    (s : Str) : ∃ b, m.match s = some b := by
  rw [globCompile, ht] at h
  exact (compile_plain ha _ t m hp h).returns.1 s

/-- The pattern compiles, and `Match` has this result. -/
def outcome (p : Str) (seps : List Nat) (s : Str) (r : Option Bool) : Bool := match globCompile p seps with
  | .ok m => m.match s == r
  | _ => false

theorem outcome_spec {p : Str} {seps : List Nat} {s : Str} {r : Option Bool} (h : outcome p seps s r = true) : ∃ m, globCompile p seps = .ok m ∧ m.match s = r := by
  unfold outcome at h
  split at h
  · rename_i m hm
    exact ⟨m, hm, eq_of_beq h⟩
  · cases h

/-- A pattern that compiles can crash: an alternative that begins like all the others and has nothing after that, or an empty alternative, ... -/
theorem C93_false :
    (∃ m, globCompile (lit "{a*,a}") [] = .ok m ∧ m.match (lit "a") = none) ∧
    (∃ m, globCompile (lit "{/a/**,/a/}") [47] = .ok m ∧ m.match (lit "/a/") = none) ∧
    (∃ m, globCompile (lit "x{*,}") [] = .ok m ∧ m.match (lit "x") = none) ∧
    ∃ m, globCompile (lit "a{}") [] = .ok m ∧ m.match (lit "a") = none := by
  refine ⟨outcome_spec ?_, outcome_spec ?_, outcome_spec ?_, outcome_spec ?_⟩ <;> decide +kernel

/-- ... and separators outside ASCII: `{*a}{*b}` with the separator é on `xxéa`. -/
theorem C93_separators_false : ∃ m, globCompile (lit "{*a}{*b}") [233] = .ok m ∧ m.match [120, 120, 0xC3, 0xA9, 97] = none := by
  refine outcome_spec ?_
  decide +kernel

/-! ### Instances -/

/-- `*a[b-d]?**` with the separator é on bytes that are not UTF-8. -/
example : (123 : UInt8) ∉ lit "*a[b-d]?**" ∧ ∃ m, globCompile (lit "*a[b-d]?**") [233] = .ok m ∧ m.match [0xFF, 97, 98, 0xC3] = some true :=
  ⟨by decide, outcome_spec (by decide +kernel)⟩

theorem not_absorbed {alts : List (List Node)} {a b : List Node} (hb : b ∈ alts) (h1 : ∀ x, a.head? = some x → b.head? ≠ some x) (h2 : ∀ x, a.getLast? = some x → b.getLast? ≠ some x)
    (hne : a ≠ []) : ¬ Absorbed alts a := by
  rintro ⟨x, y, rfl, h⟩
  obtain ⟨z, e⟩ := h b hb
  cases x with
  | cons c x =>
    refine h1 c rfl ?_
    rw [e]; rfl
  | nil =>
    rw [List.nil_append] at *
    obtain ⟨c, hc⟩ : ∃ c, y.getLast? = some c := by
      cases e : y.getLast? with
      | none => exact absurd (List.getLast?_eq_none_iff.1 e) hne
      | some c => exact ⟨c, rfl⟩
    refine h2 c hc ?_
    rw [e, List.getLast?_append, hc]
    rfl

/-- The tree of `*.{txt,md}/{[ab]?,c{d,}}`. -/
def sampleTree : Node := .pattern [.any, .text (lit "."), .anyOf [.pattern [.text (lit "txt")], .pattern [.text (lit "md")]], .text (lit "/"),
  .anyOf [.pattern [.list false (lit "ab"), .single], .pattern [.text (lit "c"), .anyOf [.pattern [.text (lit "d")], .pattern []]]]]

/-- `*.{txt,md}/{[ab]?,c{d,}}` is plain. -/
example : parse (lit "*.{txt,md}/{[ab]?,c{d,}}") = .ok sampleTree ∧ Plain sampleTree ∧
    ∃ m, globCompile (lit "*.{txt,md}/{[ab]?,c{d,}}") [47] = .ok m ∧ m.match (lit "x.md/cd") = some true := by
  refine ⟨?_, ?_, outcome_spec (by decide +kernel)⟩
  · have h : (match parse (lit "*.{txt,md}/{[ab]?,c{d,}}") with
      | .ok t => t.equal sampleTree
      | _ => false) = true := by decide +kernel
    split at h
    · rename_i t ht
      rw [ht, Node.eq_of_equal _ _ h]
    · cases h
  refine .pattern (by simp) fun c hc => ?_
  simp only [List.mem_cons, List.not_mem_nil, or_false] at hc
  rcases hc with rfl | rfl | rfl | rfl | rfl
  · exact .any
  · exact .text (by decide)
  · refine .anyOf (alts := [[.text (lit "txt")], [.text (lit "md")]]) ?_ ?_
    · intro a ha
      simp only [List.mem_cons, List.not_mem_nil, or_false] at ha
      rcases ha with rfl | rfl <;> refine .pattern (by simp) fun c hc => ?_ <;> rw [List.mem_singleton] at hc <;> subst hc <;> exact .text (by decide)
    · intro _ a ha
      simp only [List.mem_cons, List.not_mem_nil, or_false] at ha
      rcases ha with rfl | rfl
      · refine not_absorbed (b := [.text (lit "md")]) (by simp) ?_ ?_ (by simp) <;> intro x hx <;> cases hx <;> simp <;> decide
      · refine not_absorbed (b := [.text (lit "txt")]) (by simp) ?_ ?_ (by simp) <;> intro x hx <;> cases hx <;> simp <;> decide
  · exact .text (by decide)
  · refine .anyOf (alts := [[.list false (lit "ab"), .single], [.text (lit "c"), .anyOf [.pattern [.text (lit "d")], .pattern []]]]) ?_ ?_
    · intro a ha
      simp only [List.mem_cons, List.not_mem_nil, or_false] at ha
      rcases ha with rfl | rfl
      · refine .pattern (by simp) fun c hc => ?_
        simp only [List.mem_cons, List.not_mem_nil, or_false] at hc
        rcases hc with rfl | rfl
        · exact .list
        · exact .single
      · refine .pattern (by simp) fun c hc => ?_
        simp only [List.mem_cons, List.not_mem_nil, or_false] at hc
        rcases hc with rfl | rfl
        · exact .text (by decide)
        · refine .optional (alts := [[.text (lit "d")], []]) ?_ (by simp) ⟨_, List.mem_cons_self⟩
          intro a ha hne
          simp only [List.mem_cons, List.not_mem_nil, or_false] at ha
          rcases ha with rfl | rfl
          · refine .pattern (by simp) fun c hc => ?_
            rw [List.mem_singleton] at hc; subst hc; exact .text (by decide)
          · exact absurd rfl hne
    · intro _ a ha
      simp only [List.mem_cons, List.not_mem_nil, or_false] at ha
      rcases ha with rfl | rfl
      · refine not_absorbed (b := [.text (lit "c"), .anyOf [.pattern [.text (lit "d")], .pattern []]]) (by simp) ?_ ?_ (by simp) <;> intro x hx <;> cases hx <;> simp
      · refine not_absorbed (b := [.list false (lit "ab"), .single]) (by simp) ?_ ?_ (by simp) <;> intro x hx <;> cases hx <;> simp

end Verif.Glob
