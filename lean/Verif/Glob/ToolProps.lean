import Verif.Glob.Tool
import Verif.Glob.OneTerm
import Verif.Glob.Total
/-
What globtest and globdraw do with the list of separators (C117).
-/
namespace Verif.Glob.Tool

namespace Spec

/-- The elements written with commas between them. -/
def commas : List Str → Str
  | [] => []
  | [e] => e
  | e :: es => e ++ [44] ++ commas es

/-- What an element of the list stands for: its character; U+FFFD if it is empty or not UTF-8. -/
def sepOf (e : Str) : Nat := ((runesOf e).map Prod.fst).headD 0xFFFD

/-- What `globtest` should print for these separators: whether the pattern matches. -/
def answer (pattern : Str) (seps : List Nat) (fixture : Str) : End Bool :=
  match globMatch pattern seps fixture with
  | none => .badPattern
  | some none => .panic
  | some (some b) => .result b

end Spec
open Spec

theorem splitComma_ne_nil (s : Str) : splitComma s ≠ [] := by
  cases s with
  | nil => simp [splitComma]
  | cons b s => rw [splitComma]; split <;> [simp; (split <;> simp)]

theorem splitComma_single {s : Str} (h : (44 : UInt8) ∉ s) : splitComma s = [s] := by
  induction s with
  | nil => rfl
  | cons b s ih =>
    rw [List.mem_cons, not_or] at h
    rw [splitComma, if_neg (fun e => h.1 e.symm), ih h.2]

theorem splitComma_append (s t : Str) (h : (44 : UInt8) ∉ s) : splitComma (s ++ [44] ++ t) = s :: splitComma t := by
  induction s with
  | nil => simp [splitComma]
  | cons b s ih =>
    rw [List.mem_cons, not_or] at h
    simp only [List.cons_append] at ih ⊢
    rw [splitComma, if_neg (fun e => h.1 e.symm), ih h.2]

theorem splitComma_commas : ∀ {es : List Str}, es ≠ [] → (∀ e ∈ es, (44 : UInt8) ∉ e) → splitComma (commas es) = es
  | [], h, _ => absurd rfl h
  | [e], _, h => splitComma_single (h e (by simp))
  | e :: e' :: es, _, h => by
    rw [commas, splitComma_append _ _ (h e (by simp)), splitComma_commas (by simp) fun x hx => h x (by simp [hx])]
    simp

theorem commas_splitComma (s : Str) : commas (splitComma s) = s := by
  induction s with
  | nil => rfl
  | cons b s ih =>
    rw [splitComma]
    have hne := splitComma_ne_nil s
    split
    · subst_vars
      cases hs : splitComma s with
      | nil => exact absurd hs hne
      | cons p ps => rw [hs] at ih; simp [commas, ih]
    · cases hs : splitComma s with
      | nil => exact absurd hs hne
      | cons p ps =>
        rw [hs] at ih
        cases ps with
        | nil => simp only [commas] at ih ⊢; rw [ih]
        | cons q qs => simp only [commas, List.cons_append] at ih ⊢; rw [ih]

theorem splitComma_mem (s : Str) : ∀ e ∈ splitComma s, (44 : UInt8) ∉ e := by
  induction s with
  | nil => simp [splitComma]
  | cons b s ih =>
    rw [splitComma]
    split
    · simpa using ih
    · rename_i hb
      cases hs : splitComma s with
      | nil => simpa using fun e => hb e.symm
      | cons p ps =>
        rw [hs] at ih
        intro e he
        rcases List.mem_cons.1 he with rfl | he
        · rw [List.mem_cons, not_or]
          exact ⟨fun e => hb e.symm, ih p (by simp)⟩
        · exact ih e (by simp [he])

/-- An element is one rune, or empty, exactly if decoding one rune uses all its bytes. -/
theorem one_rune (e : Str) : (¬ e.length > (decodeRune e).2 ↔ (runesOf e).length ≤ 1) ∧ (decodeRune e).1 = sepOf e := by
  cases e with
  | nil => simp [decodeRune, runesOf, runesAux, sepOf, runeError]
  | cons b s =>
    have h1 := decodeRune_size (b :: s)
    have h2 := h1.2 (by simp)
    refine ⟨?_, by rw [sepOf, runesOf_cons]; rfl⟩
    rw [runesOf_cons]
    cases hd : (b :: s).drop (decodeRune (b :: s)).2 with
    | nil =>
      rw [List.drop_eq_nil_iff] at hd
      have : runesAux s.length [] = [] := by cases s.length <;> rfl
      rw [this]
      simp only [List.length_cons, List.length_nil] at hd ⊢
      omega
    | cons c cs =>
      have hl := congrArg List.length hd
      simp only [List.length_drop, List.length_cons] at hl
      have hn : s.length ≠ 0 := by omega
      obtain ⟨n, hn⟩ := Nat.exists_eq_succ_of_ne_zero hn
      rw [hn, runesAux]
      simp only [List.length_cons] at hl ⊢
      omega

theorem separators_eq : ∀ es : List Str, separators es = if ∀ e ∈ es, (runesOf e).length ≤ 1 then some (es.map sepOf) else none
  | [] => by simp [separators]
  | e :: es => by
    rw [separators, separators_eq es]
    obtain ⟨h1, h2⟩ := one_rune e
    by_cases h : (runesOf e).length ≤ 1
    · rw [if_neg (h1.2 h), h2]
      by_cases h' : ∀ e ∈ es, (runesOf e).length ≤ 1
      · rw [if_pos h', if_pos ((List.forall_mem_cons (p := fun e : Str => (runesOf e).length ≤ 1)).2 ⟨h, h'⟩)]; rfl
      · rw [if_neg h', if_neg (fun k => h' fun e he => k e (List.mem_cons_of_mem _ he))]; rfl
    · rw [if_pos (by by_contra k; exact h (h1.1 k)), if_neg (fun k => h (k e List.mem_cons_self))]

/-- **C117** Every list of separators is elements with commas between them. `globtest` rejects it exactly if an element has more than one character, and otherwise prints whether the
pattern matches with the separators the elements stand for, an empty element standing for U+FFFD. -/
theorem C117_globtest (pattern sep fixture : Str) (hp : pattern ≠ []) :
    ∃ es : List Str, es ≠ [] ∧ (∀ e ∈ es, (44 : UInt8) ∉ e) ∧ sep = commas es ∧
      globtest pattern sep fixture = if ∀ e ∈ es, (runesOf e).length ≤ 1 then answer pattern (es.map sepOf) fixture else .badSeparators := by
  refine ⟨splitComma sep, splitComma_ne_nil sep, splitComma_mem sep, (commas_splitComma sep).symm, ?_⟩
  unfold globtest
  rw [if_neg hp, separators_eq]
  by_cases h : ∀ e ∈ splitComma sep, (runesOf e).length ≤ 1
  · rw [if_pos h, if_pos h]
    simp only
    unfold answer globMatch
    rcases C55_compile_total pattern ((splitComma sep).map sepOf) with ⟨e, -, hc⟩ | ⟨t, m, -, hc⟩
    · rw [hc]
    · rw [hc]; simp only; cases m.match fixture <;> rfl
  · rw [if_neg h, if_neg h]

/-- The same for a list given by its elements. -/
theorem globtest_commas (pattern fixture : Str) (es : List Str) (hp : pattern ≠ []) (hne : es ≠ []) (hes : ∀ e ∈ es, (44 : UInt8) ∉ e) :
    globtest pattern (commas es) fixture = if ∀ e ∈ es, (runesOf e).length ≤ 1 then answer pattern (es.map sepOf) fixture else .badSeparators := by
  obtain ⟨es', h1, h2, h3, h4⟩ := C117_globtest pattern (commas es) fixture hp
  have : es = es' := by rw [← splitComma_commas hne hes, h3, splitComma_commas h1 h2]
  subst this
  exact h4

theorem comma_encode {r : Nat} (hg : goodRune r = true) (hr : r ≠ 44) : (44 : UInt8) ∉ encodeRune r := by
  intro h
  unfold encodeRune at h
  have hof : ∀ n : Nat, n < 256 → (44 : UInt8) = UInt8.ofNat n → n = 44 := by
    intro n hn e
    have := congrArg UInt8.toNat e
    rw [UInt8.toNat_ofNat'] at this
    have h44 : (44 : UInt8).toNat = 44 := rfl
    omega
  unfold goodRune at hg
  simp only [Bool.and_eq_true, Bool.or_eq_true, decide_eq_true_eq] at hg
  split at h
  · simp only [List.mem_cons, List.not_mem_nil, or_false] at h
    exact hr (hof _ (by omega) h)
  split at h
  · simp only [List.mem_cons, List.not_mem_nil, or_false] at h
    rcases h with h | h <;> have := hof _ (by omega) h <;> omega
  split at h
  · revert h; decide
  split at h
  · simp only [List.mem_cons, List.not_mem_nil, or_false] at h
    rcases h with h | h | h <;> have := hof _ (by omega) h <;> omega
  · simp only [List.mem_cons, List.not_mem_nil, or_false] at h
    rcases h with h | h | h | h <;> have := hof _ (by omega) h <;> omega

theorem sepOf_encode {r : Nat} (hg : goodRune r = true) : (runesOf (encodeRune r)).length ≤ 1 ∧ sepOf (encodeRune r) = r := by
  have h := (eq_encode_iff hg (encodeRune r)).1 rfl
  refine ⟨?_, by unfold sepOf; rw [h]; rfl⟩
  have := congrArg List.length h
  rw [List.length_map] at this
  simp only [List.length_cons, List.length_nil] at this
  omega

/-- **C117**, the part that holds: if characters are listed, `globtest` prints whether the pattern, compiled with these separators, matches. (Missing: the empty list.) -/
theorem C117_listed_partial (pattern fixture : Str) (rs : List Nat) (hp : pattern ≠ []) (hne : rs ≠ []) (hrs : ∀ r ∈ rs, goodRune r = true ∧ r ≠ 44) :
    globtest pattern (commas (rs.map encodeRune)) fixture = answer pattern rs fixture := by
  rw [globtest_commas pattern fixture _ hp (by simpa using hne) (by
    intro e he
    obtain ⟨r, hr, rfl⟩ := List.mem_map.1 he
    exact comma_encode (hrs r hr).1 (hrs r hr).2)]
  rw [if_pos (by
    intro e he
    obtain ⟨r, hr, rfl⟩ := List.mem_map.1 he
    exact (sepOf_encode (hrs r hr).1).1)]
  congr 1
  rw [List.map_map]
  conv_rhs => rw [← List.map_id rs]
  apply List.map_congr_left
  intro r hr
  exact (sepOf_encode (hrs r hr).1).2

/-- A case: the separators `.` and `é`. -/
example : commas ([46, 0xE9].map encodeRune) = lit "." ++ [44] ++ [0xC3, 0xA9] ∧ goodRune 46 = true ∧ goodRune 0xE9 = true ∧
    globtest (lit "*.com") (lit "." ++ [44] ++ [0xC3, 0xA9]) (lit "api.com") = .result true ∧
    globtest (lit "*.com") (lit "." ++ [44] ++ [0xC3, 0xA9]) (lit "a.b.com") = .result false := by decide +kernel

/-- **C117**: without separators `globtest` uses the separator U+FFFD instead. -/
theorem C117_none (pattern fixture : Str) (hp : pattern ≠ []) : globtest pattern [] fixture = answer pattern [0xFFFD] fixture := by
  have := globtest_commas pattern fixture [[]] hp (by simp) (by simp)
  rw [if_pos (by simp [runesOf, runesAux])] at this
  exact this

/-- **C117** is false without separators: a glob that matches is printed as not matching, for a text with a byte that is not UTF-8 and for a plain text. -/
theorem C117_false : globtest (lit "*") [] [255] = .result false ∧ globMatch (lit "*") [] [255] = some (some true) ∧
    globtest (lit "ab*ba") [] (lit "aba") = .result false ∧ globMatch (lit "ab*ba") [] (lit "aba") = some (some true) := by decide +kernel

/-- **C117** `globdraw` draws the glob with the separators that are listed, also if none are. -/
theorem C117_globdraw (pattern : Str) (es : List Str) (hp : pattern ≠ []) (hes : ∀ e ∈ es, (44 : UInt8) ∉ e) (hne : es ≠ [[]]) :
    globdraw pattern (commas es) = if ∀ e ∈ es, (runesOf e).length ≤ 1 then
        match globCompile pattern (es.map sepOf) with
        | .ok m => .result m
        | _ => .badPattern
      else .badSeparators := by
  have key : (if (commas es).length > 0 then separators (splitComma (commas es)) else some []) = separators es := by
    by_cases h0 : es = []
    · subst h0; rfl
    · rw [splitComma_commas h0 hes, if_pos]
      cases es with
      | nil => exact absurd rfl h0
      | cons e es =>
        cases es with
        | nil => simp only [commas]; exact List.length_pos_iff.2 fun h => hne (by rw [h])
        | cons e' es => simp [commas]; omega
  unfold globdraw
  rw [if_neg hp, key, separators_eq]
  by_cases h : ∀ e ∈ es, (runesOf e).length ≤ 1
  · rw [if_pos h, if_pos h]
    simp only
    rcases C55_compile_total pattern (es.map sepOf) with ⟨e, -, hc⟩ | ⟨t, m, -, hc⟩ <;> rw [hc]
  · rw [if_neg h, if_neg h]

end Verif.Glob.Tool
