import Verif.Glob.ReaderProps
import Verif.Glob.Quote
import Verif.Glob.RuneStr
/-
C139, continued: which patterns are accepted, and what the characters U+FFFD and U+0000 do in a pattern.
-/
namespace Verif.Glob

/-- C139: `Compile` accepts a pattern exactly if the reader can read it, with whatever separators. -/
theorem C139_accepts (p : Str) (seps : List Nat) : (∃ m, globCompile p seps = .ok m) ↔ ∃ ps, readPattern p = some ps := by
  rcases C55_compile_total p seps with ⟨e, h, hc⟩ | ⟨t, m, h, hc⟩
  · rw [hc]
    constructor
    · rintro ⟨m, hm⟩; cases hm
    · rintro ⟨ps, hps⟩
      have := (C139_reads p _).2 ⟨ps, hps, rfl⟩
      rw [h] at this; cases this
  · rw [hc]
    obtain ⟨ps, hps, -⟩ := (C139_reads p t).1 h
    exact ⟨fun _ => ⟨ps, hps⟩, fun _ => ⟨m, rfl⟩⟩

/-- What is left after a run is an end of what there was. -/
theorem readText_suffix {stop : List Nat} : ∀ {esc : Bool} {rs : List Nat} {r : List Nat × List Nat}, readText stop esc rs = some r → r.2 <:+ rs
  | esc, [], r, h => by
    simp only [readText, Option.some.injEq] at h; subst h; exact List.suffix_refl _
  | esc, c :: rs, r, h => by
    unfold readText at h
    split at h
    · simp only [Option.some.injEq] at h; subst h; exact List.suffix_cons _ _
    · split at h
      · cases h
      · split at h
        · exact (readText_suffix h).trans (List.suffix_cons _ _)
        · split at h
          · simp only [Option.some.injEq] at h; subst h; exact List.suffix_refl _
          · cases hx : readText stop false rs with
            | none => rw [hx] at h; cases h
            | some x =>
              rw [hx] at h
              simp only [Option.map_some, Option.some.injEq] at h
              subst h
              exact (readText_suffix hx).trans (List.suffix_cons _ _)

/-- A run without U+0000 that can be read has passed over no U+FFFD. -/
theorem readText_replacement {stop : List Nat} : ∀ {esc : Bool} {rs : List Nat} {r : List Nat × List Nat}, (0 : Nat) ∉ rs → 0xFFFD ∈ rs →
    readText stop esc rs = some r → 0xFFFD ∈ r.2
  | esc, [], r, h0, h1, h => by simp at h1
  | esc, c :: rs, r, h0, h1, h => by
    unfold readText at h
    have hc : c ≠ 0 := fun hc => h0 (by simp [hc])
    have h0' : (0 : Nat) ∉ rs := fun hc => h0 (by simp [hc])
    rw [if_neg hc] at h
    split at h
    · cases h
    · rename_i hf
      have h1' : 0xFFFD ∈ rs := (List.mem_cons.1 h1).resolve_left (fun hh => hf hh.symm)
      split at h
      · exact readText_replacement h0' h1' h
      · split at h
        · simp only [Option.some.injEq] at h; subst h; exact h1
        · cases hx : readText stop false rs with
          | none => rw [hx] at h; cases h
          | some x =>
            rw [hx] at h
            simp only [Option.map_some, Option.some.injEq] at h
            subst h
            exact readText_replacement (r := x) h0' h1' hx

theorem readSet_suffix {neg : Bool} {rs : List Nat} {r : Node × List Nat} (h : readSet neg rs = some r) : r.2 <:+ rs := by
  unfold readSet at h
  split at h
  · split at h
    · split at h
      · simp only [Option.some.injEq] at h
        subst h
        exact ⟨[_, _, _, _], rfl⟩
      · cases h
    · cases h
  · split at h
    · rename_i hx
      simp only [Option.some.injEq] at h
      subst h
      exact (List.suffix_cons _ _).trans (readText_suffix hx)
    · cases h

theorem readSet_replacement {neg : Bool} {rs : List Nat} {r : Node × List Nat} (h0 : (0 : Nat) ∉ rs) (h1 : 0xFFFD ∈ rs) (h : readSet neg rs = some r) :
    0xFFFD ∈ r.2 := by
  unfold readSet at h
  split at h
  · split at h
    · split at h
      · rename_i hh
        simp only [Option.some.injEq] at h
        subst h
        simp only [List.mem_cons] at h1
        rcases h1 with h1 | h1 | h1 | h1 | h1
        · exact absurd h1.symm hh.2.2.1
        · cases h1
        · exact absurd h1.symm hh.2.2.2
        · cases h1
        · exact h1
      · cases h
    · cases h
  · split at h
    · rename_i hx
      simp only [Option.some.injEq] at h
      subst h
      have := readText_replacement h0 h1 hx
      simpa using this
    · cases h

theorem readClass_suffix {rs : List Nat} {r : Node × List Nat} (h : readClass rs = some r) : r.2 <:+ rs := by
  unfold readClass at h
  split at h
  · exact (readSet_suffix h).trans (List.tail_suffix _)
  · exact readSet_suffix h

theorem readClass_replacement {rs : List Nat} {r : Node × List Nat} (h0 : (0 : Nat) ∉ rs) (h1 : 0xFFFD ∈ rs) (h : readClass rs = some r) : 0xFFFD ∈ r.2 := by
  unfold readClass at h
  split at h
  · rename_i hh
    cases rs with
    | nil => simp at h1
    | cons c rs =>
      simp only [List.head?_cons, Option.some.injEq] at hh
      subst hh
      simp only [List.tail_cons] at h
      exact readSet_replacement (fun hc => h0 (by simp [hc])) (by simpa using h1) h
  · exact readSet_replacement h0 h1 h

theorem readParts_replacement : ∀ (n depth : Nat) (rs : List Nat), (0 : Nat) ∉ rs → 0xFFFD ∈ rs → readParts n depth rs = none
  | 0, _, _, _, _ => by unfold readParts; rfl
  | n + 1, depth, [], _, h1 => by simp at h1
  | n + 1, depth, c :: rs, h0, h1 => by
    unfold readParts
    have hc : c ≠ 0 := fun hc => h0 (by simp [hc])
    have h0' : (0 : Nat) ∉ rs := fun hc => h0 (by simp [hc])
    rw [if_neg hc]
    by_cases hf : c = 0xFFFD
    · rw [if_pos hf]
    · rw [if_neg hf]
      have h1' : 0xFFFD ∈ rs := (List.mem_cons.1 h1).resolve_left (fun hh => hf hh.symm)
      have ih := fun d => readParts_replacement n d rs h0' h1'
      split
      · rw [ih]; rfl
      · split
        · rw [ih]; rfl
        · split
          · rw [ih]; rfl
          · split
            · cases hx : readClass rs with
              | none => rfl
              | some r =>
                simp only [Option.bind_some]
                rw [readParts_replacement n depth r.2 (fun hh => h0' ((readClass_suffix hx).subset hh)) (readClass_replacement h0' h1' hx)]
                rfl
            · split
              · rw [ih]; rfl
              · split
                · split
                  · rename_i hh
                    cases rs with
                    | nil => simp at h1'
                    | cons e rs =>
                      simp only [List.head?_cons, Option.some.injEq] at hh
                      subst hh
                      rw [List.tail_cons, readParts_replacement n depth rs (fun hc => h0' (by simp [hc])) (by simpa using h1')]
                      rfl
                  · rw [ih]; rfl
                · generalize (if 0 < depth then [63, 42, 91, 123, 125, 44] else [63, 42, 91, 123]) = stop
                  cases hx : readText stop false (c :: rs) with
                  | none => rfl
                  | some r =>
                    simp only [Option.bind_some]
                    rw [readParts_replacement n depth r.2 (fun hh => h0 ((readText_suffix hx).subset hh)) (readText_replacement h0 h1 hx)]
                    rfl

/-- C139: a pattern with a byte that is not valid UTF-8, or with the character U+FFFD itself, is rejected (if there is no U+0000 before which it could end),
escaped or not, in a class or not. -/
theorem C139_replacement (p : Str) (seps : List Nat) (h0 : (0 : Nat) ∉ runesIn p) (h1 : 0xFFFD ∈ runesIn p) : ∃ e, globCompile p seps = .err e := by
  rcases C55_compile_total p seps with ⟨e, h, hc⟩ | ⟨t, m, h, hc⟩
  · exact ⟨e, hc⟩
  · obtain ⟨ps, hps⟩ := (C139_accepts p seps).1 ⟨m, hc⟩
    unfold readPattern at hps
    rw [readParts_replacement _ _ _ h0 h1] at hps
    cases hps

theorem readText_some {stop : List Nat} : ∀ (esc : Bool) (rs : List Nat), 0xFFFD ∉ rs → ∃ r, readText stop esc rs = some r
  | esc, [], _ => ⟨_, by unfold readText; rfl⟩
  | esc, c :: rs, h => by
    unfold readText
    split
    · exact ⟨_, rfl⟩
    · have hf : c ≠ 0xFFFD := fun hc => h (by simp [hc])
      have h' : 0xFFFD ∉ rs := fun hc => h (by simp [hc])
      rw [if_neg hf]
      split
      · exact readText_some true rs h'
      · split
        · exact ⟨_, rfl⟩
        · obtain ⟨r, hr⟩ := readText_some (stop := stop) false rs h'
          exact ⟨_, by rw [hr]; rfl⟩

theorem readParts_some : ∀ (n depth : Nat) (rs : List Nat), rs.length < n → 0xFFFD ∉ rs → 91 ∉ rs → ∃ ps, readParts n depth rs = some ps
  | 0, _, _, h, _, _ => by omega
  | n + 1, depth, [], _, _, _ => ⟨_, by unfold readParts; rfl⟩
  | n + 1, depth, c :: rs, hl, h1, h2 => by
    unfold readParts
    simp only [List.length_cons] at hl
    have hf : c ≠ 0xFFFD := fun hc => h1 (by simp [hc])
    have h1' : 0xFFFD ∉ rs := fun hc => h1 (by simp [hc])
    have hb : c ≠ 91 := fun hc => h2 (by simp [hc])
    have h2' : 91 ∉ rs := fun hc => h2 (by simp [hc])
    rw [if_neg hf, if_neg hb]
    have ih := fun d => readParts_some n d rs (by omega) h1' h2'
    split
    · exact ⟨_, rfl⟩
    · split
      · obtain ⟨ps, h⟩ := ih (depth + 1); exact ⟨_, by rw [h]; rfl⟩
      · split
        · obtain ⟨ps, h⟩ := ih depth; exact ⟨_, by rw [h]; rfl⟩
        · split
          · obtain ⟨ps, h⟩ := ih (depth - 1); exact ⟨_, by rw [h]; rfl⟩
          · split
            · obtain ⟨ps, h⟩ := ih depth; exact ⟨_, by rw [h]; rfl⟩
            · split
              · split
                · obtain ⟨ps, h⟩ := readParts_some n depth rs.tail (by simp; omega) (fun hh => h1' (List.mem_of_mem_tail hh)) (fun hh => h2' (List.mem_of_mem_tail hh))
                  exact ⟨_, by rw [h]; rfl⟩
                · obtain ⟨ps, h⟩ := ih depth; exact ⟨_, by rw [h]; rfl⟩
              · rename_i h0 hop hco hcl hq hst
                have hstop : c ∉ (if 0 < depth then [63, 42, 91, 123, 125, 44] else [63, 42, 91, 123]) := by
                  split
                  · rename_i hd
                    simp only [hd, and_true] at hco hcl
                    simp [*]
                  · simp [*]
                obtain ⟨r, hr⟩ := readText_some (stop := if 0 < depth then [63, 42, 91, 123, 125, 44] else [63, 42, 91, 123]) false (c :: rs) h1
                have hs := readText_suffix hr
                have hp := readText_progress hstop (cs := r.1) (rest := r.2) hr
                obtain ⟨ps, h⟩ := readParts_some n depth r.2 (by omega) (fun hh => h1 (hs.subset hh)) (fun hh => h2 (hs.subset hh))
                rw [hr]
                simp only [Option.bind_some]
                rw [h]
                exact ⟨_, rfl⟩

/-- C139: only a class can be ill-formed: a pattern of valid characters without `[` is accepted, whatever else is in it - braces left open, `}` and `,` outside
braces, a backslash at the end. -/
theorem C139_no_class (p : Str) (seps : List Nat) (h1 : 0xFFFD ∉ runesIn p) (h2 : 91 ∉ runesIn p) : ∃ m, globCompile p seps = .ok m :=
  (C139_accepts p seps).2 (readParts_some _ _ _ (Nat.lt_succ_self _) h1 h2)

theorem readParts_nul : ∀ (n m depth : Nat) (w rs : List Nat), (∀ c ∈ w, c = 42 ∨ c = 63 ∨ c = 123) → w.length < n → w.length < m →
    readParts n depth (w ++ 0 :: rs) = readParts m depth w
  | 0, _, _, _, _, _, h, _ => by omega
  | _, 0, _, _, _, _, _, h => by omega
  | n + 1, m + 1, depth, [], rs, _, _, _ => by simp [readParts]
  | n + 1, m + 1, depth, c :: w, rs, h, h1, h2 => by
    simp only [List.length_cons] at h1 h2
    have ih := fun d => readParts_nul n m d w rs (fun c hc => h c (by simp [hc])) (by omega) (by omega)
    rcases h c (by simp) with rfl | rfl | rfl
    · cases w with
      | nil => have := ih depth; simp only [List.nil_append] at this; simp [readParts, this]
      | cons e w =>
        have ih2 := readParts_nul n m depth w rs (fun c hc => h c (by simp [hc])) (by simp only [List.length_cons] at h1; omega) (by simp only [List.length_cons] at h2; omega)
        by_cases he : e = 42
        · subst he; simp [readParts, ih2]
        · have := ih depth
          simp only [List.cons_append] at this
          simp [readParts, he, this]
    · simp [readParts, ih]
    · simp [readParts, ih]

/-- C139: after wildcards, U+0000 ends the pattern: whatever follows is not looked at. -/
theorem C139_nul_ends (w q : Str) (hw : ∀ c ∈ w, c = 42 ∨ c = 63 ∨ c = 123) : parse (w ++ 0 :: q) = parse w := by
  have ha : Ascii w := by
    intro c hc
    rcases hw c hc with rfl | rfl | rfl <;> decide
  have hr : runesIn w = w.map UInt8.toNat := runesIn_ascii ha
  have hr2 : runesIn (w ++ 0 :: q) = w.map UInt8.toNat ++ 0 :: runesIn q := by
    rw [runesIn_append _ _ _ (Nat.le_refl _) (by intro b hb; simp at hb; subst hb; simp [StartByte]), hr]
    have := runesOf_valid (r := 0) (by decide) q
    simp only [runesIn]
    rw [show (0 :: q : Str) = encodeRune 0 ++ q from rfl, this, List.map_cons]
  have hm : ∀ c ∈ w.map UInt8.toNat, c = 42 ∨ c = 63 ∨ c = 123 := by
    intro c hc
    obtain ⟨b, hb, rfl⟩ := List.mem_map.1 hc
    rcases hw b hb with rfl | rfl | rfl <;> decide
  have hread : readPattern (w ++ 0 :: q) = readPattern w := by
    unfold readPattern
    rw [hr, hr2]
    exact readParts_nul _ _ _ _ _ hm (by simp; omega) (by simp)
  obtain ⟨ps, hps⟩ := readParts_some ((runesIn w).length + 1) 0 (runesIn w) (Nat.lt_succ_self _)
    (by rw [hr]; intro h; rcases hm _ h with h | h | h <;> cases h) (by rw [hr]; intro h; rcases hm _ h with h | h | h <;> cases h)
  change readPattern w = some ps at hps
  rw [(C139_reads w _).2 ⟨ps, hps, rfl⟩, (C139_reads (w ++ 0 :: q) _).2 ⟨ps, hread.trans hps, rfl⟩]

/-- C139: concrete patterns. A plain one; braces left open, `,` and `}` outside; a backslash at the end; `[\-a]` is the range from the backslash to `a`. -/
theorem C139_case :
    readPattern (lit "a*[b-d]{x,y?}") = some [.text [97], .any, .class (.range false 98 100), .opens, .text [120], .comma, .text [121], .single, .closes] ∧
    readPattern (lit "a,b}{c") = some [.text [97, 44, 98, 125], .opens, .text [99]] ∧
    readPattern (lit "a\\") = some [.text [97]] ∧
    readPattern (lit "[!\\-a]**") = some [.class (.range true 92 97), .super] ∧
    readPattern (lit "[a\\]b]\\*") = some [.class (.list false [97, 93, 98]), .text [42]] := by
  refine ⟨?_, ?_, ?_, ?_, ?_⟩ <;> rfl

/-- C139: and rejected ones: an empty class, a class that does not end, a range that goes down, a range with something after it, `!` alone, an invalid byte. -/
theorem C139_rejected : ∀ p ∈ [lit "[]", lit "[!]", lit "[ab", lit "[b-a]", lit "[a-bc]", lit "[a-", [97, 0xFF], [92, 0xEF, 0xBF, 0xBD]], readPattern p = none := by
  intro p hp
  simp only [List.mem_cons, List.not_mem_nil, or_false] at hp
  rcases hp with rfl | rfl | rfl | rfl | rfl | rfl | rfl | rfl <;> rfl

/-- C139: U+0000 ends a run of characters and is dropped; in a class it is dropped before the closing bracket; between two parts it ends the pattern. -/
theorem C139_nul_case :
    readPattern [97, 0, 98] = some [.text [97], .text [98]] ∧
    readPattern [97, 0, 42] = some [.text [97], .any] ∧
    readPattern [91, 97, 0, 93, 98] = some [.class (.list false [97]), .text [98]] ∧
    readPattern [42, 0, 91] = some [.any] := by
  refine ⟨?_, ?_, ?_, ?_⟩ <;> rfl

end Verif.Glob
