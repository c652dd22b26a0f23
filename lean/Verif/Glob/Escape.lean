import Verif.Glob.ReaderMore
/-
C158: a backslash before an ordinary character changes nothing.
-/
namespace Verif.Glob

/-- The characters that mean something in a pattern outside classes. -/
def escapeRunes : List Nat := [42, 63, 91, 123, 125, 44, 92]

theorem readParts_fuel : ∀ (n m depth : Nat) (rs : List Nat), rs.length < n → rs.length < m → readParts n depth rs = readParts m depth rs
  | 0, _, _, _, h, _ => by omega
  | _, 0, _, _, _, h => by omega
  | n + 1, m + 1, depth, [], _, _ => by simp [readParts]
  | n + 1, m + 1, depth, c :: rs, h1, h2 => by
    simp only [List.length_cons] at h1 h2
    have ih := fun d (l : List Nat) (hl : l.length ≤ rs.length) => readParts_fuel n m d l (by omega) (by omega)
    unfold readParts
    rw [ih (depth + 1) rs (Nat.le_refl _), ih depth rs (Nat.le_refl _), ih (depth - 1) rs (Nat.le_refl _), ih depth rs.tail (by simp)]
    have hcl : ((readClass rs).bind fun r => (readParts n depth r.2).map (Piece.class r.1 :: ·)) = (readClass rs).bind fun r => (readParts m depth r.2).map (Piece.class r.1 :: ·) := by
      cases hx : readClass rs with
      | none => rfl
      | some r =>
        simp only [Option.bind_some]
        rw [ih depth r.2 (readClass_rest (nd := r.1) hx)]
    rw [hcl]
    by_cases hst : c ∈ (if 0 < depth then [63, 42, 91, 123, 125, 44] else [63, 42, 91, 123] : List Nat)
    · have : c = 123 ∨ (c = 44 ∧ 0 < depth) ∨ (c = 125 ∧ 0 < depth) ∨ c = 91 ∨ c = 63 ∨ c = 42 := by
        split at hst
        · rename_i hd; simp at hst; tauto
        · simp at hst; tauto
      rcases this with h | h | h | h | h | h
      · simp [h]
      · simp [h]
      · simp [h]
      · simp [h]
      · simp [h]
      · simp [h]
    · have htx : ((readText (if 0 < depth then [63, 42, 91, 123, 125, 44] else [63, 42, 91, 123]) false (c :: rs)).bind fun r =>
          (readParts n depth r.2).map fun ps => if r.1 = [] then ps else Piece.text r.1 :: ps) =
          (readText (if 0 < depth then [63, 42, 91, 123, 125, 44] else [63, 42, 91, 123]) false (c :: rs)).bind fun r =>
          (readParts m depth r.2).map fun ps => if r.1 = [] then ps else Piece.text r.1 :: ps := by
        cases hx : readText (if 0 < depth then [63, 42, 91, 123, 125, 44] else [63, 42, 91, 123]) false (c :: rs) with
        | none => rfl
        | some r =>
          simp only [Option.bind_some]
          rw [ih depth r.2 (readText_progress hst (cs := r.1) hx)]
      rw [htx]

/-- A run that comes to an ordinary character comes behind it, whether there is a backslash before it or not. -/
theorem readText_escape {stop : List Nat} {c : Nat} (h0 : c ≠ 0) (hF : c ≠ 0xFFFD) (h92 : c ≠ 92) (hs : c ∉ stop) (Q : List Nat) : ∀ P : List Nat, 92 ∉ P →
    (readText stop false (P ++ 92 :: c :: Q) = readText stop false (P ++ c :: Q)) ∨
    ∃ t P', P' <:+ P ∧ readText stop false (P ++ 92 :: c :: Q) = some (t, P' ++ 92 :: c :: Q) ∧ readText stop false (P ++ c :: Q) = some (t, P' ++ c :: Q)
  | [], _ => by
    left
    simp [readText, h0, hF, h92, hs]
  | x :: P, hP => by
    have hx : x ≠ 92 := fun h => hP (by simp [h])
    simp only [List.cons_append]
    rw [readText.eq_def stop false (x :: (P ++ 92 :: c :: Q)), readText.eq_def stop false (x :: (P ++ c :: Q))]
    simp only [hx, decide_false, Bool.and_false, Bool.false_eq_true, if_false, Bool.not_false, Bool.true_and, decide_eq_true_eq]
    by_cases e0 : x = 0
    · right; simp only [e0, if_true]; exact ⟨[], P, List.suffix_cons _ _, rfl, rfl⟩
    · simp only [e0, if_false]
      by_cases eF : x = 0xFFFD
      · left; simp only [eF, if_true]
      · simp only [eF, if_false]
        by_cases es : x ∈ stop
        · right; simp only [es, if_true]; exact ⟨[], x :: P, List.suffix_refl _, rfl, rfl⟩
        · simp only [es, if_false]
          rcases readText_escape h0 hF h92 hs Q P (fun h => hP (by simp [h])) with h | ⟨t, P', h1, h2, h3⟩
          · left; rw [h]
          · right; rw [h2, h3]; exact ⟨x :: t, P', h1.trans (List.suffix_cons _ _), rfl, rfl⟩

theorem readParts_escape {c : Nat} (h0 : c ≠ 0) (hF : c ≠ 0xFFFD) (hs : c ∉ escapeRunes) (Q : List Nat) : ∀ (n m depth : Nat) (P : List Nat), 91 ∉ P → 92 ∉ P →
    P.length + Q.length + 2 < n → P.length + Q.length + 1 < m → readParts n depth (P ++ 92 :: c :: Q) = readParts m depth (P ++ c :: Q)
  | 0, _, _, _, _, _, h, _ => by omega
  | _, 0, _, _, _, _, _, h => by omega
  | n + 1, m + 1, depth, P, h91, h92, hn, hm => by
    simp only [escapeRunes, List.mem_cons, List.not_mem_nil, or_false, not_or] at hs
    obtain ⟨s1, s2, s3, s4, s5, s6, s7⟩ := hs
    have hst : c ∉ (if 0 < depth then [63, 42, 91, 123, 125, 44] else [63, 42, 91, 123] : List Nat) := by split <;> simp [*]
    have htext : ∀ (x y : Nat) (xs ys : List Nat), x :: xs = P ++ 92 :: c :: Q → y :: ys = P ++ c :: Q →
        x ∉ (if 0 < depth then [63, 42, 91, 123, 125, 44] else [63, 42, 91, 123] : List Nat) → y ∉ (if 0 < depth then [63, 42, 91, 123, 125, 44] else [63, 42, 91, 123] : List Nat) →
        ((readText (if 0 < depth then [63, 42, 91, 123, 125, 44] else [63, 42, 91, 123]) false (x :: xs)).bind fun r =>
          (readParts n depth r.2).map fun ps => if r.1 = [] then ps else Piece.text r.1 :: ps) =
        (readText (if 0 < depth then [63, 42, 91, 123, 125, 44] else [63, 42, 91, 123]) false (y :: ys)).bind fun r =>
          (readParts m depth r.2).map fun ps => if r.1 = [] then ps else Piece.text r.1 :: ps := by
      intro x y xs ys ex ey hx hy
      have lx := congrArg List.length ex
      have ly := congrArg List.length ey
      simp only [List.length_cons, List.length_append] at lx ly
      have px := fun (r : List Nat × List Nat) h => readText_progress (rs := xs) hx (cs := r.1) (rest := r.2) h
      have py := fun (r : List Nat × List Nat) h => readText_progress (rs := ys) hy (cs := r.1) (rest := r.2) h
      rw [ex] at px ⊢; rw [ey] at py ⊢
      rcases readText_escape h0 hF s7 hst Q P h92 with h | ⟨t, P', h1, h2, h3⟩
      · rw [h] at px ⊢
        cases hr : readText (if 0 < depth then [63, 42, 91, 123, 125, 44] else [63, 42, 91, 123]) false (P ++ c :: Q) with
        | none => rfl
        | some r =>
          simp only [Option.bind_some]
          have := px r hr; have := py r hr
          rw [readParts_fuel n m depth r.2 (by omega) (by omega)]
      · rw [h2, h3]
        simp only [Option.bind_some]
        have := px (t, P' ++ 92 :: c :: Q) h2
        simp only [List.length_append, List.length_cons] at this
        rw [readParts_escape h0 hF (by simp [escapeRunes, *]) Q n m depth P' (fun h => h91 (h1.subset h)) (fun h => h92 (h1.subset h)) (by omega) (by omega)]
    cases P with
    | nil =>
      simp only [List.nil_append]
      have ht := htext 92 c (c :: Q) Q rfl rfl (by split <;> decide) hst
      unfold readParts
      simp only [h0, hF, s1, s2, s3, s4, s5, s6, if_false, false_and]
      simpa using ht
    | cons x P =>
      have hx91 : x ≠ 91 := fun h => h91 (by simp [h])
      have hx92 : x ≠ 92 := fun h => h92 (by simp [h])
      have p91 : 91 ∉ P := fun h => h91 (by simp [h])
      have p92 : 92 ∉ P := fun h => h92 (by simp [h])
      simp only [List.length_cons] at hn hm
      have ih := fun d => readParts_escape h0 hF (by simp [escapeRunes, *]) Q n m d P p91 p92 (by omega) (by omega)
      have ht := htext x x _ _ rfl rfl
      simp only [List.cons_append] at ht ⊢
      unfold readParts
      rw [ih (depth + 1), ih depth, ih (depth - 1)]
      simp only [hx91, if_false]
      by_cases e0 : x = 0
      · simp [e0]
      by_cases eF : x = 0xFFFD
      · simp [eF]
      by_cases e1 : x = 123
      · simp [e1]
      by_cases e2 : x = 44 ∧ 0 < depth
      · simp [e2]
      by_cases e3 : x = 125 ∧ 0 < depth
      · simp [e3]
      by_cases e4 : x = 63
      · simp [e4]
      by_cases e5 : x = 42
      · subst e5
        simp only [show ¬ (42 : Nat) = 0 by decide, show ¬ (42 : Nat) = 0xFFFD by decide, show ¬ (42 : Nat) = 123 by decide, show ¬ (42 : Nat) = 44 by decide,
          show ¬ (42 : Nat) = 125 by decide, show ¬ (42 : Nat) = 63 by decide, false_and, if_false, if_true]
        cases P with
        | nil => simp [s1]
        | cons y P =>
          simp only [List.cons_append, List.head?_cons, List.tail_cons, Option.some.injEq]
          simp only [List.length_cons] at hn hm
          rw [readParts_escape h0 hF (by simp [escapeRunes, *]) Q n m depth P (fun h => p91 (by simp [h])) (fun h => p92 (by simp [h])) (by omega) (by omega)]
      have hxs : x ∉ (if 0 < depth then [63, 42, 91, 123, 125, 44] else [63, 42, 91, 123] : List Nat) := by
        split
        · rename_i hd; simp only [hd, and_true] at e2 e3; simp [*]
        · simp [*]
      rw [if_neg e0, if_neg eF, if_neg e1, if_neg e2, if_neg e3, if_neg e4, if_neg e5, if_neg e0, if_neg eF, if_neg e1, if_neg e2, if_neg e3, if_neg e4, if_neg e5]
      exact ht hxs hxs

/-- **C158** A backslash before a character that has no special meaning changes nothing, where it is not in a class or itself escaped: `Compile` accepts both patterns or neither,
and gives the same glob. -/
theorem C158_escape (p q : Str) (c : Nat) (hv : validRune c = true) (h0 : c ≠ 0) (hF : c ≠ 0xFFFD) (hs : c ∉ [42, 63, 91, 123, 125, 44, 92]) (h91 : 91 ∉ runesIn p) (h92 : 92 ∉ runesIn p)
    (seps : List Nat) : (∀ m, globCompile (p ++ 92 :: (encodeRune c ++ q)) seps = .ok m ↔ globCompile (p ++ (encodeRune c ++ q)) seps = .ok m) ∧
      ((∃ e, globCompile (p ++ 92 :: (encodeRune c ++ q)) seps = .err e) ↔ ∃ e, globCompile (p ++ (encodeRune c ++ q)) seps = .err e) := by
  have r2 : runesIn (encodeRune c ++ q) = c :: runesIn q := by simp only [runesIn]; rw [runesOf_valid hv, List.map_cons]
  have r1 : runesIn (92 :: (encodeRune c ++ q)) = 92 :: c :: runesIn q := by
    have := runesOf_valid (r := 92) (by decide) (encodeRune c ++ q)
    rw [← r2]
    simp only [runesIn]
    rw [show (92 :: (encodeRune c ++ q) : Str) = encodeRune 92 ++ (encodeRune c ++ q) from rfl, this, List.map_cons]
  have e1 : runesIn (p ++ 92 :: (encodeRune c ++ q)) = runesIn p ++ 92 :: c :: runesIn q := by
    rw [runesIn_append _ _ _ (Nat.le_refl _) (by intro b hb; simp at hb; subst hb; simp [StartByte]), r1]
  have e2 : runesIn (p ++ (encodeRune c ++ q)) = runesIn p ++ c :: runesIn q := by
    rw [runesIn_append _ _ _ (Nat.le_refl _) ?_, r2]
    intro b hb
    have hp := encodeRune_pos c
    cases he : encodeRune c with
    | nil => rw [he] at hp; simp at hp
    | cons x xs =>
      rw [he] at hb
      exact encodeRune_head hv b (by rw [he]; simpa using hb)
  have er : readPattern (p ++ 92 :: (encodeRune c ++ q)) = readPattern (p ++ (encodeRune c ++ q)) := by
    unfold readPattern
    rw [e1, e2]
    exact readParts_escape h0 hF hs (runesIn q) _ _ 0 (runesIn p) h91 h92 (by simp; omega) (by simp)
  have ep : ∀ t, parse (p ++ 92 :: (encodeRune c ++ q)) = .ok t ↔ parse (p ++ (encodeRune c ++ q)) = .ok t := by
    intro t; rw [C139_reads, C139_reads, er]
  rcases C55_compile_total (p ++ 92 :: (encodeRune c ++ q)) seps with ⟨e, h, hc⟩ | ⟨t, m, h, hc⟩
  · rcases C55_compile_total (p ++ (encodeRune c ++ q)) seps with ⟨e', h', hc'⟩ | ⟨t', m', h', hc'⟩
    · rw [hc, hc']; exact ⟨fun m => by constructor <;> (intro hh; cases hh), ⟨fun _ => ⟨_, rfl⟩, fun _ => ⟨_, rfl⟩⟩⟩
    · rw [← ep, h] at h'; cases h'
  · have h' := (ep t).1 h
    have : globCompile (p ++ 92 :: (encodeRune c ++ q)) seps = globCompile (p ++ (encodeRune c ++ q)) seps := by unfold globCompile; rw [h, h']
    rw [this]; exact ⟨fun _ => Iff.rfl, Iff.rfl⟩

/-- Cases: `*.\\go` and `*.go`; a character of two bytes in braces that are open. -/
theorem C158_case : (validRune 103 = true ∧ 103 ∉ [42, 63, 91, 123, 125, 44, 92] ∧ 91 ∉ runesIn (lit "*.") ∧ 92 ∉ runesIn (lit "*.")) ∧
    (validRune 0xE9 = true ∧ 0xE9 ∉ [42, 63, 91, 123, 125, 44, 92] ∧ 91 ∉ runesIn (lit "{a,caf") ∧ 92 ∉ runesIn (lit "{a,caf")) := by decide +kernel

/-- In a class it is different: `[\\-a]` is the range from the backslash to `a`, with `^` in it, `[-a]` is the two characters. -/
theorem C158_class_false : (match globCompile (lit "[\\-a]") [], globCompile (lit "[-a]") [] with
    | .ok m, .ok m' => (m.match (lit "^"), m'.match (lit "^"))
    | _, _ => (none, none)) = (some true, some false) := by decide +kernel

end Verif.Glob
