import Verif.QR.RenderSpec
import Verif.QR.QRProps
/-
C33-C35, C68: rendering.
-/
namespace Verif.QR
open Iso

theorem range_flatMap_add' {α : Type} (f : Nat → List α) (a b : Nat) :
    (List.range (a + b)).flatMap f = (List.range a).flatMap f ++ (List.range b).flatMap (fun k => f (a + k)) := by
  rw [List.range_add, List.flatMap_append, List.flatMap_map]

theorem range_split3 {α : Type} (f : Nat → List α) {n : Nat} (a b d : Nat) (h : n = a + b + d) :
    (List.range n).flatMap f = (List.range a).flatMap f ++ (List.range b).flatMap (fun k => f (a + k)) ++ (List.range d).flatMap (fun k => f (a + b + k)) := by
  rw [h, range_flatMap_add', range_flatMap_add']

theorem flatMap_congr_range {α : Type} {f g : Nat → List α} {n : Nat} (h : ∀ k < n, f k = g k) : (List.range n).flatMap f = (List.range n).flatMap g :=
  List.flatMap_congr fun k hk => h k (List.mem_range.1 hk)

theorem forWrite_eq (step hi : Int) (body : Int → Str) : ∀ (n m : Nat) (i : Int), m ≤ n → (∀ k < m, i + step * k < hi) → (m < n → hi ≤ i + step * m) →
    forWrite step hi body n i = (List.range m).flatMap (fun k : Nat => body (i + step * k))
  | 0, m, i, h, _, _ => by
    obtain rfl : m = 0 := by omega
    rfl
  | n + 1, 0, i, _, _, h => by
    have := h (by omega)
    rw [forWrite, if_neg (by simpa using this)]; rfl
  | n + 1, m + 1, i, h1, h2, h3 => by
    have h0 := h2 0 (by omega)
    rw [forWrite, if_pos (by simpa using h0), forWrite_eq step hi body n m (i + step) (by omega), Nat.add_comm m 1, range_flatMap_add']
    · simp only [List.range_one, List.flatMap_cons, List.flatMap_nil, List.append_nil]
      congr 1
      · simp
      · apply flatMap_congr_range
        intro k hk
        congr 1
        push_cast
        ring
    · intro k hk
      have := h2 (k + 1) (by omega)
      push_cast at this
      rw [mul_add] at this
      omega
    · intro h
      have := h3 (by omega)
      push_cast at this
      rw [mul_add] at this
      omega

theorem forWrite_one (body : Int → Str) (n : Nat) : forWrite 1 ((n : Int)) body n 0 = (List.range n).flatMap (fun k : Nat => body (k : Int)) := by
  rw [forWrite_eq 1 n body n n 0 (Nat.le_refl _) (by intro k hk; omega) (by omega)]
  apply flatMap_congr_range
  intro k _
  congr 1; omega

theorem stringRepeat_eq (s : Str) (n : Nat) : stringRepeat s n = (List.range n).flatMap (fun _ => s) := by
  unfold stringRepeat
  split
  · obtain rfl : n = 0 := by omega
    rfl
  · rw [Int.toNat_natCast, List.flatMap_def, List.map_const', List.length_range]

theorem blackI_nat (c : Code) (x y : Nat) : c.blackI x y = c.black x y := by
  unfold Code.blackI Code.black
  simp only [Int.toNat_natCast, Int.natCast_nonneg, decide_true, Bool.true_and, Nat.cast_lt]
  cases decide (x < c.size) <;> cases decide (y < c.size) <;> simp

theorem black_out (c : Code) (x y : Nat) (h : c.size ≤ x ∨ c.size ≤ y) : c.black x y = false := by
  unfold Code.black
  rcases h with h | h
  · simp [show ¬ x < c.size by omega]
  · simp [show ¬ y < c.size by omega]

/-- **C33** The full-block rendering of a code in a quiet zone of `q ≥ 1` pixels is the text of the picture of the code in a light frame. -/
theorem C33_full_blocks (cfg : Config) (q : Nat) (hq : 1 ≤ q) (hcfg : cfg.quietZone = q) (c : Code) :
    cfg.writeFullBlocks c = fullText (c.size + 2 * q) (c.size + 2 * q) (framed c q) cfg.blackChar cfg.whiteChar := by
  have hw : ((c.size : Int) + (q : Int) * 2) = ((c.size + 2 * q : Nat) : Int) := by push_cast; ring
  have hq1 : ((q : Int) - 1) = ((q - 1 : Nat) : Int) := by omega
  have hs1 : ((c.size : Int) + 1) = ((c.size + 1 : Nat) : Int) := by push_cast; rfl
  unfold Config.writeFullBlocks fullText
  simp only [hcfg]
  rw [hw, hq1, hs1, forWrite_one]
  simp only [forWrite_one, stringRepeat_eq]
  have : c.size + 2 * q = q + (c.size + 1) + (q - 1) := by omega
  conv_rhs => rw [range_split3 _ (n := c.size + 2 * q) q (c.size + 1) (q - 1) this]
  congr 1
  · congr 1
    · apply flatMap_congr_range
      intro i hi
      congr 1
      apply flatMap_congr_range
      intro j hj
      simp [framed, show ¬ q ≤ i by omega]
    · apply flatMap_congr_range
      intro i hi
      rw [← List.append_assoc]
      congr 1
      conv_rhs => rw [range_split3 _ (n := c.size + 2 * q) q (c.size + 1) (q - 1) this]
      congr 1
      · congr 1
        · apply flatMap_congr_range
          intro j hj
          simp [framed, show ¬ q ≤ j by omega]
        · apply flatMap_congr_range
          intro j hj
          rw [blackI_nat]
          simp [framed]
      · apply flatMap_congr_range
        intro j hj
        have : framed c q (q + i) (q + (c.size + 1) + j) = false := by
          unfold framed
          rw [black_out _ _ _ (by omega)]; simp
        simp [this]
  · apply flatMap_congr_range
    intro i hi
    congr 1
    apply flatMap_congr_range
    intro j hj
    have : framed c q (q + (c.size + 1) + i) j = false := by
      unfold framed
      rw [black_out _ _ _ (by omega)]; simp
    simp [this]

/-- The glyph of two pixels. -/
def Config.glyph (c : Config) (top bottom : Bool) : Str :=
  match top, bottom with
  | true, true => c.blackChar
  | true, false => c.blackWhiteChar
  | false, true => c.whiteBlackChar
  | false, false => c.whiteChar

/-- **C34** The half-block rendering of a code of odd size (all codes are) is the text of the picture of the code in a light frame of `q`
pixels with one dark row added at an edge. -/
theorem C34_half_blocks (cfg : Config) (q : Nat) (hq : 1 ≤ q) (hcfg : cfg.quietZone = q) (c : Code) (hodd : c.size % 2 = 1) :
    cfg.writeHalfBlocks c = halfText (c.size / 2 + 1 + q) (c.size + 2 * q) (framedEven c q) cfg.glyph := by
  have hw : ((c.size : Int) + (q : Int) * 2) = ((c.size + 2 * q : Nat) : Int) := by push_cast; ring
  have hq1 : ((q : Int) - 1) = ((q - 1 : Nat) : Int) := by omega
  have hs1 : ((c.size : Int) + 1) = ((c.size + 1 : Nat) : Int) := by push_cast; rfl
  have hd : (q : Int).tdiv 2 = ((q / 2 : Nat) : Int) := rfl
  have hm : (q : Int).tmod 2 = ((q % 2 : Nat) : Int) := rfl
  -- a line of light cells
  have light : ∀ i j, framed c q i j = false ∨ (q ≤ i ∧ q ≤ j ∧ i < q + c.size ∧ j < q + c.size) := by
    intro i j
    by_cases h : q ≤ i ∧ q ≤ j ∧ i < q + c.size ∧ j < q + c.size
    · exact Or.inr h
    · left
      unfold framed
      by_cases h1 : q ≤ i
      · by_cases h2 : q ≤ j
        · rw [black_out _ _ _ (by omega)]; simp
        · simp [h2]
      · simp [h1]
  have row : ∀ i, (stringRepeat cfg.whiteChar q ++
      forWrite 1 ((c.size + 1 : Nat) : Int) (fun j =>
        let nextBlack := if ((2 * i : Nat) : Int) + 1 < c.size then c.blackI j (((2 * i : Nat) : Int) + 1) else false
        let currBlack := c.blackI j ((2 * i : Nat) : Int)
        if currBlack && nextBlack then cfg.blackChar
        else if currBlack && !nextBlack then cfg.blackWhiteChar
        else if !currBlack && !nextBlack then cfg.whiteChar
        else cfg.whiteBlackChar) (c.size + 1) 0 ++ (stringRepeat cfg.whiteChar ((q - 1 : Nat) : Int) ++ [10])) =
      ((List.range (c.size + 2 * q)).flatMap fun j => cfg.glyph (framed c q (q + 2 * i) j) (framed c q (q + (2 * i + 1)) j)) ++ [10] := by
    intro i
    rw [← List.append_assoc]
    congr 1
    rw [forWrite_one, stringRepeat_eq, stringRepeat_eq, range_split3 _ (n := c.size + 2 * q) q (c.size + 1) (q - 1) (by omega)]
    congr 1
    · congr 1
      · apply flatMap_congr_range
        intro j hj
        rcases light (q + 2 * i) j with h | h
        · rcases light (q + (2 * i + 1)) j with h' | h'
          · rw [h, h']; rfl
          · omega
        · omega
      · apply flatMap_congr_range
        intro j hj
        have e1 : c.blackI j ((2 * i : Nat) : Int) = framed c q (q + 2 * i) (q + j) := by
          rw [blackI_nat]; simp [framed]
        have e2 : (if ((2 * i : Nat) : Int) + 1 < c.size then c.blackI j (((2 * i : Nat) : Int) + 1) else false) = framed c q (q + (2 * i + 1)) (q + j) := by
          split
          · rw [show (((2 * i : Nat) : Int) + 1) = ((2 * i + 1 : Nat) : Int) by push_cast; rfl, blackI_nat]; simp [framed]
          · rcases light (q + (2 * i + 1)) (q + j) with h | h
            · exact h.symm
            · omega
        simp only [e1, e2]
        cases framed c q (q + 2 * i) (q + j) <;> cases framed c q (q + (2 * i + 1)) (q + j) <;> rfl
    · apply flatMap_congr_range
      intro j hj
      rcases light (q + 2 * i) (q + (c.size + 1) + j) with h | h
      · rcases light (q + (2 * i + 1)) (q + (c.size + 1) + j) with h' | h'
        · rw [h, h']; rfl
        · omega
      · omega
  have whiteRow : ∀ (n o : Nat), (∀ k < n, ∀ j, framedEven c q (2 * (o + k)) j = false ∧ framedEven c q (2 * (o + k) + 1) j = false) →
      stringRepeat (stringRepeat cfg.whiteChar ((c.size + 2 * q : Nat) : Int) ++ [10]) n =
        (List.range n).flatMap (fun k => ((List.range (c.size + 2 * q)).flatMap fun j => cfg.glyph (framedEven c q (2 * (o + k)) j) (framedEven c q (2 * (o + k) + 1) j)) ++ [10]) := by
    intro n o h
    rw [stringRepeat_eq, stringRepeat_eq]
    apply flatMap_congr_range
    intro k hk
    congr 1
    apply flatMap_congr_range
    intro j hj
    rw [(h k hk j).1, (h k hk j).2]; rfl
  unfold Config.writeHalfBlocks halfText
  simp only [hcfg]
  rw [hw, hq1, hs1, hd, hm, forWrite_eq 2 _ _ (c.size + 1) (c.size / 2 + 1) 0 (by omega) (by intro k hk; omega) (by intro _; omega)]
  have mid : ∀ o, o + o = q + q % 2 → (List.range (c.size / 2 + 1)).flatMap (fun k : Nat => (stringRepeat cfg.whiteChar q ++
      forWrite 1 ((c.size + 1 : Nat) : Int) (fun j =>
        let nextBlack := if (0 : Int) + 2 * k + 1 < c.size then c.blackI j ((0 : Int) + 2 * k + 1) else false
        let currBlack := c.blackI j ((0 : Int) + 2 * k)
        if currBlack && nextBlack then cfg.blackChar
        else if currBlack && !nextBlack then cfg.blackWhiteChar
        else if !currBlack && !nextBlack then cfg.whiteChar
        else cfg.whiteBlackChar) (c.size + 1) 0 ++ (stringRepeat cfg.whiteChar ((q - 1 : Nat) : Int) ++ [10]))) =
      (List.range (c.size / 2 + 1)).flatMap (fun k => ((List.range (c.size + 2 * q)).flatMap fun j => cfg.glyph (framedEven c q (2 * (o + k)) j) (framedEven c q (2 * (o + k) + 1) j)) ++ [10]) := by
    intro o ho
    apply flatMap_congr_range
    intro k hk
    rw [show (0 : Int) + 2 * k = ((2 * k : Nat) : Int) by push_cast; ring, row k]
    congr 1
    apply flatMap_congr_range
    intro j hj
    have : ∀ r, r ≤ c.size → framedEven c q (2 * o + r) j = framed c q (q + r) j := by
      intro r hr
      unfold framedEven
      split
      · have hne : (2 * o + r == 0) = false := by rw [beq_eq_false_iff_ne]; omega
        rw [hne, Bool.false_or]
        congr 1; omega
      · have hne : (2 * o + r == c.size + 2 * q) = false := by rw [beq_eq_false_iff_ne]; omega
        rw [hne, Bool.false_or]
        congr 1; omega
    rw [← this (2 * k) (by omega), ← this (2 * k + 1) (by omega)]
    congr 2 <;> ring_nf
  have ev : ∀ i j, 0 < i → i < c.size + 2 * q + q % 2 → (i < q + q % 2 ∨ q + q % 2 + c.size ≤ i) → framedEven c q i j = false := by
    intro i j h0 hi h
    unfold framedEven
    split
    · have hne : (i == 0) = false := by rw [beq_eq_false_iff_ne]; omega
      rw [hne, Bool.false_or]
      rcases light (i - 1) j with h | h
      · exact h
      · omega
    · have hne : (i == c.size + 2 * q) = false := by rw [beq_eq_false_iff_ne]; omega
      rw [hne, Bool.false_or]
      rcases light i j with h | h
      · exact h
      · omega
  rcases Nat.mod_two_eq_zero_or_one q with h2 | h2
  · have mid' := mid (q / 2) (by omega)
    simp only at mid'
    rw [h2, if_neg (by simp), if_pos (show ((0 : Nat) : Int) = 0 from rfl), mid']
    conv_rhs => rw [range_split3 _ (n := c.size / 2 + 1 + q) (q / 2) (c.size / 2 + 1) (q / 2) (by omega)]
    congr 1
    · congr 1
      rw [whiteRow (q / 2) 0 (fun k hk j => ?_)]
      · simp only [Nat.zero_add]
      · constructor
        · by_cases h0 : 0 < 2 * (0 + k)
          · exact ev _ j h0 (by omega) (by omega)
          · obtain rfl : k = 0 := by omega
            unfold framedEven
            rw [if_neg (by omega)]
            rcases light 0 j with h | h
            · simp [h]; omega
            · omega
        · exact ev _ j (by omega) (by omega) (by omega)
    · rw [show ((q / 2 : Nat) : Int) - 1 = ((q / 2 - 1 : Nat) : Int) by omega]
      conv_rhs => rw [show q / 2 = (q / 2 - 1) + 1 by omega, range_flatMap_add']
      rw [show q / 2 - 1 + 1 = q / 2 by omega]
      congr 1
      · rw [whiteRow (q / 2 - 1) (q / 2 + (c.size / 2 + 1))]
        intro k hk j
        exact ⟨ev _ j (by omega) (by omega) (by omega), ev _ j (by omega) (by omega) (by omega)⟩
      · rw [stringRepeat_eq]
        simp only [List.range_one, List.flatMap_cons, List.flatMap_nil, List.append_nil, Nat.add_zero]
        congr 1
        apply flatMap_congr_range
        intro j hj
        rw [ev _ j (by omega) (by omega) (by omega)]
        have : framedEven c q (2 * (q / 2 + (c.size / 2 + 1) + (q / 2 - 1)) + 1) j = true := by
          unfold framedEven
          rw [if_neg (by omega)]
          have : (2 * (q / 2 + (c.size / 2 + 1) + (q / 2 - 1)) + 1 == c.size + 2 * q) = true := by rw [beq_iff_eq]; omega
          rw [this]; rfl
        rw [this]; rfl
  · have mid' := mid (q / 2 + 1) (by omega)
    simp only at mid'
    rw [h2, if_pos (show ((1 : Nat) : Int) ≠ 0 by decide), if_neg (show ¬ ((1 : Nat) : Int) = 0 by decide), mid']
    conv_rhs => rw [range_split3 _ (n := c.size / 2 + 1 + q) (1 + q / 2) (c.size / 2 + 1) (q / 2) (by omega), range_flatMap_add']
    congr 1
    · congr 1
      · congr 1
        · rw [stringRepeat_eq]
          simp only [List.range_one, List.flatMap_cons, List.flatMap_nil, List.append_nil, Nat.mul_zero]
          congr 1
          apply flatMap_congr_range
          intro j hj
          rw [ev (0 + 1) j (by omega) (by omega) (by omega)]
          have : framedEven c q 0 j = true := by
            unfold framedEven
            rw [if_pos h2]; rfl
          rw [this]; rfl
        · rw [whiteRow (q / 2) 1]
          intro k hk j
          exact ⟨ev _ j (by omega) (by omega) (by omega), ev _ j (by omega) (by omega) (by omega)⟩
      · rw [Nat.add_comm 1 (q / 2)]
    · rw [whiteRow (q / 2) (1 + q / 2 + (c.size / 2 + 1))]
      intro k hk j
      exact ⟨ev _ j (by omega) (by omega) (by omega), ev _ j (by omega) (by omega) (by omega)⟩

/-! ### Reading the screen -/

/-- `enc` writes glyphs that the table recognises. -/
structure Legible {α : Type} (table : List (Str × α)) (enc : α → Str) : Prop where
  head : ∀ a, ∃ b g, enc a = b :: g ∧ b ≠ 10
  find : ∀ a rest, table.find? (fun g => g.1.isPrefixOf (enc a ++ rest)) = some (enc a, a)

theorem screen_cells {α : Type} {table : List (Str × α)} {enc : α → Str} (h : Legible table enc) (n : Nat) (rest : Str) :
    ∀ (cells : List α) (line : List α), screen table (n + cells.length) (cells.flatMap enc ++ rest) line = screen table n rest (cells.reverse ++ line)
  | [], line => rfl
  | a :: cells, line => by
    obtain ⟨b, g, e, hb⟩ := h.head a
    have hf := h.find a (cells.flatMap enc ++ rest)
    rw [List.flatMap_cons, List.append_assoc]
    have hd : (enc a ++ (cells.flatMap enc ++ rest)).drop (enc a).length = cells.flatMap enc ++ rest := List.drop_left
    rw [e] at hf hd ⊢
    rw [List.length_cons, ← Nat.add_assoc, List.cons_append, screen, if_neg hb, ← List.cons_append, hf]
    simp only
    rw [hd, screen_cells h n rest cells (a :: line)]
    simp

theorem screen_rows {α : Type} {table : List (Str × α)} {enc : α → Str} (h : Legible table enc) :
    ∀ (rows : List (List α)) (n : Nat), (rows.map (fun r => r.length + 1)).sum < n →
      screen table n (rows.flatMap (fun r => r.flatMap enc ++ [10])) [] = some rows
  | [], n, hn => by
    obtain ⟨n, rfl⟩ : ∃ m, n = m + 1 := ⟨n - 1, by simp at hn; omega⟩
    rfl
  | r :: rows, n, hn => by
    rw [List.map_cons, List.sum_cons] at hn
    obtain ⟨m, rfl⟩ : ∃ m, n = (m + 1) + r.length := ⟨n - r.length - 1, by omega⟩
    rw [List.flatMap_cons, List.append_assoc, screen_cells h]
    change (if (10 : UInt8) = 10 then _ else _) = _
    rw [if_pos rfl]
    change Option.map _ (screen table m (rows.flatMap (fun r => r.flatMap enc ++ [10])) []) = _
    rw [screen_rows h rows m (by omega)]
    simp

theorem rows_length_le {α : Type} {table : List (Str × α)} {enc : α → Str} (h : Legible table enc) (rows : List (List α)) :
    (rows.map (fun r => r.length + 1)).sum ≤ (rows.flatMap (fun r => r.flatMap enc ++ [10])).length := by
  have cells : ∀ r : List α, r.length ≤ (r.flatMap enc).length := by
    intro r
    induction r with
    | nil => simp
    | cons a r ih =>
      obtain ⟨b, g, e, -⟩ := h.head a
      rw [List.flatMap_cons, List.length_append, e, List.length_cons, List.length_cons]
      omega
  induction rows with
  | nil => simp
  | cons r rows ih =>
    rw [List.map_cons, List.sum_cons, List.flatMap_cons, List.length_append, List.length_append]
    have := cells r
    simp only [List.length_cons, List.length_nil]
    omega

theorem screen_text {α : Type} {table : List (Str × α)} {enc : α → Str} (h : Legible table enc) (H W : Nat) (f : Nat → Nat → α) (s : Str)
    (hs : s = (List.range H).flatMap fun i => ((List.range W).flatMap fun j => enc (f i j)) ++ [10]) :
    screen table (s.length + 1) s [] = some ((List.range H).map fun i => (List.range W).map fun j => f i j) := by
  have e : s = ((List.range H).map fun i => (List.range W).map fun j => f i j).flatMap (fun r => r.flatMap enc ++ [10]) := by
    rw [hs, List.flatMap_map]
    simp only [List.flatMap_map]
  have hl := rows_length_le h ((List.range H).map fun i => (List.range W).map fun j => f i j)
  rw [← e] at hl
  have := screen_rows h ((List.range H).map fun i => (List.range W).map fun j => f i j) (s.length + 1) (by omega)
  rwa [← e] at this

theorem legible_full : Legible fullTable (fun d => if d then blackEsc else whiteEsc) where
  head a := by cases a <;> exact ⟨_, _, rfl, by decide⟩
  find a rest := by cases a <;> rfl

theorem legible_half (cfg : Config) (h1 : cfg.blackChar = glyphBB) (h2 : cfg.blackWhiteChar = glyphBW) (h3 : cfg.whiteBlackChar = glyphWB)
    (h4 : cfg.whiteChar = glyphWW) : Legible halfTable (fun p => cfg.glyph p.1 p.2) where
  head a := by
    obtain ⟨a, b⟩ := a
    cases a <;> cases b <;> simp only [Config.glyph, h1, h2, h3, h4] <;> exact ⟨_, _, rfl, by decide⟩
  find a rest := by
    obtain ⟨a, b⟩ := a
    cases a <;> cases b <;> simp only [Config.glyph, h1, h2, h3, h4] <;> rfl

theorem read_congr (n : Nat) {f g : Nat → Nat → Bool} (h : f = g) : Iso.read n f = Iso.read n g := by rw [h]

theorem look_table {α : Type} (H W : Nat) (f : Nat → Nat → α) (i j : Nat) :
    ((((List.range H).map fun i => (List.range W).map fun j => f i j)[i]?).bind (·[j]?)) = if i < H ∧ j < W then some (f i j) else none := by
  by_cases hi : i < H
  · rw [List.getElem?_map, List.getElem?_range hi, Option.map_some, Option.bind_some, List.getElem?_map]
    by_cases hj : j < W
    · rw [List.getElem?_range hj, if_pos ⟨hi, hj⟩]; rfl
    · rw [List.getElem?_eq_none (by rw [List.length_range]; omega), if_neg (by omega)]; rfl
  · rw [List.getElem?_eq_none (by rw [List.length_map, List.length_range]; omega), if_neg (by omega)]; rfl

theorem encode_size {text : Str} {l : Level} {c : Code} (h : encode text l = .ok c) : ∃ v, 1 ≤ v ∧ c.size = 17 + 4 * v := by
  obtain ⟨v, h1, -, h3, -⟩ := (C29_smallest_version text l).2.2 c h
  exact ⟨v, h1, h3⟩

/-- **C33** What `Generate` writes, seen on a terminal, is a symbol in a quiet zone of 4 pixels that reads as the text. -/
theorem C33_generate_scans (text : Str) (l : Level) (out : Str) (h : generate text l = some out) : scanFull out = some text := by
  unfold generate generateWithConfig at h
  simp only at h
  rw [if_neg (by decide)] at h
  cases he : encode text l with
  | err => rw [he] at h; cases h
  | panic => rw [he] at h; cases h
  | ok c =>
    rw [he] at h
    simp only [Bool.false_eq_true, if_false] at h
    injection h with h
    rw [C33_full_blocks _ 4 (by omega) rfl c] at h
    unfold scanFull
    rw [screen_text legible_full _ _ (framed c 4) out h.symm]
    simp only [Option.bind_some, List.length_map, List.length_range]
    rw [show c.size + 2 * 4 - 8 = c.size by omega, ← (C31_symbol_decodes text l c he).1]
    apply read_congr
    funext y x
    unfold fullPixel
    rw [look_table]
    by_cases hyx : y < c.size ∧ x < c.size
    · rw [if_pos (by omega)]; simp [framed, hyx.1, hyx.2]
    · rw [black_out _ _ _ (by omega), ← Bool.decide_and, decide_eq_false hyx]; rfl

/-- **C34** What `GenerateHalfBlock` writes, seen on a terminal, is a symbol in a quiet zone of 4 pixels that reads as the text. -/
theorem C34_generateHalfBlock_scans (text : Str) (l : Level) (out : Str) (h : generateHalfBlock text l = some out) : scanHalf out = some text := by
  unfold generateHalfBlock generateWithConfig at h
  simp only at h
  rw [if_neg (by decide)] at h
  cases he : encode text l with
  | err => rw [he] at h; cases h
  | panic => rw [he] at h; cases h
  | ok c =>
    rw [he] at h
    simp only [if_true] at h
    injection h with h
    obtain ⟨v, hv, hsz⟩ := encode_size he
    rw [C34_half_blocks _ 4 (by omega) rfl c (by omega)] at h
    unfold halfText at h
    unfold scanHalf
    rw [screen_text (legible_half _ rfl rfl rfl rfl) _ _ (fun i j => (framedEven c 4 (2 * i) j, framedEven c 4 (2 * i + 1) j)) out h.symm]
    simp only [Option.bind_some, List.length_map, List.length_range]
    rw [show 2 * (c.size / 2 + 1 + 4) - 9 = c.size by omega, ← (C31_symbol_decodes text l c he).1]
    apply read_congr
    funext y x
    unfold halfPixel
    rw [look_table]
    have hfe : ∀ i, i < c.size + 4 → framedEven c 4 i (x + 4) = (decide (4 ≤ i) && c.black x (i - 4)) := by
      intro i hi
      have hne : (i == c.size + 2 * 4) = false := by rw [beq_eq_false_iff_ne]; omega
      simp [framedEven, framed, hne]
    by_cases hyx : y < c.size ∧ x < c.size
    · obtain ⟨hy, hx⟩ := hyx
      rw [if_pos (by omega)]
      simp only [Option.elim_some, hy, hx, decide_true, Bool.true_and]
      split
      · rw [show 2 * ((y + 4) / 2) = y + 4 by omega, hfe _ (by omega)]; simp
      · rw [show 2 * ((y + 4) / 2) + 1 = y + 4 by omega, hfe _ (by omega)]; simp
    · rw [black_out _ _ _ (by omega), ← Bool.decide_and, decide_eq_false hyx]; rfl

/-- **C33, C34** With any configuration: the picture has a quiet zone of `QuietZone` pixels, or 1 if that is less than 1. -/
theorem C33_C34_generateWithConfig (text : Str) (cfg : Config) (out : Str) (h : generateWithConfig text cfg = some out) :
    ∃ c, ∃ q : Nat, encode text cfg.level = .ok c ∧ ((q : Int) = if cfg.quietZone < 1 then 1 else cfg.quietZone) ∧
      out = if cfg.halfBlocks then halfText (c.size / 2 + 1 + q) (c.size + 2 * q) (framedEven c q) cfg.glyph
        else fullText (c.size + 2 * q) (c.size + 2 * q) (framed c q) cfg.blackChar cfg.whiteChar := by
  unfold generateWithConfig at h
  dsimp only at h
  obtain ⟨cfg', e'⟩ : ∃ c', (if cfg.quietZone < 1 then { cfg with quietZone := 1 } else cfg) = c' := ⟨_, rfl⟩
  have hl : cfg'.level = cfg.level := by rw [← e']; split <;> rfl
  have hh : cfg'.halfBlocks = cfg.halfBlocks := by rw [← e']; split <;> rfl
  have hg : cfg'.glyph = cfg.glyph := by rw [← e']; split <;> rfl
  have hb : cfg'.blackChar = cfg.blackChar := by rw [← e']; split <;> rfl
  have hw : cfg'.whiteChar = cfg.whiteChar := by rw [← e']; split <;> rfl
  have hq : cfg'.quietZone = if cfg.quietZone < 1 then 1 else cfg.quietZone := by rw [← e']; split <;> rfl
  have hq1 : 1 ≤ cfg'.quietZone := by rw [hq]; split <;> omega
  rw [e', hl, hh] at h
  cases he : encode text cfg.level with
  | err => rw [he] at h; cases h
  | panic => rw [he] at h; cases h
  | ok c =>
    rw [he] at h
    obtain ⟨v, hv, hsz⟩ := encode_size he
    refine ⟨c, cfg'.quietZone.toNat, rfl, by rw [← hq]; omega, ?_⟩
    dsimp only at h
    split at h
    · rename_i hhb
      rw [if_pos hhb, ← hg, ← C34_half_blocks cfg' _ (by omega) (by omega) c (by omega)]
      injection h with h; exact h.symm
    · rename_i hhb
      rw [if_neg hhb, ← hb, ← hw, ← C33_full_blocks cfg' _ (by omega) (by omega) c]
      injection h with h; exact h.symm

/-! ## C35: texts that are too long -/

theorem generateWithConfig_none (text : Str) (cfg : Config) : generateWithConfig text cfg = none ↔ encode text cfg.level = .err := by
  have hp := (C29_smallest_version text cfg.level).1
  unfold generateWithConfig
  dsimp only
  have e : (if cfg.quietZone < 1 then { cfg with quietZone := 1 } else cfg).level = cfg.level := by split <;> rfl
  rw [e]
  cases h : encode text cfg.level with
  | ok c =>
    simp only [reduceCtorEq, iff_false]
    split <;> split <;> simp
  | err => simp
  | panic => exact absurd h hp

/-- **C35** (as far as it holds) `GenerateWithConfig` crashes for exactly the texts that no version can hold; otherwise it writes a picture. -/
theorem C35_crash_iff_too_long_partial (text : Str) (cfg : Config) :
    generateWithConfig text cfg = none ↔ ∀ v, 1 ≤ v → v ≤ 40 → 8 * dataCodewords v cfg.level < need v text := by
  rw [generateWithConfig_none, (C29_smallest_version text cfg.level).2.1]

theorem capacity_le : ∀ v ∈ List.range' 1 40, ∀ l ∈ levels, dataBytes v l ≤ 2956 ∧ (v ≤ 26 → dataBytes v l ≤ 1370) := by decide +kernel

/-- **C35** is false: every text of more than 7089 bytes crashes `Generate` and `GenerateHalfBlock`, at every level. -/
theorem C35_long_text_crashes (text : Str) (h : 7090 ≤ text.length) (l : Level) : generate text l = none ∧ generateHalfBlock text l = none := by
  have key : ∀ v, 1 ≤ v → v ≤ 40 → 8 * dataCodewords v l < need v text := by
    intro v h1 h2
    rw [dataCodewords_eq h1 h2]
    obtain ⟨k1, k2⟩ := capacity_le v (mem_versions h1 h2) l (mem_levels l)
    unfold need numericNeed alnumNeed byteNeed countBits
    by_cases h26 : v ≤ 26
    · have := k2 h26
      repeat' split
      all_goals omega
    · repeat' split
      all_goals omega
  exact ⟨(C35_crash_iff_too_long_partial text _).2 key, (C35_crash_iff_too_long_partial text _).2 key⟩

example : 7090 ≤ (List.replicate 8000 (97 : UInt8)).length := by rw [List.length_replicate]; omega

/-- A text that is written: the hypotheses of the theorems above are met. -/
example : ∃ out, generate (lit "HELLO") .L = some out := by
  cases h : generate (lit "HELLO") .L with
  | some out => exact ⟨out, rfl⟩
  | none =>
    have := (C35_crash_iff_too_long_partial (lit "HELLO") _).1 h 1 (by omega) (by omega)
    rw [dataCodewords_eq (by omega) (by omega)] at this
    exact absurd this (by decide)

example : ∃ out, generateHalfBlock (lit "https://example.org/otp?x=1") .M = some out := by
  cases h : generateHalfBlock (lit "https://example.org/otp?x=1") .M with
  | some out => exact ⟨out, rfl⟩
  | none =>
    have := (C35_crash_iff_too_long_partial (lit "https://example.org/otp?x=1") _).1 h 3 (by omega) (by omega)
    rw [dataCodewords_eq (by omega) (by omega)] at this
    exact absurd this (by decide +kernel)

/-! ## C68: the image of a code -/

/-- The image the documentation promises: each module is a square of `scale` pixels, in a frame of 4 modules. -/
def imageSpec (c : Code) (x y : Nat) : Bool := framed c 4 (y / scale) (x / scale)

/-- **C68** is false: the module at the top left, dark in every symbol, is shown in the frame as a single pixel, where the image should be light. -/
theorem C68_image_not_scaled {v : Nat} {l : Level} {m : Fin 8} {c : Code} (h : IsSymbol v l m c) :
    imageSide c = 8 * (c.size + 8) ∧ imageBlack c 0 0 = true ∧ imageSpec c 0 0 = false := by
  obtain ⟨hs, -, hf⟩ := C66_function_modules h
  obtain ⟨h1, h2, -⟩ := h.spec
  refine ⟨by unfold imageSide scale; omega, ?_, ?_⟩
  · unfold imageBlack
    have := hf 0 0 (by unfold Iso.size; omega) (by unfold Iso.size; omega) (by simp [isFunction, inFinder]) (by
        rw [Bool.eq_false_iff]; intro hv
        simp only [inVersion, Bool.or_eq_true, Bool.and_eq_true, decide_eq_true_eq] at hv; unfold Iso.size at hv; omega) (Or.inl (by
        rw [Bool.eq_false_iff]; intro hv
        simp only [inFormat, Bool.or_eq_true, Bool.and_eq_true, decide_eq_true_eq, Iso.size] at hv; omega))
    have e := blackI_nat c 0 0
    simp only [Nat.cast_zero] at e
    rw [e, this]
    simp [functionDark, inFinder, finderDark, cheb]
  · rfl

/-- **C68** (as far as it holds) Every module of the code is shown as one pixel at its own coordinates, and the rest of the image is light. -/
theorem C68_image_partial (c : Code) (x y : Int) : imageBlack c x y = true ↔ 0 ≤ x ∧ x < c.size ∧ 0 ≤ y ∧ y < c.size ∧ c.black x.toNat y.toNat = true := by
  unfold imageBlack Code.blackI
  simp only [Bool.and_eq_true, decide_eq_true_eq]
  tauto

end Verif.QR
