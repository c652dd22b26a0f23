import Verif.QR.CountLemmas
/-
The order in which `lplan` puts code word bits into the symbol.
-/
namespace Verif.QR
open Iso

theorem flatMap_congr' {α β} {l : List α} {f g : α → List β} (h : ∀ a ∈ l, f a = g a) : l.flatMap f = l.flatMap g := by
  rw [List.flatMap_def, List.flatMap_def, List.map_congr_left h]

theorem range_flatMap_add {β} (a b : Nat) (f : Nat → List β) :
    (List.range (a + b)).flatMap f = (List.range a).flatMap f ++ (List.range b).flatMap fun k => f (a + k) := by
  rw [List.range_add, List.flatMap_append, List.flatMap_map]

theorem range_flatMap_mul {β} (b : Nat) (hb : 0 < b) (f : Nat → Nat → List β) : ∀ a : Nat,
    ((List.range a).flatMap fun i => (List.range b).flatMap fun j => f i j) = (List.range (a * b)).flatMap fun t => f (t / b) (t % b)
  | 0 => by simp
  | a + 1 => by
    rw [range_flatMap_add, range_flatMap_mul b hb f a, Nat.add_mul, Nat.one_mul, range_flatMap_add]
    congr 1
    simp only [List.range_one, List.flatMap_cons, List.flatMap_nil, List.append_nil, Nat.add_zero]
    apply flatMap_congr'
    intro j hj
    rw [List.mem_range] at hj
    rw [Nat.mul_comm, Nat.mul_add_div hb, Nat.mul_add_mod, Nat.div_eq_of_lt hj, Nat.mod_eq_of_lt hj, Nat.add_zero]

/-- Cutting a list of `f 0, f 1, ...` into consecutive pieces. -/
theorem cut_spec {α} (F : Nat → α) (st len : Nat → Nat) (hst : ∀ j, st (j + 1) = st j + len j) (N : Nat) : ∀ (k i : Nat), st (i + k) = N →
    cut ((List.range' i k).map len) ((List.range (N - st i)).map fun t => F (st i + t)) =
      some ((List.range' i k).map fun j => (List.range (len j)).map fun t => F (st j + t), [])
  | 0, i, h => by
    rw [Nat.add_zero] at h
    simp [cut, h]
  | k + 1, i, h => by
    have hmono : ∀ k i, st i ≤ st (i + k) := by
      intro k
      induction k with
      | zero => intro i; exact Nat.le_refl _
      | succ k ih => intro i; rw [← Nat.add_assoc, hst]; exact Nat.le_trans (ih i) (Nat.le_add_right _ _)
    have hle := hmono k (i + 1)
    rw [show i + 1 + k = i + (k + 1) by omega, h, hst] at hle
    rw [List.range'_succ, List.map_cons, cut, if_neg (by simp; omega)]
    have e1 : ((List.range (N - st i)).map fun t => F (st i + t)).drop (len i) =
        (List.range (N - st (i + 1))).map fun t => F (st (i + 1) + t) := by
      apply List.ext_getElem
      · simp [hst]; omega
      · intro t h1 h2
        simp [hst, Nat.add_assoc]
    have e2 : ((List.range (N - st i)).map fun t => F (st i + t)).take (len i) = (List.range (len i)).map fun t => F (st i + t) := by
      apply List.ext_getElem
      · simp; omega
      · intro t h1 h2
        simp
    rw [e1, e2, cut_spec F st len hst N k (i + 1) (by rw [← h]; congr 1; omega)]
    rfl

/-- The eight pixels of code byte `o`. -/
def chunk (F : Nat → Pixel) (o : Nat) : List Pixel := (List.range 8).map fun u => F (8 * o + u)

theorem interleave_spec (F : Nat → Pixel) (st len : Nat → Nat) (n nb : Nat) :
    interleaveBytes n ((List.range nb).map fun j => (List.range (8 * len j)).map fun t => F (8 * st j + t)) =
      (List.range n).flatMap fun i => (List.range nb).flatMap fun j => if i < len j then chunk F (st j + i) else [] := by
  unfold interleaveBytes
  apply flatMap_congr'
  intro i hi
  rw [List.flatMap_map]
  apply flatMap_congr'
  intro j hj
  simp only [List.length_map, List.length_range]
  by_cases h : i < len j
  · rw [if_pos (by omega), if_pos h]
    apply List.ext_getElem
    · simp [chunk]; omega
    · intro u h1 h2
      simp only [List.getElem_take, List.getElem_drop, List.getElem_map, List.getElem_range, chunk]
      congr 1
      omega
  · rw [if_neg (by omega), if_neg h]

/-- The pixel of code bit `o`. -/
def codePixel (nd o : Nat) : Pixel := { role := if o < 8 * nd then .data else .check, offset := o }

/-- The code byte in position `t` of the symbol. -/
def byteOrder (nd nb ne t : Nat) : Nat :=
  if t < nd / nb * nb then blockStart nd nb (t % nb) + t / nb
  else if t < nd then blockStart nd nb (nb - nd % nb + (t - nd / nb * nb)) + nd / nb
  else nd + ((t - nd) % nb) * ne + (t - nd) / nb

theorem blockLen_pos_iff {nd nb j i : Nat} : i < blockLen nd nb j ↔ i < nd / nb ∨ (i = nd / nb ∧ nb - nd % nb ≤ j) := by
  unfold blockLen
  split <;> omega

theorem interleave_data (F : Nat → Pixel) {nd nb : Nat} (hb : 0 < nb) :
    ((List.range (nd / nb + 1)).flatMap fun i => (List.range nb).flatMap fun j =>
      if i < blockLen nd nb j then chunk F (blockStart nd nb j + i) else []) =
    (List.range nd).flatMap fun t => chunk F (byteOrder nd nb 0 t) := by
  have hm := Nat.mod_lt nd hb
  have hdm : nd = nd / nb * nb + nd % nb := by rw [Nat.mul_comm]; exact (Nat.div_add_mod nd nb).symm
  rw [range_flatMap_add]
  have e1 : ((List.range (nd / nb)).flatMap fun i => (List.range nb).flatMap fun j =>
      if i < blockLen nd nb j then chunk F (blockStart nd nb j + i) else []) =
      (List.range (nd / nb * nb)).flatMap fun t => chunk F (byteOrder nd nb 0 t) := by
    rw [flatMap_congr' (g := fun i => (List.range nb).flatMap fun j => chunk F (blockStart nd nb j + i))]
    · rw [range_flatMap_mul nb hb (fun i j => chunk F (blockStart nd nb j + i))]
      apply flatMap_congr'
      intro t ht
      rw [List.mem_range] at ht
      rw [byteOrder, if_pos ht]
    · intro i hi
      rw [List.mem_range] at hi
      apply flatMap_congr'
      intro j _
      rw [if_pos (blockLen_pos_iff.2 (Or.inl hi))]
  have e2 : ((List.range 1).flatMap fun k => (List.range nb).flatMap fun j =>
      if nd / nb + k < blockLen nd nb j then chunk F (blockStart nd nb j + (nd / nb + k)) else []) =
      (List.range (nd % nb)).flatMap fun k => chunk F (byteOrder nd nb 0 (nd / nb * nb + k)) := by
    simp only [List.range_one, List.flatMap_cons, List.flatMap_nil, List.append_nil, Nat.add_zero]
    have := range_flatMap_add (nb - nd % nb) (nd % nb) (fun j => if nd / nb < blockLen nd nb j then chunk F (blockStart nd nb j + nd / nb) else [])
    rw [show nb - nd % nb + nd % nb = nb by omega] at this
    rw [this]
    have z : ((List.range (nb - nd % nb)).flatMap fun j => if nd / nb < blockLen nd nb j then chunk F (blockStart nd nb j + nd / nb) else []) = [] := by
      rw [List.flatMap_eq_nil_iff]
      intro j hj
      rw [List.mem_range] at hj
      rw [if_neg]
      rw [blockLen_pos_iff]
      omega
    rw [z, List.nil_append]
    apply flatMap_congr'
    intro k hk
    rw [List.mem_range] at hk
    rw [if_pos (blockLen_pos_iff.2 (Or.inr ⟨rfl, by omega⟩)), byteOrder, if_neg (by omega), if_pos (by omega)]
    congr 4
    omega
  rw [e1, e2]
  have := range_flatMap_add (nd / nb * nb) (nd % nb) (fun t => chunk F (byteOrder nd nb 0 t))
  rw [← hdm] at this
  exact this.symm

theorem flatMap_chunk_length (F : Nat → Pixel) (n : Nat) (f : Nat → Nat) : ((List.range n).flatMap fun t => chunk F (f t)).length = 8 * n := by
  rw [List.length_flatMap, List.map_congr_left (g := fun _ => 8) (fun j _ => by simp [chunk])]
  simp [Nat.mul_comm]

theorem byteOrder_data (nd nb ne : Nat) {t : Nat} (h : t < nd) : byteOrder nd nb ne t = byteOrder nd nb 0 t := by
  unfold byteOrder
  split
  · rfl
  · rfl

theorem lplanBits_eq {v : Nat} (h1 : 1 ≤ v) (h2 : v ≤ 40) (l : Level) :
    lplanBits v l = some ((List.range (vinfo v).bytes).flatMap fun t =>
      chunk (codePixel (dataBytes v l)) (byteOrder (dataBytes v l) (numBlocks v l) (eccPerBlock v l) t)) := by
  have t := vl h1 h2 l
  have hlt := t.lt
  have hnd := t.nd
  have hpos := t.pos
  unfold lplanBits
  simp only [t.nb, t.ne, Nat.mul_comm (eccPerBlock v l) (numBlocks v l)]
  rw [← hnd]
  generalize numBlocks v l = nb at *
  generalize eccPerBlock v l = ne at *
  generalize dataBytes v l = nd at *
  generalize (vinfo v).bytes = total at *
  have hdm : nd / nb * nb + nd % nb = nd := by rw [Nat.mul_comm]; exact Nat.div_add_mod nd nb
  rw [hdm]
  have c1 := cut_spec (codePixel nd) (fun j => 8 * blockStart nd nb j) (fun j => 8 * blockLen nd nb j)
    (fun j => by simp only [blockStart_succ]; omega) (nd * 8) nb 0 (by simp only [Nat.zero_add, blockStart_end hpos]; omega)
  have c2 := cut_spec (codePixel nd) (fun j => 8 * (nd + j * ne)) (fun _ => 8 * ne)
    (fun j => by rw [Nat.add_mul]; omega) (8 * (nd + nb * ne)) nb 0 (by simp only [Nat.zero_add])
  rw [← List.range_eq_range'] at c1 c2
  have g1 : (List.map (fun i => ({ role := .data, offset := i } : Pixel)) (List.range (nd * 8))) =
      (List.range (nd * 8 - 8 * blockStart nd nb 0)).map fun t => codePixel nd (8 * blockStart nd nb 0 + t) := by
    have : blockStart nd nb 0 = 0 := by simp [blockStart]
    rw [this]
    simp only [Nat.mul_zero, Nat.sub_zero, Nat.zero_add]
    apply List.map_congr_left
    intro a ha
    rw [List.mem_range] at ha
    rw [codePixel, if_pos (by omega)]
  have g2 : (List.map (fun i => ({ role := .check, offset := i + nd * 8 } : Pixel)) (List.range (nb * ne * 8))) =
      (List.range (8 * (nd + nb * ne) - 8 * (nd + 0 * ne))).map fun t => codePixel nd (8 * (nd + 0 * ne) + t) := by
    rw [Nat.zero_mul, Nat.add_zero, show 8 * (nd + nb * ne) - 8 * nd = nb * ne * 8 by rw [Nat.mul_add]; omega]
    apply List.map_congr_left
    intro a ha
    rw [codePixel, if_neg (by omega), Nat.add_comm a, Nat.mul_comm nd]
  have g3 : (List.map (fun i => (if i ≥ nb - nd % nb then nd / nb + 1 else nd / nb) * 8) (List.range nb)) =
      (List.range nb).map fun j => 8 * blockLen nd nb j := by
    apply List.map_congr_left
    intro a _
    unfold blockLen
    split <;> omega
  have g4 : (List.map (fun _ => ne * 8) (List.range nb)) = (List.range nb).map fun _ => 8 * ne := by
    apply List.map_congr_left
    intro a _
    omega
  rw [g1, g2, g3, g4, c1, c2]
  simp only [List.length_nil, ne_eq, not_true_eq_false, or_self, if_false]
  rw [interleave_spec (codePixel nd) (blockStart nd nb) (blockLen nd nb), interleave_data _ hpos]
  have i2 := interleave_spec (codePixel nd) (fun j => nd + j * ne) (fun _ => ne) ne nb
  rw [i2]
  have i3 : ((List.range ne).flatMap fun i => (List.range nb).flatMap fun j => if i < ne then chunk (codePixel nd) (nd + j * ne + i) else []) =
      (List.range (ne * nb)).flatMap fun t => chunk (codePixel nd) (byteOrder nd nb ne (nd + t)) := by
    rw [flatMap_congr' (g := fun i => (List.range nb).flatMap fun j => chunk (codePixel nd) (nd + j * ne + i))]
    · rw [range_flatMap_mul nb hpos (fun i j => chunk (codePixel nd) (nd + j * ne + i))]
      apply flatMap_congr'
      intro t ht
      rw [byteOrder, if_neg (by omega), if_neg (by omega), Nat.add_sub_cancel_left]
    · intro i hi
      rw [List.mem_range] at hi
      apply flatMap_congr'
      intro j _
      rw [if_pos hi]
  rw [i3]
  rw [flatMap_congr' (l := List.range nd) (g := fun t => chunk (codePixel nd) (byteOrder nd nb ne t))
    (fun a ha => by rw [byteOrder_data nd nb ne (List.mem_range.1 ha)])]
  rw [← range_flatMap_add nd (ne * nb) (fun t => chunk (codePixel nd) (byteOrder nd nb ne t))]
  rw [flatMap_chunk_length]
  have e : nd + ne * nb = total := by rw [Nat.mul_comm]; omega
  rw [if_neg (by rw [Nat.mul_comm nb ne]; omega), e]

/-! ### The order is a permutation -/

theorem exists_block {nd nb o : Nat} (hb : 0 < nb) (ho : o < nd) : ∃ j < nb, blockStart nd nb j ≤ o ∧ o < blockStart nd nb j + blockLen nd nb j := by
  have key : ∀ k, k ≤ nb → o < blockStart nd nb k → ∃ j < k, blockStart nd nb j ≤ o ∧ o < blockStart nd nb j + blockLen nd nb j := by
    intro k
    induction k with
    | zero => intro _ h; simp [blockStart] at h
    | succ k ih =>
      intro hk h
      rw [blockStart_succ] at h
      by_cases hc : blockStart nd nb k ≤ o
      · exact ⟨k, by omega, hc, h⟩
      · obtain ⟨j, hj, hh⟩ := ih (by omega) (by omega)
        exact ⟨j, by omega, hh⟩
  exact key nb (Nat.le_refl _) (by rw [blockStart_end hb]; exact ho)

/-- Position of byte `i` of data block `j`. -/
theorem byteOrder_at_data {nd nb ne i j : Nat} (hb : 0 < nb) (hj : j < nb) (hi : i < nd / nb) :
    i * nb + j < nd ∧ byteOrder nd nb ne (i * nb + j) = blockStart nd nb j + i := by
  have h1 : (i + 1) * nb ≤ nd / nb * nb := Nat.mul_le_mul_right _ hi
  rw [Nat.add_mul, Nat.one_mul] at h1
  have h2 : nd / nb * nb ≤ nd := Nat.div_mul_le_self _ _
  refine ⟨by omega, ?_⟩
  rw [byteOrder, if_pos (by omega), Nat.mul_comm i nb, Nat.mul_add_div hb, Nat.mul_add_mod, Nat.div_eq_of_lt hj, Nat.mod_eq_of_lt hj, Nat.add_zero]

theorem byteOrder_at_last {nd nb ne j : Nat} (hb : 0 < nb) (hj : j < nb) (hl : nb - nd % nb ≤ j) :
    nd / nb * nb + (j - (nb - nd % nb)) < nd ∧
    byteOrder nd nb ne (nd / nb * nb + (j - (nb - nd % nb))) = blockStart nd nb j + nd / nb := by
  have hm := Nat.mod_lt nd hb
  have hdm : nd / nb * nb + nd % nb = nd := by rw [Nat.mul_comm]; exact Nat.div_add_mod nd nb
  refine ⟨by omega, ?_⟩
  rw [byteOrder, if_neg (by omega), if_pos (by omega)]
  congr 2
  omega

theorem byteOrder_at_check {nd nb ne i j : Nat} (hb : 0 < nb) (hj : j < nb) :
    byteOrder nd nb ne (nd + i * nb + j) = nd + j * ne + i := by
  have h2 : nd / nb * nb ≤ nd := Nat.div_mul_le_self _ _
  rw [byteOrder, if_neg (by omega), if_neg (by omega), show nd + i * nb + j - nd = nb * i + j by rw [Nat.mul_comm]; omega, Nat.mul_add_div hb,
    Nat.mul_add_mod, Nat.div_eq_of_lt hj, Nat.mod_eq_of_lt hj, Nat.add_zero]

theorem byteOrder_surj {nd nb ne o : Nat} (hb : 0 < nb) (ho : o < nd + nb * ne) : ∃ t < nd + nb * ne, byteOrder nd nb ne t = o := by
  by_cases h : o < nd
  · obtain ⟨j, hj, h1, h2⟩ := exists_block hb h
    obtain ⟨i, rfl⟩ := Nat.exists_eq_add_of_le h1
    have hi : i < blockLen nd nb j := by omega
    rcases blockLen_pos_iff.1 hi with hi | ⟨rfl, hl⟩
    · obtain ⟨a, b⟩ := byteOrder_at_data (ne := ne) hb hj hi
      exact ⟨_, by omega, b⟩
    · obtain ⟨a, b⟩ := byteOrder_at_last (ne := ne) hb hj hl
      exact ⟨_, by omega, b⟩
  · have hne : 0 < ne := by
      rcases Nat.eq_zero_or_pos ne with h0 | h0
      · subst h0; omega
      · exact h0
    have hj : (o - nd) / ne < nb := by
      rw [Nat.div_lt_iff_lt_mul hne]; omega
    have hi := Nat.mod_lt (o - nd) hne
    have hdm := Nat.div_add_mod (o - nd) ne
    refine ⟨nd + ((o - nd) % ne) * nb + (o - nd) / ne, ?_, ?_⟩
    · have : ((o - nd) % ne + 1) * nb ≤ ne * nb := Nat.mul_le_mul_right _ hi
      rw [Nat.add_mul, Nat.one_mul, Nat.mul_comm ne nb] at this
      omega
    · rw [byteOrder_at_check hb hj, Nat.mul_comm, Nat.add_assoc, hdm]; omega

theorem byteOrder_perm {nd nb ne : Nat} (hb : 0 < nb) :
    ((List.range (nd + nb * ne)).map (byteOrder nd nb ne)).Perm (List.range (nd + nb * ne)) := by
  have hsub : List.Subperm (List.range (nd + nb * ne)) ((List.range (nd + nb * ne)).map (byteOrder nd nb ne)) := by
    apply List.Nodup.subperm List.nodup_range
    intro o ho
    rw [List.mem_range] at ho
    obtain ⟨t, ht, e⟩ := byteOrder_surj hb ho
    exact List.mem_map.2 ⟨t, List.mem_range.2 ht, e⟩
  exact (List.Subperm.perm_of_length_le hsub (by simp)).symm

end Verif.QR
