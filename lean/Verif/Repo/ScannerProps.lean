import Verif.Repo.Scanner
import Verif.Repo.Props
/-
C124: reading a file in pieces.
-/
namespace Verif.Repo
open Spec

/-- What holds between two rounds. -/
structure Scanner.Inv (s : Scanner) : Prop where
  size : s.size ≤ 65536
  fits : s.start + s.data.length ≤ s.size
  eof : s.err = true → s.rest = [] ∧ s.data.length < 65536

/-- Rounds to go. -/
def Scanner.todo (s : Scanner) : Nat := 2 * s.rest.length + s.data.length + (if s.err then 0 else 1) + 1

theorem rawLines_newline (l r : Str) (h : (10 : UInt8) ∉ l) : rawLines (l ++ 10 :: r) = l :: rawLines r := by
  induction l with
  | nil => simp [rawLines]
  | cons b l ih =>
    have h1 : b ≠ 10 := fun e => h (by simp [e])
    rw [List.cons_append, rawLines, if_neg h1, ih (fun e => h (by simp [e]))]

theorem rawLines_last (l : Str) (h : (10 : UInt8) ∉ l) (hne : l ≠ []) : rawLines l = [l] := by
  induction l with
  | nil => exact absurd rfl hne
  | cons b l ih =>
    have h1 : b ≠ 10 := fun e => h (by simp [e])
    rw [rawLines, if_neg h1]
    by_cases hl : l = []
    · subst hl; rfl
    · rw [ih (fun e => h (by simp [e])) hl]

theorem rawLines_long (l r : Str) (h : (10 : UInt8) ∉ l) (hne : l ≠ []) : ∃ x ls, rawLines (l ++ r) = (l ++ x) :: ls := by
  induction l with
  | nil => exact absurd rfl hne
  | cons b l ih =>
    have h1 : b ≠ 10 := fun e => h (by simp [e])
    rw [List.cons_append, rawLines, if_neg h1]
    by_cases hl : l = []
    · subst hl
      rw [List.nil_append]
      cases rawLines r with
      | nil => exact ⟨[], [], by simp⟩
      | cons p ps => exact ⟨p, ps, rfl⟩
    · obtain ⟨x, ls, e⟩ := ih (fun e => h (by simp [e])) hl
      rw [e]
      exact ⟨x, ls, rfl⟩

theorem split_idxOf (data : Str) (h : (10 : UInt8) ∈ data) : data = data.take (data.idxOf 10) ++ 10 :: data.drop (data.idxOf 10 + 1) ∧ (10 : UInt8) ∉ data.take (data.idxOf 10) := by
  have hl := List.idxOf_lt_length_iff.2 h
  constructor
  · conv_lhs => rw [← List.take_append_drop (data.idxOf 10) data]
    rw [List.drop_eq_getElem_cons hl, List.getElem_idxOf hl]
  · intro hm
    obtain ⟨i, hi, e⟩ := List.getElem_of_mem hm
    rw [List.getElem_take] at e
    rw [List.length_take] at hi
    have := List.not_of_lt_findIdx (p := (· == (10 : UInt8))) (xs := data) (i := i) (by unfold List.idxOf at hi; omega)
    simp [e] at this

/-- One read. -/
theorem read_spec (sizes : Nat → Nat) (s : Scanner) (hi : s.Inv) (he : s.err = false) (hroom : s.start + s.data.length < s.size) :
    ∃ s', s.read sizes = (.again, s') ∧ s'.Inv ∧ s'.todo < s.todo ∧ s'.data ++ s'.rest = s.data ++ s.rest := by
  unfold Scanner.read
  have hsz := hi.size
  split
  · rename_i hr
    refine ⟨_, rfl, ⟨hi.size, hi.fits, fun _ => ⟨hr, ?_⟩⟩, ?_, rfl⟩
    · show s.data.length < 65536
      omega
    · simp [Scanner.todo, he]
  · rename_i hr
    refine ⟨_, rfl, ⟨hi.size, ?_, fun h => ?_⟩, ?_, ?_⟩
    · simp only [List.length_append, List.length_take]
      omega
    · rw [he] at h; cases h
    · have : 0 < s.rest.length := List.length_pos_iff.2 hr
      simp only [Scanner.todo, List.length_append, List.length_take, List.length_drop]
      omega
    · simp only [List.append_assoc, List.take_append_drop]

theorem fill_spec (sizes : Nat → Nat) (s : Scanner) (hi : s.Inv) (he : s.err = false) (hn : (10 : UInt8) ∉ s.data) :
    (∃ s', s.fill sizes = (.again, s') ∧ s'.Inv ∧ s'.todo < s.todo ∧ s'.data ++ s'.rest = s.data ++ s.rest) ∨
    (∃ s', s.fill sizes = (.stop, s') ∧ s.data.length = 65536) := by
  unfold Scanner.fill
  rw [if_neg (by rw [he]; simp)]
  have hsz := hi.size
  have hft := hi.fits
  simp only
  split
  · rename_i hc
    simp only [Nat.zero_add]
    split
    · omega
    · rename_i h2
      left
      obtain ⟨s', e, h⟩ := read_spec sizes { s with start := 0 } ⟨hi.size, by show 0 + s.data.length ≤ s.size; omega, hi.eof⟩ he (by show 0 + s.data.length < s.size; omega)
      exact ⟨s', e, h⟩
  · split
    · rename_i hc h2
      have h0 : s.start = 0 := by omega
      split
      · right
        exact ⟨_, rfl, by omega⟩
      · left
        have hsz2 : s.size < min (if s.size * 2 = 0 then 4096 else s.size * 2) 65536 := by
          split <;> omega
        obtain ⟨s', e, h⟩ := read_spec sizes { s with size := min (if s.size * 2 = 0 then 4096 else s.size * 2) 65536, start := 0 }
          ⟨by show min _ 65536 ≤ 65536; omega, by show 0 + s.data.length ≤ min _ 65536; omega, hi.eof⟩ he (by show 0 + s.data.length < min _ 65536; omega)
        exact ⟨s', e, h⟩
    · left
      exact read_spec sizes s hi he (by omega)

theorem scannerLines_cons (l r : Str) (h : (10 : UInt8) ∉ l) (hl : l.length < 65536) : scannerLines (l ++ 10 :: r) = dropCR l :: scannerLines r := by
  rw [scannerLines, rawLines_newline l r h, List.takeWhile_cons_of_pos (by simp [hl]), List.map_cons]
  rfl

theorem tokens_spec (sizes : Nat → Nat) (n : Nat) : ∀ s : Scanner, s.Inv → s.todo ≤ n → Scanner.tokens sizes n s = (scannerLines (s.data ++ s.rest), true) := by
  induction n with
  | zero => intro s _ h; simp [Scanner.todo] at h
  | succ n ih =>
    intro s hi hn
    rw [Scanner.tokens]
    have hfillcase : s.err = false → (10 : UInt8) ∉ s.data → s.round sizes = s.fill sizes → (match s.round sizes with
        | (.token t, s) => (t :: (Scanner.tokens sizes n s).1, (Scanner.tokens sizes n s).2)
        | (.stop, _) => ([], true)
        | (.again, s) => Scanner.tokens sizes n s) = (scannerLines (s.data ++ s.rest), true) := by
      intro he hnm hr
      rw [hr]
      rcases fill_spec sizes s hi he hnm with ⟨s', e, h1, h2, h3⟩ | ⟨s', e, h1⟩
      · rw [e]
        simp only
        rw [ih s' h1 (by omega), h3]
      · rw [e]
        simp only
        have hne : s.data ≠ [] := by rintro h; rw [h] at h1; simp at h1
        obtain ⟨x, ls, e2⟩ := rawLines_long s.data s.rest hnm hne
        rw [scannerLines, e2, List.takeWhile_cons_of_neg (by simp; omega)]
        rfl
    by_cases hm : (10 : UInt8) ∈ s.data
    · have hd : s.data ≠ [] := List.ne_nil_of_mem hm
      have hr : s.round sizes = (.token (dropCR (s.data.take (s.data.idxOf 10))), { s with start := s.start + (s.data.idxOf 10 + 1), data := s.data.drop (s.data.idxOf 10 + 1) }) := by
        unfold Scanner.round
        rw [if_pos (Or.inl hd)]
        unfold splitLine
        rw [if_neg (by rintro ⟨-, h⟩; exact hd h), if_pos hm]
      rw [hr]
      simp only
      have hlt := List.idxOf_lt_length_iff.2 hm
      have hsz := hi.size
      have hft := hi.fits
      obtain ⟨e1, e2⟩ := split_idxOf s.data hm
      rw [ih { s with start := s.start + (s.data.idxOf 10 + 1), data := s.data.drop (s.data.idxOf 10 + 1) } ⟨hi.size, by simp only [List.length_drop]; omega, fun h => ⟨(hi.eof h).1, by have := (hi.eof h).2; simp only [List.length_drop]; omega⟩⟩
        (by simp only [Scanner.todo, List.length_drop] at hn ⊢; omega)]
      conv_rhs => rw [e1, List.append_assoc, List.cons_append]
      rw [scannerLines_cons _ _ e2 (by rw [List.length_take]; omega)]
    · cases he : s.err with
      | false =>
        refine hfillcase he hm ?_
        unfold Scanner.round
        split
        · unfold splitLine
          rw [if_neg (by rw [he]; simp), if_neg hm, he, if_neg (by simp)]
        · rfl
      | true =>
        obtain ⟨hrest, hlen⟩ := hi.eof he
        rw [hrest, List.append_nil]
        by_cases hd : s.data = []
        · have hr : s.round sizes = (.stop, { s with start := 0, data := [] }) := by
            unfold Scanner.round
            rw [if_pos (Or.inr he)]
            unfold splitLine
            rw [if_pos ⟨he, hd⟩]
            simp only [Scanner.fill, he, if_true]
          rw [hr, hd]
          rfl
        · have hr : s.round sizes = (.token (dropCR s.data), { s with start := s.start + s.data.length, data := s.data.drop s.data.length }) := by
            unfold Scanner.round
            rw [if_pos (Or.inr he)]
            unfold splitLine
            rw [if_neg (by rintro ⟨-, h⟩; exact hd h), if_neg hm, he, if_pos rfl]
          rw [hr]
          simp only
          have hft := hi.fits
          have hpos : 0 < s.data.length := List.length_pos_iff.2 hd
          rw [ih { s with start := s.start + s.data.length, data := s.data.drop s.data.length } ⟨hi.size, by simp only [List.drop_length, List.length_nil]; omega, fun _ => ⟨hrest, by simp⟩⟩
            (by simp only [Scanner.todo, List.drop_length, List.length_nil] at hn ⊢; omega)]
          simp only [List.drop_length, List.nil_append, hrest]
          rw [scannerLines, scannerLines, rawLines_last s.data hm hd, List.takeWhile_cons_of_pos (by simp [hlen])]
          rfl

/-- **C124** (as far as it holds) Whatever the sizes of the reads are, the scanner delivers the same lines of a file, those of `scannerLines` (C46), and then stops. -/
theorem C124_pieces_partial (c : Str) (sizes : Nat → Nat) (rounds : Nat) (h : 2 * c.length + 2 ≤ rounds) : (newScanner c).tokens sizes rounds = (scannerLines c, true) := by
  rw [tokens_spec sizes rounds (newScanner c) ⟨by simp [newScanner], by simp [newScanner], by simp [newScanner]⟩ (by simp [Scanner.todo, newScanner]; omega)]
  rfl

/-- **C124** (as far as it holds) So what `GetFileContentByLine` does with a file does not depend on the sizes of the reads either. -/
theorem C124_file_partial {σ : Type} (w : World) (filename c : Str) (hat : w.at filename = .node (.file c)) (sizes : Nat → Nat) (handle : σ → Nat → Str → σ × CbErr) (st : σ) :
    readLines sizes c true handle st = getFileContentByLine w filename handle st := by
  unfold readLines getFileContentByLine
  rw [hat, C124_pieces_partial c sizes _ (Nat.le_refl _)]

/-- **C124** is false if reading fails: the callback gets what was read of the line as if it were a line, and no error is returned. Here a file with the line `password` of which four
bytes can be read. -/
theorem C124_error_hidden_false (sizes : Nat → Nat) :
    readLines sizes (lit "pass") false (fun (l : List (Nat × Str)) n line => (l ++ [(n, line)], .nil)) [] = ([(1, lit "pass")], false) ∧
    lit "pass" <+: lit "password" ∧ scannerLines (lit "password") = [lit "password"] := by
  refine ⟨?_, ⟨lit "word", by decide⟩, by decide +kernel⟩
  unfold readLines
  rw [C124_pieces_partial _ sizes _ (Nat.le_refl _)]
  decide +kernel

end Verif.Repo
