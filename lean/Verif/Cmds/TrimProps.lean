import Verif.Go.Strings
import Verif.Glob.RuneStr
import Verif.Repo.ReadProps
/-
What `strings.TrimSpace` leaves of the name of a variable, and reading a path at which no file is.
-/
namespace Verif.Cmds
open Verif.Glob

/-- The code points that Unicode calls white space (property White_Space): tab, line feed, vertical tab, form feed, carriage return, space,
next line, no-break space, Ogham space mark, the spaces U+2000 to U+200A, line and paragraph separator, narrow no-break space, medium
mathematical space, ideographic space. -/
def whiteSpace : List Nat := [0x09, 0x0A, 0x0B, 0x0C, 0x0D, 0x20, 0x85, 0xA0, 0x1680, 0x2000, 0x2001, 0x2002, 0x2003, 0x2004, 0x2005, 0x2006, 0x2007,
  0x2008, 0x2009, 0x200A, 0x2028, 0x2029, 0x202F, 0x205F, 0x3000]

theorem isSpace_iff (r : Nat) : isSpace r = true ↔ r ∈ whiteSpace := by
  simp only [isSpace, whiteSpace, Bool.or_eq_true, Bool.and_eq_true, decide_eq_true_eq, List.mem_cons, List.not_mem_nil, or_false]
  omega

theorem chunksAux_fuel : ∀ (n m : Nat) (s : Str), s.length ≤ n → s.length ≤ m → chunksAux n s = chunksAux m s
  | n, m, [], _, _ => by cases n <;> cases m <;> rfl
  | 0, _, b :: s, h, _ => by simp at h
  | _, 0, b :: s, _, h => by simp at h
  | n + 1, m + 1, b :: s, h1, h2 => by
    rw [chunksAux, chunksAux]
    have h3 := (decodeRune_size (b :: s)).2 (by simp)
    rw [chunksAux_fuel n m _ (by rw [List.length_drop]; simp at h1 ⊢; omega) (by rw [List.length_drop]; simp at h2 ⊢; omega)]

theorem chunksAux_append (n r : Nat) (t : Str) (h : validRune r = true) : chunksAux (n + 1) (encodeRune r ++ t) = (encodeRune r, r) :: chunksAux n t := by
  have hd := decode_valid h t
  have hdrop : (encodeRune r ++ t).drop (encodeRune r).length = t := List.drop_left
  have htake : (encodeRune r ++ t).take (encodeRune r).length = encodeRune r := List.take_left
  generalize hx : encodeRune r ++ t = x at *
  cases x with
  | nil => rw [List.append_eq_nil_iff] at hx; exact absurd hx.1 (encode_ne_nil r)
  | cons b x => rw [chunksAux, hd, hdrop, htake]

theorem chunks_enc {w : List Nat} (h : Scalars w) : chunks (enc w) = w.map fun r => (encodeRune r, r) := by
  induction w with
  | nil => rfl
  | cons r w ih =>
    rw [scalars_cons] at h
    have hp := encodeRune_pos r
    rw [enc_cons, List.map_cons, ← ih h.2]
    unfold chunks
    obtain ⟨n, hn⟩ : ∃ n, (encodeRune r ++ enc w).length = n + 1 := ⟨(encodeRune r ++ enc w).length - 1, by rw [List.length_append]; omega⟩
    rw [hn, chunksAux_append n r _ h.1, chunksAux_fuel n (enc w).length (enc w) (by rw [List.length_append] at hn; omega) (Nat.le_refl _)]

theorem dropWhile_left {α : Type} (p : α → Bool) : ∀ (a l : List α), (∀ x ∈ a, p x = true) → (∀ x, l.head? = some x → p x = false) → (a ++ l).dropWhile p = l
  | [], l, _, hl => by
    cases l with
    | nil => rfl
    | cons x l => rw [List.nil_append, List.dropWhile_cons, hl x rfl]; rfl
  | y :: a, l, ha, hl => by
    rw [List.cons_append, List.dropWhile_cons, ha y (by simp), if_pos rfl]
    exact dropWhile_left p a l (fun x hx => ha x (by simp [hx])) hl

/-- **C80** `TrimSpace` on every valid UTF-8 string: it takes away exactly the white space of Unicode at both ends. (A name consists of `w`, with
white space `a` before and `b` after it; `w` may be empty only if nothing but white space is given, and then `b` is empty.) -/
theorem C80_name_trim (a w b : List Nat) (ha : ∀ r ∈ a, r ∈ whiteSpace) (hb : ∀ r ∈ b, r ∈ whiteSpace) (hw : Scalars w) (hb0 : w = [] → b = [])
    (hfirst : ∀ r, w.head? = some r → r ∉ whiteSpace) (hlast : ∀ r, w.getLast? = some r → r ∉ whiteSpace) : trimSpace (enc (a ++ w ++ b)) = enc w := by
  have hws : ∀ r ∈ whiteSpace, validRune r = true := by decide
  have hs : Scalars (a ++ w ++ b) := scalars_append.2 ⟨scalars_append.2 ⟨fun r hr => hws r (ha r hr), hw⟩, fun r hr => hws r (hb r hr)⟩
  have ns : ∀ {r}, r ∉ whiteSpace → isSpace r = false := by
    intro r h
    cases hh : isSpace r with
    | false => rfl
    | true => exact absurd ((isSpace_iff r).1 hh) h
  unfold trimSpace
  rw [chunks_enc hs, List.append_assoc, List.map_append, dropWhile_left _ (a.map _) _, List.map_append, List.reverse_append,
    dropWhile_left _ (b.map _).reverse _, List.reverse_reverse]
  · simp [enc, List.flatMap_map]
  · intro x hx
    simp only [List.mem_reverse, List.mem_map] at hx
    obtain ⟨r, hr, rfl⟩ := hx
    exact (isSpace_iff r).2 (hb r hr)
  · intro x hx
    rw [List.head?_reverse, List.getLast?_map] at hx
    cases hg : w.getLast? with
    | none => rw [hg] at hx; cases hx
    | some r => rw [hg] at hx; cases hx; exact ns (hlast r hg)
  · intro x hx
    simp only [List.mem_map] at hx
    obtain ⟨r, hr, rfl⟩ := hx
    exact (isSpace_iff r).2 (ha r hr)
  · intro x hx
    rw [List.head?_map] at hx
    cases w with
    | nil => rw [hb0 rfl] at hx; cases hx
    | cons r w => cases hx; exact ns (hfirst r rfl)

/-- The name " \tDB X\u00A0\r" is "DB X". -/
example : trimSpace (enc ([0x20, 0x09] ++ [0x44, 0x42, 0x20, 0x58] ++ [0xA0, 0x0D])) = lit "DB X" := by
  rw [C80_name_trim [0x20, 0x09] [0x44, 0x42, 0x20, 0x58] [0xA0, 0x0D] (by decide) (by decide) (by unfold Scalars; decide) (by decide) (by decide) (by decide)]
  decide

end Verif.Cmds

namespace Verif.Repo

/-- **C76** If no file can be opened at the path (nothing has this name, or a directory of the path is a file), the callback is never called and an
error is returned. -/
theorem C76_missing {σ : Type} (w : World) (filename : Str) (h : ∀ node, w.at filename ≠ .node node) (handle : σ → Nat → Str → σ × CbErr) (st : σ) :
    getFileContentByLine w filename handle st = (st, true) := by
  unfold getFileContentByLine
  cases hw : w.at filename with
  | noEnt => rfl
  | notDir => rfl
  | node n => exact absurd hw (h n)

/-- In a store with the file "a" the path "/a/b" goes through a file and "/c" does not exist. -/
example : ((∀ node, (⟨.dir [(lit "a", .file (lit "x"))], []⟩ : World).at (lit "/a/b") ≠ .node node)) ∧
    (∀ node, (⟨.dir [(lit "a", .file (lit "x"))], []⟩ : World).at (lit "/c") ≠ .node node) := by
  have h1 : (⟨.dir [(lit "a", .file (lit "x"))], []⟩ : World).at (lit "/a/b") = .notDir := by rfl
  have h2 : (⟨.dir [(lit "a", .file (lit "x"))], []⟩ : World).at (lit "/c") = .noEnt := by rfl
  exact ⟨fun _ h => (by rw [h1] at h; cases h), fun _ h => (by rw [h2] at h; cases h)⟩

end Verif.Repo
