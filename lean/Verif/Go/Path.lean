import Verif.Go.Basic
import Mathlib.Data.List.Basic
import Mathlib.Data.List.Induction
import Mathlib.Data.List.TakeWhile
/-
Package path/filepath on Unix (Clean, Join, Dir) and the base name os.Lstat gives to a file, as functions on strings. `Clean` is modelled by
its documented effect on the elements of the path, not by its byte loop.
-/
namespace Verif

/-- `/` -/
def slash : UInt8 := 47

/-- The elements of a path: the strings between slashes (as `strings.Split(s, "/")`). -/
def splitSlash : Str → List Str
  | [] => [[]]
  | b :: s => if b = slash then [] :: splitSlash s else match splitSlash s with
    | [] => [[b]]
    | p :: ps => (b :: p) :: ps

/-- Elements put together with slashes. -/
def joinSlash : List Str → Str
  | [] => []
  | [p] => p
  | p :: ps => p ++ slash :: joinSlash ps

/-- `Clean`, one element (`stack` is the cleaned path so far, last element first): empty elements and `.` are dropped, `..` removes the element
before it, except at the beginning of a path that is not rooted, where it is kept. -/
def pushPart (rooted : Bool) (stack : List Str) (p : Str) : List Str :=
  if p = [] ∨ p = lit "." then stack
  else if p = lit ".." then match stack with
    | [] => if rooted then [] else [p]
    | q :: st => if q = lit ".." then p :: q :: st else st
  else p :: stack

/-- The elements of a cleaned path. -/
def cleanParts (rooted : Bool) (ps : List Str) : List Str := (ps.foldl (pushPart rooted) []).reverse

/-- Go `filepath.IsAbs`. -/
def isRooted : Str → Bool
  | b :: _ => b == slash
  | [] => false

/-- The path with the given elements. -/
def renderPath (rooted : Bool) (ps : List Str) : Str :=
  if rooted then slash :: joinSlash ps else if ps = [] then lit "." else joinSlash ps

/-- Go `filepath.Clean`. -/
def clean (s : Str) : Str := renderPath (isRooted s) (cleanParts (isRooted s) (splitSlash s))

/-- Go `filepath.Join` of two elements. -/
def joinPath (a b : Str) : Str := if a = [] then (if b = [] then [] else clean b) else clean (a ++ slash :: b)

/-- The part of a path up to and including its last slash. -/
def upToSlash (p : Str) : Str := (p.reverse.dropWhile (· ≠ slash)).reverse

/-- Go `filepath.Dir`. -/
def dirOf (p : Str) : Str := clean (upToSlash p)

/-- The name `os.Lstat` gives to a file: the last element, trailing slashes removed. -/
def baseName (p : Str) : Str :=
  let q := (p.reverse.dropWhile (· = slash)).reverse
  if q = [] then (if p = [] then [] else [slash]) else (q.reverse.takeWhile (· ≠ slash)).reverse

/-- A string that can be the name of a file. -/
def GoodName (n : Str) : Prop := n ≠ [] ∧ n ≠ lit "." ∧ n ≠ lit ".." ∧ slash ∉ n

instance (n : Str) : Decidable (GoodName n) := inferInstanceAs (Decidable (_ ∧ _ ∧ _ ∧ _))

/-! ### Facts -/

theorem splitSlash_ne_nil (s : Str) : splitSlash s ≠ [] := by
  cases s with
  | nil => simp [splitSlash]
  | cons b s =>
    rw [splitSlash]
    split
    · simp
    · split <;> simp

theorem splitSlash_append (s t : Str) : splitSlash (s ++ slash :: t) = splitSlash s ++ splitSlash t := by
  induction s with
  | nil => simp [splitSlash]
  | cons b s ih =>
    rw [List.cons_append, splitSlash, splitSlash, ih]
    split
    · rfl
    · have := splitSlash_ne_nil s
      cases h : splitSlash s with
      | nil => exact absurd h this
      | cons p ps => rfl

theorem splitSlash_noslash {s : Str} (h : slash ∉ s) : splitSlash s = [s] := by
  induction s with
  | nil => rfl
  | cons b s ih =>
    rw [List.mem_cons, not_or] at h
    rw [splitSlash, if_neg (fun e => h.1 e.symm), ih h.2]

theorem joinSlash_append : ∀ (ps : List Str) (q : Str), ps ≠ [] → joinSlash (ps ++ [q]) = joinSlash ps ++ slash :: q
  | [], _, h => absurd rfl h
  | [p], q, _ => rfl
  | p :: p' :: ps, q, _ => by
    have ih := joinSlash_append (p' :: ps) q (by simp)
    change p ++ slash :: joinSlash (p' :: ps ++ [q]) = (p ++ slash :: joinSlash (p' :: ps)) ++ slash :: q
    rw [ih]; simp

theorem splitSlash_join : ∀ (ps : List Str), ps ≠ [] → (∀ p ∈ ps, slash ∉ p) → splitSlash (joinSlash ps) = ps
  | [], h, _ => absurd rfl h
  | [p], _, h => splitSlash_noslash (h p List.mem_cons_self)
  | p :: p' :: ps, _, h => by
    rw [joinSlash, splitSlash_append, splitSlash_noslash (h p List.mem_cons_self), splitSlash_join (p' :: ps) (by simp) (fun q hq => h q (List.mem_cons_of_mem _ hq))]
    · rfl
    · simp

theorem isRooted_append {s t : Str} (h : s ≠ []) : isRooted (s ++ t) = isRooted s := by
  cases s with
  | nil => exact absurd rfl h
  | cons b s => rfl

theorem pushPart_good {n : Str} (h : GoodName n) (r : Bool) (st : List Str) : pushPart r st n = n :: st := by
  obtain ⟨h1, h2, h3, -⟩ := h
  unfold pushPart
  rw [if_neg (by rintro (h | h) <;> contradiction), if_neg h3]

theorem cleanParts_snoc {n : Str} (h : GoodName n) (r : Bool) (ps : List Str) : cleanParts r (ps ++ [n]) = cleanParts r ps ++ [n] := by
  unfold cleanParts
  rw [List.foldl_append, List.foldl_cons, List.foldl_nil, pushPart_good h, List.reverse_cons]

theorem cleanParts_good (r : Bool) : ∀ ps : List Str, (∀ p ∈ ps, GoodName p) → cleanParts r ps = ps := by
  intro ps
  induction ps using List.reverseRecOn with
  | nil => intro _; rfl
  | append_singleton ps p ih =>
    intro h
    rw [cleanParts_snoc (h p (by simp)), ih (fun q hq => h q (by simp [hq]))]

/-- A path to which elements can be appended: cleaned, and not `.` or `/`. -/
def CleanDir (r : Str) : Prop := clean r = r ∧ r ≠ lit "." ∧ r ≠ [slash]

theorem renderPath_snoc (r : Bool) (ps : List Str) (n : Str) (h : ps ≠ []) : renderPath r (ps ++ [n]) = renderPath r ps ++ slash :: n := by
  unfold renderPath
  rw [if_neg (by simp : ps ++ [n] ≠ []), if_neg h, joinSlash_append ps n h]
  split <;> simp

theorem CleanDir.ne_nil {r : Str} (h : CleanDir r) : r ≠ [] := by
  rintro rfl
  exact absurd h.1 (by decide)

theorem CleanDir.join {r n : Str} (h : CleanDir r) (hn : GoodName n) : joinPath r n = r ++ slash :: n := by
  have hr := h.ne_nil
  unfold joinPath
  rw [if_neg hr]
  unfold clean
  rw [isRooted_append hr, splitSlash_append, splitSlash_noslash hn.2.2.2, cleanParts_snoc hn]
  have hne : cleanParts (isRooted r) (splitSlash r) ≠ [] := by
    intro e
    have h1 := h.1
    unfold clean renderPath at h1
    rw [e] at h1
    split at h1
    · exact h.2.2 h1.symm
    · exact h.2.1 (by rw [← h1]; rfl)
  rw [renderPath_snoc _ _ _ hne]
  congr 1
  exact h.1

theorem CleanDir.snoc {r n : Str} (h : CleanDir r) (hn : GoodName n) : CleanDir (r ++ slash :: n) := by
  have hr := h.ne_nil
  refine ⟨?_, ?_, ?_⟩
  · have := h.join hn
    unfold joinPath at this
    rwa [if_neg hr] at this
  · intro e
    have := congrArg List.length e
    simp only [List.length_append, List.length_cons] at this
    have h2 : (lit ".").length = 1 := rfl
    have := List.length_pos_iff.2 hr
    omega
  · intro e
    have := congrArg List.length e
    simp only [List.length_append, List.length_cons, List.length_nil] at this
    have := List.length_pos_iff.2 hr
    omega

theorem upToSlash_snoc (s : Str) (n : Str) (h : slash ∉ n) : upToSlash (s ++ slash :: n) = s ++ [slash] := by
  unfold upToSlash
  rw [List.reverse_append, List.reverse_cons, List.append_assoc]
  rw [List.dropWhile_append_of_pos]
  · simp
  · intro b hb
    rw [List.mem_reverse] at hb
    simp only [ne_eq, decide_not, Bool.not_eq_eq_eq_not, Bool.not_true, decide_eq_false_iff_not]
    rintro rfl; exact h hb

theorem upToSlash_noslash (n : Str) (h : slash ∉ n) : upToSlash n = [] := by
  unfold upToSlash
  rw [List.dropWhile_eq_nil_iff.2]
  · rfl
  · intro b hb
    rw [List.mem_reverse] at hb
    simp only [ne_eq, decide_not, Bool.not_eq_eq_eq_not, Bool.not_true, decide_eq_false_iff_not]
    rintro rfl; exact h hb

theorem dirOf_single {n : Str} (h : slash ∉ n) : dirOf n = lit "." := by
  unfold dirOf
  rw [upToSlash_noslash n h]; decide

theorem isRooted_join {ps : List Str} (h : ∀ p ∈ ps, GoodName p) : isRooted (joinSlash ps) = false := by
  cases ps with
  | nil => rfl
  | cons p ps =>
    obtain ⟨h1, -, -, h2⟩ := h p List.mem_cons_self
    cases p with
    | nil => exact absurd rfl h1
    | cons b p =>
      have : (joinSlash ((b :: p) :: ps)) = b :: (joinSlash ((b :: p) :: ps)).tail := by cases ps <;> rfl
      rw [this]
      unfold isRooted
      rw [List.mem_cons, not_or] at h2
      simp only [beq_eq_false_iff_ne]
      exact fun e => h2.1 e.symm

theorem dirOf_join {ps : List Str} {n : Str} (hps : ps ≠ []) (h : ∀ p ∈ ps, GoodName p) (hn : GoodName n) : dirOf (joinSlash (ps ++ [n])) = joinSlash ps := by
  unfold dirOf
  rw [joinSlash_append ps n hps, upToSlash_snoc _ _ hn.2.2.2]
  have hne : joinSlash ps ≠ [] := by
    cases ps with
    | nil => exact absurd rfl hps
    | cons p ps =>
      intro e
      have : p = [] := by
        cases ps with
        | nil => exact e
        | cons q ps => simp [joinSlash] at e
      exact (h p List.mem_cons_self).1 this
  unfold clean
  rw [isRooted_append hne, isRooted_join h, splitSlash_append, splitSlash_join ps hps (fun p hp => (h p hp).2.2.2)]
  have : cleanParts false (ps ++ splitSlash []) = ps := by
    change cleanParts false (ps ++ [[]]) = ps
    unfold cleanParts
    rw [List.foldl_append, List.foldl_cons, List.foldl_nil]
    have : ∀ st, pushPart false st [] = st := by intro st; unfold pushPart; rw [if_pos (Or.inl rfl)]
    rw [this]
    exact cleanParts_good false ps h
  rw [this]
  unfold renderPath
  rw [if_neg (by simp), if_neg hps]

end Verif
