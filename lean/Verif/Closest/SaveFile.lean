import Verif.Closest.JsonProps
/-
C148: `Save` (closestmatch.go:85-96) when writes fail or the process is killed, and `Load` (closestmatch.go:50-66) of what is then in the file.
-/
namespace Verif.Closest.Json

/-- compress/gzip: the calls of `Write` on the file while the text is written, those when the writer is closed (it compresses blocks, so most of a small text is
written only then), and what a reader delivers of a file before its end or an error. Nothing else is assumed of it than `whole` and `cut`. -/
structure Gzip where
  writing : Str → List Str
  closing : Str → List Str
  delivers : Str → Str
  /-- A file with all bytes delivers the text. -/
  whole : ∀ t, delivers (writing t ++ closing t).flatten = t
  /-- A file with the first bytes delivers a beginning of the text. -/
  cut : ∀ t p, p <+: (writing t ++ closing t).flatten → delivers p <+: t

/-- Calls of `Write` one after the other; `fails i` is the number of bytes after which the call number `i` fails. The writers of the standard library do not write
again after an error. The result has the bytes that are written and whether all calls succeeded. -/
def put (fails : Nat → Option Nat) : Nat → List Str → Str × Bool
  | _, [] => ([], true)
  | i, c :: cs => match fails i with
    | some k => (c.take k, false)
    | none => (c ++ (put fails (i + 1) cs).1, (put fails (i + 1) cs).2)

/-- closestmatch.go:85-96 `Save` of the text `t` (line 95): the content of the file afterwards and whether `nil` is returned. `old` is the content before, `none` if there
is no file; `created` says whether `os.Create` succeeds. The error of the deferred `w.Close` (line 92) is ignored. -/
def save (g : Gzip) (t : Str) (old : Option Str) (created : Bool) (fails : Nat → Option Nat) : Option Str × Bool :=
  if created = false then (old, false)
  else
    let w := put fails 0 (g.writing t)
    if w.2 then (some (w.1 ++ (put fails (g.writing t).length (g.closing t)).1), true) else (some w.1, false)

/-- The content of the file at some moment of a run of `Save`: the old content before line 86, then the bytes written so far. -/
def Moment (g : Gzip) (t : Str) (old : Option Str) (created : Bool) (fails : Nat → Option Nat) (now : Option Str) : Prop :=
  now = old ∨ created = true ∧ ∃ p e, now = some p ∧ (save g t old created fails).1 = some e ∧ p <+: e

/-- closestmatch.go:50-66 `Load`; `none` is an error. -/
def load (g : Gzip) (file : Option Str) : Option CM := file.bind fun b => decode (g.delivers b)

theorem put_prefix (fails : Nat → Option Nat) : ∀ (cs : List Str) (i : Nat), (put fails i cs).1 <+: cs.flatten ∧ ((put fails i cs).2 = true → (put fails i cs).1 = cs.flatten)
  | [], i => by simp [put]
  | c :: cs, i => by
    obtain ⟨h1, h2⟩ := put_prefix fails cs (i + 1)
    rw [put]
    cases fails i with
    | some k => exact ⟨by simp only [List.flatten_cons]; exact (List.take_prefix k c).trans (List.prefix_append _ _), nofun⟩
    | none =>
      simp only [List.flatten_cons]
      exact ⟨(List.prefix_append_right_inj c).2 h1, fun h => by rw [h2 h]⟩

theorem put_ok {fails : Nat → Option Nat} : ∀ (cs : List Str) (i : Nat), (∀ j, fails j = none) → put fails i cs = (cs.flatten, true)
  | [], i, _ => rfl
  | c :: cs, i, h => by rw [put, h i, put_ok cs (i + 1) h]; rfl

theorem save_prefix (g : Gzip) (t : Str) (old : Option Str) (fails : Nat → Option Nat) : ∃ e, (save g t old true fails).1 = some e ∧ e <+: (g.writing t ++ g.closing t).flatten := by
  obtain ⟨h1, h2⟩ := put_prefix fails (g.writing t) 0
  obtain ⟨h3, -⟩ := put_prefix fails (g.closing t) (g.writing t).length
  unfold save
  rw [if_neg (by decide)]
  simp only
  rw [List.flatten_append]
  split
  · rename_i h
    exact ⟨_, rfl, by rw [h2 h]; exact (List.prefix_append_right_inj _).2 h3⟩
  · exact ⟨_, rfl, h1.trans (List.prefix_append _ _)⟩

/-- **C148** Whatever writes fail, and whenever the process is killed: the file has its old content (only before it is created anew), or `Load` of it is an error, or `Load`
gives the whole index, as for a file that was saved without failures. -/
theorem C148_all_or_error_partial (short isNil : Bool) (g : Gzip) (cm : CM) (text : Str) (h : Written short isNil cm text) (old : Option Str) (created : Bool)
    (fails : Nat → Option Nat) (now : Option Str) (hm : Moment g (text ++ lit "\n") old created fails now) :
    now = old ∨ load g now = none ∨ load g now = decode (text ++ lit "\n") := by
  rcases hm with hm | ⟨rfl, p, e, rfl, he, hp⟩
  · exact Or.inl hm
  right
  obtain ⟨e', h1, h2⟩ := save_prefix g (text ++ lit "\n") old fails
  rw [he] at h1
  cases h1
  have hd := g.cut _ p (hp.trans h2)
  show decode (g.delivers p) = none ∨ decode (g.delivers p) = _
  obtain ⟨c, hc⟩ := hd
  rcases List.append_eq_append_iff.1 hc with ⟨a, h3, h4⟩ | ⟨a, h3, h4⟩
  · by_cases ha : a = []
    · subst ha
      right
      rw [List.append_nil] at h3
      rw [← h3]
      obtain ⟨frs, infos, rfl, -, -, hf, -, -⟩ := h
      obtain ⟨j, pj, -⟩ := parses_cm short isNil cm.sizes frs infos fun x hx => dec_sorted_nodup (hf x hx).2
      have v1 := pj ((cmText short isNil cm.sizes frs infos).length + 1) [] (by omega) (by intro b hb; cases hb)
      have v2 := pj ((cmText short isNil cm.sizes frs infos ++ lit "\n").length + 1) (lit "\n") (by simp) (by intro b hb; cases hb; decide)
      rw [List.append_nil] at v1
      unfold decode
      rw [v1, v2]
    · exact Or.inl (decode_cut short isNil h h3 ha)
  · have : lit "\n" = [10] := by decide
    rw [this] at h4
    rcases a with _ | ⟨x, a⟩
    · right
      rw [List.append_nil] at h3
      rw [h3]
      obtain ⟨frs, infos, rfl, -, -, hf, -, -⟩ := h
      obtain ⟨j, pj, -⟩ := parses_cm short isNil cm.sizes frs infos fun x hx => dec_sorted_nodup (hf x hx).2
      have v1 := pj ((cmText short isNil cm.sizes frs infos).length + 1) [] (by omega) (by intro b hb; cases hb)
      have v2 := pj ((cmText short isNil cm.sizes frs infos ++ lit "\n").length + 1) (lit "\n") (by simp) (by intro b hb; cases hb; decide)
      rw [List.append_nil] at v1
      unfold decode
      rw [v1, v2]
    · injection h4 with h4 h5
      have := List.append_eq_nil_iff.1 h5.symm
      right
      rw [h3, this.1, ← h4]
      rfl

/-- **C148** Without failures `Save` returns nil, and `Load` gives the index (`C147_read` says which). -/
theorem C148_ok_partial (g : Gzip) (text : Str) (old : Option Str) (fails : Nat → Option Nat) (h : ∀ i, fails i = none) :
    (save g (text ++ lit "\n") old true fails).2 = true ∧ load g (save g (text ++ lit "\n") old true fails).1 = decode (text ++ lit "\n") := by
  have e : save g (text ++ lit "\n") old true fails = (some ((g.writing (text ++ lit "\n")).flatten ++ (g.closing (text ++ lit "\n")).flatten), true) := by
    unfold save
    rw [if_neg (by decide), put_ok _ _ h, put_ok _ _ h]
    rfl
  rw [e]
  refine ⟨rfl, ?_⟩
  show decode (g.delivers _) = _
  rw [← List.flatten_append, g.whole]

/-- **C148** Exactly when `Save` returns nil: the file could be created, and no write failed before the gzip writer is closed. Failures in closing it are not reported. -/
theorem C148_nil_iff (g : Gzip) (t : Str) (old : Option Str) (created : Bool) (fails : Nat → Option Nat) :
    (save g t old created fails).2 = true ↔ created = true ∧ ∀ i < (g.writing t).length, fails i = none := by
  have key : ∀ (cs : List Str) (i : Nat), (put fails i cs).2 = true ↔ ∀ j < cs.length, fails (i + j) = none := by
    intro cs
    induction cs with
    | nil => intro i; simp [put]
    | cons c cs ih =>
      intro i
      rw [put]
      cases e : fails i with
      | some k =>
        simp only [Bool.false_eq_true, false_iff]
        intro h
        have := h 0 (by simp)
        rw [Nat.add_zero, e] at this; cases this
      | none =>
        simp only
        rw [ih]
        constructor
        · intro h j hj
          cases j with
          | zero => exact e
          | succ j => rw [show i + (j + 1) = i + 1 + j by omega]; exact h j (by simp at hj; omega)
        · intro h j hj
          rw [show i + 1 + j = i + (j + 1) by omega]; exact h (j + 1) (by simp; omega)
  unfold save
  cases created with
  | false => simp
  | true =>
    rw [if_neg (by decide)]
    simp only
    have := key (g.writing t) 0
    simp only [Nat.zero_add] at this
    rw [← this]
    split <;> simp_all

/-- **C148** A failed `os.Create` leaves the old file and is reported. -/
theorem C148_not_created (g : Gzip) (t : Str) (old : Option Str) (fails : Nat → Option Nat) (now : Option Str) (h : Moment g t old false fails now) :
    now = old ∧ save g t old false fails = (old, false) := by
  rcases h with h | ⟨h, -⟩
  · exact ⟨h, rfl⟩
  · cases h

/-! ### A format that meets the laws -/

/-- Each byte after a one, then a zero. -/
def pack (t : Str) : Str := t.flatMap (fun b => [1, b]) ++ [0]

/-- What was packed. -/
def unpack : Str → Str
  | 1 :: b :: r => b :: unpack r
  | _ => []

theorem unpack_pack (t tl : Str) : unpack (pack t ++ tl) = t := by
  induction t with
  | nil => simp [pack, unpack]
  | cons b t ih =>
    simp only [pack, List.flatMap_cons, List.cons_append, List.nil_append, List.append_assoc] at ih ⊢
    rw [unpack, ih]

theorem unpack_cut (t tl : Str) : ∀ p, p <+: pack t ++ tl → unpack p <+: t := by
  induction t with
  | nil =>
    rintro p ⟨q, h⟩
    rcases p with _ | ⟨a, p⟩
    · exact List.nil_prefix
    · simp only [pack, List.flatMap_nil, List.nil_append, List.cons_append] at h
      injection h with h _
      subst h
      simp [unpack]
  | cons b t ih =>
    rintro p ⟨q, h⟩
    simp only [pack, List.flatMap_cons, List.cons_append, List.nil_append, List.append_assoc] at h
    rcases p with _ | ⟨a, _ | ⟨c, p⟩⟩
    · exact List.nil_prefix
    · simp [unpack]
    · simp only [List.cons_append] at h
      injection h with h1 h
      injection h with h2 h
      subst h1 h2
      rw [unpack, List.cons_prefix_cons]
      exact ⟨rfl, ih p ⟨q, by rw [h, pack, List.append_assoc]; rfl⟩⟩

/-- Like gzip, a header of ten bytes is written at once, and the rest of a small text when the writer is closed, with a trailer of eight bytes. -/
def plain : Gzip where
  writing _ := [List.replicate 10 31]
  closing t := [pack t, List.replicate 8 0]
  delivers p := unpack (p.drop 10)
  whole t := by
    simp only [List.flatten_append, List.flatten_cons, List.flatten_nil, List.append_nil]
    rw [List.drop_left' (by simp)]
    exact unpack_pack t _
  cut t p h := by
    simp only [List.flatten_append, List.flatten_cons, List.flatten_nil, List.append_nil] at h
    have := h.drop 10
    rw [List.drop_left' (by simp)] at this
    exact unpack_cut t _ _ this

/-- **C148** is false of the errors: with a full disk `Save` can return nil although the file cannot be loaded, and the old index is gone. -/
theorem C148_nil_false : ∃ (g : Gzip) (cm : CM) (text old : Str) (fails : Nat → Option Nat), Written false false cm text ∧ (load g (some old)).isSome ∧
    (save g (text ++ lit "\n") (some old) true fails).2 = true ∧ load g (save g (text ++ lit "\n") (some old) true fails).1 = none := by
  obtain ⟨cm, text, hw⟩ : ∃ cm text, Written false false cm text := ⟨_, _, quote_text.2⟩
  obtain ⟨cm', -, h1, -⟩ := C147_read _ _ _ _ hw
  refine ⟨plain, cm, text, (plain.writing (text ++ lit "\n") ++ plain.closing (text ++ lit "\n")).flatten, fun i => if i = 1 then some 0 else none, hw, ?_, ?_, ?_⟩
  · show (decode (plain.delivers _)).isSome
    rw [plain.whole, h1]; rfl
  · rw [C148_nil_iff]
    refine ⟨rfl, fun i hi => ?_⟩
    have : i < 1 := hi
    rw [if_neg (by omega)]
  · have e : ∀ t old, save plain t old true (fun i => if i = 1 then some 0 else none) = (some (List.replicate 10 31), true) := by
      intro t old; rfl
    rw [e]
    rfl

/-- **C148** is false of the old index: a process killed while `Save` runs leaves neither the old nor the new index. -/
theorem C148_old_lost_false : ∃ (g : Gzip) (cm : CM) (text old : Str) (now : Option Str), Written false false cm text ∧ (load g (some old)).isSome ∧
    Moment g (text ++ lit "\n") (some old) true (fun _ => none) now ∧ now ≠ some old ∧ load g now = none := by
  obtain ⟨cm, text, hw⟩ : ∃ cm text, Written false false cm text := ⟨_, _, quote_text.2⟩
  obtain ⟨cm', -, h1, -⟩ := C147_read _ _ _ _ hw
  refine ⟨plain, cm, text, (plain.writing (text ++ lit "\n") ++ plain.closing (text ++ lit "\n")).flatten, some [], hw, ?_, ?_, ?_, rfl⟩
  · show (decode (plain.delivers _)).isSome
    rw [plain.whole, h1]; rfl
  · exact Or.inr ⟨rfl, [], _, rfl, rfl, List.nil_prefix⟩
  · intro h
    injection h with h
    have := congrArg List.length h
    simp [plain] at this

end Verif.Closest.Json
