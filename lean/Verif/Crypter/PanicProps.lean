import Verif.Crypter.Panic
import Verif.Crypter.Props
/-
C122: calls that panic.
-/
namespace Verif.Crypter
open Threefish

/-- The slices of a call lie in memory. -/
def Call.Valid (m : Mem) : Call → Prop
  | .encrypt dst src | .decrypt dst src => dst.Valid m.bytes ∧ src.Valid m.bytes
  | .encrypt64 dst src | .decrypt64 dst src => dst.Valid m.words ∧ src.Valid m.words
  | _ => True

/-! ### The loops -/

theorem getD_lt {l : List W} {i : Nat} (h : i < l.length) : l.getD i 0 = l[i] := by
  rw [List.getD_eq_getElem?_getD, List.getElem?_eq_getElem h]; rfl

theorem loadLoop_flag (h : Str) (s : Slice) (k : Nat) : ∀ (i : Nat) (tmp : List W), (loadLoop h s k i tmp).1 = decide (k ≠ 0 ∧ s.cap < (i + k) * 8) := by
  induction k with
  | zero => intro i tmp; simp [loadLoop]
  | succ k ih =>
    intro i tmp
    rw [loadLoop]
    split
    · rw [ih]
      congr 1
      apply propext
      constructor
      · rintro ⟨h1, h2⟩; exact ⟨by omega, by omega⟩
      · rintro ⟨h1, h2⟩; exact ⟨by rintro rfl; omega, by omega⟩
    · symm; rw [decide_eq_true_eq]; omega

theorem loadLoop_length (h : Str) (s : Slice) (k : Nat) : ∀ (i : Nat) (tmp : List W), (loadLoop h s k i tmp).2.length = tmp.length := by
  induction k with
  | zero => intro i tmp; rfl
  | succ k ih =>
    intro i tmp
    rw [loadLoop]
    split
    · rw [ih, List.length_set]
    · rfl

theorem loadLoop_drop (h : Str) (s : Slice) (k : Nat) : ∀ (i : Nat) (tmp : List W), (loadLoop h s k i tmp).2.drop (i + k) = tmp.drop (i + k) := by
  induction k with
  | zero => intro i tmp; rfl
  | succ k ih =>
    intro i tmp
    rw [loadLoop]
    split
    · rw [show i + (k + 1) = i + 1 + k by omega, ih, List.drop_set_of_lt (by omega)]
    · rfl

theorem loadLoop_words (h : Str) (s : Slice) (k : Nat) : ∀ (i : Nat) (tmp : List W), i + k ≤ tmp.length → (loadLoop h s k i tmp).1 = false →
    (loadLoop h s k i tmp).2 = tmp.take i ++ ((List.range k).map fun j => leWord ((h.drop (s.off + (i + j) * 8)).take 8)) ++ tmp.drop (i + k) := by
  induction k with
  | zero => intro i tmp hl hf; simp [loadLoop]
  | succ k ih =>
    intro i tmp hl hf
    rw [loadLoop] at hf ⊢
    split at hf
    · rename_i hc
      rw [if_pos hc, ih _ _ (by rw [List.length_set]; omega) hf, List.drop_set_of_lt (by omega), List.take_set, List.range_succ_eq_map, List.map_cons, List.map_map,
        List.take_succ_eq_append_getElem (by omega), List.set_append_right _ _ (by simp), List.append_assoc, List.append_assoc]
      simp only [List.length_take, show min i tmp.length = i by omega, Nat.sub_self, List.set_cons_zero, List.append_assoc, List.cons_append, List.nil_append, Nat.add_zero]
      congr 2
      · congr 1
        · apply List.map_congr_left
          intro j _
          simp only [Function.comp_apply]
          rw [show i + 1 + j = i + (j + 1) by omega]
        · rw [show i + 1 + k = i + (k + 1) by omega]
    · cases hf

theorem storeLoop_flag (s : Slice) (tmp : List W) (k : Nat) : ∀ (i : Nat) (h : Str), (storeLoop s tmp k i h).1 = decide (k ≠ 0 ∧ s.cap < (i + k) * 8) := by
  induction k with
  | zero => intro i h; simp [storeLoop]
  | succ k ih =>
    intro i h
    rw [storeLoop]
    split
    · rw [ih]
      congr 1
      apply propext
      constructor
      · rintro ⟨h1, h2⟩; exact ⟨by omega, by omega⟩
      · rintro ⟨h1, h2⟩; exact ⟨by rintro rfl; omega, by omega⟩
    · symm; rw [decide_eq_true_eq]; omega

/-- As many words as fit. -/
theorem storeLoop_words (s : Slice) (tmp : List W) (k : Nat) : ∀ (i : Nat) (h : Str), i + k ≤ tmp.length → s.off + s.cap ≤ h.length →
    (storeLoop s tmp k i h).2 = splice h (s.off + i * 8) (bytesOfWords ((tmp.drop i).take (min k (s.cap / 8 - i)))) := by
  induction k with
  | zero => intro i h hl hv; simp [storeLoop, splice, bytesOfWords]
  | succ k ih =>
    intro i h hl hv
    rw [storeLoop]
    split
    · rename_i hc
      have hb : s.off + i * 8 + (leBytes (tmp.getD i 0)).length ≤ h.length := by rw [leBytes_length]; omega
      rw [ih _ _ (by omega) (by rw [splice_length _ _ _ hb]; exact hv)]
      have e : (tmp.drop i).take (min (k + 1) (s.cap / 8 - i)) = tmp.getD i 0 :: (tmp.drop (i + 1)).take (min k (s.cap / 8 - (i + 1))) := by
        rw [List.drop_eq_getElem_cons (by omega), show min (k + 1) (s.cap / 8 - i) = min k (s.cap / 8 - (i + 1)) + 1 by omega, List.take_succ_cons,
          getD_lt (by omega)]
      rw [e]
      have := splice_splice h (s.off + i * 8) (leBytes (tmp.getD i 0)) (bytesOfWords ((tmp.drop (i + 1)).take (min k (s.cap / 8 - (i + 1)))))
        (by
          rw [List.length_append, leBytes_length, bytesOfWords_length, List.length_take]
          omega)
      rw [leBytes_length] at this
      rw [show s.off + (i + 1) * 8 = s.off + i * 8 + 8 by omega, this, bytesOfWords_eq, bytesOfWords_eq, List.flatMap_cons]
    · rw [show min (k + 1) (s.cap / 8 - i) = 0 by omega]
      simp [splice, bytesOfWords]

theorem storeWords_up (dst : Slice) (out : List W) (k : Nat) : ∀ (i : Nat) (h : List W), i + k ≤ out.length → dst.off + dst.len ≤ h.length →
    storeWords dst out (List.range' i k) h = (decide (k ≠ 0 ∧ dst.len < i + k), splice h (dst.off + i) ((out.drop i).take (min k (dst.len - i)))) := by
  induction k with
  | zero => intro i h hl hv; simp [storeWords, splice]
  | succ k ih =>
    intro i h hl hv
    rw [List.range'_succ, storeWords]
    split
    · rename_i hc
      have hs : h.set (dst.off + i) (out.getD i 0) = splice h (dst.off + i) [out.getD i 0] := by
        rw [List.set_eq_take_append_cons_drop, if_pos (by omega)]
        simp [splice]
      rw [ih _ _ (by omega) (by rw [List.length_set]; exact hv)]
      refine Prod.ext ?_ ?_
      · show decide _ = decide _
        congr 1
        apply propext
        constructor
        · rintro ⟨h1, h2⟩; exact ⟨by omega, by omega⟩
        · rintro ⟨h1, h2⟩; exact ⟨by rintro rfl; omega, by omega⟩
      · have e : (out.drop i).take (min (k + 1) (dst.len - i)) = [out.getD i 0] ++ (out.drop (i + 1)).take (min k (dst.len - (i + 1))) := by
          rw [List.drop_eq_getElem_cons (by omega), show min (k + 1) (dst.len - i) = min k (dst.len - (i + 1)) + 1 by omega, List.take_succ_cons,
            getD_lt (by omega), List.singleton_append]
        rw [e, hs]
        have := splice_splice h (dst.off + i) [out.getD i 0] ((out.drop (i + 1)).take (min k (dst.len - (i + 1))))
          (by rw [List.length_append, List.length_take, List.length_singleton]; omega)
        rw [List.length_singleton] at this
        exact this
    · refine Prod.ext ?_ ?_
      · symm; rw [decide_eq_true_eq]; omega
      · rw [show min (k + 1) (dst.len - i) = 0 by omega]
        simp [splice]

/-- Downwards, a destination that is too short is noticed at once. -/
theorem storeWords_down_short (dst : Slice) (out : List W) (k : Nat) (h : List W) (hl : dst.len < k) : storeWords dst out (List.range k).reverse h = (true, h) := by
  cases k with
  | zero => omega
  | succ k =>
    rw [List.range_succ, List.reverse_append, List.reverse_singleton, List.singleton_append, storeWords, if_neg (by omega)]

theorem storeWords_down (dst : Slice) (out : List W) (k : Nat) : ∀ (h : List W), k ≤ out.length → k ≤ dst.len → dst.off + k ≤ h.length →
    storeWords dst out (List.range k).reverse h = (false, splice h dst.off (out.take k)) := by
  induction k with
  | zero => intro h _ _ _; simp [storeWords, splice]
  | succ k ih =>
    intro h h1 h2 h3
    rw [List.range_succ, List.reverse_append, List.reverse_singleton, List.singleton_append, storeWords, if_pos (by omega),
      ih _ (by omega) (by omega) (by rw [List.length_set]; omega)]
    congr 1
    simp only [splice, List.length_take, show min k out.length = k by omega, show min (k + 1) out.length = k + 1 by omega]
    rw [List.take_succ_eq_append_getElem (by omega), List.take_set_of_le (by omega), List.append_assoc, List.append_assoc, List.append_assoc]
    congr 2
    rw [List.drop_set, if_neg (by omega), Nat.sub_self, List.drop_eq_getElem_cons (by omega), List.set_cons_zero, getD_lt (by omega)]
    rfl

theorem keySteps_eq (key : List W) (n : Nat) : ∀ (i : Nat) (ek : List W) (par : W), i + n + 1 = ek.length →
    (keySteps key n i ek par).1 = decide (n ≠ 0 ∧ key.length < i + n) ∧
    (keySteps key n i ek par).2.length = ek.length ∧
    ((keySteps key n i ek par).1 = false → ∀ l p, keyLoop n (key.drop i) par = some (l, p) → (keySteps key n i ek par).2 = ek.take i ++ l ++ [p]) := by
  induction n with
  | zero =>
    intro i ek par hl
    refine ⟨by simp [keySteps], by simp [keySteps], ?_⟩
    intro _ l p h
    simp only [keyLoop, Option.some.injEq, Prod.mk.injEq] at h
    obtain ⟨rfl, rfl⟩ := h
    rw [keySteps, List.set_eq_take_append_cons_drop, if_pos (by omega), List.drop_eq_nil_of_le (by omega)]
    simp
  | succ n ih =>
    intro i ek par hl
    rw [keySteps]
    cases hk : key[i]? with
    | none =>
      have := List.getElem?_eq_none_iff.1 hk
      refine ⟨?_, rfl, by intro h; cases h⟩
      symm; rw [decide_eq_true_eq]; omega
    | some k =>
      have hi := (List.getElem?_eq_some_iff.1 hk).1
      obtain ⟨h1, h2, h3⟩ := ih (i + 1) (ek.set i k) (par ^^^ k) (by rw [List.length_set]; omega)
      refine ⟨?_, by rw [h2, List.length_set], ?_⟩
      · show (keySteps key n (i + 1) (ek.set i k) (par ^^^ k)).1 = _
        rw [h1]
        congr 1
        apply propext
        constructor
        · rintro ⟨h1, h2⟩; exact ⟨by omega, by omega⟩
        · rintro ⟨h1, h2⟩; exact ⟨by rintro rfl; omega, by omega⟩
      · intro hf l p h
        have hkk := (List.getElem?_eq_some_iff.1 hk).2
        rw [List.drop_eq_getElem_cons hi, hkk, keyLoop, Option.map_eq_some_iff] at h
        obtain ⟨⟨l', p'⟩, h, e⟩ := h
        simp only [Prod.mk.injEq] at e
        obtain ⟨rfl, rfl⟩ := e
        have := h3 hf _ _ h
        show (keySteps key n (i + 1) (ek.set i k) (par ^^^ k)).2 = _
        rw [this, List.take_set, List.take_succ_eq_append_getElem (by omega), List.set_append_right _ _ (by simp)]
        simp [show min i ek.length = i by omega]

/-! ### What a call that panics has changed -/

/-- Ciphers that nobody can tell apart: they differ at most in the scratch words that every call fills before it uses them. -/
structure Alike (c d : Cipher) : Prop where
  st : c.stateSize = d.stateSize
  size : c.int.size = d.int.size
  ek : c.int.ek = d.int.ek
  et : c.int.et = d.int.et
  len : c.int.tmp1.length = d.int.tmp1.length
  tail : c.int.tmp1.drop (c.stateSize / 64) = d.int.tmp1.drop (c.stateSize / 64)
  fits : c.stateSize / 64 ≤ c.int.tmp1.length

theorem Alike.byteEnd {c d : Cipher} (h : Alike c d) (f : List W → List W) (m : Mem) (dst src : Slice) :
    (c.byteEnd f m dst src).panicked = (d.byteEnd f m dst src).panicked ∧ (c.byteEnd f m dst src).m = (d.byteEnd f m dst src).m ∧
    Alike (c.byteEnd f m dst src).c (d.byteEnd f m dst src).c := by
  have f1 := loadLoop_flag m.bytes src (c.stateSize / 64) 0 c.int.tmp1
  have f2 := loadLoop_flag m.bytes src (c.stateSize / 64) 0 d.int.tmp1
  have l1 := loadLoop_length m.bytes src (c.stateSize / 64) 0 c.int.tmp1
  have l2 := loadLoop_length m.bytes src (c.stateSize / 64) 0 d.int.tmp1
  have d1 := loadLoop_drop m.bytes src (c.stateSize / 64) 0 c.int.tmp1
  have d2 := loadLoop_drop m.bytes src (c.stateSize / 64) 0 d.int.tmp1
  have w1 := loadLoop_words m.bytes src (c.stateSize / 64) 0 c.int.tmp1 (by rw [Nat.zero_add]; exact h.fits)
  have w2 := loadLoop_words m.bytes src (c.stateSize / 64) 0 d.int.tmp1 (by rw [Nat.zero_add, ← h.len]; exact h.fits)
  unfold Cipher.byteEnd
  rw [← h.st]
  revert f1 f2 l1 l2 d1 d2 w1 w2
  generalize loadLoop m.bytes src (c.stateSize / 64) 0 c.int.tmp1 = r1
  generalize loadLoop m.bytes src (c.stateSize / 64) 0 d.int.tmp1 = r2
  obtain ⟨p1, t1⟩ := r1
  obtain ⟨p2, t2⟩ := r2
  intro f1 f2 l1 l2 d1 d2 w1 w2
  simp only [Nat.zero_add] at f1 f2 l1 l2 d1 d2 w1 w2
  have hp : p1 = p2 := by rw [f1, f2]
  clear f1 f2
  subst hp
  cases p1 with
  | true => exact ⟨rfl, rfl, rfl, h.size, h.ek, h.et, by show t1.length = t2.length; rw [l1, l2, h.len], by show t1.drop (c.stateSize / 64) = t2.drop (c.stateSize / 64); rw [d1, d2, h.tail], by show _ ≤ t1.length; rw [l1]; exact h.fits⟩
  | false =>
    have e : t1 = t2 := by rw [w1 rfl, w2 rfl, h.tail]; simp
    subst e
    exact ⟨rfl, rfl, rfl, h.size, h.ek, h.et, rfl, rfl, by show _ ≤ t1.length; rw [l1]; exact h.fits⟩

theorem Alike.ended {c d : Cipher} (h : Alike c d) (m : Mem) (x : Call) :
    (c.ended m x).panicked = (d.ended m x).panicked ∧ (c.ended m x).m = (d.ended m x).m ∧ Alike (c.ended m x).c (d.ended m x).c := by
  have e1 : c.int.enc = d.int.enc := funext (Internal.enc_congr h.size h.ek h.et)
  have e2 : c.int.dec = d.int.dec := funext (Internal.dec_congr h.size h.ek h.et)
  cases x with
  | encrypt dst src => simp only [Cipher.ended, e1]; exact h.byteEnd _ _ _ _
  | decrypt dst src => simp only [Cipher.ended, e2]; exact h.byteEnd _ _ _ _
  | encrypt64 dst src =>
    simp only [Cipher.ended, Cipher.wordEnd, e1, e2, h.size]
    split
    · exact ⟨rfl, rfl, h⟩
    · exact ⟨rfl, rfl, h⟩
  | decrypt64 dst src =>
    simp only [Cipher.ended, Cipher.wordEnd, e1, e2, h.size]
    split
    · exact ⟨rfl, rfl, h⟩
    · exact ⟨rfl, rfl, h⟩
  | setKey key =>
    simp only [Cipher.ended, h.size, h.ek]
    exact ⟨trivial, trivial, h.st, rfl, rfl, h.et, h.len, h.tail, h.fits⟩
  | setTweak tweak =>
    simp only [Cipher.ended, h.et]
    exact ⟨trivial, trivial, h.st, h.size, h.ek, rfl, h.len, h.tail, h.fits⟩

theorem Alike.recovering {c d : Cipher} (h : Alike c d) (m : Mem) (xs : List Call) : c.recovering m xs = d.recovering m xs := by
  induction xs generalizing c d m with
  | nil => rfl
  | cons x xs ih =>
    obtain ⟨h1, h2, h3⟩ := h.ended m x
    rw [Cipher.recovering, Cipher.recovering, h1, h2, ih h3]

/-- The four methods that work on blocks. -/
def Call.onBlocks : Call → Prop
  | .setKey _ | .setTweak _ => False
  | _ => True

theorem byteEnd_alike (c : Cipher) (hf : c.stateSize / 64 ≤ c.int.tmp1.length) (f : List W → List W) (m : Mem) (dst src : Slice) : Alike (c.byteEnd f m dst src).c c := by
  have l1 := loadLoop_length m.bytes src (c.stateSize / 64) 0 c.int.tmp1
  have d1 := loadLoop_drop m.bytes src (c.stateSize / 64) 0 c.int.tmp1
  unfold Cipher.byteEnd
  revert l1 d1
  generalize loadLoop m.bytes src (c.stateSize / 64) 0 c.int.tmp1 = r1
  obtain ⟨p1, t1⟩ := r1
  intro l1 d1
  simp only [Nat.zero_add] at l1 d1
  cases p1 with
  | true => exact ⟨rfl, rfl, rfl, rfl, l1, d1, by show _ ≤ t1.length; rw [l1]; exact hf⟩
  | false => exact ⟨rfl, rfl, rfl, rfl, l1, d1, by show _ ≤ t1.length; rw [l1]; exact hf⟩

/-- **C122** (as far as it holds) After a call of a block method, whether it returned or panicked and was recovered from, every later sequence of calls (some of which may panic) panics
at the same calls and leaves the same memory as if the call had not been made. -/
theorem C122_survives_partial {b : Bool} {sz : Size} {key : List W} {t : W × W} {c : Cipher} (hc : InUse b sz key t c) (m : Mem) (x : Call) (hx : x.onBlocks) (m' : Mem) (xs : List Call) :
    (c.ended m x).c.recovering m' xs = c.recovering m' xs := by
  obtain ⟨hh, hf, -⟩ := hc.holds
  have hf' : c.stateSize / 64 ≤ c.int.tmp1.length := by rw [hh.tmp]; exact hf
  refine Alike.recovering ?_ m' xs
  have refl : Alike c c := ⟨rfl, rfl, rfl, rfl, rfl, rfl, hf'⟩
  cases x with
  | encrypt dst src => exact byteEnd_alike c hf' _ _ _ _
  | decrypt dst src => exact byteEnd_alike c hf' _ _ _ _
  | encrypt64 dst src => simp only [Cipher.ended, Cipher.wordEnd]; split <;> exact refl
  | decrypt64 dst src => simp only [Cipher.ended, Cipher.wordEnd]; split <;> exact refl
  | setKey key => exact hx.elim
  | setTweak tweak => exact hx.elim

/-- What a byte method has written. -/
theorem byteEnd_written {sz : Size} {key : List W} {t : W × W} {c : Cipher} (hc : InUse true sz key t c) (f : List W → List W) (hfl : ∀ b, (f b).length = sz.words)
    (m : Mem) (dst src : Slice) (hd : dst.Valid m.bytes) :
    (src.cap < 8 * sz.words → (c.byteEnd f m dst src).panicked = true ∧ (c.byteEnd f m dst src).m = m) ∧
    (8 * sz.words ≤ src.cap → ∀ block, block.length = sz.words → src.first m.bytes (8 * sz.words) = bytesOfWords block →
      (c.byteEnd f m dst src).panicked = decide (dst.cap < 8 * sz.words) ∧
      (c.byteEnd f m dst src).m = { m with bytes := splice m.bytes dst.off (bytesOfWords ((f block).take (dst.cap / 8))) } ∧
      (c.byteEnd f m dst src).c = { c with int := { c.int with tmp1 := block, tmp2 := f block } }) := by
  obtain ⟨hh, hf, h3⟩ := hc.holds
  have hn : c.stateSize / 64 = sz.words := by rw [h3 rfl]; omega
  have hw0 : sz.words ≠ 0 := by cases sz <;> decide
  have f1 := loadLoop_flag m.bytes src sz.words 0 c.int.tmp1
  have w1 := loadLoop_words m.bytes src sz.words 0 c.int.tmp1 (by rw [hh.tmp]; omega)
  unfold Cipher.byteEnd
  rw [hn]
  constructor
  · intro hs
    revert f1
    generalize loadLoop m.bytes src sz.words 0 c.int.tmp1 = r
    obtain ⟨p, t⟩ := r
    intro f1
    have : p = true := by
      simp only at f1
      rw [f1, decide_eq_true_eq]; omega
    subst this
    exact ⟨rfl, rfl⟩
  · intro hs block hbl hb
    have hr := readWords_eq m.bytes src sz.words block hbl (by omega) hb
    rw [readWords, if_pos (by omega), Option.some.injEq] at hr
    revert f1 w1
    generalize loadLoop m.bytes src sz.words 0 c.int.tmp1 = r
    obtain ⟨p, t'⟩ := r
    intro f1 w1
    have : p = false := by
      simp only at f1
      rw [f1, decide_eq_false_iff_not]; omega
    subst this
    have e : t' = block := by
      have := w1 rfl
      simp only [Nat.zero_add, List.take_zero, List.nil_append] at this
      rw [this, hr, List.drop_eq_nil_of_le (by rw [hh.tmp]), List.append_nil]
    subst e
    refine ⟨?_, ?_, rfl⟩
    · show (storeLoop dst (f t') sz.words 0 m.bytes).1 = _
      rw [storeLoop_flag]
      congr 1
      apply propext
      constructor
      · rintro ⟨h1, h2⟩; omega
      · intro h; exact ⟨hw0, by omega⟩
    · show ({ m with bytes := (storeLoop dst (f t') sz.words 0 m.bytes).2 } : Mem) = _
      rw [storeLoop_words _ _ _ _ _ (by rw [hfl]; omega) hd.2]
      simp only [Nat.zero_mul, Nat.add_zero, List.drop_zero, Nat.sub_zero]
      rcases Nat.le_total sz.words (dst.cap / 8) with h | h
      · rw [Nat.min_eq_left h, List.take_of_length_le (by rw [hfl]), List.take_of_length_le (by rw [hfl]; exact h)]
      · rw [Nat.min_eq_right h]

/-- **C122** `Encrypt` panics if the source or the destination has no room for a block. If it is the source, it has written nothing; if it is the destination, it has written
the words of the ciphertext that fit, and nothing else. -/
theorem C122_encrypt {sz : Size} {key : List W} {t : W × W} {c : Cipher} (hc : InUse true sz key t c) (m : Mem) (dst src : Slice) (hd : dst.Valid m.bytes) :
    (src.cap < 8 * sz.words → (c.ended m (.encrypt dst src)).panicked = true ∧ (c.ended m (.encrypt dst src)).m = m) ∧
    (8 * sz.words ≤ src.cap → ∀ block, block.length = sz.words → src.first m.bytes (8 * sz.words) = bytesOfWords block →
      (c.ended m (.encrypt dst src)).panicked = decide (dst.cap < 8 * sz.words) ∧
      (c.ended m (.encrypt dst src)).m = { m with bytes := splice m.bytes dst.off (bytesOfWords ((Threefish.encrypt sz.params key t.1 t.2 block).take (dst.cap / 8))) }) := by
  obtain ⟨hh, -, -⟩ := hc.holds
  obtain ⟨h1, h2⟩ := byteEnd_written hc c.int.enc (fun b => by rw [Internal.enc_length, hh.size]) m dst src hd
  refine ⟨h1, fun hs block hbl hb => ?_⟩
  obtain ⟨h3, h4, -⟩ := h2 hs block hbl hb
  have := Internal.enc_spec c.int key t.1 t.2 (by rw [hh.size]; exact hh.klen) hh.ek hh.et block (by rw [hh.size]; exact hbl)
  rw [hh.size] at this
  rw [this] at h4
  exact ⟨h3, h4⟩

/-- **C122** `Decrypt` likewise. -/
theorem C122_decrypt {sz : Size} {key : List W} {t : W × W} {c : Cipher} (hc : InUse true sz key t c) (m : Mem) (dst src : Slice) (hd : dst.Valid m.bytes) :
    (src.cap < 8 * sz.words → (c.ended m (.decrypt dst src)).panicked = true ∧ (c.ended m (.decrypt dst src)).m = m) ∧
    (8 * sz.words ≤ src.cap → ∀ block, block.length = sz.words → src.first m.bytes (8 * sz.words) = bytesOfWords (Threefish.encrypt sz.params key t.1 t.2 block) →
      (c.ended m (.decrypt dst src)).panicked = decide (dst.cap < 8 * sz.words) ∧
      (c.ended m (.decrypt dst src)).m = { m with bytes := splice m.bytes dst.off (bytesOfWords (block.take (dst.cap / 8))) }) := by
  obtain ⟨hh, -, -⟩ := hc.holds
  obtain ⟨h1, h2⟩ := byteEnd_written hc c.int.dec (fun b => by rw [Internal.dec_length, hh.size]) m dst src hd
  refine ⟨h1, fun hs block hbl hb => ?_⟩
  have := Internal.enc_spec c.int key t.1 t.2 (by rw [hh.size]; exact hh.klen) hh.ek hh.et block (by rw [hh.size]; exact hbl)
  rw [hh.size] at this
  rw [← this] at hb
  obtain ⟨h3, h4, -⟩ := h2 hs _ (by rw [Internal.enc_length, hh.size]) hb
  rw [Internal.dec_enc _ _ (by rw [hh.size]; exact hbl)] at h4
  exact ⟨h3, h4⟩

theorem wordEnd_up {b : Bool} {sz : Size} {key : List W} {t : W × W} {c : Cipher} (hc : InUse b sz key t c) (dec : Bool) (m : Mem) (dst src : Slice) (hd : dst.Valid m.words)
    (ho : sz.outOrder dec = List.range sz.words) (hs : sz.words ≤ src.len) :
    (c.wordEnd dec m dst src).panicked = decide (dst.len < sz.words) ∧
    (c.wordEnd dec m dst src).m = { m with words := splice m.words dst.off ((if dec then c.int.dec (src.first m.words sz.words) else c.int.enc (src.first m.words sz.words)).take dst.len) } := by
  obtain ⟨hh, -, -⟩ := hc.holds
  have hw0 : sz.words ≠ 0 := by cases sz <;> decide
  have hl : (if dec then c.int.dec (src.first m.words sz.words) else c.int.enc (src.first m.words sz.words)).length = sz.words := by
    split
    · rw [Internal.dec_length, hh.size]
    · rw [Internal.enc_length, hh.size]
  have hv := hd.1
  have hv2 := hd.2
  have := storeWords_up dst (if dec then c.int.dec (src.first m.words sz.words) else c.int.enc (src.first m.words sz.words)) sz.words 0 m.words (by rw [hl]; omega) (by omega)
  rw [← List.range_eq_range', ← ho] at this
  simp only [Cipher.wordEnd, hh.size, if_pos hs, this]
  refine ⟨?_, ?_⟩
  · congr 1
    apply propext
    constructor
    · rintro ⟨h1, h2⟩; omega
    · intro h; exact ⟨hw0, by omega⟩
  · simp only [Nat.add_zero, List.drop_zero, Nat.sub_zero]
    rcases Nat.le_total sz.words dst.len with h | h
    · rw [Nat.min_eq_left h, List.take_of_length_le (by rw [hl]), List.take_of_length_le (by rw [hl]; exact h)]
    · rw [Nat.min_eq_right h]

/-- **C122** `Encrypt64` likewise (the length counts, not the capacity). -/
theorem C122_encrypt64 {b : Bool} {sz : Size} {key : List W} {t : W × W} {c : Cipher} (hc : InUse b sz key t c) (m : Mem) (dst src : Slice) (hd : dst.Valid m.words) (hv : src.Valid m.words) :
    (src.len < sz.words → (c.ended m (.encrypt64 dst src)).panicked = true ∧ (c.ended m (.encrypt64 dst src)).m = m) ∧
    (sz.words ≤ src.len →
      (c.ended m (.encrypt64 dst src)).panicked = decide (dst.len < sz.words) ∧
      (c.ended m (.encrypt64 dst src)).m = { m with words := splice m.words dst.off ((Threefish.encrypt sz.params key t.1 t.2 (src.first m.words sz.words)).take dst.len) }) := by
  obtain ⟨hh, -, -⟩ := hc.holds
  constructor
  · intro hs
    simp only [Cipher.ended, Cipher.wordEnd, hh.size]
    rw [if_neg (by omega)]
    exact ⟨rfl, rfl⟩
  · intro hs
    obtain ⟨h1, h2⟩ := wordEnd_up hc false m dst src hd (by cases sz <;> rfl) hs
    have := Internal.enc_spec c.int key t.1 t.2 (by rw [hh.size]; exact hh.klen) hh.ek hh.et (src.first m.words sz.words) (by rw [hh.size]; exact first_length ⟨hs, hv⟩)
    rw [hh.size] at this
    simp only [Bool.false_eq_true, if_false, this] at h2
    exact ⟨h1, h2⟩

/-- **C122** `Decrypt64` likewise, but with the larger block sizes it has written nothing, as it begins with the last word. -/
theorem C122_decrypt64 {b : Bool} {sz : Size} {key : List W} {t : W × W} {c : Cipher} (hc : InUse b sz key t c) (m : Mem) (dst src : Slice) (hd : dst.Valid m.words) :
    (src.len < sz.words → (c.ended m (.decrypt64 dst src)).panicked = true ∧ (c.ended m (.decrypt64 dst src)).m = m) ∧
    (sz.words ≤ src.len → ∀ block, block.length = sz.words → src.first m.words sz.words = Threefish.encrypt sz.params key t.1 t.2 block →
      (c.ended m (.decrypt64 dst src)).panicked = decide (dst.len < sz.words) ∧
      (c.ended m (.decrypt64 dst src)).m = if sz.words ≤ dst.len ∨ sz = .s256 then { m with words := splice m.words dst.off (block.take dst.len) } else m) := by
  obtain ⟨hh, -, -⟩ := hc.holds
  constructor
  · intro hs
    simp only [Cipher.ended, Cipher.wordEnd, hh.size]
    rw [if_neg (by omega)]
    exact ⟨rfl, rfl⟩
  · intro hs block hbl hb
    have := Internal.enc_spec c.int key t.1 t.2 (by rw [hh.size]; exact hh.klen) hh.ek hh.et block (by rw [hh.size]; exact hbl)
    rw [hh.size] at this
    have hdec : c.int.dec (src.first m.words sz.words) = block := by rw [hb, ← this, Internal.dec_enc _ _ (by rw [hh.size]; exact hbl)]
    by_cases h256 : sz = .s256
    · obtain ⟨h1, h2⟩ := wordEnd_up hc true m dst src hd (by subst h256; rfl) hs
      rw [if_pos (Or.inr h256)]
      simp only [if_true, hdec] at h2
      exact ⟨h1, h2⟩
    · have ho : sz.outOrder true = (List.range sz.words).reverse := by cases sz <;> first | rfl | exact absurd rfl h256
      have hv := hd.1
      have hv2 := hd.2
      simp only [Cipher.ended, Cipher.wordEnd, hh.size, if_pos hs, if_true, hdec, ho]
      by_cases hdl : sz.words ≤ dst.len
      · rw [storeWords_down dst block sz.words m.words (by omega) hdl (by omega), if_pos (Or.inl hdl), List.take_of_length_le (by omega), List.take_of_length_le (by omega)]
        exact ⟨by symm; rw [decide_eq_false_iff_not]; omega, rfl⟩
      · rw [storeWords_down_short dst block sz.words m.words (by omega), if_neg (by rintro (h | h) <;> contradiction)]
        exact ⟨by symm; rw [decide_eq_true_eq]; omega, rfl⟩

theorem storeLoop_writeWords (s : Slice) (tmp : List W) (k : Nat) : ∀ (i : Nat) (h : Str), i + k ≤ tmp.length →
    writeWords h (s.off + i * 8) (s.cap - i * 8) ((tmp.drop i).take k) = if (storeLoop s tmp k i h).1 then none else some (storeLoop s tmp k i h).2 := by
  induction k with
  | zero => intro i h hl; simp [storeLoop, writeWords]
  | succ k ih =>
    intro i h hl
    rw [List.drop_eq_getElem_cons (by omega), List.take_succ_cons, writeWords, storeLoop]
    by_cases hc : i * 8 + 8 ≤ s.cap
    · rw [if_pos (by omega), if_pos hc, ← ih _ _ (by omega), getD_lt (by omega)]
      congr 1 <;> omega
    · rw [if_neg (by omega), if_neg hc]
      rfl

theorem byteEnd_agrees {sz : Size} {key : List W} {t0 t1 : W} {c : Cipher} (hh : Holds c sz key t0 t1) (hf : c.stateSize / 64 ≤ sz.words) (f : List W → List W)
    (hfl : ∀ b, (f b).length = sz.words) (m : Mem) (dst src : Slice) :
    (do
      let ws ← readWords m.bytes src (c.stateSize / 64)
      let tmp1 := ws ++ c.int.tmp1.drop (c.stateSize / 64)
      let tmp2 := f tmp1
      let h' ← writeWords m.bytes dst.off dst.cap (tmp2.take (c.stateSize / 64))
      some (({ c with int := { c.int with tmp1 := tmp1, tmp2 := tmp2 } } : Cipher), ({ m with bytes := h' } : Mem))) =
    if (c.byteEnd f m dst src).panicked then none else some ((c.byteEnd f m dst src).c, (c.byteEnd f m dst src).m) := by
  have f1 := loadLoop_flag m.bytes src (c.stateSize / 64) 0 c.int.tmp1
  have w1 := loadLoop_words m.bytes src (c.stateSize / 64) 0 c.int.tmp1 (by rw [hh.tmp]; omega)
  unfold Cipher.byteEnd
  revert f1 w1
  generalize loadLoop m.bytes src (c.stateSize / 64) 0 c.int.tmp1 = r
  obtain ⟨p, t⟩ := r
  intro f1 w1
  simp only [Nat.zero_add] at f1 w1
  by_cases hp : c.stateSize / 64 * 8 ≤ src.cap
  · have : p = false := by rw [f1, decide_eq_false_iff_not]; omega
    subst this
    have e := w1 rfl
    simp only [List.take_zero, List.nil_append] at e
    simp only [readWords, if_pos hp, Option.bind_eq_bind, Option.bind_some, ← e]
    have := storeLoop_writeWords dst (f t) (c.stateSize / 64) 0 m.bytes (by rw [hfl]; omega)
    simp only [Nat.zero_mul, Nat.add_zero, Nat.sub_zero, List.drop_zero] at this
    rw [this]
    split <;> rfl
  · have : p = true := by
      rw [f1, decide_eq_true_eq]
      exact ⟨by rintro h; rw [h] at hp; omega, by omega⟩
    subst this
    simp [readWords, hp]

theorem wordEnd_agrees {b : Bool} {sz : Size} {key : List W} {t : W × W} {c : Cipher} (hc : InUse b sz key t c) (dec : Bool) (m : Mem) (dst src : Slice) (hd : dst.Valid m.words) :
    (if sz.words ≤ src.len ∧ sz.words ≤ dst.len then
      some (c, ({ m with words := splice m.words dst.off (if dec then c.int.dec (src.first m.words sz.words) else c.int.enc (src.first m.words sz.words)) } : Mem)) else none) =
    if (c.wordEnd dec m dst src).panicked then none else some ((c.wordEnd dec m dst src).c, (c.wordEnd dec m dst src).m) := by
  obtain ⟨hh, -, -⟩ := hc.holds
  have hl : (if dec then c.int.dec (src.first m.words sz.words) else c.int.enc (src.first m.words sz.words)).length = sz.words := by
    split
    · rw [Internal.dec_length, hh.size]
    · rw [Internal.enc_length, hh.size]
  have hce : (c.wordEnd dec m dst src).c = c := by simp only [Cipher.wordEnd]; split <;> rfl
  by_cases hs : sz.words ≤ src.len
  · by_cases ho : sz.outOrder dec = List.range sz.words
    · obtain ⟨h1, h2⟩ := wordEnd_up hc dec m dst src hd ho hs
      rw [h1, h2, hce]
      by_cases hdl : sz.words ≤ dst.len
      · rw [if_pos ⟨hs, hdl⟩, show decide (dst.len < sz.words) = false by rw [decide_eq_false_iff_not]; omega, List.take_of_length_le (by rw [hl]; exact hdl)]
        rfl
      · rw [if_neg (by rintro ⟨-, h⟩; contradiction), if_pos (by rw [decide_eq_true_eq]; omega)]
    · have ho' : sz.outOrder dec = (List.range sz.words).reverse := by cases sz <;> cases dec <;> first | rfl | exact absurd rfl ho
      have hv := hd.1
      have hv2 := hd.2
      rw [hce]
      simp only [Cipher.wordEnd, hh.size, if_pos hs, ho']
      by_cases hdl : sz.words ≤ dst.len
      · rw [if_pos ⟨hs, hdl⟩, storeWords_down dst _ sz.words m.words (by rw [hl]) hdl (by omega), List.take_of_length_le (by rw [hl])]
        rfl
      · rw [if_neg (by rintro ⟨-, h⟩; contradiction), storeWords_down_short dst _ sz.words m.words (by omega)]
        rfl
  · rw [if_neg (by rintro ⟨h, -⟩; contradiction)]
    simp only [Cipher.wordEnd, hh.size, if_neg hs]
    rfl

/-- **C122** The calls that return do what the other theorems say (those are about `Cipher.call`). -/
theorem C122_returns {b : Bool} {sz : Size} {key : List W} {t : W × W} {c : Cipher} (hc : InUse b sz key t c) (m : Mem) (x : Call) (hx : x.Valid m) :
    c.call m x = if (c.ended m x).panicked then none else some ((c.ended m x).c, (c.ended m x).m) := by
  obtain ⟨hh, hf, -⟩ := hc.holds
  have hel : ∀ b, (c.int.enc b).length = sz.words := fun b => by rw [Internal.enc_length, hh.size]
  have hdl : ∀ b, (c.int.dec b).length = sz.words := fun b => by rw [Internal.dec_length, hh.size]
  cases x with
  | encrypt dst src =>
    rw [Cipher.ended, ← byteEnd_agrees hh hf _ hel]
    simp only [Cipher.call, Cipher.encrypt, Option.bind_eq_bind]
    cases readWords m.bytes src (c.stateSize / 64) with
    | none => rfl
    | some ws =>
      simp only [Option.bind_some]
      cases writeWords m.bytes dst.off dst.cap _ <;> rfl
  | decrypt dst src =>
    rw [Cipher.ended, ← byteEnd_agrees hh hf _ hdl]
    simp only [Cipher.call, Cipher.decrypt, Option.bind_eq_bind]
    cases readWords m.bytes src (c.stateSize / 64) with
    | none => rfl
    | some ws =>
      simp only [Option.bind_some]
      cases writeWords m.bytes dst.off dst.cap _ <;> rfl
  | encrypt64 dst src =>
    rw [Cipher.ended, ← wordEnd_agrees hc false m dst src hx.1]
    simp only [Cipher.call, Cipher.encrypt64, hh.size, Bool.false_eq_true, if_false]
    split <;> rfl
  | decrypt64 dst src =>
    rw [Cipher.ended, ← wordEnd_agrees hc true m dst src hx.1]
    simp only [Cipher.call, Cipher.decrypt64, hh.size, if_true]
    split <;> rfl
  | setKey k =>
    have hek : c.int.ek.length = sz.words + 1 := by rw [hh.ek, extKey, List.length_append, hh.klen]; rfl
    obtain ⟨h1, -, h3⟩ := keySteps_eq k sz.words 0 c.int.ek KEY_SCHEDULE_CONST (by omega)
    simp only [Cipher.call, Cipher.setKey, Cipher.ended, hh.size, Crypter.setKey, Nat.zero_add] at h1 h3 ⊢
    have hk := keyLoop_eq sz.words k KEY_SCHEDULE_CONST
    split at hk
    · rename_i hle
      have hp : (keySteps k sz.words 0 c.int.ek KEY_SCHEDULE_CONST).1 = false := by rw [h1, decide_eq_false_iff_not]; omega
      have := h3 hp _ _ hk
      rw [hk, hp, this]
      rfl
    · rename_i hle
      have hw0 : sz.words ≠ 0 := by cases sz <;> decide
      have hp : (keySteps k sz.words 0 c.int.ek KEY_SCHEDULE_CONST).1 = true := by rw [h1, decide_eq_true_eq]; omega
      rw [hk, hp]
      rfl
  | setTweak tw =>
    have : c.int.et = [t.1, t.2, t.1 ^^^ t.2] := hh.et
    match tw with
    | none => simp [Cipher.call, Cipher.setTweak, Cipher.ended, Crypter.setTweak, tweakSteps]
    | some [] => simp [Cipher.call, Cipher.setTweak, Cipher.ended, Crypter.setTweak, tweakSteps]
    | some [a] => simp [Cipher.call, Cipher.setTweak, Cipher.ended, Crypter.setTweak, tweakSteps]
    | some (a :: b :: r) => simp [Cipher.call, Cipher.setTweak, Cipher.ended, Crypter.setTweak, tweakSteps, this]

/-- **C122** `SetKey` panics exactly if the key has fewer words than a block, `SetTweak` exactly if it is given one word or an empty slice that is not nil; neither touches the callers'
memory. -/
theorem C122_set {b : Bool} {sz : Size} {key : List W} {t : W × W} {c : Cipher} (hc : InUse b sz key t c) (m : Mem) :
    (∀ k, (c.ended m (.setKey k)).panicked = decide (k.length < sz.words) ∧ (c.ended m (.setKey k)).m = m) ∧
    ∀ tw, (c.ended m (.setTweak tw)).panicked = (match tw with | none => false | some ws => decide (ws.length < 2)) ∧ (c.ended m (.setTweak tw)).m = m := by
  obtain ⟨hh, hf, -⟩ := hc.holds
  refine ⟨fun k => ⟨?_, rfl⟩, fun tw => ⟨?_, rfl⟩⟩
  · have hek : c.int.ek.length = sz.words + 1 := by rw [hh.ek, extKey, List.length_append, hh.klen]; rfl
    obtain ⟨h1, -⟩ := keySteps_eq k sz.words 0 c.int.ek KEY_SCHEDULE_CONST (by omega)
    have hw0 : sz.words ≠ 0 := by cases sz <;> decide
    simp only [Cipher.ended, hh.size, h1]
    congr 1
    apply propext
    constructor
    · rintro ⟨h1, h2⟩; omega
    · intro h; exact ⟨hw0, by omega⟩
  · match tw with
    | none => rfl
    | some [] => rfl
    | some [a] => rfl
    | some (a :: b :: r) => simp [Cipher.ended, tweakSteps]

/-- The cipher with the zero key. -/
def zeroCipher : Cipher := made 256 .s256 [0, 0, 0, 0] none

/-- Encrypting a block of zeros. -/
def probe : Call := .encrypt64 ⟨0, 4, 4⟩ ⟨4, 4, 4⟩

/-- **C122** is false of `SetKey` and `SetTweak`: called with one word they panic, and afterwards the cipher encrypts differently. -/
theorem C122_false : InUse true .s256 [0, 0, 0, 0] (0, 0) zeroCipher ∧
    ∀ x ∈ [Call.setKey [1], Call.setTweak (some [1])], (zeroCipher.ended ⟨[], List.replicate 8 0⟩ x).panicked = true ∧
      ((zeroCipher.ended ⟨[], List.replicate 8 0⟩ x).c.ended ⟨[], List.replicate 8 0⟩ probe).m.words ≠ (zeroCipher.ended ⟨[], List.replicate 8 0⟩ probe).m.words := by
  refine ⟨.newSize _ (newSize_eq .s256), ?_⟩
  intro x hx
  simp only [List.mem_cons, List.not_mem_nil, or_false] at hx
  rcases hx with rfl | rfl <;> decide +kernel

/-- The hypotheses of the theorems can be met: a destination with room for half a block. -/
example : InUse true .s256 [0, 0, 0, 0] (0, 0) zeroCipher ∧ Slice.Valid (List.replicate 50 (0 : UInt8)) ⟨32, 16, 18⟩ ∧
    Slice.first (List.replicate 50 (0 : UInt8)) ⟨0, 32, 32⟩ 32 = bytesOfWords [0, 0, 0, 0] ∧
    (zeroCipher.ended ⟨List.replicate 50 0, []⟩ (.encrypt ⟨32, 16, 18⟩ ⟨0, 32, 32⟩)).panicked = true :=
  ⟨.newSize _ (newSize_eq .s256), ⟨by decide, by decide⟩, by decide +kernel, by decide +kernel⟩

end Verif.Crypter
