import Verif.FormGen.FormUniform
/-
C11, C62, C132: for exactly which forms the claims hold.
-/
namespace Verif.FormGen
open Verif.Password

/-- Reading a printed text along its form: for each `x`, `X`, `n`, `s` and `a` of the form, this character and what was printed for it. The
separators are printed as they are, other characters of the form are not. -/
inductive Slots : (form out : Str) → List (UInt8 × UInt8) → Prop
  | nil : Slots [] [] []
  | char {f o vs c d} (h : c ∈ lit "xXnsa") : Slots f o vs → Slots (c :: f) (d :: o) ((c, d) :: vs)
  | sep {f o vs c} (h : c ∈ lit "-_/\\#") : Slots f o vs → Slots (c :: f) (c :: o) vs
  | skip {f o vs c} (h : c ∉ lit "xXnsa-_/\\#") : Slots f o vs → Slots (c :: f) o vs

/-- No character is printed twice (separators of the form aside). -/
def Unrepeated (form out : Str) : Prop := ∃ vs, Slots form out vs ∧ (vs.map Prod.snd).Nodup

/-- What is printed for every `a` is a letter or a digit. -/
def AlphaOk (form out : Str) : Prop := ∃ vs, Slots form out vs ∧ ∀ d, ((97 : UInt8), d) ∈ vs → IsLower d ∨ IsUpper d ∨ IsDigit d

/-- The forms for which `--unique` keeps its promise. Without `a`: all of them without `--mixed`, and with `--mixed` those with at most one `x`
and at most one `X`. With `k > 0` times `a`: no `n` and no `s`; with `--mixed` no `x` and no `X` either, and without it none of the first `k`
letters of the form is an `x`. -/
def SafeForm (mixed : Bool) (form : Str) : Prop :=
  if (97 : UInt8) ∈ form then
    (110 : UInt8) ∉ form ∧ (115 : UInt8) ∉ form ∧
      if mixed then (120 : UInt8) ∉ form ∧ (88 : UInt8) ∉ form
      else (120 : UInt8) ∉ (form.filter fun c => c == 120 || c == 88).take (form.count 97)
  else mixed = true → form.count 120 ≤ 1 ∧ form.count 88 ≤ 1

theorem class_chars : ∀ c : UInt8, (c ∈ lit "xXnsa" → c ∉ lit "-_/\\#" ∧ c ∈ lit "xXnsa-_/\\#") ∧ (c ∈ lit "-_/\\#" → c ∈ lit "xXnsa-_/\\#") ∧
    (c ∈ lit "xXnsa-_/\\#" → c ∈ lit "xXnsa" ∨ c ∈ lit "-_/\\#") := fun c =>
  byte_forall (fun c => (c ∈ lit "xXnsa" → c ∉ lit "-_/\\#" ∧ c ∈ lit "xXnsa-_/\\#") ∧ (c ∈ lit "-_/\\#" → c ∈ lit "xXnsa-_/\\#") ∧
    (c ∈ lit "xXnsa-_/\\#" → c ∈ lit "xXnsa" ∨ c ∈ lit "-_/\\#")) (by decide +kernel) c

theorem slots_unique : ∀ {f out : Str} {vs vs' : List (UInt8 × UInt8)}, Slots f out vs → Slots f out vs' → vs = vs' := by
  intro f out vs vs' h
  induction h generalizing vs' with
  | nil => intro h'; cases h'; rfl
  | char hc _ ih =>
    intro h'
    cases h' with
    | char _ h' => rw [ih h']
    | sep h _ => exact absurd h ((class_chars _).1 hc).1
    | skip h _ => exact absurd ((class_chars _).1 hc).2 h
  | sep hc _ ih =>
    intro h'
    cases h' with
    | char h _ => exact absurd hc ((class_chars _).1 h).1
    | sep _ h' => exact ih h'
    | skip h _ => exact absurd ((class_chars _).2.1 hc) h
  | skip hc _ ih =>
    intro h'
    cases h' with
    | char h _ => exact absurd ((class_chars _).1 h).2 hc
    | sep h _ => exact absurd ((class_chars _).2.1 h) hc
    | skip _ h' => exact ih h'

/-- The positions of the form that are filled. -/
def slotPos (f : Str) : List Nat := (List.range f.length).filter fun i => decide (f.getD i 0 ∈ lit "xXnsa")

/-- What is put there. -/
def slotVal (f pw : Str) (i : Nat) : UInt8 := (placed pw (f.take i) (f.getD i 0)).headD 0

theorem placed_other {pw before : Str} {c : UInt8} (h : c ∉ lit "xXnsa") : placed pw before c = if c ∈ lit "-_/\\#" then [c] else [] := by
  have k : c ∉ lit "x" ∧ c ∉ lit "X" ∧ c ∉ lit "n" ∧ c ∉ lit "s" ∧ c ∉ lit "a" :=
    byte_forall (fun c => c ∉ lit "xXnsa" → c ∉ lit "x" ∧ c ∉ lit "X" ∧ c ∉ lit "n" ∧ c ∉ lit "s" ∧ c ∉ lit "a") (by decide +kernel) c h
  obtain ⟨k1, k2, k3, k4, k5⟩ := k
  unfold placed
  rw [if_neg k1, if_neg k2, if_neg k3, if_neg k4, if_neg k5]

theorem slots_filled_from (pw : Str) : ∀ (f pre : Str), (∀ i < f.length, f.getD i 0 ∈ lit "xXnsa" → (placed pw (pre ++ f.take i) (f.getD i 0)).length = 1) →
    Slots f ((List.range f.length).flatMap fun i => placed pw (pre ++ f.take i) (f.getD i 0))
      (((List.range f.length).filter fun i => decide (f.getD i 0 ∈ lit "xXnsa")).map fun i => (f.getD i 0, (placed pw (pre ++ f.take i) (f.getD i 0)).headD 0))
  | [], pre, _ => .nil
  | c :: f, pre, h => by
    have ih := slots_filled_from pw f (pre ++ [c]) (by
      intro i hi hs
      have := h (i + 1) (by simpa using hi) (by simpa using hs)
      simpa using this)
    have h0 := h 0 (by simp)
    rw [List.length_cons, List.range_succ_eq_map, List.flatMap_cons, List.flatMap_map, List.filter_cons, List.filter_map]
    simp only [Nat.succ_eq_add_one, Function.comp_def, List.take_zero, List.append_nil, List.getD_cons_zero, List.getD_cons_succ, List.take_succ_cons] at *
    simp only [List.append_assoc, List.singleton_append] at ih
    by_cases hc : c ∈ lit "xXnsa"
    · have h1 := h0 hc
      obtain ⟨d, hd⟩ := List.length_eq_one_iff.1 h1
      simp only [hc, decide_true, if_true, List.map_cons, List.map_map, Function.comp_def, List.take_zero, List.append_nil, List.getD_cons_zero, List.getD_cons_succ, List.take_succ_cons, hd, List.headD_cons, List.singleton_append]
      exact .char hc ih
    · rw [placed_other hc]
      simp only [hc, decide_false, Bool.false_eq_true, if_false, List.map_map, Function.comp_def, List.getD_cons_succ, List.take_succ_cons]
      by_cases hs : c ∈ lit "-_/\\#"
      · simp only [hs, if_true, List.singleton_append]
        exact .sep hs ih
      · simp only [hs, if_false, List.nil_append]
        exact .skip (fun h => ((class_chars c).2.2 h).elim hc hs) ih

theorem count_take_lt {f : Str} {i : Nat} {c : UInt8} (hi : i < f.length) (h : f.getD i 0 = c) : (f.take i).count c < f.count c := by
  have e : f.getD i 0 = f[i] := by simp [List.getD, hi]
  have : f = f.take i ++ f[i] :: f.drop (i + 1) := by rw [List.getElem_cons_drop, List.take_append_drop]
  conv => rhs; rw [this]
  rw [← e, h, List.count_append, List.count_cons_self]
  omega

theorem count_take_le (f : Str) (i : Nat) (c : UInt8) : (f.take i).count c ≤ f.count c := (List.take_sublist i f).count_le c

theorem slot_cases {c : UInt8} (h : c ∈ lit "xXnsa") : c = 120 ∨ c = 88 ∨ c = 110 ∨ c = 115 ∨ c = 97 := by
  rw [show lit "xXnsa" = [120, 88, 110, 115, 97] by decide] at h
  simpa using h

/-- What is put at the positions, for a password that was asked for. -/
theorem slot_values {a : GenerateCmd} {f pw : Str} (h : Asked a f pw) {i : Nat} (hi : i < f.length) :
    (f.getD i 0 = 120 → ∃ d, (lettersIn pw)[(f.take i).count 120 + (f.take i).count 88]? = some d ∧ placed pw (f.take i) (f.getD i 0) = [lowerOf d]) ∧
    (f.getD i 0 = 88 → ∃ d, (lettersIn pw)[(f.take i).count 120 + (f.take i).count 88]? = some d ∧ placed pw (f.take i) (f.getD i 0) = [upperOf d]) ∧
    (f.getD i 0 = 110 → ∃ d, (digitsIn pw)[(f.take i).count 110]? = some d ∧ placed pw (f.take i) (f.getD i 0) = [d]) ∧
    (f.getD i 0 = 115 → ∃ d, (symbolsIn pw)[(f.take i).count 115]? = some d ∧ placed pw (f.take i) (f.getD i 0) = [d]) ∧
    (f.getD i 0 = 97 → ∃ d, pw[(f.take i).count 97]? = some d ∧ placed pw (f.take i) (f.getD i 0) = [d]) := by
  obtain ⟨l1, l2, l3, l4⟩ := conforms_lengths f h
  have get : ∀ (l : Str) (k : Nat), k < l.length → ∃ d, l[k]? = some d := fun l k hk => ⟨_, List.getElem?_eq_getElem hk⟩
  refine ⟨?_, ?_, ?_, ?_, ?_⟩
  · intro hc
    have h1 := count_take_lt hi hc
    have h2 := count_take_le f i 88
    obtain ⟨d, hd⟩ := get (lettersIn pw) ((f.take i).count 120 + (f.take i).count 88) (by omega)
    refine ⟨d, hd, ?_⟩
    rw [hc]; unfold placed
    rw [if_pos (by decide), hd]; rfl
  · intro hc
    have h1 := count_take_lt hi hc
    have h2 := count_take_le f i 120
    obtain ⟨d, hd⟩ := get (lettersIn pw) ((f.take i).count 120 + (f.take i).count 88) (by omega)
    refine ⟨d, hd, ?_⟩
    rw [hc]; unfold placed
    rw [if_neg (by decide), if_pos (by decide), hd]; rfl
  · intro hc
    have h1 := count_take_lt hi hc
    obtain ⟨d, hd⟩ := get (digitsIn pw) ((f.take i).count 110) (by omega)
    refine ⟨d, hd, ?_⟩
    rw [hc]; unfold placed
    rw [if_neg (by decide), if_neg (by decide), if_pos (by decide), hd]; rfl
  · intro hc
    have h1 := count_take_lt hi hc
    obtain ⟨d, hd⟩ := get (symbolsIn pw) ((f.take i).count 115) (by omega)
    refine ⟨d, hd, ?_⟩
    rw [hc]; unfold placed
    rw [if_neg (by decide), if_neg (by decide), if_neg (by decide), if_pos (by decide), hd]; rfl
  · intro hc
    have h1 := count_take_lt hi hc
    obtain ⟨d, hd⟩ := get pw ((f.take i).count 97) (by omega)
    refine ⟨d, hd, ?_⟩
    rw [hc]; unfold placed
    rw [if_neg (by decide), if_neg (by decide), if_neg (by decide), if_neg (by decide), if_pos (by decide), hd]; rfl

theorem slots_filled {a : GenerateCmd} {f pw : Str} (h : Asked a f pw) : Slots f (filled f pw) ((slotPos f).map fun i => (f.getD i 0, slotVal f pw i)) := by
  have := slots_filled_from pw f [] (by
    intro i hi hs
    obtain ⟨h1, h2, h3, h4, h5⟩ := slot_values h hi
    simp only [List.nil_append]
    rcases slot_cases hs with hc | hc | hc | hc | hc
    · obtain ⟨d, _, e⟩ := h1 hc; rw [e]; rfl
    · obtain ⟨d, _, e⟩ := h2 hc; rw [e]; rfl
    · obtain ⟨d, _, e⟩ := h3 hc; rw [e]; rfl
    · obtain ⟨d, _, e⟩ := h4 hc; rw [e]; rfl
    · obtain ⟨d, _, e⟩ := h5 hc; rw [e]; rfl)
  simp only [List.nil_append] at this
  exact this

theorem slotPos_mem {f : Str} {i : Nat} : i ∈ slotPos f ↔ i < f.length ∧ f.getD i 0 ∈ lit "xXnsa" := by
  unfold slotPos
  rw [List.mem_filter, List.mem_range, decide_eq_true_iff]

theorem slotPos_nodup (f : Str) : (slotPos f).Nodup := List.Nodup.filter _ List.nodup_range

/-- A repeated character is the same value at two positions. -/
theorem unrepeated_iff {a : GenerateCmd} {f pw : Str} (h : Asked a f pw) :
    Unrepeated f (filled f pw) ↔ ∀ i ∈ slotPos f, ∀ j ∈ slotPos f, slotVal f pw i = slotVal f pw j → i = j := by
  have hs := slots_filled h
  have : Unrepeated f (filled f pw) ↔ ((slotPos f).map (slotVal f pw)).Nodup := by
    constructor
    · rintro ⟨vs, hv, hn⟩
      rw [slots_unique hv hs] at hn
      simpa [Function.comp_def] using hn
    · intro hn
      exact ⟨_, hs, by simpa [Function.comp_def] using hn⟩
  rw [this, List.nodup_map_iff_inj_on (slotPos_nodup f)]

theorem alphaOk_iff {a : GenerateCmd} {f pw : Str} (h : Asked a f pw) :
    AlphaOk f (filled f pw) ↔ ∀ i < f.length, f.getD i 0 = 97 → IsLower (slotVal f pw i) ∨ IsUpper (slotVal f pw i) ∨ IsDigit (slotVal f pw i) := by
  have hs := slots_filled h
  constructor
  · rintro ⟨vs, hv, hd⟩ i hi hc
    rw [slots_unique hv hs] at hd
    refine hd _ (List.mem_map.2 ⟨i, slotPos_mem.2 ⟨hi, by rw [hc]; decide⟩, by rw [hc]⟩)
  · intro hk
    refine ⟨_, hs, ?_⟩
    intro d hd
    obtain ⟨i, hi, he⟩ := List.mem_map.1 hd
    simp only [Prod.mk.injEq] at he
    have := hk i (slotPos_mem.1 hi).1 he.1
    rwa [he.2] at this

/-- Which texts are printed. -/
theorem run_iff (a : GenerateCmd) (f : Str) (hf : a.form = some f) (fuel : Nat) (hfuel : 0 < fuel) (out : Str) :
    (∃ stream, a.run fuel stream = .ok out) ↔ ∃ pw, Asked a f pw ∧ out = filled f pw := C106_form_exact a f hf fuel hfuel out

theorem asked_perm {a : GenerateCmd} {f pw pw' : Str} (hp : pw'.Perm pw) (h : Asked a f pw) : Asked a f pw' := by
  unfold Asked at *
  refine ⟨by rw [hp.length_eq]; exact h.len, by rw [countIn_perm hp]; exact h.digits, by rw [countIn_perm hp]; exact h.symbols,
    by rw [countIn_perm hp]; exact h.letters, fun e => hp.nodup_iff.2 (h.fresh e)⟩

theorem parts_perm (pw : Str) (h : ∀ c ∈ pw, Any c) : (lettersIn pw ++ digitsIn pw ++ symbolsIn pw).Perm pw := by
  rw [List.perm_iff_count]
  intro c
  rw [List.count_append, List.count_append]
  by_cases hc : c ∈ pw
  · obtain ⟨a1, a2, a3, a4⟩ := classes_apart c
    unfold lettersIn digitsIn symbolsIn
    have z : ∀ p : UInt8 → Bool, p c = false → (pw.filter p).count c = 0 := fun p hp => List.count_eq_zero_of_not_mem (by simp [hp])
    have o : ∀ p : UInt8 → Bool, p c = true → (pw.filter p).count c = pw.count c := fun p hp => List.count_filter hp
    rcases h c hc with hk | hk | hk | hk
    · rw [o _ (by simp [hk]), z _ (by simp; exact fun h => a1 h (.inl hk)), z _ (by simp; exact fun h => a2 h (.inl hk))]; omega
    · rw [o _ (by simp [hk]), z _ (by simp; exact fun h => a1 h (.inr hk)), z _ (by simp; exact fun h => a2 h (.inr hk))]; omega
    · have := a1 hk
      rw [z _ (by simpa using this), o _ (by simp [hk]), z _ (by simp; exact fun h => a3 h hk)]; omega
    · have := a2 hk
      rw [z _ (by simpa using this), z _ (by simp; exact a3 hk), o _ (by simp [hk])]; omega
  · have z : ∀ p : UInt8 → Bool, (pw.filter p).count c = 0 := fun p => List.count_eq_zero_of_not_mem (fun h => hc (List.mem_of_mem_filter h))
    unfold lettersIn digitsIn symbolsIn
    rw [z, z, z, List.count_eq_zero_of_not_mem hc]

theorem idx_lt {f : Str} {i j : Nat} {c : UInt8} (hij : i < j) (hj : j ≤ f.length) (h : f.getD i 0 = c) : (f.take i).count c < (f.take j).count c := by
  have := count_take_lt (f := f.take j) (i := i) (c := c) (by simp; omega) (by simp [List.getD, hij] at h ⊢; exact h)
  rwa [List.take_take, Nat.min_eq_left (by omega)] at this

theorem idx_le {f : Str} {i j : Nat} (c : UInt8) (hij : i ≤ j) : (f.take i).count c ≤ (f.take j).count c := by
  have := count_take_le (f.take j) i c
  rwa [List.take_take, Nat.min_eq_left hij] at this

theorem count_inj {f : Str} {i j : Nat} {c : UInt8} (hi : i < f.length) (hj : j < f.length) (h1 : f.getD i 0 = c) (h2 : f.getD j 0 = c)
    (e : (f.take i).count c = (f.take j).count c) : i = j := by
  rcases Nat.lt_trichotomy i j with h | h | h
  · have := idx_lt h (by omega) h1; omega
  · exact h
  · have := idx_lt h (by omega) h2; omega

theorem letter_inj {f : Str} {i j : Nat} (hi : i < f.length) (hj : j < f.length) (h1 : f.getD i 0 = 120 ∨ f.getD i 0 = 88) (h2 : f.getD j 0 = 120 ∨ f.getD j 0 = 88)
    (e : (f.take i).count 120 + (f.take i).count 88 = (f.take j).count 120 + (f.take j).count 88) : i = j := by
  have key : ∀ i j : Nat, i < j → j < f.length → (f.getD i 0 = 120 ∨ f.getD i 0 = 88) → (f.take i).count 120 + (f.take i).count 88 < (f.take j).count 120 + (f.take j).count 88 := by
    intro i j hij hj h
    rcases h with h | h
    · have := idx_lt hij (by omega) h
      have := idx_le (f := f) 88 (Nat.le_of_lt hij)
      omega
    · have := idx_lt hij (by omega) h
      have := idx_le (f := f) 120 (Nat.le_of_lt hij)
      omega
  rcases Nat.lt_trichotomy i j with h | h | h
  · have := key i j h hj h1; omega
  · exact h
  · have := key j i h hi h2; omega

theorem get_inj {l : Str} (h : l.Nodup) {i j : Nat} {d : UInt8} (h1 : l[i]? = some d) (h2 : l[j]? = some d) : i = j := by
  have hi : i < l.length := by
    by_contra hc
    rw [List.getElem?_eq_none (by omega)] at h1; simp at h1
  exact (List.getElem?_inj hi h).1 (h1.trans h2.symm)

theorem exists_pos : ∀ (f : Str) (c : UInt8) (k : Nat), k < f.count c → ∃ i < f.length, f.getD i 0 = c ∧ (f.take i).count c = k
  | [], c, k, h => by simp at h
  | d :: f, c, k, h => by
    by_cases hd : d = c
    · subst hd
      cases k with
      | zero => exact ⟨0, by simp, by simp, by simp⟩
      | succ k =>
        rw [List.count_cons_self] at h
        obtain ⟨i, hi, h1, h2⟩ := exists_pos f d k (by omega)
        exact ⟨i + 1, by simpa using hi, by simpa using h1, by simp [h2]⟩
    · rw [List.count_cons_of_ne hd] at h
      obtain ⟨i, hi, h1, h2⟩ := exists_pos f c k h
      exact ⟨i + 1, by simpa using hi, by simpa using h1, by simp [List.count_cons_of_ne hd, h2]⟩

theorem exists_letter : ∀ (f : Str) (c : UInt8) (k : Nat), (f.filter fun c => c == 120 || c == 88)[k]? = some c →
    ∃ i < f.length, f.getD i 0 = c ∧ (f.take i).count 120 + (f.take i).count 88 = k
  | [], c, k, h => by simp at h
  | d :: f, c, k, h => by
    by_cases hd : d = 120 ∨ d = 88
    · have hd' : (d == 120 || d == 88) = true := by simpa using hd
      rw [List.filter_cons, if_pos hd'] at h
      cases k with
      | zero => exact ⟨0, by simp, by simpa using h, by simp⟩
      | succ k =>
        obtain ⟨i, hi, h1, h2⟩ := exists_letter f c k (by simpa using h)
        refine ⟨i + 1, by simpa using hi, by simpa using h1, ?_⟩
        rw [List.take_succ_cons]
        rcases hd with rfl | rfl
        · rw [List.count_cons_self, List.count_cons_of_ne (by decide)]; omega
        · rw [List.count_cons_self, List.count_cons_of_ne (by decide)]; omega
    · have hd' : ¬ (d == 120 || d == 88) = true := by simpa using hd
      rw [List.filter_cons, if_neg hd'] at h
      obtain ⟨i, hi, h1, h2⟩ := exists_letter f c k h
      rw [not_or] at hd
      exact ⟨i + 1, by simpa using hi, by simpa using h1, by rw [List.take_succ_cons, List.count_cons_of_ne hd.1, List.count_cons_of_ne hd.2]; exact h2⟩

theorem letter_at : ∀ (f : Str) (i : Nat), i < f.length → (f.getD i 0 = 120 ∨ f.getD i 0 = 88) →
    (f.filter fun c => c == 120 || c == 88)[(f.take i).count 120 + (f.take i).count 88]? = some (f.getD i 0)
  | [], i, h, _ => by simp at h
  | d :: f, 0, _, h => by
    have hd' : (d == 120 || d == 88) = true := by simpa using h
    rw [List.filter_cons, if_pos hd']; simp
  | d :: f, i + 1, hi, h => by
    have ih := letter_at f i (by simpa using hi) (by simpa using h)
    rw [List.filter_cons, List.take_succ_cons]
    by_cases hd : d = 120 ∨ d = 88
    · have hd' : (d == 120 || d == 88) = true := by simpa using hd
      rw [if_pos hd']
      rcases hd with rfl | rfl
      · rw [List.count_cons_self, List.count_cons_of_ne (by decide), show ∀ x y : Nat, x + 1 + y = (x + y) + 1 by omega, List.getElem?_cons_succ]; simpa using ih
      · rw [List.count_cons_self, List.count_cons_of_ne (by decide), show ∀ x y : Nat, x + (y + 1) = (x + y) + 1 by omega, List.getElem?_cons_succ]; simpa using ih
    · have hd' : ¬ (d == 120 || d == 88) = true := by simpa using hd
      rw [if_neg hd']
      rw [not_or] at hd
      rw [List.count_cons_of_ne hd.1, List.count_cons_of_ne hd.2]; simpa using ih

theorem case_facts (c : UInt8) : (IsLower c → lowerOf c = c ∧ IsUpper (upperOf c) ∧ lowerOf (upperOf c) = c) ∧ ((IsLower c ∨ IsUpper c) → IsLower (lowerOf c) ∧ IsUpper (upperOf c)) ∧
    (IsLower c → ¬ IsUpper c) :=
  byte_forall (fun c => (IsLower c → lowerOf c = c ∧ IsUpper (upperOf c) ∧ lowerOf (upperOf c) = c) ∧ ((IsLower c ∨ IsUpper c) → IsLower (lowerOf c) ∧ IsUpper (upperOf c)) ∧
    (IsLower c → ¬ IsUpper c)) (by decide +kernel) c

/-- What `slot_values` says about the values. -/
theorem slot_val {a : GenerateCmd} {f pw : Str} (h : Asked a f pw) {i : Nat} (hi : i < f.length) :
    (f.getD i 0 = 120 → ∃ d, (lettersIn pw)[(f.take i).count 120 + (f.take i).count 88]? = some d ∧ slotVal f pw i = lowerOf d) ∧
    (f.getD i 0 = 88 → ∃ d, (lettersIn pw)[(f.take i).count 120 + (f.take i).count 88]? = some d ∧ slotVal f pw i = upperOf d) ∧
    (f.getD i 0 = 110 → (digitsIn pw)[(f.take i).count 110]? = some (slotVal f pw i)) ∧
    (f.getD i 0 = 115 → (symbolsIn pw)[(f.take i).count 115]? = some (slotVal f pw i)) ∧
    (f.getD i 0 = 97 → pw[(f.take i).count 97]? = some (slotVal f pw i)) := by
  obtain ⟨h1, h2, h3, h4, h5⟩ := slot_values h hi
  unfold slotVal
  refine ⟨fun hc => ?_, fun hc => ?_, fun hc => ?_, fun hc => ?_, fun hc => ?_⟩
  · obtain ⟨d, hd, e⟩ := h1 hc; exact ⟨d, hd, by rw [e]; rfl⟩
  · obtain ⟨d, hd, e⟩ := h2 hc; exact ⟨d, hd, by rw [e]; rfl⟩
  · obtain ⟨d, hd, e⟩ := h3 hc; rw [e]; exact hd
  · obtain ⟨d, hd, e⟩ := h4 hc; rw [e]; exact hd
  · obtain ⟨d, hd, e⟩ := h5 hc; rw [e]; exact hd

theorem in_letters {pw : Str} {k : Nat} {d : UInt8} (h : (lettersIn pw)[k]? = some d) : d ∈ pw ∧ (IsLower d ∨ IsUpper d) := by
  have := List.mem_of_getElem? h
  unfold lettersIn at this
  rw [List.mem_filter] at this
  exact ⟨this.1, of_decide_eq_true this.2⟩

/-- The class of what is printed. -/
theorem slot_class {a : GenerateCmd} {f pw : Str} (h : Asked a f pw) {i : Nat} (hi : i < f.length) :
    (f.getD i 0 = 120 → IsLower (slotVal f pw i)) ∧ (f.getD i 0 = 88 → IsUpper (slotVal f pw i)) ∧ (f.getD i 0 = 110 → IsDigit (slotVal f pw i)) ∧
    (f.getD i 0 = 115 → IsSym (slotVal f pw i)) ∧ (f.getD i 0 = 97 → slotVal f pw i ∈ pw) := by
  obtain ⟨h1, h2, h3, h4, h5⟩ := slot_val h hi
  refine ⟨fun hc => ?_, fun hc => ?_, fun hc => ?_, fun hc => ?_, fun hc => List.mem_of_getElem? (h5 hc)⟩
  · obtain ⟨d, hd, e⟩ := h1 hc; rw [e]; exact ((case_facts d).2.1 (in_letters hd).2).1
  · obtain ⟨d, hd, e⟩ := h2 hc; rw [e]; exact ((case_facts d).2.1 (in_letters hd).2).2
  · have := List.mem_of_getElem? (h3 hc); unfold digitsIn at this; exact of_decide_eq_true (List.mem_filter.1 this).2
  · have := List.mem_of_getElem? (h4 hc); unfold symbolsIn at this; exact of_decide_eq_true (List.mem_filter.1 this).2

theorem filter_index (p : UInt8 → Bool) : ∀ (l : Str) (k : Nat) (d : UInt8), (l.filter p)[k]? = some d → ∃ j, k ≤ j ∧ l[j]? = some d
  | [], k, d, h => by simp at h
  | c :: l, k, d, h => by
    rw [List.filter_cons] at h
    split at h
    · cases k with
      | zero => exact ⟨0, by omega, by simpa using h⟩
      | succ k =>
        obtain ⟨j, hj, e⟩ := filter_index p l k d (by simpa using h)
        exact ⟨j + 1, by omega, by simpa using e⟩
    · obtain ⟨j, hj, e⟩ := filter_index p l k d h
      exact ⟨j + 1, by omega, by simpa using e⟩

theorem asked_facts {a : GenerateCmd} {f pw : Str} (h : Asked a f pw) : (∀ c ∈ pw, Any c) ∧ (a.mixed = false → ∀ c ∈ pw, ¬ IsUpper c) ∧ (a.unique = true → pw.Nodup) := by
  unfold Asked at h
  rw [conforms_iff] at h
  exact ⟨h.1, fun e => h.2.2.2.2.1 (by simp [e]), fun e => h.2.2.2.2.2 (by simp [e])⟩

/-- The same letter of the form at two positions. -/
theorem same_letter {a : GenerateCmd} {f pw : Str} (h : Asked a f pw) (hu : a.unique = true) {i j : Nat} (hi : i < f.length) (hj : j < f.length)
    (e : slotVal f pw i = slotVal f pw j) (c : UInt8) (hc : c = 120 ∨ c = 88) (ci : f.getD i 0 = c) (cj : f.getD j 0 = c) (hm : a.mixed = true → f.count c ≤ 1) : i = j := by
  obtain ⟨q1, q2, q3⟩ := asked_facts h
  have hn := q3 hu
  obtain ⟨i1, i2, i3, i4, i5⟩ := slot_val h hi
  obtain ⟨j1, j2, j3, j4, j5⟩ := slot_val h hj
  cases em : a.mixed with
  | true =>
    have := hm em
    have := count_take_lt hi ci
    have := count_take_lt hj cj
    exact count_inj hi hj ci cj (by omega)
  | false =>
    have hl : (lettersIn pw).Nodup := hn.filter _
    have low : ∀ k d, (lettersIn pw)[k]? = some d → IsLower d := fun k d hd => (in_letters hd).2.resolve_right (q2 em d (in_letters hd).1)
    rcases hc with rfl | rfl
    · obtain ⟨d1, g1, e1⟩ := i1 ci
      obtain ⟨d2, g2, e2⟩ := j1 cj
      have : d1 = d2 := by
        rw [← ((case_facts d1).1 (low _ _ g1)).1, ← ((case_facts d2).1 (low _ _ g2)).1, ← e1, ← e2, e]
      subst this
      exact letter_inj hi hj (.inl ci) (.inl cj) (get_inj hl g1 g2)
    · obtain ⟨d1, g1, e1⟩ := i2 ci
      obtain ⟨d2, g2, e2⟩ := j2 cj
      have : d1 = d2 := by
        rw [← ((case_facts d1).1 (low _ _ g1)).2.2, ← ((case_facts d2).1 (low _ _ g2)).2.2, ← e1, ← e2, e]
      subst this
      exact letter_inj hi hj (.inr ci) (.inr cj) (get_inj hl g1 g2)

/-- An `a` and a letter of the form. -/
theorem alpha_letter {a : GenerateCmd} {f pw : Str} (h : Asked a f pw) (hu : a.unique = true) (hs : SafeForm a.mixed f) {i j : Nat} (hi : i < f.length) (hj : j < f.length)
    (e : slotVal f pw i = slotVal f pw j) (ci : f.getD i 0 = 97) (cj : f.getD j 0 = 120 ∨ f.getD j 0 = 88) : False := by
  have mem : ∀ k < f.length, f.getD k 0 ∈ f := by intro k hk; simp [List.getD, hk]
  obtain ⟨q1, q2, q3⟩ := asked_facts h
  have hn := q3 hu
  have ha : (97 : UInt8) ∈ f := ci ▸ mem i hi
  unfold SafeForm at hs
  rw [if_pos ha] at hs
  obtain ⟨-, -, hs⟩ := hs
  have gi := (slot_val h hi).2.2.2.2 ci
  cases em : a.mixed with
  | true =>
    rw [if_pos em] at hs
    rcases cj with cj | cj
    · exact hs.1 (cj ▸ mem j hj)
    · exact hs.2 (cj ▸ mem j hj)
  | false =>
    rw [if_neg (by simp [em])] at hs
    have nu := q2 em _ (List.mem_of_getElem? gi)
    rcases cj with cj | cj
    · obtain ⟨d, hd, e2⟩ := (slot_val h hj).1 cj
      have hlow := (in_letters hd).2.resolve_right (q2 em d (in_letters hd).1)
      rw [((case_facts d).1 hlow).1] at e2
      obtain ⟨p, hp, g⟩ := filter_index _ pw _ d hd
      rw [e, e2] at gi
      have hpe := get_inj hn g gi
      have hlt := count_take_lt hi ci
      apply hs
      have hk := letter_at f j hj (.inl cj)
      rw [cj] at hk
      rw [List.mem_iff_getElem?]
      refine ⟨(f.take j).count 120 + (f.take j).count 88, ?_⟩
      rw [List.getElem?_take, if_pos (by omega), hk]
    · have := (slot_class h hj).2.1 cj
      rw [e] at nu
      exact nu this

/-- For the safe forms nothing is printed twice. -/
theorem safe_inj {a : GenerateCmd} {f pw : Str} (h : Asked a f pw) (hu : a.unique = true) (hs : SafeForm a.mixed f) : Unrepeated f (filled f pw) := by
  rw [unrepeated_iff h]
  intro i hi j hj e
  obtain ⟨hi, ki⟩ := slotPos_mem.1 hi
  obtain ⟨hj, kj⟩ := slotPos_mem.1 hj
  have mem : ∀ k < f.length, f.getD k 0 ∈ f := by intro k hk; simp [List.getD, hk]
  obtain ⟨q1, q2, q3⟩ := asked_facts h
  have hn := q3 hu
  obtain ⟨k1, k2, k3, k4, k5⟩ := slot_class h hi
  obtain ⟨l1, l2, l3, l4, l5⟩ := slot_class h hj
  have vi := slot_val h hi
  have vj := slot_val h hj
  have apart := classes_apart (slotVal f pw j)
  rw [e] at k1 k2 k3 k4
  have hno : (97 : UInt8) ∈ f → (110 : UInt8) ∉ f ∧ (115 : UInt8) ∉ f := by
    intro ha; unfold SafeForm at hs; rw [if_pos ha] at hs; exact ⟨hs.1, hs.2.1⟩
  have one : ∀ c : UInt8, c = 120 ∨ c = 88 → c ∈ f → a.mixed = true → f.count c ≤ 1 := by
    intro c hc hcf em
    by_cases ha : (97 : UInt8) ∈ f
    · unfold SafeForm at hs
      rw [if_pos ha, if_pos em] at hs
      rcases hc with rfl | rfl
      · exact absurd hcf hs.2.2.1
      · exact absurd hcf hs.2.2.2
    · unfold SafeForm at hs
      rw [if_neg ha] at hs
      rcases hc with rfl | rfl
      · exact (hs em).1
      · exact (hs em).2
  obtain ⟨a1, a2, a3, a4⟩ := apart
  have mi := mem i hi
  have mj := mem j hj
  rcases slot_cases ki with ci | ci | ci | ci | ci <;> rcases slot_cases kj with cj | cj | cj | cj | cj
  · exact same_letter h hu hi hj e 120 (.inl rfl) ci cj (one 120 (.inl rfl) (ci ▸ mi))
  · exact absurd (k1 ci) (a4 (l2 cj))
  · exact absurd (.inl (k1 ci)) (a1 (l3 cj))
  · exact absurd (.inl (k1 ci)) (a2 (l4 cj))
  · exact (alpha_letter h hu hs hj hi e.symm cj (.inl ci)).elim
  · exact absurd (l1 cj) (a4 (k2 ci))
  · exact same_letter h hu hi hj e 88 (.inr rfl) ci cj (one 88 (.inr rfl) (ci ▸ mi))
  · exact absurd (.inr (k2 ci)) (a1 (l3 cj))
  · exact absurd (.inr (k2 ci)) (a2 (l4 cj))
  · exact (alpha_letter h hu hs hj hi e.symm cj (.inr ci)).elim
  · exact absurd (.inl (l1 cj)) (a1 (k3 ci))
  · exact absurd (.inr (l2 cj)) (a1 (k3 ci))
  · exact count_inj hi hj ci cj (get_inj (hn.filter _) (vi.2.2.1 ci) (e ▸ vj.2.2.1 cj))
  · exact absurd (k3 ci) (a3 (l4 cj))
  · exact absurd (ci ▸ mi) (hno (cj ▸ mj)).1
  · exact absurd (.inl (l1 cj)) (a2 (k4 ci))
  · exact absurd (.inr (l2 cj)) (a2 (k4 ci))
  · exact absurd (l3 cj) (a3 (k4 ci))
  · exact count_inj hi hj ci cj (get_inj (hn.filter _) (vi.2.2.2.1 ci) (e ▸ vj.2.2.2.1 cj))
  · exact absurd (ci ▸ mi) (hno (cj ▸ mj)).2
  · exact (alpha_letter h hu hs hi hj e ci (.inl cj)).elim
  · exact (alpha_letter h hu hs hi hj e ci (.inr cj)).elim
  · exact absurd (cj ▸ mj) (hno (ci ▸ mi)).1
  · exact absurd (cj ▸ mj) (hno (ci ▸ mi)).2
  · exact count_inj hi hj ci cj (get_inj hn (vi.2.2.2.2 ci) (e ▸ vj.2.2.2.2 cj))


theorem letters_all {l : Str} (h : ∀ c ∈ l, IsLower c ∨ IsUpper c) : lettersIn l = l ∧ digitsIn l = [] ∧ symbolsIn l = [] := by
  unfold lettersIn digitsIn symbolsIn
  refine ⟨List.filter_eq_self.2 fun c hc => by simpa using h c hc, List.filter_eq_nil_iff.2 fun c hc => ?_, List.filter_eq_nil_iff.2 fun c hc => ?_⟩
  · simp; exact fun hd => (classes_apart c).1 hd (h c hc)
  · simp; exact fun hd => (classes_apart c).2.1 hd (h c hc)

theorem digits_all {l : Str} (h : ∀ c ∈ l, IsDigit c) : lettersIn l = [] ∧ digitsIn l = l ∧ symbolsIn l = [] := by
  unfold lettersIn digitsIn symbolsIn
  refine ⟨List.filter_eq_nil_iff.2 fun c hc => ?_, List.filter_eq_self.2 fun c hc => by simpa using h c hc, List.filter_eq_nil_iff.2 fun c hc => ?_⟩
  · simpa using (classes_apart c).1 (h c hc)
  · simp; exact fun hd => (classes_apart c).2.2.1 hd (h c hc)

theorem symbols_all {l : Str} (h : ∀ c ∈ l, IsSym c) : lettersIn l = [] ∧ digitsIn l = [] ∧ symbolsIn l = l := by
  unfold lettersIn digitsIn symbolsIn
  refine ⟨List.filter_eq_nil_iff.2 fun c hc => ?_, List.filter_eq_nil_iff.2 fun c hc => ?_, List.filter_eq_self.2 fun c hc => by simpa using h c hc⟩
  · simpa using (classes_apart c).2.1 (h c hc)
  · simpa using (classes_apart c).2.2.1 (h c hc)

theorem in_app (x y : Str) : lettersIn (x ++ y) = lettersIn x ++ lettersIn y ∧ digitsIn (x ++ y) = digitsIn x ++ digitsIn y ∧ symbolsIn (x ++ y) = symbolsIn x ++ symbolsIn y := by
  unfold lettersIn digitsIn symbolsIn
  simp only [List.filter_append, and_self]

theorem of_lettersIn {pw : Str} : ∀ c ∈ lettersIn pw, IsLower c ∨ IsUpper c := by
  intro c hc; unfold lettersIn at hc; exact of_decide_eq_true (List.mem_filter.1 hc).2

theorem of_digitsIn {pw : Str} : ∀ c ∈ digitsIn pw, IsDigit c := by
  intro c hc; unfold digitsIn at hc; exact of_decide_eq_true (List.mem_filter.1 hc).2

theorem of_symbolsIn {pw : Str} : ∀ c ∈ symbolsIn pw, IsSym c := by
  intro c hc; unfold symbolsIn at hc; exact of_decide_eq_true (List.mem_filter.1 hc).2

/-- All 52 letters, `b` and `B` first. -/
def all52 : Str := [98, 66] ++ ((List.range 26).map fun i => UInt8.ofNat (97 + i)).erase 98 ++ ((List.range 26).map fun i => UInt8.ofNat (65 + i)).erase 66

theorem all52_facts : all52.Nodup ∧ all52.length = 52 ∧ (∀ c ∈ all52, IsLower c ∨ IsUpper c) ∧ all52[0]? = some 98 ∧ all52[1]? = some 66 := by decide +kernel

theorem mem_all52 (c : UInt8) : IsLower c ∨ IsUpper c → c ∈ all52 := byte_forall (fun c => IsLower c ∨ IsUpper c → c ∈ all52) (by decide +kernel) c

theorem letters_le {l : Str} (hn : l.Nodup) (h : ∀ c ∈ l, IsLower c ∨ IsUpper c) : l.length ≤ 52 := by
  rw [← all52_facts.2.1]
  exact (hn.subperm fun c hc => mem_all52 c (h c hc)).length_le

theorem letters_with (n k1 k2 : Nat) (hn : n ≤ 52) (h1 : k1 < n) (h2 : k2 < n) (hne : k1 ≠ k2) :
    ∃ l : Str, l.length = n ∧ l.Nodup ∧ (∀ c ∈ l, IsLower c ∨ IsUpper c) ∧ l[k1]? = some 98 ∧ l[k2]? = some 66 := by
  obtain ⟨f1, f2, f3, f4, f5⟩ := all52_facts
  let z : Fin n := ⟨0, by omega⟩
  let o : Fin n := ⟨1, by omega⟩
  let a : Fin n := ⟨k1, h1⟩
  let b : Fin n := ⟨k2, h2⟩
  have hab : a ≠ b := by simpa [a, b] using hne
  have hzo : z ≠ o := by simp [z, o]
  let τ := Equiv.swap a z
  let σ : Equiv.Perm (Fin n) := τ.trans (Equiv.swap (τ b) o)
  have hτ : τ a = z := Equiv.swap_apply_left a z
  have hb : τ b ≠ z := fun e => hab (τ.injective (hτ.trans e.symm))
  have s1 : σ a = z := by
    show Equiv.swap (τ b) o (τ a) = z
    rw [hτ, Equiv.swap_apply_of_ne_of_ne hb.symm hzo]
  have s2 : σ b = o := Equiv.swap_apply_left (τ b) o
  have lt : ∀ i : Fin n, i.1 < all52.length := fun i => by rw [f2]; omega
  have g : ∀ i : Fin n, all52[i.1]'(lt i) ∈ all52 := fun i => List.getElem_mem _
  refine ⟨List.ofFn fun i => all52[(σ i).1]'(lt _), List.length_ofFn, ?_, ?_, ?_, ?_⟩
  · rw [List.nodup_ofFn]
    intro i j e
    have := (List.Nodup.getElem_inj_iff f1).1 e
    exact σ.injective (Fin.ext this)
  · intro c hc
    rw [List.mem_ofFn] at hc
    obtain ⟨i, rfl⟩ := hc
    exact f3 _ (g _)
  · rw [List.getElem?_eq_getElem (by simpa using h1), List.getElem_ofFn]
    have : all52[(σ a).1]'(lt _) = 98 := by
      have e : all52[(σ a).1]? = some 98 := by rw [s1]; exact f4
      rw [List.getElem?_eq_getElem (lt _)] at e
      exact Option.some.inj e
    exact congrArg some this
  · rw [List.getElem?_eq_getElem (by simpa using h2), List.getElem_ofFn]
    have : all52[(σ b).1]'(lt _) = 66 := by
      have e : all52[(σ b).1]? = some 66 := by rw [s2]; exact f5
      rw [List.getElem?_eq_getElem (lt _)] at e
      exact Option.some.inj e
    exact congrArg some this

/-- Other letters may take the place of the letters. -/
theorem asked_letters {a : GenerateCmd} {f pw : Str} (h : Asked a f pw) (hm : a.mixed = true) (hu : a.unique = true) {l : Str} (hl : l.length = (lettersIn pw).length) (hn : l.Nodup)
    (hc : ∀ c ∈ l, IsLower c ∨ IsUpper c) : Asked a f (l ++ digitsIn pw ++ symbolsIn pw) ∧ lettersIn (l ++ digitsIn pw ++ symbolsIn pw) = l := by
  obtain ⟨q1, q2, q3⟩ := asked_facts h
  have nd := q3 hu
  have hp := (parts_perm pw q1).length_eq
  obtain ⟨x1, x2, x3⟩ := letters_all hc
  obtain ⟨y1, y2, y3⟩ := digits_all (of_digitsIn (pw := pw))
  obtain ⟨z1, z2, z3⟩ := symbols_all (of_symbolsIn (pw := pw))
  have b1 := in_app (l ++ digitsIn pw) (symbolsIn pw)
  have b2 := in_app l (digitsIn pw)
  refine ⟨?_, by rw [b1.1, b2.1, x1, y1, z1]; simp⟩
  unfold Asked at *
  rw [conforms_iff] at *
  obtain ⟨h1, h2, h3, h4, h5, h6⟩ := h
  refine ⟨?_, ?_, ?_, ?_, fun e => by simp [hm] at e, fun _ => ?_⟩
  · intro c hk
    rw [List.mem_append, List.mem_append] at hk
    rcases hk with (hk | hk) | hk
    · rcases hc c hk with k | k
      · exact .inl k
      · exact .inr (.inl k)
    · exact .inr (.inr (.inl (of_digitsIn c hk)))
    · exact .inr (.inr (.inr (of_symbolsIn c hk)))
  · rw [← h2, ← hp]; simp [hl]
  · rw [b1.2.1, b2.2.1, x2, y2, z2]; simpa using h3
  · rw [b1.2.2, b2.2.2, x3, y3, z3]; simpa using h4
  · rw [List.nodup_append', List.nodup_append']
    refine ⟨⟨hn, nd.filter _, ?_⟩, nd.filter _, ?_⟩
    · intro c c1 c2
      exact (classes_apart c).1 (of_digitsIn c c2) (hc c c1)
    · intro c c1 c2
      rcases List.mem_append.1 c1 with c1 | c1
      · exact (classes_apart c).2.1 (of_symbolsIn c c2) (hc c c1)
      · exact (classes_apart c).2.2.1 (of_symbolsIn c c2) (of_digitsIn c c1)

theorem get3 {x y z : Str} {k : Nat} (h : k < x.length) : (x ++ y ++ z)[k]? = x[k]? := by
  rw [List.append_assoc, List.getElem?_append_left h]

/-- For the other forms something is printed twice. -/
theorem unsafe_bad {a : GenerateCmd} {f pw : Str} (h : Asked a f pw) (hu : a.unique = true) (hs : ¬ SafeForm a.mixed f) : ∃ pw', Asked a f pw' ∧ ¬ Unrepeated f (filled f pw') := by
  obtain ⟨q1, q2, q3⟩ := asked_facts h
  have perm := parts_perm pw q1
  have bad : ∀ pw', Asked a f pw' → ∀ i j, i < f.length → j < f.length → f.getD i 0 ∈ lit "xXnsa" → f.getD j 0 ∈ lit "xXnsa" → i ≠ j → slotVal f pw' i = slotVal f pw' j →
      ∃ pw', Asked a f pw' ∧ ¬ Unrepeated f (filled f pw') := by
    intro pw' hk i j hi hj ci cj hij e
    exact ⟨pw', hk, fun hn => hij ((unrepeated_iff hk).1 hn i (slotPos_mem.2 ⟨hi, ci⟩) j (slotPos_mem.2 ⟨hj, cj⟩) e)⟩
  have m1 : (120 : UInt8) ∈ lit "xXnsa" := by decide
  have m2 : (88 : UInt8) ∈ lit "xXnsa" := by decide
  have m3 : (110 : UInt8) ∈ lit "xXnsa" := by decide
  have m4 : (115 : UInt8) ∈ lit "xXnsa" := by decide
  have m5 : (97 : UInt8) ∈ lit "xXnsa" := by decide
  have ne_of : ∀ i j : Nat, f.getD i 0 ≠ f.getD j 0 → i ≠ j := fun i j hne e => hne (by rw [e])
  obtain ⟨c1, c2, c3, c4⟩ := conforms_lengths f h
  obtain ⟨y1, y2, y3⟩ := digits_all (of_digitsIn (pw := pw))
  obtain ⟨x1, x2, x3⟩ := letters_all (of_lettersIn (pw := pw))
  obtain ⟨z1, z2, z3⟩ := symbols_all (of_symbolsIn (pw := pw))
  by_cases ha : (97 : UInt8) ∈ f
  · have ca : 0 < f.count 97 := List.count_pos_iff.2 ha
    obtain ⟨i, hi, ci, ki⟩ := exists_pos f 97 0 ca
    by_cases hn : (110 : UInt8) ∈ f
    · obtain ⟨j, hj, cj, kj⟩ := exists_pos f 110 0 (List.count_pos_iff.2 hn)
      have pos : 0 < (digitsIn pw).length := by have := List.count_pos_iff.2 hn; omega
      have hp : (digitsIn pw ++ (lettersIn pw ++ symbolsIn pw)).Perm pw := by
        refine List.Perm.trans ?_ perm
        rw [← List.append_assoc]
        exact List.perm_append_comm.append_right _
      have hk := asked_perm hp h
      refine bad _ hk i j hi hj (ci ▸ m5) (cj ▸ m3) (ne_of i j (by rw [ci, cj]; decide)) ?_
      have v1 := (slot_val hk hi).2.2.2.2 ci
      have v2 := (slot_val hk hj).2.2.1 cj
      rw [ki, List.getElem?_append_left pos] at v1
      rw [kj, (in_app _ _).2.1, y2, List.getElem?_append_left pos, v1] at v2
      exact Option.some.inj v2
    by_cases hsym : (115 : UInt8) ∈ f
    · obtain ⟨j, hj, cj, kj⟩ := exists_pos f 115 0 (List.count_pos_iff.2 hsym)
      have pos : 0 < (symbolsIn pw).length := by have := List.count_pos_iff.2 hsym; omega
      have hp : (symbolsIn pw ++ (lettersIn pw ++ digitsIn pw)).Perm pw := List.perm_append_comm.trans perm
      have hk := asked_perm hp h
      refine bad _ hk i j hi hj (ci ▸ m5) (cj ▸ m4) (ne_of i j (by rw [ci, cj]; decide)) ?_
      have v1 := (slot_val hk hi).2.2.2.2 ci
      have v2 := (slot_val hk hj).2.2.2.1 cj
      rw [ki, List.getElem?_append_left pos] at v1
      rw [kj, (in_app _ _).2.2, z3, List.getElem?_append_left pos, v1] at v2
      exact Option.some.inj v2
    unfold SafeForm at hs
    rw [if_pos ha] at hs
    cases em : a.mixed with
    | false =>
      rw [if_neg (by simp [em])] at hs
      have hx : (120 : UInt8) ∈ (f.filter fun c => c == 120 || c == 88).take (f.count 97) := by
        by_contra hc; exact hs ⟨hn, hsym, hc⟩
      obtain ⟨k, hx⟩ := List.mem_iff_getElem?.1 hx
      rw [List.getElem?_take] at hx
      by_cases hk : k < f.count 97
      · rw [if_pos hk] at hx
        obtain ⟨j, hj, cj, kj⟩ := exists_letter f 120 k hx
        obtain ⟨i, hi, ci, ki⟩ := exists_pos f 97 k hk
        have hk := asked_perm perm h
        refine bad _ hk i j hi hj (ci ▸ m5) (cj ▸ m1) (ne_of i j (by rw [ci, cj]; decide)) ?_
        have v1 := (slot_val hk hi).2.2.2.2 ci
        obtain ⟨d, v2, e2⟩ := (slot_val hk hj).1 cj
        have b1 := in_app (lettersIn pw ++ digitsIn pw) (symbolsIn pw)
        have b2 := in_app (lettersIn pw) (digitsIn pw)
        have el : lettersIn (lettersIn pw ++ digitsIn pw ++ symbolsIn pw) = lettersIn pw := by rw [b1.1, b2.1, x1, y1, z1]; simp
        rw [el, kj] at v2
        have lk : k < (lettersIn pw).length := by
          by_contra hc
          rw [List.getElem?_eq_none (by omega)] at v2; simp at v2
        rw [ki, get3 lk, v2] at v1
        have hlow := (in_letters v2).2.resolve_right (q2 em d (in_letters v2).1)
        rw [e2, ((case_facts d).1 hlow).1]
        exact (Option.some.inj v1).symm
      · rw [if_neg hk] at hx; simp at hx
    | true =>
      rw [if_pos em] at hs
      have hx : (120 : UInt8) ∈ f ∨ (88 : UInt8) ∈ f := by
        by_contra hc; rw [not_or] at hc; exact hs ⟨hn, hsym, hc⟩
      have nd := (q3 hu)
      have le : (lettersIn pw).length ≤ 52 := letters_le (nd.filter _) (of_lettersIn (pw := pw))
      have pos : 2 ≤ (lettersIn pw).length := by
        have : 0 < f.count 120 + f.count 88 := by
          rcases hx with hx | hx
          · have := List.count_pos_iff.2 hx; omega
          · have := List.count_pos_iff.2 hx; omega
        omega
      -- the first letter of the form and the first letter of the password
      rcases hx with hx | hx
      · obtain ⟨j, hj, cj, kj⟩ := exists_pos f 120 0 (List.count_pos_iff.2 hx)
        have hlt : (f.take j).count 120 + (f.take j).count 88 < (lettersIn pw).length := by
          have := count_take_lt hj cj
          have := count_take_le f j 88
          omega
        by_cases hk0 : (f.take j).count 120 + (f.take j).count 88 = 0
        · obtain ⟨l, l1, l2, l3, l4, l5⟩ := letters_with _ 0 1 le (by omega) (by omega) (by omega)
          obtain ⟨hk, el⟩ := asked_letters h em hu l1 l2 l3
          refine bad _ hk i j hi hj (ci ▸ m5) (cj ▸ m1) (ne_of i j (by rw [ci, cj]; decide)) ?_
          have v1 := (slot_val hk hi).2.2.2.2 ci
          obtain ⟨d, v2, e2⟩ := (slot_val hk hj).1 cj
          rw [el, hk0, l4] at v2
          rw [ki, get3 (by omega), l4] at v1
          rw [e2, ← Option.some.inj v1, ← Option.some.inj v2]; decide
        · obtain ⟨l, l1, l2, l3, l4, l5⟩ := letters_with _ 0 _ le (by omega) hlt (Ne.symm hk0)
          obtain ⟨hk, el⟩ := asked_letters h em hu l1 l2 l3
          refine bad _ hk i j hi hj (ci ▸ m5) (cj ▸ m1) (ne_of i j (by rw [ci, cj]; decide)) ?_
          have v1 := (slot_val hk hi).2.2.2.2 ci
          obtain ⟨d, v2, e2⟩ := (slot_val hk hj).1 cj
          rw [el, l5] at v2
          rw [ki, get3 (by omega), l4] at v1
          rw [e2, ← Option.some.inj v1, ← Option.some.inj v2]; decide
      · obtain ⟨j, hj, cj, kj⟩ := exists_pos f 88 0 (List.count_pos_iff.2 hx)
        have hlt : (f.take j).count 120 + (f.take j).count 88 < (lettersIn pw).length := by
          have := count_take_lt hj cj
          have := count_take_le f j 120
          omega
        by_cases hk0 : (f.take j).count 120 + (f.take j).count 88 = 0
        · obtain ⟨l, l1, l2, l3, l4, l5⟩ := letters_with _ 1 0 le (by omega) (by omega) (by omega)
          obtain ⟨hk, el⟩ := asked_letters h em hu l1 l2 l3
          refine bad _ hk i j hi hj (ci ▸ m5) (cj ▸ m2) (ne_of i j (by rw [ci, cj]; decide)) ?_
          have v1 := (slot_val hk hi).2.2.2.2 ci
          obtain ⟨d, v2, e2⟩ := (slot_val hk hj).2.1 cj
          rw [el, hk0, l5] at v2
          rw [ki, get3 (by omega), l5] at v1
          rw [e2, ← Option.some.inj v1, ← Option.some.inj v2]; decide
        · obtain ⟨l, l1, l2, l3, l4, l5⟩ := letters_with _ _ 0 le hlt (by omega) hk0
          obtain ⟨hk, el⟩ := asked_letters h em hu l1 l2 l3
          refine bad _ hk i j hi hj (ci ▸ m5) (cj ▸ m2) (ne_of i j (by rw [ci, cj]; decide)) ?_
          have v1 := (slot_val hk hi).2.2.2.2 ci
          obtain ⟨d, v2, e2⟩ := (slot_val hk hj).2.1 cj
          rw [el, l4] at v2
          rw [ki, get3 (by omega), l5] at v1
          rw [e2, ← Option.some.inj v1, ← Option.some.inj v2]; decide
  · unfold SafeForm at hs
    rw [if_neg ha] at hs
    have em : a.mixed = true := by by_contra hc; exact hs fun e => absurd e hc
    have hx : 2 ≤ f.count 120 ∨ 2 ≤ f.count 88 := by
      by_contra hc
      rw [not_or] at hc
      exact hs fun _ => ⟨by omega, by omega⟩
    have le : (lettersIn pw).length ≤ 52 := letters_le ((q3 hu).filter _) (of_lettersIn (pw := pw))
    rcases hx with hx | hx
    · obtain ⟨i, hi, ci, ki⟩ := exists_pos f 120 0 (by omega)
      obtain ⟨j, hj, cj, kj⟩ := exists_pos f 120 1 (by omega)
      have hij : i ≠ j := fun e => by rw [e] at ki; omega
      have bi := count_take_le f i 88
      have bj := count_take_le f j 88
      have ne : (f.take i).count 120 + (f.take i).count 88 ≠ (f.take j).count 120 + (f.take j).count 88 := fun e => hij (letter_inj hi hj (.inl ci) (.inl cj) e)
      obtain ⟨l, l1, l2, l3, l4, l5⟩ := letters_with _ _ _ le (show (f.take i).count 120 + (f.take i).count 88 < _ by omega) (show (f.take j).count 120 + (f.take j).count 88 < _ by omega) ne
      obtain ⟨hk, el⟩ := asked_letters h em hu l1 l2 l3
      refine bad _ hk i j hi hj (ci ▸ m1) (cj ▸ m1) hij ?_
      obtain ⟨d, v1, e1⟩ := (slot_val hk hi).1 ci
      obtain ⟨d', v2, e2⟩ := (slot_val hk hj).1 cj
      rw [el, l4] at v1
      rw [el, l5] at v2
      rw [e1, e2, ← Option.some.inj v1, ← Option.some.inj v2]; decide
    · obtain ⟨i, hi, ci, ki⟩ := exists_pos f 88 0 (by omega)
      obtain ⟨j, hj, cj, kj⟩ := exists_pos f 88 1 (by omega)
      have hij : i ≠ j := fun e => by rw [e] at ki; omega
      have bi := count_take_le f i 120
      have bj := count_take_le f j 120
      have ne : (f.take i).count 120 + (f.take i).count 88 ≠ (f.take j).count 120 + (f.take j).count 88 := fun e => hij (letter_inj hi hj (.inr ci) (.inr cj) e)
      obtain ⟨l, l1, l2, l3, l4, l5⟩ := letters_with _ _ _ le (show (f.take i).count 120 + (f.take i).count 88 < _ by omega) (show (f.take j).count 120 + (f.take j).count 88 < _ by omega) ne
      obtain ⟨hk, el⟩ := asked_letters h em hu l1 l2 l3
      refine bad _ hk i j hi hj (ci ▸ m2) (cj ▸ m2) hij ?_
      obtain ⟨d, v1, e1⟩ := (slot_val hk hi).2.1 ci
      obtain ⟨d', v2, e2⟩ := (slot_val hk hj).2.1 cj
      rw [el, l4] at v1
      rw [el, l5] at v2
      rw [e1, e2, ← Option.some.inj v1, ← Option.some.inj v2]; decide

theorem run_asked (a : GenerateCmd) (f : Str) (hf : a.form = some f) {fuel : Nat} {stream out : Str} (h : a.run fuel stream = .ok out) :
    ∃ pw, Asked a f pw ∧ out = filled f pw := by
  unfold GenerateCmd.run at h
  simp only [hf, formRequest_eq] at h
  split at h
  · rename_i pw rest hr
    have hc := can_conforms default_ascii default_separate (by omega) (by omega) (run_can _ hr)
    refine ⟨pw, hc, ?_⟩
    rw [fill_filled f hc] at h
    simpa using h.symm
  all_goals simp at h

/-- C62 for forms: with `--unique` and a safe form nothing is printed twice, whatever was drawn. -/
theorem C62_forms_partial (a : GenerateCmd) (f : Str) (hf : a.form = some f) (hu : a.unique = true) (hs : SafeForm a.mixed f) (fuel : Nat) (stream out : Str)
    (h : a.run fuel stream = .ok out) : Unrepeated f out := by
  obtain ⟨pw, hp, rfl⟩ := run_asked a f hf h
  exact safe_inj hp hu hs

/-- C132, `--unique`: whenever the form can be printed at all, `--unique` keeps its promise for every draw just if the form is safe. -/
theorem C132_unique (a : GenerateCmd) (f : Str) (hf : a.form = some f) (hu : a.unique = true) (fuel : Nat) (hfuel : 0 < fuel)
    (hsome : ∃ stream out, a.run fuel stream = .ok out) : (∀ stream out, a.run fuel stream = .ok out → Unrepeated f out) ↔ SafeForm a.mixed f := by
  constructor
  · intro hall
    by_contra hs
    obtain ⟨stream, out, h⟩ := hsome
    obtain ⟨pw, hp, -⟩ := (run_iff a f hf fuel hfuel out).1 ⟨stream, h⟩
    obtain ⟨pw', hp', hbad⟩ := unsafe_bad hp hu hs
    obtain ⟨stream', h'⟩ := (run_iff a f hf fuel hfuel (filled f pw')).2 ⟨pw', hp', rfl⟩
    exact hbad (hall stream' _ h')
  · intro hs stream out h
    exact C62_forms_partial a f hf hu hs fuel stream out h

/-- C132, `a`: whenever the form can be printed at all, every `a` is filled by a letter or a digit for every draw just if the form does not have both
an `a` and an `s`. -/
theorem C132_alpha (a : GenerateCmd) (f : Str) (hf : a.form = some f) (fuel : Nat) (hfuel : 0 < fuel) (hsome : ∃ stream out, a.run fuel stream = .ok out) :
    (∀ stream out, a.run fuel stream = .ok out → AlphaOk f out) ↔ ((97 : UInt8) ∉ f ∨ (115 : UInt8) ∉ f) := by
  constructor
  · intro hall
    by_contra hs
    rw [not_or, not_not, not_not] at hs
    obtain ⟨ha, hsym⟩ := hs
    obtain ⟨stream, out, h⟩ := hsome
    obtain ⟨pw, hp, -⟩ := (run_iff a f hf fuel hfuel out).1 ⟨stream, h⟩
    have perm := parts_perm pw (asked_facts hp).1
    have hk := asked_perm (List.perm_append_comm.trans perm : (symbolsIn pw ++ (lettersIn pw ++ digitsIn pw)).Perm pw) hp
    obtain ⟨stream', h'⟩ := (run_iff a f hf fuel hfuel _).2 ⟨_, hk, rfl⟩
    have hgood := (alphaOk_iff hk).1 (hall stream' _ h')
    obtain ⟨i, hi, ci, ki⟩ := exists_pos f 97 0 (List.count_pos_iff.2 ha)
    have pos : 0 < (symbolsIn pw).length := by
      have := List.count_pos_iff.2 hsym
      have := (conforms_lengths f hp).2.2.1
      omega
    have v := (slot_val hk hi).2.2.2.2 ci
    rw [ki, List.getElem?_append_left pos] at v
    have sym := of_symbolsIn _ (List.mem_of_getElem? v)
    obtain ⟨-, a2, a3, -⟩ := classes_apart (slotVal f (symbolsIn pw ++ (lettersIn pw ++ digitsIn pw)) i)
    rcases hgood i hi ci with g | g | g
    · exact a2 sym (.inl g)
    · exact a2 sym (.inr g)
    · exact a3 sym g
  · intro hs stream out h
    obtain ⟨pw, hp, rfl⟩ := (run_iff a f hf fuel hfuel out).1 ⟨stream, h⟩
    rw [alphaOk_iff hp]
    intro i hi ci
    have mem : f.getD i 0 ∈ f := by simp [List.getD, hi]
    have hs := hs.resolve_left (fun hc => hc (ci ▸ mem))
    have v := (slot_class hp hi).2.2.2.2 ci
    have z : (symbolsIn pw).length = 0 := by rw [(conforms_lengths f hp).2.2.1]; exact List.count_eq_zero_of_not_mem hs
    rcases (asked_facts hp).1 _ v with g | g | g | g
    · exact .inl g
    · exact .inr (.inl g)
    · exact .inr (.inr g)
    · exfalso
      have : slotVal f pw i ∈ symbolsIn pw := by unfold symbolsIn; rw [List.mem_filter]; exact ⟨v, decide_eq_true g⟩
      rw [List.length_eq_zero_iff.1 z] at this
      simp at this

/-- Characters of a class to choose from: enough of them, and all different if asked. -/
theorem pick (all : Str) (h : all.Nodup) (hne : all ≠ []) (n : Nat) (u : Bool) (hn : u = true → n ≤ all.length) : ∃ l : Str, l.length = n ∧ (∀ c ∈ l, c ∈ all) ∧ (u = true → l.Nodup) := by
  cases u with
  | true => exact ⟨all.take n, by simpa using hn rfl, fun c hc => List.mem_of_mem_take hc, fun _ => h.sublist (List.take_sublist _ _)⟩
  | false =>
    obtain ⟨c, cs, rfl⟩ := List.exists_cons_of_ne_nil hne
    exact ⟨List.replicate n c, by simp, fun d hd => by rw [List.eq_of_mem_replicate hd]; exact List.mem_cons_self, fun e => by simp at e⟩

/-- All characters of a class. -/
def allLower : Str := (List.range 26).map fun i => UInt8.ofNat (97 + i)
def allDigits : Str := (List.range 10).map fun i => UInt8.ofNat (48 + i)
def allSyms : Str := (List.range 256).map UInt8.ofNat |>.filter fun c => decide (IsSym c)

theorem pools : (allLower.Nodup ∧ allLower.length = 26 ∧ ∀ c ∈ allLower, IsLower c) ∧ (allDigits.Nodup ∧ allDigits.length = 10 ∧ ∀ c ∈ allDigits, IsDigit c) ∧
    (allSyms.Nodup ∧ allSyms.length = 30 ∧ ∀ c ∈ allSyms, IsSym c) := by decide +kernel

theorem pools_all (c : UInt8) : (IsLower c → c ∈ allLower) ∧ (IsDigit c → c ∈ allDigits) ∧ (IsSym c → c ∈ allSyms) :=
  byte_forall (fun c => (IsLower c → c ∈ allLower) ∧ (IsDigit c → c ∈ allDigits) ∧ (IsSym c → c ∈ allSyms)) (by decide +kernel) c

theorem pool_le {l all : Str} (hn : l.Nodup) (h : ∀ c ∈ l, c ∈ all) : l.length ≤ all.length := (hn.subperm h).length_le

/-- C132, which forms can be printed: all, but with `--unique` those that ask for at most 10 digits, 30 symbols and 26 letters (with `--mixed`, 52), where a third
of the `a`, rounded down, are digits and the other `a` letters. -/
theorem C132_printable (a : GenerateCmd) (f : Str) (hf : a.form = some f) (fuel : Nat) (hfuel : 0 < fuel) :
    (∃ stream out, a.run fuel stream = .ok out) ↔ (a.unique = true → f.count 110 + f.count 97 / 3 ≤ 10 ∧ f.count 115 ≤ 30 ∧
      f.count 120 + f.count 88 + (f.count 97 - f.count 97 / 3) ≤ if a.mixed then 52 else 26) := by
  obtain ⟨⟨p1, p2, p3⟩, ⟨p4, p5, p6⟩, p7, p8, p9⟩ := pools
  constructor
  · rintro ⟨stream, out, h⟩ hu
    obtain ⟨pw, hp, -⟩ := run_asked a f hf h
    obtain ⟨q1, q2, q3⟩ := asked_facts hp
    have nd := q3 hu
    obtain ⟨c1, c2, c3, c4⟩ := conforms_lengths f hp
    have h1 := pool_le (nd.filter _) (fun c hc => (pools_all c).2.1 (of_digitsIn (pw := pw) c hc))
    have h2 := pool_le (nd.filter _) (fun c hc => (pools_all c).2.2 (of_symbolsIn (pw := pw) c hc))
    have h3 : (lettersIn pw).length ≤ if a.mixed then 52 else 26 := by
      cases em : a.mixed with
      | true => exact letters_le (nd.filter _) of_lettersIn
      | false =>
        have := pool_le (l := lettersIn pw) (nd.filter _) (fun c hc => (pools_all c).1 ((of_lettersIn (pw := pw) c hc).resolve_right (q2 em c (List.mem_of_mem_filter hc))))
        rw [p2] at this
        simpa using this
    change (digitsIn pw).length ≤ _ at h1
    change (symbolsIn pw).length ≤ _ at h2
    rw [p5] at h1
    rw [p8] at h2
    omega
  · intro hk
    obtain ⟨s1, s2, s3, -⟩ := all52_facts
    obtain ⟨ds, d1, d2, d3⟩ := pick allDigits p4 (by decide) (f.count 110 + f.count 97 / 3) a.unique (fun e => by rw [p5]; exact (hk e).1)
    obtain ⟨ss, e1, e2, e3⟩ := pick allSyms p7 (by decide +kernel) (f.count 115) a.unique (fun e => by rw [p8]; exact (hk e).2.1)
    obtain ⟨ls, l1, l2, l3⟩ : ∃ l : Str, l.length = f.count 120 + f.count 88 + (f.count 97 - f.count 97 / 3) ∧ (∀ c ∈ l, (IsLower c ∨ IsUpper c) ∧ (a.mixed = false → IsLower c)) ∧
        (a.unique = true → l.Nodup) := by
      cases em : a.mixed with
      | true =>
        obtain ⟨l, l1, l2, l3⟩ := pick all52 s1 (by decide) (f.count 120 + f.count 88 + (f.count 97 - f.count 97 / 3)) a.unique (fun e => by have := (hk e).2.2; rw [if_pos em] at this; rw [s2]; exact this)
        exact ⟨l, l1, fun c hc => ⟨s3 c (l2 c hc), fun e => by simp at e⟩, l3⟩
      | false =>
        obtain ⟨l, l1, l2, l3⟩ := pick allLower p1 (by decide) (f.count 120 + f.count 88 + (f.count 97 - f.count 97 / 3)) a.unique (fun e => by have := (hk e).2.2; rw [if_neg (by simp [em])] at this; rw [p2]; exact this)
        exact ⟨l, l1, fun c hc => ⟨.inl (p3 c (l2 c hc)), fun _ => p3 c (l2 c hc)⟩, l3⟩
    have hd : ∀ c ∈ ds, IsDigit c := fun c hc => p6 c (d2 c hc)
    have hs : ∀ c ∈ ss, IsSym c := fun c hc => p9 c (e2 c hc)
    obtain ⟨x1, x2, x3⟩ := letters_all (fun c hc => (l2 c hc).1)
    obtain ⟨y1, y2, y3⟩ := digits_all hd
    obtain ⟨z1, z2, z3⟩ := symbols_all hs
    have b1 := in_app (ls ++ ds) ss
    have b2 := in_app ls ds
    have third : f.count 97 / 3 ≤ f.count 97 := Nat.div_le_self _ _
    have hp : Asked a f (ls ++ ds ++ ss) := by
      unfold Asked
      rw [conforms_iff]
      refine ⟨?_, ?_, ?_, ?_, fun e => ?_, fun e => ?_⟩
      · intro c hc
        rw [List.mem_append, List.mem_append] at hc
        rcases hc with (hc | hc) | hc
        · rcases (l2 c hc).1 with k | k
          · exact .inl k
          · exact .inr (.inl k)
        · exact .inr (.inr (.inl (hd c hc)))
        · exact .inr (.inr (.inr (hs c hc)))
      · simp only [List.length_append, l1, d1, e1]; omega
      · rw [b1.2.1, b2.2.1, x2, y2, z2]; simp [d1]
      · rw [b1.2.2, b2.2.2, x3, y3, z3]; simp [e1]
      · intro c hc hu
        obtain ⟨a1, a2, a3, a4⟩ := classes_apart c
        rw [List.mem_append, List.mem_append] at hc
        rcases hc with (hc | hc) | hc
        · exact a4 hu ((l2 c hc).2 (by simpa using e))
        · exact a1 (hd c hc) (.inr hu)
        · exact a2 (hs c hc) (.inr hu)
      · have e : a.unique = true := by simpa using e
        rw [List.nodup_append', List.nodup_append']
        refine ⟨⟨l3 e, d3 e, ?_⟩, e3 e, ?_⟩
        · intro c c1 c2
          exact (classes_apart c).1 (hd c c2) (l2 c c1).1
        · intro c c1 c2
          rcases List.mem_append.1 c1 with c1 | c1
          · exact (classes_apart c).2.1 (hs c c2) (l2 c c1).1
          · exact (classes_apart c).2.2.1 (hs c c2) (hd c c1)
    obtain ⟨stream, h⟩ := (run_iff a f hf fuel hfuel _).2 ⟨_, hp, rfl⟩
    exact ⟨stream, _, h⟩

/-- Concrete cases: `xXn-s` is safe and can be printed; `Xa` is safe, `xa` is not, and neither is `xx` with `--mixed`. -/
example : SafeForm false (lit "xXn-s") ∧ SafeForm false (lit "Xa") ∧ ¬ SafeForm false (lit "xa") ∧ ¬ SafeForm true (lit "xx") ∧ SafeForm true (lit "xX") :=
  ⟨by unfold SafeForm; rw [if_neg (by decide)]; decide, by unfold SafeForm; rw [if_pos (by decide), if_neg (by decide)]; decide,
    by unfold SafeForm; rw [if_pos (by decide), if_neg (by decide)]; decide, by unfold SafeForm; rw [if_neg (by decide)]; decide,
    by unfold SafeForm; rw [if_neg (by decide)]; decide⟩

example : ∃ stream, GenerateCmd.run ⟨0, 0, 0, false, true, some (lit "xXn-s")⟩ 1 stream = .ok (lit "bC2-!") := by
  refine (run_iff _ _ rfl 1 (by omega) _).2 ⟨lit "bc2!", ?_, by decide +kernel⟩
  unfold Asked
  rw [conforms_iff]
  refine ⟨by unfold Any; decide +kernel, by decide +kernel, by decide +kernel, by decide +kernel, fun _ => by decide +kernel, fun _ => by decide +kernel⟩

end Verif.FormGen
