import Verif.Closest.Json
import Verif.Closest.SaveProps
import Verif.Glob.Split
import Mathlib.Data.Nat.Digits.Lemmas
/-
Reading back the texts of Closest/Json.lean.
-/
namespace Verif.Closest.Json

/-! ### Strings -/

theorem hexVal_hexDigit : ∀ x < 16, hexVal (hexDigit x) = some x := by decide

theorem getu4_u4 {r : Nat} (h : r < 65536) (R : Str) : getu4 (u4 r ++ R) = some (r, R) := by
  simp only [u4, List.cons_append, List.nil_append, getu4, hexVal_hexDigit _ (Nat.mod_lt _ (by decide : 0 < 16))]
  congr 2
  omega

theorem encode_decode {s : Str} (h0 : s ≠ []) (h : ¬ ((decodeRune s).1 = runeError ∧ (decodeRune s).2 = 1)) : encodeRune (decodeRune s).1 = s.take (decodeRune s).2 := by
  by_cases hr : (decodeRune s).1 = runeError
  · obtain ⟨a, b⟩ := decodeRune_error hr (fun e => h ⟨hr, e⟩) h0
    rw [a, b, hr]; decide
  · exact (Glob.decodeRune_local (s := s) rfl hr).1

theorem unq_raw {n : Nat} {b : UInt8} {r : Str} (h1 : b ≠ 34) (h2 : b ≠ 92) (h3 : ¬ b < 32) :
    unq (n + 1) (b :: r) = (unq n ((b :: r).drop (decodeRune (b :: r)).2)).map fun x => (encodeRune (decodeRune (b :: r)).1 ++ x.1, x.2) := by
  rw [unq.eq_def]
  simp only [if_neg h1, if_neg h2, if_neg h3]

theorem unq_u4 {r : Nat} (h : r < 65536) (hs : isSurrogate r = false) (n : Nat) (R : Str) : unq (n + 1) (u4 r ++ R) = (unq n R).map fun x => (encodeRune r ++ x.1, x.2) := by
  have e := getu4_u4 h R
  simp only [u4, List.cons_append, List.nil_append] at e ⊢
  rw [unq, if_neg (by decide), if_pos rfl]
  simp only [if_true, e, hs, Bool.false_eq_true, if_false]

theorem unq_escByte (short : Bool) {b : UInt8} (hb : b < 0x80) (n : Nat) (R : Str) : unq (n + 1) (escByte short b ++ R) = (unq n R).map fun x => (b :: x.1, x.2) := by
  have enc : encodeRune b.toNat = [b] := by
    rw [UInt8.lt_iff_toNat_lt] at hb
    rw [encodeRune, if_pos (by simpa using hb)]
    simp
  unfold escByte
  split
  · rename_i h; subst h; rfl
  split
  · rename_i h; subst h; rfl
  split
  · rename_i h; subst h; rfl
  split
  · rename_i h; subst h; rfl
  split
  · rename_i h; subst h; rfl
  split
  · rename_i h; rw [h.2]; rfl
  split
  · rename_i h; rw [h.2]; rfl
  rename_i h1 h2 _ _ _ _ _
  split
  · rw [unq_u4 (by have := b.toNat_lt; omega) (by have := b.toNat_lt; simp [isSurrogate]; omega), enc]; rfl
  · rename_i h3
    rw [List.singleton_append, unq_raw h1 h2 (fun h => h3 (Or.inl h)), Glob.decodeRune_ascii hb, enc]
    rfl

/-- A string is read back as `jsonString` says. -/
theorem unq_quoteAux (short : Bool) : ∀ (k : Nat) (s : Str) (n : Nat) (rest : Str), s.length ≤ k → (quoteAux short k s).length < n →
    unq n (quoteAux short k s ++ 34 :: rest) = some (jsonAux k s, rest)
  | 0, s, 0, _, _, h => by simp at h
  | 0, s, n + 1, rest, _, _ => by simp [quoteAux, jsonAux, unq]
  | k + 1, [], 0, rest, _, h => by simp at h
  | k + 1, [], n + 1, rest, _, _ => by simp [quoteAux, jsonAux, unq]
  | k + 1, b :: s, 0, rest, _, h => by simp at h
  | k + 1, b :: s, n + 1, rest, hk, hn => by
    have h1 := (decodeRune_size (b :: s)).2 (by simp)
    have h2 := (decodeRune_size (b :: s)).1
    simp only [List.length_cons] at hk h2
    have ih := fun n h => unq_quoteAux short k ((b :: s).drop (decodeRune (b :: s)).2) n rest (by rw [List.length_drop]; simp only [List.length_cons]; omega) h
    rw [quoteAux] at hn ⊢
    rw [jsonAux]
    generalize hT : (b :: s).drop (decodeRune (b :: s)).2 = T at *
    rw [List.length_append] at hn
    rw [List.append_assoc]
    by_cases c1 : b < 0x80
    · rw [if_pos c1] at hn ⊢
      have hl : 1 ≤ (escByte short b).length := by
        unfold escByte
        repeat' split
        all_goals simp [u4]
      rw [unq_escByte short c1, ih n (by omega)]
      have hd := Glob.decodeRune_ascii (s := s) c1
      rw [if_neg (by rw [hd]; rintro ⟨h, -⟩; have := b.toNat_lt; simp only [runeError] at h; omega), hd]
      rfl
    · rw [if_neg c1] at hn ⊢
      by_cases c2 : (decodeRune (b :: s)).1 = runeError ∧ (decodeRune (b :: s)).2 = 1
      · rw [if_pos c2] at hn ⊢
        rw [unq_u4 (by decide) (by decide), ih n (by simp [u4] at hn; omega), if_pos c2]
        rfl
      · rw [if_neg c2] at hn ⊢
        rw [if_neg c2]
        have he := encode_decode (s := b :: s) (by simp) c2
        by_cases c3 : (decodeRune (b :: s)).1 = 0x2028 ∨ (decodeRune (b :: s)).1 = 0x2029
        · rw [if_pos c3] at hn ⊢
          rw [unq_u4 (by omega) (by rcases c3 with c3 | c3 <;> rw [c3] <;> decide), ih n (by simp [u4] at hn; omega), he]
          rfl
        · rw [if_neg c3] at hn ⊢
          have ht := decodeRune_take (s := b :: s) (by simp) c2 (quoteAux short k T ++ 34 :: rest)
          have hlen : ((b :: s).take (decodeRune (b :: s)).2).length = (decodeRune (b :: s)).2 := by
            rw [List.length_take]; simp only [List.length_cons]; omega
          obtain ⟨w, hw⟩ : ∃ w, (decodeRune (b :: s)).2 = w + 1 := ⟨_, (Nat.sub_add_cancel h1).symm⟩
          have hsh : (b :: s).take (decodeRune (b :: s)).2 ++ (quoteAux short k T ++ 34 :: rest) = b :: (s.take w ++ (quoteAux short k T ++ 34 :: rest)) := by
            rw [hw, List.take_succ_cons]; rfl
          rw [hlen] at hn
          have hb34 : b ≠ 34 := by rintro rfl; exact c1 (by decide)
          have hb92 : b ≠ 92 := by rintro rfl; exact c1 (by decide)
          have hb32 : ¬ b < 32 := fun h => c1 (UInt8.lt_trans h (by decide))
          rw [hsh, unq_raw hb34 hb92 hb32, ← hsh, ht, List.drop_left' hlen, ih n (by omega), he]
          rfl

/-! ### Numbers -/

theorem ofDec_dec (n : Nat) : ofDec (dec n) = n := by
  unfold dec
  split
  · rename_i h; subst h; rfl
  · unfold ofDec
    rw [List.foldl_map, List.foldl_reverse]
    have key : ∀ l : List Nat, (∀ d ∈ l, d < 10) → l.foldr (fun x y => y * 10 + ((UInt8.ofNat (48 + x)).toNat - 48)) 0 = Nat.ofDigits 10 l := by
      intro l hl
      induction l with
      | nil => rfl
      | cons d l ih =>
        have hd := hl d (by simp)
        rw [List.foldr_cons, ih fun x hx => hl x (List.mem_cons_of_mem _ hx), Nat.ofDigits_cons, UInt8.toNat_ofNat', Nat.mod_eq_of_lt (by omega)]
        omega
    rw [key _ (fun d hd => Nat.digits_lt_base (by decide) hd), Nat.ofDigits_digits]

theorem dec_digits (n : Nat) : ∀ b ∈ dec n, isDigit b = true := by
  unfold dec
  split
  · decide
  · intro b hb
    rw [List.mem_map] at hb
    obtain ⟨d, hd, rfl⟩ := hb
    have := Nat.digits_lt_base (by decide : 1 < 10) (List.mem_reverse.1 hd)
    have key : ∀ d < 10, isDigit (UInt8.ofNat (48 + d)) = true := by decide
    exact key d this

theorem dec_ne_nil (n : Nat) : dec n ≠ [] := by
  unfold dec
  split
  · simp
  · rename_i h
    have := (Nat.digits_ne_nil_iff_ne_zero (b := 10)).2 h
    simpa using this

theorem dec_inj {a b : Nat} (h : dec a = dec b) : a = b := by rw [← ofDec_dec a, h, ofDec_dec]

theorem toNat?_dec (n : Nat) : toNat? (dec n) = some n := by
  unfold toNat?
  rw [if_pos ⟨dec_ne_nil n, List.all_eq_true.2 (dec_digits n)⟩, ofDec_dec]

/-- What may follow a value. -/
def Delim (rest : Str) : Prop := ∀ b, rest.head? = some b → isDigit b = false

theorem takeWhile_dec {n : Nat} {rest : Str} (h : Delim rest) : (dec n ++ rest).takeWhile isDigit = dec n ∧ (dec n ++ rest).dropWhile isDigit = rest := by
  have : rest.takeWhile isDigit = [] ∧ rest.dropWhile isDigit = rest := by
    cases rest with
    | nil => simp
    | cons b r =>
      have := h b rfl
      simp [this]
  rw [List.takeWhile_append_of_pos (dec_digits n), List.dropWhile_append_of_pos (dec_digits n), this.1, this.2, List.append_nil]
  exact ⟨rfl, rfl⟩

theorem number_dec {n : Nat} {rest : Str} (h : Delim rest) : number (dec n ++ rest) = some (.num n, rest) := by
  obtain ⟨h1, h2⟩ := takeWhile_dec (n := n) h
  obtain ⟨b, t, hb⟩ := List.exists_cons_of_ne_nil (dec_ne_nil n)
  have hd := dec_digits n b (by rw [hb]; simp)
  have h45 : b ≠ 45 := by rintro rfl; revert hd; decide
  have e : dec n ++ rest = b :: (t ++ rest) := by rw [hb]; rfl
  unfold number
  rw [e]
  split
  · rename_i heq; injection heq with heq _; exact absurd heq h45
  · rw [← e, h1, h2, if_neg (dec_ne_nil n), ofDec_dec]

theorem number_decInt {i : Int} {rest : Str} (h : Delim rest) : number (decInt i ++ rest) = some (.num i, rest) := by
  unfold decInt
  split
  · rename_i hi
    obtain ⟨h1, h2⟩ := takeWhile_dec (n := i.natAbs) h
    rw [List.cons_append, number, h1, h2, if_neg (dec_ne_nil _), ofDec_dec]
    congr 3
    omega
  · rename_i hi
    rw [number_dec h]
    congr 3
    omega

/-! ### Values -/

/-- `t` is a text of the value `j`. -/
def Parses (t : Str) (j : J) : Prop := ∀ n rest, t.length < n → Delim rest → value n (t ++ rest) = some (j, rest)

theorem decInt_head (i : Int) : ∃ b t, decInt i = b :: t ∧ b ≠ 123 ∧ b ≠ 91 ∧ b ≠ 34 ∧ b ≠ 110 ∧ b ≠ 93 := by
  have key : ∀ b : UInt8, (b = 45 ∨ isDigit b = true) → b ≠ 123 ∧ b ≠ 91 ∧ b ≠ 34 ∧ b ≠ 110 ∧ b ≠ 93 := by
    intro b hb
    refine ⟨?_, ?_, ?_, ?_, ?_⟩ <;> rintro rfl <;> revert hb <;> decide
  unfold decInt
  split
  · exact ⟨45, _, rfl, key 45 (Or.inl rfl)⟩
  · obtain ⟨b, t, hb⟩ := List.exists_cons_of_ne_nil (dec_ne_nil i.natAbs)
    exact ⟨b, t, hb, key b (Or.inr (dec_digits _ b (by rw [hb]; simp)))⟩

theorem value_num {n : Nat} {b : UInt8} {r : Str} (h1 : b ≠ 123) (h2 : b ≠ 91) (h3 : b ≠ 34) (h4 : b ≠ 110) : value (n + 1) (b :: r) = number (b :: r) := by
  rw [value.eq_def]
  simp only [if_neg h1, if_neg h2, if_neg h3, if_neg h4]

theorem value_str (n : Nat) (r : Str) : value (n + 1) (34 :: r) = (unq (r.length + 1) r).map fun x => (.str x.1, x.2) := by
  rw [value.eq_def]
  rfl

theorem value_obj {n : Nat} {c : UInt8} {r : Str} (h : c ≠ 125) : value (n + 1) (123 :: c :: r) = (members n (c :: r)).map fun x => (.obj x.1, x.2) := by
  rw [value.eq_def]
  simp only [if_true, if_neg h]

theorem value_arr {n : Nat} {c : UInt8} {r : Str} (h : c ≠ 93) : value (n + 1) (91 :: c :: r) = (elements n (c :: r)).map fun x => (.arr x.1, x.2) := by
  rw [value.eq_def]
  simp only [if_true, if_neg h]
  rfl

theorem parses_int (i : Int) : Parses (decInt i) (.num i) := by
  intro n rest hn hd
  obtain ⟨b, t, hb, h1, h2, h3, h4, -⟩ := decInt_head i
  obtain ⟨n, rfl⟩ : ∃ m, n = m + 1 := ⟨n - 1, by omega⟩
  have e : decInt i ++ rest = b :: (t ++ rest) := by rw [hb]; rfl
  rw [e, value_num h1 h2 h3 h4, ← e, number_decInt hd]

theorem parses_dec (m : Nat) : Parses (dec m) (.num m) := by
  have := parses_int m
  unfold decInt at this
  rw [if_neg (by omega)] at this
  exact this

theorem unq_quote (short : Bool) (s rest : Str) (n : Nat) (h : (quoteAux short s.length s).length < n) :
    unq n (quoteAux short s.length s ++ 34 :: rest) = some (jsonString s, rest) := unq_quoteAux short _ s n rest (Nat.le_refl _) h

theorem parses_str (short : Bool) (s : Str) : Parses (quote short s) (.str (jsonString s)) := by
  intro n rest hn _
  obtain ⟨n, rfl⟩ : ∃ m, n = m + 1 := ⟨n - 1, by omega⟩
  unfold quote
  rw [List.cons_append, List.cons_append, value_str, List.append_assoc, List.singleton_append, unq_quote _ _ _ _ (by simp)]
  rfl

theorem parses_null : Parses (lit "null") .nul := by
  intro n rest hn _
  obtain ⟨n, rfl⟩ : ∃ m, n = m + 1 := ⟨n - 1, by omega⟩
  have : lit "null" = [110, 117, 108, 108] := by decide
  rw [this]
  simp only [List.cons_append, List.nil_append]
  rw [value.eq_def]
  rfl

theorem delim_44 (r : Str) : Delim (44 :: r) := by intro b h; cases h; rfl
theorem delim_93 (r : Str) : Delim (93 :: r) := by intro b h; cases h; rfl
theorem delim_125 (r : Str) : Delim (125 :: r) := by intro b h; cases h; rfl

theorem elements_commas : ∀ (ts : List Str) (js : List J), ts ≠ [] → List.Forall₂ Parses ts js → ∀ n rest, (commas ts).length + 2 ≤ n →
    elements n (commas ts ++ 93 :: rest) = some (js, rest)
  | [], _, h, _, _, _, _ => absurd rfl h
  | [t], _, _, .cons (b := j) hj .nil, n, rest, hn => by
    obtain ⟨n, rfl⟩ : ∃ m, n = m + 1 := ⟨n - 1, by omega⟩
    rw [commas, elements, hj n _ (by simp only [commas] at hn; omega) (delim_93 _)]
    simp
  | t :: u :: r, _, _, .cons (b := j) (l₂ := js) hj hr, n, rest, hn => by
    obtain ⟨n, rfl⟩ : ∃ m, n = m + 1 := ⟨n - 1, by omega⟩
    simp only [commas, List.length_append, List.length_cons] at hn
    rw [commas, elements, List.append_assoc, List.cons_append, hj n _ (by omega) (delim_44 _)]
    simp only [if_true]
    rw [if_neg (by decide), elements_commas (u :: r) js (by simp) hr n rest (by omega)]
    rfl

theorem members_commas (short : Bool) : ∀ (ms : List (Str × Str)) (js : List J), ms ≠ [] → List.Forall₂ (fun m j => Parses m.2 j) ms js → ∀ n rest,
    (commas (ms.map fun m => quote short m.1 ++ 58 :: m.2)).length + 2 ≤ n →
    members n (commas (ms.map fun m => quote short m.1 ++ 58 :: m.2) ++ 125 :: rest) = some ((ms.map fun m => jsonString m.1).zip js, rest)
  | [], _, h, _, _, _, _ => absurd rfl h
  | [(k, t)], _, _, .cons (b := j) hj .nil, n, rest, hn => by
    obtain ⟨n, rfl⟩ : ∃ m, n = m + 1 := ⟨n - 1, by omega⟩
    simp only [List.map_cons, List.map_nil, commas, quote, List.cons_append, List.append_assoc, List.nil_append, List.length_append, List.length_cons] at hn ⊢
    rw [members, if_pos rfl, unq_quote _ _ _ _ (by simp)]
    simp only [if_true]
    rw [hj n _ (by simp only; omega) (delim_125 _)]
    simp
  | (k, t) :: u :: r, _, _, .cons (b := j) (l₂ := js) hj hr, n, rest, hn => by
    obtain ⟨n, rfl⟩ : ∃ m, n = m + 1 := ⟨n - 1, by omega⟩
    have ih := members_commas short (u :: r) js (by simp) hr n rest
    simp only [List.map_cons, commas, quote, List.cons_append, List.append_assoc, List.nil_append, List.length_append, List.length_cons] at hn ih ⊢
    rw [members, if_pos rfl, unq_quote _ _ _ _ (by simp)]
    simp only [if_true]
    rw [hj n _ (by simp only; omega) (delim_44 _)]
    simp only [if_true]
    rw [if_neg (by decide), ih (by omega)]
    rfl

theorem parses_obj (short : Bool) {ms : List (Str × Str)} {js : List J} (h : List.Forall₂ (fun m j => Parses m.2 j) ms js) :
    Parses (objText short ms) (.obj ((ms.map fun m => jsonString m.1).zip js)) := by
  intro n rest hn _
  obtain ⟨n, rfl⟩ : ∃ m, n = m + 1 := ⟨n - 1, by omega⟩
  unfold objText at hn ⊢
  simp only [List.cons_append, List.append_assoc, List.nil_append, List.length_append, List.length_cons, List.length_nil] at hn ⊢
  cases ms with
  | nil =>
    cases h
    simp only [List.map_nil, commas, List.nil_append]
    rw [value.eq_def]
    rfl
  | cons m ms =>
    have := members_commas short (m :: ms) js (by simp) h n rest (by omega)
    have hne : ∃ t, commas ((m :: ms).map fun m => quote short m.1 ++ 58 :: m.2) ++ 125 :: rest = 34 :: t := by
      cases ms with
      | nil => exact ⟨_, by simp only [List.map_cons, List.map_nil, commas, quote, List.cons_append]; rfl⟩
      | cons u r => exact ⟨_, by simp only [List.map_cons, commas, quote, List.cons_append]; rfl⟩
    obtain ⟨t, ht⟩ := hne
    rw [ht] at this ⊢
    rw [value_obj (by decide), this]
    rfl

theorem parses_ints (sizes : List Int) : Parses (arrText (sizes.map decInt)) (.arr (sizes.map .num)) := by
  intro n rest hn _
  obtain ⟨n, rfl⟩ : ∃ m, n = m + 1 := ⟨n - 1, by omega⟩
  unfold arrText at hn ⊢
  simp only [List.cons_append, List.append_assoc, List.nil_append, List.length_append, List.length_cons, List.length_nil] at hn ⊢
  cases sizes with
  | nil =>
    simp only [List.map_nil, commas, List.nil_append]
    rw [value.eq_def]
    rfl
  | cons i is =>
    have hf : List.Forall₂ Parses ((i :: is).map decInt) ((i :: is).map .num) := by
      rw [List.forall₂_map_left_iff, List.forall₂_map_right_iff, List.forall₂_same]
      exact fun x _ => parses_int x
    have := elements_commas _ _ (by simp) hf n rest (by omega)
    have hne : ∃ b t, commas ((i :: is).map decInt) ++ 93 :: rest = b :: t ∧ b ≠ 93 := by
      obtain ⟨b, t, hb, -, -, -, -, h⟩ := decInt_head i
      cases is with
      | nil => exact ⟨b, _, by simp only [List.map_cons, List.map_nil, commas, hb, List.cons_append]; rfl, h⟩
      | cons u r => exact ⟨b, _, by simp only [List.map_cons, commas, hb, List.cons_append]; rfl, h⟩
    obtain ⟨b, t, ht, h93⟩ := hne
    rw [ht] at this ⊢
    rw [value_arr h93, this]
    rfl

theorem parses_sizes (isNil : Bool) (sizes : List Int) : ∃ j, Parses (sizesText isNil sizes) j ∧ sizesOf j = some sizes := by
  unfold sizesText
  split
  · rename_i h
    exact ⟨.nul, parses_null, by rw [h.2]; rfl⟩
  · refine ⟨_, parses_ints sizes, ?_⟩
    have key : ∀ l : List Int, (l.map J.num).mapM intOf = some l := by
      intro l
      induction l with
      | nil => rfl
      | cons i is ih => rw [List.map_cons, List.mapM_cons, ih]; rfl
    exact key sizes

end Verif.Closest.Json
