import Verif.Go.Basic
/-
Go's UTF-8 decoding (package unicode/utf8), as used by strings, unicode and `range` over a string.
-/
namespace Verif

/-- A continuation byte in `[lo, hi]`. -/
def contIn (lo hi b : UInt8) : Bool := lo ≤ b && b ≤ hi

/-- Go `utf8.RuneError`. -/
def runeError : Nat := 0xFFFD

/-- Go `utf8.DecodeRune`: the first rune of a string and its width; `(RuneError, 1)` if the bytes are not valid UTF-8 and `(RuneError, 0)` if
the string is empty. -/
def decodeRune : Str → Nat × Nat
  | [] => (runeError, 0)
  | b0 :: rest =>
    if b0 < 0x80 then (b0.toNat, 1)
    else if 0xC2 ≤ b0 && b0 ≤ 0xDF then
      match rest with
      | b1 :: _ => if contIn 0x80 0xBF b1 then ((b0.toNat - 0xC0) * 64 + (b1.toNat - 0x80), 2) else (runeError, 1)
      | _ => (runeError, 1)
    else if 0xE0 ≤ b0 && b0 ≤ 0xEF then
      let lo : UInt8 := if b0 = 0xE0 then 0xA0 else 0x80
      let hi : UInt8 := if b0 = 0xED then 0x9F else 0xBF
      match rest with
      | b1 :: b2 :: _ =>
        if contIn lo hi b1 && contIn 0x80 0xBF b2 then
          ((b0.toNat - 0xE0) * 4096 + (b1.toNat - 0x80) * 64 + (b2.toNat - 0x80), 3)
        else (runeError, 1)
      | _ => (runeError, 1)
    else if 0xF0 ≤ b0 && b0 ≤ 0xF4 then
      let lo : UInt8 := if b0 = 0xF0 then 0x90 else 0x80
      let hi : UInt8 := if b0 = 0xF4 then 0x8F else 0xBF
      match rest with
      | b1 :: b2 :: b3 :: _ =>
        if contIn lo hi b1 && contIn 0x80 0xBF b2 && contIn 0x80 0xBF b3 then
          ((b0.toNat - 0xF0) * 262144 + (b1.toNat - 0x80) * 4096 + (b2.toNat - 0x80) * 64 + (b3.toNat - 0x80), 4)
        else (runeError, 1)
      | _ => (runeError, 1)
    else (runeError, 1)

/-- The runes of a string (`for _, r := range s`), with their widths; at most `n` of them. -/
def runesAux : Nat → Str → List (Nat × Nat)
  | 0, _ => []
  | _ + 1, [] => []
  | n + 1, b :: s => decodeRune (b :: s) :: runesAux n ((b :: s).drop (decodeRune (b :: s)).2)

/-- The runes of a string with their widths. -/
def runesOf (s : Str) : List (Nat × Nat) := runesAux s.length s

/-- Go `utf8.ValidString`. -/
def validUtf8 (s : Str) : Bool := (runesOf s).all fun r => !(r.1 == runeError && r.2 == 1)

/-- Go `utf8.EncodeRune` / `string(r)` (surrogates and numbers above U+10FFFF give RuneError). -/
def encodeRune (r : Nat) : Str :=
  if r < 0x80 then [UInt8.ofNat r]
  else if r < 0x800 then [UInt8.ofNat (0xC0 + r / 64), UInt8.ofNat (0x80 + r % 64)]
  else if (0xD800 ≤ r && r < 0xE000) || 0x10FFFF < r then [0xEF, 0xBF, 0xBD]
  else if r < 0x10000 then [UInt8.ofNat (0xE0 + r / 4096), UInt8.ofNat (0x80 + r / 64 % 64), UInt8.ofNat (0x80 + r % 64)]
  else [UInt8.ofNat (0xF0 + r / 262144), UInt8.ofNat (0x80 + r / 4096 % 64), UInt8.ofNat (0x80 + r / 64 % 64), UInt8.ofNat (0x80 + r % 64)]

/-- Go `unicode.IsSpace` (White_Space of Unicode). -/
def isSpace (r : Nat) : Bool :=
  (9 ≤ r && r ≤ 13) || r = 32 || r = 0x85 || r = 0xA0 || r = 0x1680 || (0x2000 ≤ r && r ≤ 0x200a) || r = 0x2028 || r = 0x2029 || r = 0x202f ||
  r = 0x205f || r = 0x3000

/-- `len(strings.TrimSpace(s)) == 0`: every rune is white space. -/
def blank (s : Str) : Bool := (runesOf s).all fun r => isSpace r.1

/-- ASCII lower case of a byte. -/
def lowerByte (b : UInt8) : UInt8 := if 65 ≤ b && b ≤ 90 then b + 32 else b

/-- Go `strings.ToLower`: for ASCII strings byte by byte; `other` stands for the Unicode mapping of the remaining strings, about which
nothing is assumed. -/
def toLower (other : Str → Str) (s : Str) : Str := if s.all (· < 0x80) then s.map lowerByte else other s

/-! ### Basic facts -/

theorem decodeRune_size (s : Str) : (decodeRune s).2 ≤ s.length ∧ (s ≠ [] → 1 ≤ (decodeRune s).2) := by
  cases s with
  | nil => simp [decodeRune]
  | cons b0 rest =>
    simp only [decodeRune]
    refine ⟨?_, fun _ => ?_⟩
    all_goals
      repeat' split
      all_goals simp only [List.length_cons] <;> omega

theorem runesAux_ascii : ∀ (s : Str) (n : Nat), Ascii s → s.length ≤ n → runesAux n s = s.map fun b => (b.toNat, 1)
  | [], n, _, _ => by cases n <;> rfl
  | b :: s, 0, _, h => by simp at h
  | b :: s, n + 1, h, hl => by
    have hb : b < 0x80 := h b List.mem_cons_self
    have e : decodeRune (b :: s) = (b.toNat, 1) := by simp only [decodeRune, if_pos hb]
    rw [runesAux, e]
    simp only [List.drop_succ_cons, List.drop_zero, List.map_cons]
    rw [runesAux_ascii s n (fun c hc => h c (List.mem_cons_of_mem _ hc)) (by simp at hl; omega)]

theorem runesOf_ascii {s : Str} (h : Ascii s) : runesOf s = s.map fun b => (b.toNat, 1) := runesAux_ascii s _ h (Nat.le_refl _)

end Verif
