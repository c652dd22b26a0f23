import Verif.Closest.Model
import Verif.Go.Order
import Mathlib.Data.Nat.Digits.Defs
/-
The text that `Save` writes (encoding/json, closestmatch.go:93-95) and how `Load` reads it (closestmatch.go:64). `Closest.Model.SaveLoad` says what
a round trip does; here it is derived from the text. The encoder is encoding/json/encode.go of the standard library: `appendString` with
`escapeHTML` (the default of `NewEncoder`), map keys sorted by their bytes, numbers as map keys in decimal. The decoder is encoding/json/decode.go:
`Decode` reads one value and then fills the struct. It is modelled for texts without white space between tokens (Save writes none), whose numbers are integers and whose field names
are spelled as in the struct; other texts are `none`, like errors.
-/
namespace Verif.Closest.Json

/-! ## Writing -/

/-- strconv.AppendUint in base 10. -/
def dec (n : Nat) : Str := if n = 0 then [48] else (Nat.digits 10 n).reverse.map fun d => UInt8.ofNat (48 + d)

/-- strconv.AppendInt in base 10. -/
def decInt (i : Int) : Str := if i < 0 then 45 :: dec i.natAbs else dec i.natAbs

/-- encode.go `hex`: a hexadecimal digit. -/
def hexDigit (n : Nat) : UInt8 := if n < 10 then UInt8.ofNat (48 + n) else UInt8.ofNat (87 + n)

/-- The escape `\uXXXX`. -/
def u4 (r : Nat) : Str := [92, 117, hexDigit (r / 4096 % 16), hexDigit (r / 256 % 16), hexDigit (r / 16 % 16), hexDigit (r % 16)]

/-- encode.go `appendString` (`encodeState.string`): an ASCII byte. `short`: from Go 1.22 on backspace and form feed have short escapes. -/
def escByte (short : Bool) (b : UInt8) : Str :=
  if b = 34 then [92, 34] else if b = 92 then [92, 92]
  else if b = 10 then [92, 110] else if b = 13 then [92, 114] else if b = 9 then [92, 116]
  else if short = true ∧ b = 8 then [92, 98] else if short = true ∧ b = 12 then [92, 102]
  else if b < 32 ∨ b = 60 ∨ b = 62 ∨ b = 38 then u4 b.toNat
  else [b]

/-- encode.go `appendString`: the loop; at most `n` runes. -/
def quoteAux (short : Bool) : Nat → Str → Str
  | 0, _ => []
  | _ + 1, [] => []
  | n + 1, b :: s =>
    let d := decodeRune (b :: s)
    (if b < 0x80 then escByte short b
      else if d.1 = runeError ∧ d.2 = 1 then u4 0xFFFD
      else if d.1 = 0x2028 ∨ d.1 = 0x2029 then u4 d.1
      else (b :: s).take d.2) ++ quoteAux short n ((b :: s).drop d.2)

/-- encode.go `appendString`. -/
def quote (short : Bool) (s : Str) : Str := 34 :: quoteAux short s.length s ++ [34]

/-- Texts with commas between them. -/
def commas : List Str → Str
  | [] => []
  | [t] => t
  | t :: u :: r => t ++ 44 :: commas (u :: r)

/-- encode.go `arrayEncoder`. -/
def arrText (ts : List Str) : Str := 91 :: commas ts ++ [93]

/-- encode.go `mapEncoder` and `structEncoder`: the members in the order given. -/
def objText (short : Bool) (ms : List (Str × Str)) : Str := 123 :: commas (ms.map fun m => quote short m.1 ++ 58 :: m.2) ++ [125]

/-- The text of a set of identifiers, `map[uint32]struct{}`. -/
def idsText (short : Bool) (ids : List Nat) : Str := objText short (ids.map fun i => (dec i, objText short []))

/-- The text of an `IDInfo`. -/
def infoText (short : Bool) (inf : IDInfo) : Str :=
  objText short [(lit "Key", quote short inf.key), (lit "NumSubstrings", dec inf.numSubstrings)]

/-- The text of `SubstringSizes`; a nil slice is written `null` (`isNil`). -/
def sizesText (isNil : Bool) (sizes : List Int) : Str := if isNil = true ∧ sizes = [] then lit "null" else arrText (sizes.map decInt)

/-- closestmatch.go:95 `enc.Encode(cm)`: the text of an index whose fragments and words are those listed. -/
def cmText (short isNil : Bool) (sizes : List Int) (frs : List (Str × List Nat)) (infos : List (Nat × IDInfo)) : Str :=
  objText short [(lit "SubstringSizes", sizesText isNil sizes),
    (lit "SubstringToID", objText short (frs.map fun x => (x.1, idsText short x.2))),
    (lit "ID", objText short (infos.map fun x => (dec x.1, infoText short x.2)))]

/-- closestmatch.go:95 `enc.Encode(cm)`: `text` (before the final newline) is what is written of `cm`: the maps are written with their keys in the order of
their bytes. -/
def Written (short isNil : Bool) (cm : CM) (text : Str) : Prop :=
  ∃ frs infos, text = cmText short isNil cm.sizes frs infos ∧
    (frs.map Prod.fst).Pairwise (fun a b => strLt a b = true) ∧ (∀ f, (cm.sub f).isSome ↔ f ∈ frs.map Prod.fst) ∧
    (∀ x ∈ frs, (∃ ids, cm.sub x.1 = some ids ∧ x.2.Perm ids) ∧ x.2.Pairwise fun a b => strLt (dec a) (dec b) = true) ∧
    infos.Pairwise (fun a b => strLt (dec a.1) (dec b.1) = true) ∧ (∀ k inf, (k, inf) ∈ infos ↔ cm.id k = some inf)

/-! ## Reading -/

/-- A JSON value. -/
inductive J where
  | nul
  | num (i : Int)
  | str (s : Str)
  | arr (l : List J)
  | obj (l : List (Str × J))

/-- decode.go `getu4`: the value of a hexadecimal digit. -/
def hexVal (b : UInt8) : Option Nat :=
  if 48 ≤ b ∧ b ≤ 57 then some (b.toNat - 48) else if 97 ≤ b ∧ b ≤ 102 then some (b.toNat - 87)
  else if 65 ≤ b ∧ b ≤ 70 then some (b.toNat - 55) else none

/-- decode.go `getu4`. -/
def getu4 : Str → Option (Nat × Str)
  | 92 :: 117 :: a :: b :: c :: d :: r =>
    match hexVal a, hexVal b, hexVal c, hexVal d with
    | some a, some b, some c, some d => some (a * 4096 + b * 256 + c * 16 + d, r)
    | _, _, _, _ => none
  | _ => none

/-- decode.go `unquoteBytes`: the short escapes. -/
def shortEsc (e : UInt8) : Option UInt8 :=
  if e = 34 ∨ e = 92 ∨ e = 47 ∨ e = 39 then some e
  else if e = 98 then some 8 else if e = 102 then some 12 else if e = 110 then some 10 else if e = 114 then some 13
  else if e = 116 then some 9 else none

/-- utf16.IsSurrogate. -/
def isSurrogate (r : Nat) : Bool := 0xD800 ≤ r && r < 0xE000

/-- utf16.DecodeRune, `none` for unicode.ReplacementChar. -/
def pair (r1 r2 : Nat) : Option Nat :=
  if 0xD800 ≤ r1 ∧ r1 < 0xDC00 ∧ 0xDC00 ≤ r2 ∧ r2 < 0xE000 then some ((r1 - 0xD800) * 1024 + (r2 - 0xDC00) + 0x10000) else none

/-- decode.go `unquoteBytes`: a string after its opening quotation mark, and what follows the closing one; at most `n` steps. -/
def unq : Nat → Str → Option (Str × Str)
  | 0, _ => none
  | _ + 1, [] => none
  | n + 1, b :: r =>
    if b = 34 then some ([], r)
    else if b = 92 then
      match r with
      | [] => none
      | e :: r' =>
        if e = 117 then
          match getu4 (92 :: e :: r') with
          | none => none
          | some (r1, rest) =>
            if isSurrogate r1 then
              match (getu4 rest).bind fun x => (pair r1 x.1).map fun c => (c, x.2) with
              | some (c, rest') => (unq n rest').map fun x => (encodeRune c ++ x.1, x.2)
              | none => (unq n rest).map fun x => (encodeRune runeError ++ x.1, x.2)
            else (unq n rest).map fun x => (encodeRune r1 ++ x.1, x.2)
        else match shortEsc e with
          | none => none
          | some c => (unq n r').map fun x => (c :: x.1, x.2)
    else if b < 32 then none
    else (unq n ((b :: r).drop (decodeRune (b :: r)).2)).map fun x => (encodeRune (decodeRune (b :: r)).1 ++ x.1, x.2)

/-- A decimal digit. -/
def isDigit (b : UInt8) : Bool := 48 ≤ b && b ≤ 57

/-- The number of a row of digits. -/
def ofDec (s : Str) : Nat := s.foldl (fun n b => n * 10 + (b.toNat - 48)) 0

/-- scanner.go: an integer. -/
def number (s : Str) : Option (J × Str) :=
  match s with
  | 45 :: r => if (r.takeWhile isDigit) = [] then none else some (.num (-(ofDec (r.takeWhile isDigit) : Int)), r.dropWhile isDigit)
  | r => if (r.takeWhile isDigit) = [] then none else some (.num (ofDec (r.takeWhile isDigit)), r.dropWhile isDigit)

mutual
/-- scanner.go and decode.go `value`: a value and what follows it; at most `n` levels and elements deep. -/
def value : Nat → Str → Option (J × Str)
  | 0, _ => none
  | _ + 1, [] => none
  | n + 1, b :: r =>
    if b = 123 then
      match r with
      | [] => none
      | c :: r' => if c = 125 then some (.obj [], r') else (members n (c :: r')).map fun x => (.obj x.1, x.2)
    else if b = 91 then
      match r with
      | [] => none
      | c :: r' => if c = 93 then some (.arr [], r') else (elements n (c :: r')).map fun x => (.arr x.1, x.2)
    else if b = 34 then (unq (r.length + 1) r).map fun x => (.str x.1, x.2)
    else if b = 110 then (if r.take 3 = [117, 108, 108] then some (.nul, r.drop 3) else none)
    else number (b :: r)

/-- decode.go `array`: the elements after the opening bracket. -/
def elements : Nat → Str → Option (List J × Str)
  | 0, _ => none
  | n + 1, s =>
    match value n s with
    | none => none
    | some (_, []) => none
    | some (v, c :: r) =>
      if c = 93 then some ([v], r)
      else if c = 44 then (elements n r).map fun x => (v :: x.1, x.2)
      else none

/-- decode.go `object`: the members after the opening brace. -/
def members : Nat → Str → Option (List (Str × J) × Str)
  | 0, _ => none
  | _ + 1, [] => none
  | n + 1, b :: s =>
    if b = 34 then
      match unq (s.length + 1) s with
      | none => none
      | some (_, []) => none
      | some (k, c :: r) =>
        if c = 58 then
          match value n r with
          | none => none
          | some (_, []) => none
          | some (v, c :: r) =>
            if c = 125 then some ([(k, v)], r)
            else if c = 44 then (members n r).map fun x => ((k, v) :: x.1, x.2)
            else none
        else none
    else none
end

/-- strconv.ParseUint of a map key (without its bound). -/
def toNat? (s : Str) : Option Nat := if s ≠ [] ∧ s.all isDigit = true then some (ofDec s) else none

/-- decode.go: a number into an `int` (without its bounds); `null` leaves the zero. -/
def intOf : J → Option Int
  | .num i => some i
  | .nul => some 0
  | _ => none

/-- decode.go: `[]int`. -/
def sizesOf : J → Option (List Int)
  | .nul => some []
  | .arr l => l.mapM intOf
  | _ => none

/-- decode.go: a member of `map[uint32]struct{}`; `null` leaves the zero of a struct. -/
def idMember (ids : List Nat) (m : Str × J) : Option (List Nat) :=
  match toNat? m.1, m.2 with
  | some i, .obj _ => some (ids.insert i)
  | some i, .nul => some (ids.insert i)
  | _, _ => none

/-- decode.go: `map[uint32]struct{}`; `null` is the nil map, which has no members (Closest/LoadAny tells it from an empty map). -/
def idsOf : J → Option (List Nat)
  | .nul => some []
  | .obj ms => ms.foldlM idMember []
  | _ => none

/-- decode.go: a field of `IDInfo`; others are ignored, and `null` leaves a field as it is. `NumSubstrings` is a natural number in the model (a
negative one is 0); no function reads it. -/
def infoMember (inf : IDInfo) (m : Str × J) : Option IDInfo :=
  if m.1 = lit "Key" then (match m.2 with | .str s => some { inf with key := s } | .nul => some inf | _ => none)
  else if m.1 = lit "NumSubstrings" then (match m.2 with | .num n => some { inf with numSubstrings := n.toNat } | .nul => some inf | _ => none)
  else some inf

/-- decode.go: `IDInfo`; `null` leaves the zero. -/
def infoOf : J → Option IDInfo
  | .nul => some ⟨[], 0⟩
  | .obj ms => ms.foldlM infoMember ⟨[], 0⟩
  | _ => none

/-- decode.go: a member of `map[string]map[uint32]struct{}`; a later member replaces an earlier one with the same key. -/
def subMember (sub : Str → Option (List Nat)) (m : Str × J) : Option (Str → Option (List Nat)) :=
  (idsOf m.2).map fun ids => fun g => if g = m.1 then some ids else sub g

/-- decode.go: `map[string]map[uint32]struct{}`, where the map was `sub` before: an object adds its members, `null` makes the map nil. -/
def subOf (sub : Str → Option (List Nat)) : J → Option (Str → Option (List Nat))
  | .nul => some fun _ => none
  | .obj ms => ms.foldlM subMember sub
  | _ => none

/-- decode.go: a member of `map[uint32]IDInfo`. -/
def idEntry (id : Nat → Option IDInfo) (m : Str × J) : Option (Nat → Option IDInfo) :=
  match toNat? m.1, infoOf m.2 with
  | some i, some inf => some fun k => if k = i then some inf else id k
  | _, _ => none

/-- decode.go: `map[uint32]IDInfo`, where the map was `id` before. -/
def idOf (id : Nat → Option IDInfo) : J → Option (Nat → Option IDInfo)
  | .nul => some fun _ => none
  | .obj ms => ms.foldlM idEntry id
  | _ => none

/-- decode.go: a field of `ClosestMatch`; others are ignored. -/
def cmMember (cm : CM) (m : Str × J) : Option CM :=
  if m.1 = lit "SubstringSizes" then (sizesOf m.2).map fun x => { cm with sizes := x }
  else if m.1 = lit "SubstringToID" then (subOf cm.sub m.2).map fun x => { cm with sub := x }
  else if m.1 = lit "ID" then (idOf cm.id m.2).map fun x => { cm with id := x }
  else some cm

/-- decode.go: `ClosestMatch`, from `new(ClosestMatch)` (closestmatch.go:51). For the text `null`, which makes the pointer nil, this is `none`; Closest/LoadAny has it. -/
def cmOf : J → Option CM
  | .obj ms => ms.foldlM cmMember ⟨[], fun _ => none, fun _ => none⟩
  | _ => none

/-- Which of the maps of an index are not nil: the two of the index, and the set under each fragment (`true` where there is none). -/
structure Maps where
  sub : Bool
  id : Bool
  inner : Str → Bool

/-- `null`. -/
def J.isNul : J → Bool
  | .nul => true
  | _ => false

/-- decode.go: which maps are made by a field of `ClosestMatch`. -/
def mapsMember (mp : Maps) (m : Str × J) : Maps :=
  if m.1 = lit "SubstringToID" then
    (match m.2 with
    | .nul => { mp with sub := false, inner := fun _ => true }
    | .obj ms => { mp with sub := true, inner := ms.foldl (fun inner y g => if g = y.1 then !y.2.isNul else inner g) mp.inner }
    | _ => mp)
  else if m.1 = lit "ID" then
    (match m.2 with
    | .nul => { mp with id := false }
    | .obj _ => { mp with id := true }
    | _ => mp)
  else mp

/-- decode.go: which maps are made, from `new(ClosestMatch)` (closestmatch.go:51), which has none. -/
def mapsOf : J → Maps
  | .obj ms => ms.foldl mapsMember ⟨false, false, fun _ => true⟩
  | _ => ⟨false, false, fun _ => true⟩

/-- closestmatch.go:64 `json.NewDecoder(w).Decode(&cm)`, where `text` is all that `w` delivers: the first value is read and decoded, what follows it is not looked at.
`none` is an error. -/
def decode (text : Str) : Option CM :=
  match value (text.length + 1) text with
  | some (j, _) => cmOf j
  | none => none

end Verif.Closest.Json
