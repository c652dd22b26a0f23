import Verif.Crypter.Code256
import Verif.Crypter.Code512
import Verif.Crypter.Code1024
/-
Model of crypter/crypter.go, the constructors in crypter{256,512,1024}.go:21-64 and crypter/cmd/crypt.go.

Memory: byte slices and uint64 slices are windows (`Slice`) into one byte heap and one word heap, so that destination and
source may be the same memory or overlap in any way. A run-time panic is `none`; what a panicking call has already written is
modelled in Panic.lean.
-/
namespace Verif.Crypter

/-- A Go slice header: offset into the heap, length, capacity. -/
structure Slice where
  off : Nat
  len : Nat
  cap : Nat

/-- The window lies inside the heap. -/
def Slice.Valid {α} (h : List α) (s : Slice) : Prop := s.len ≤ s.cap ∧ s.off + s.cap ≤ h.length

/-- Overwrite part of a heap. -/
def splice {α} (h : List α) (off : Nat) (ws : List α) : List α := h.take off ++ ws ++ h.drop (off + ws.length)

/-- The first `n` elements of a slice. -/
def Slice.first {α} (h : List α) (s : Slice) (n : Nat) : List α := (h.drop s.off).take n

/-- encoding/binary `LittleEndian.Uint64` (Go standard library). -/
def leWord (b : List UInt8) : W :=
  (b.getD 0 0).toBitVec.setWidth 64 ||| ((b.getD 1 0).toBitVec.setWidth 64 <<< 8) ||| ((b.getD 2 0).toBitVec.setWidth 64 <<< 16) |||
  ((b.getD 3 0).toBitVec.setWidth 64 <<< 24) ||| ((b.getD 4 0).toBitVec.setWidth 64 <<< 32) |||
  ((b.getD 5 0).toBitVec.setWidth 64 <<< 40) ||| ((b.getD 6 0).toBitVec.setWidth 64 <<< 48) |||
  ((b.getD 7 0).toBitVec.setWidth 64 <<< 56)

/-- encoding/binary `LittleEndian.PutUint64` (Go standard library). -/
def leBytes (w : W) : List UInt8 :=
  [⟨w.setWidth 8⟩, ⟨(w >>> 8).setWidth 8⟩, ⟨(w >>> 16).setWidth 8⟩, ⟨(w >>> 24).setWidth 8⟩, ⟨(w >>> 32).setWidth 8⟩,
   ⟨(w >>> 40).setWidth 8⟩, ⟨(w >>> 48).setWidth 8⟩, ⟨(w >>> 56).setWidth 8⟩]

/-- The three implementations of `cipherInternal` (crypter.go:17-43). -/
inductive Size
  | s256 | s512 | s1024
  deriving DecidableEq

/-- CIPHER_QWORDS_*: crypter256.go:11, crypter512.go:11, crypter1024.go:11. -/
def Size.words : Size → Nat
  | .s256 => 4
  | .s512 => 8
  | .s1024 => 16

def Size.encBody : Size → List Raw
  | .s256 => encrypt256
  | .s512 => encrypt512
  | .s1024 => encrypt1024

def Size.decBody : Size → List Raw
  | .s256 => decrypt256
  | .s512 => decrypt512
  | .s1024 => decrypt1024

/-- crypter256.go:15-19 (and 512, 1024 alike): expanded key and tweak, scratch buffers. -/
structure Internal where
  size : Size
  ek : List W
  et : List W
  tmp1 : List W
  tmp2 : List W

/-- crypter.go:47-50. -/
structure Cipher where
  stateSize : Nat
  int : Internal

/-- KEY_SCHEDULE_CONST, crypter.go:11. -/
def KEY_SCHEDULE_CONST : W := 0x1BD11BDAA9FC1A22

/-- crypter.go:235-241 `setTweak`: nil is ignored, fewer than two words is an index panic. -/
def setTweak (tweak : Option (List W)) (et : List W) : Option (List W) :=
  match tweak with
  | none => some et
  | some (t0 :: t1 :: _) => some [t0, t1, t0 ^^^ t1]
  | some _ => none

/-- The loop of crypter.go:247-250. -/
def keyLoop : Nat → List W → W → Option (List W × W)
  | 0, _, parity => some ([], parity)
  | _ + 1, [], _ => none
  | n + 1, k :: ks, parity => (keyLoop n ks (parity ^^^ k)).map fun (l, p) => (k :: l, p)

/-- crypter.go:243-252 `setKey` for an expanded key of `n + 1` words: index panic if the key has fewer than `n` words. -/
def setKey (n : Nat) (key : List W) : Option (List W) :=
  (keyLoop n key KEY_SCHEDULE_CONST).map fun (l, parity) => l ++ [parity]

/-- Fresh structure: crypter256.go:23-28 (`new` zeroes, then the constant is stored in the last key word). -/
def freshInternal (sz : Size) : Internal where
  size := sz
  ek := List.replicate sz.words 0 ++ [KEY_SCHEDULE_CONST]
  et := [0, 0, 0]
  tmp1 := List.replicate sz.words 0
  tmp2 := List.replicate sz.words 0

/-- crypter256.go:31-35: the key words from the key bytes (`key[i*8 : i*8+8]`). -/
def keyWords (n : Nat) (key : Str) : List W := (List.range n).map fun i => leWord ((key.drop (i * 8)).take 8)

/-- crypter256.go:22-39 `newThreefish256` (512 and 1024 alike); only called with `key` nil or of the right length. -/
def newInternal (sz : Size) (key : Option Str) (tweak : Option (List W)) : Option Internal := do
  let et ← setTweak tweak (freshInternal sz).et
  match key with
  | none => some { freshInternal sz with et := et }
  | some key =>
    let ek ← setKey sz.words (keyWords sz.words key)
    some { freshInternal sz with et := et, ek := ek }

/-- crypter256.go:42-52 `newThreefish256_64` (512 and 1024 alike). -/
def newInternal64 (sz : Size) (key : List W) (tweak : Option (List W)) : Option Internal := do
  let et ← setTweak tweak (freshInternal sz).et
  let ek ← setKey sz.words key
  some { freshInternal sz with et := et, ek := ek }

/-- Result of a constructor. -/
inductive NewRes
  | ok (c : Cipher)
  | keySize (n : Int)
  | panic

def NewRes.of (stateSize : Nat) : Option Internal → NewRes
  | some i => .ok ⟨stateSize, i⟩
  | none => .panic

/-- crypter.go:69-84 `New`. -/
def new (key : Str) (tweak : Option (List W)) : NewRes :=
  if key.length = 32 then .of (key.length * 8) (newInternal .s256 (some key) tweak)
  else if key.length = 64 then .of (key.length * 8) (newInternal .s512 (some key) tweak)
  else if key.length = 128 then .of (key.length * 8) (newInternal .s1024 (some key) tweak)
  else .keySize key.length

/-- crypter.go:97-112 `New64`. -/
def new64 (key : List W) (tweak : Option (List W)) : NewRes :=
  if key.length = 4 then .of (key.length * 8) (newInternal64 .s256 key tweak)
  else if key.length = 8 then .of (key.length * 8) (newInternal64 .s512 key tweak)
  else if key.length = 16 then .of (key.length * 8) (newInternal64 .s1024 key tweak)
  else .keySize key.length

/-- crypter.go:119-134 `NewSize`. -/
def newSize (size : Int) : NewRes :=
  if size = 256 then .of 256 (newInternal .s256 none none)
  else if size = 512 then .of 512 (newInternal .s512 none none)
  else if size = 1024 then .of 1024 (newInternal .s1024 none none)
  else .keySize size

/-- crypter.go:138-140 `BlockSize`. -/
def Cipher.blockSize (c : Cipher) : Nat := c.stateSize / 8

/-- One call of `encrypt` on `words` input words (crypter256.go:66-413 etc.): the output words. -/
def Internal.enc (i : Internal) (input : List W) : List W :=
  (List.range i.size.words).map (runRaw i.size.encBody (input.getD · 0) (i.ek.getD · 0) (i.et.getD · 0))

/-- One call of `decrypt` (crypter256.go:415-910 etc.). -/
def Internal.dec (i : Internal) (input : List W) : List W :=
  (List.range i.size.words).map (runRaw i.size.decBody (input.getD · 0) (i.ek.getD · 0) (i.et.getD · 0))

/-- crypter.go:201-203 `Encrypt64`: all input words are read before the first output word is written; index panic if either
slice is shorter than the block. Result: the word heap afterwards. -/
def Cipher.encrypt64 (c : Cipher) (h : List W) (dst src : Slice) : Option (List W) :=
  if c.int.size.words ≤ src.len ∧ c.int.size.words ≤ dst.len then
    some (splice h dst.off (c.int.enc (src.first h c.int.size.words)))
  else none

/-- crypter.go:214-216 `Decrypt64`. -/
def Cipher.decrypt64 (c : Cipher) (h : List W) (dst src : Slice) : Option (List W) :=
  if c.int.size.words ≤ src.len ∧ c.int.size.words ≤ dst.len then
    some (splice h dst.off (c.int.dec (src.first h c.int.size.words)))
  else none

/-- crypter.go:157-159: read the first `m` words of a byte slice (`src[i*8 : i*8+8]` is checked against the capacity). -/
def readWords (h : Str) (s : Slice) (m : Nat) : Option (List W) :=
  if m * 8 ≤ s.cap then some ((List.range m).map fun i => leWord ((h.drop (s.off + i * 8)).take 8)) else none

/-- crypter.go:162-164: write words into a byte slice, word by word. -/
def writeWords : (h : Str) → (off cap : Nat) → List W → Option Str
  | h, _, _, [] => some h
  | h, off, cap, w :: ws => if 8 ≤ cap then writeWords (splice h off (leBytes w)) (off + 8) (cap - 8) ws else none

/-- crypter.go:150-165 `Encrypt`: cipher (its scratch buffers change) and byte heap afterwards. -/
def Cipher.encrypt (c : Cipher) (h : Str) (dst src : Slice) : Option (Cipher × Str) := do
  let m := c.stateSize / 64
  let ws ← readWords h src m
  let tmp1 := ws ++ c.int.tmp1.drop m
  let tmp2 := c.int.enc tmp1
  let h' ← writeWords h dst.off dst.cap (tmp2.take m)
  some ({ c with int := { c.int with tmp1 := tmp1, tmp2 := tmp2 } }, h')

/-- crypter.go:175-190 `Decrypt`. -/
def Cipher.decrypt (c : Cipher) (h : Str) (dst src : Slice) : Option (Cipher × Str) := do
  let m := c.stateSize / 64
  let ws ← readWords h src m
  let tmp1 := ws ++ c.int.tmp1.drop m
  let tmp2 := c.int.dec tmp1
  let h' ← writeWords h dst.off dst.cap (tmp2.take m)
  some ({ c with int := { c.int with tmp1 := tmp1, tmp2 := tmp2 } }, h')

/-- crypter.go:222-224 `SetTweak`. -/
def Cipher.setTweak (c : Cipher) (tweak : Option (List W)) : Option Cipher := do
  let et ← Crypter.setTweak tweak c.int.et
  some { c with int := { c.int with et := et } }

/-- crypter.go:230-232 `SetKey`. -/
def Cipher.setKey (c : Cipher) (key : List W) : Option Cipher := do
  let ek ← Crypter.setKey c.int.size.words key
  some { c with int := { c.int with ek := ek } }

/-! ### Histories of calls on one cipher -/

/-- The byte and the word memory the slices point into. -/
structure Mem where
  bytes : Str
  words : List W

/-- One call of an exported method of `*Cipher` (crypter.go:150-232). -/
inductive Call
  | encrypt (dst src : Slice)
  | decrypt (dst src : Slice)
  | encrypt64 (dst src : Slice)
  | decrypt64 (dst src : Slice)
  | setKey (key : List W)
  | setTweak (tweak : Option (List W))

/-- Cipher and memory after a call; `none` if it panics. -/
def Cipher.call (c : Cipher) (m : Mem) : Call → Option (Cipher × Mem)
  | .encrypt d s => (c.encrypt m.bytes d s).map fun r => (r.1, { m with bytes := r.2 })
  | .decrypt d s => (c.decrypt m.bytes d s).map fun r => (r.1, { m with bytes := r.2 })
  | .encrypt64 d s => (c.encrypt64 m.words d s).map fun w => (c, { m with words := w })
  | .decrypt64 d s => (c.decrypt64 m.words d s).map fun w => (c, { m with words := w })
  | .setKey k => (c.setKey k).map fun c' => (c', m)
  | .setTweak t => (c.setTweak t).map fun c' => (c', m)

/-- A sequence of calls. -/
def Cipher.calls (c : Cipher) (m : Mem) : List Call → Option (Cipher × Mem)
  | [] => some (c, m)
  | x :: xs => do
    let (c', m') ← c.call m x
    c'.calls m' xs

/-! ### crypter/cmd/crypt.go -/

/-- base64.URLEncoding alphabet (Go standard library). -/
def b64Alphabet : Str := lit "ABCDEFGHIJKLMNOPQRSTUVWXYZabcdefghijklmnopqrstuvwxyz0123456789-_"

def b64Char (n : Nat) : UInt8 := b64Alphabet.getD n 0

/-- base64.URLEncoding.EncodeToString: three bytes to four characters, `=` padding. -/
def b64Encode : Str → Str
  | [] => []
  | [a] => [b64Char (a.toNat / 4), b64Char (a.toNat % 4 * 16), 61, 61]
  | [a, b] => [b64Char (a.toNat / 4), b64Char (a.toNat % 4 * 16 + b.toNat / 16), b64Char (b.toNat % 16 * 4), 61]
  | a :: b :: c :: r =>
    b64Char (a.toNat / 4) :: b64Char (a.toNat % 4 * 16 + b.toNat / 16) :: b64Char (b.toNat % 16 * 4 + c.toNat / 64) ::
      b64Char (c.toNat % 64) :: b64Encode r

/-- Value of a base64 character. -/
def b64Val (c : UInt8) : Option Nat := b64Alphabet.findIdx? (· == c)

/-- base64 `decodeQuantum` (Go standard library), quantum by quantum: decoding ends with the first malformed quantum, of which nothing is kept, and with the
first padded one; what follows the padding is an error, but the bytes are kept. -/
def b64Quanta : Str → Str
  | c1 :: c2 :: c3 :: c4 :: r =>
    match b64Val c1, b64Val c2, b64Val c3, b64Val c4 with
    | some v1, some v2, some v3, some v4 =>
      UInt8.ofNat (v1 * 4 + v2 / 16) :: UInt8.ofNat (v2 % 16 * 16 + v3 / 4) :: UInt8.ofNat (v3 % 4 * 64 + v4) :: b64Quanta r
    | some v1, some v2, some v3, none =>
      if c4 = 61 then [UInt8.ofNat (v1 * 4 + v2 / 16), UInt8.ofNat (v2 % 16 * 16 + v3 / 4)] else []
    | some v1, some v2, none, _ =>
      if c3 = 61 ∧ c4 = 61 then [UInt8.ofNat (v1 * 4 + v2 / 16)] else []
    | _, _, _, _ => []
  | _ => []

/-- base64.URLEncoding.DecodeString: the bytes decoded (the caller ignores the error); line feeds and carriage returns are skipped wherever they are. -/
def b64Decode (s : Str) : Str := b64Quanta (s.filter fun c => c ≠ 10 && c ≠ 13)

/-- crypt.go:18-29 `New`: the text is the key, whatever `bits` says, but `make` panics if `bits / 8` is negative or more than 2^48 (Go truncates towards
zero; the limit is `maxAlloc` in runtime/malloc.go on a machine with 64 bits; that less memory than this is not there is not modelled); an unsupported key length leaves a nil cipher. -/
def newCryptor (keyAsText : Str) (bits : Int) : Option (Option Cipher) :=
  if Int.tdiv bits 8 < 0 ∨ 2 ^ 48 < Int.tdiv bits 8 then none
  else match new keyAsText (some [0x0706050403020100, 0x0F0E0D0C0B0A0908]) with
    | .ok c => some (some c)
    | _ => some none

/-- crypt.go:31-36 `Cryptor.Encrypt`: heap = plaintext followed by the zeroed destination (`make`, capacity = length).
`[]byte(text)` may have extra capacity `extra` (Go rounds allocations up); its content is zero. A nil cipher panics. -/
def cryptorEncrypt (c : Option Cipher) (extra : Nat) (text : Str) : Option (Option Cipher × Str) := do
  let ci ← c
  let n := text.length
  let heap := text ++ List.replicate extra 0 ++ List.replicate n 0
  let (ci', heap') ← ci.encrypt heap ⟨n + extra, n, n⟩ ⟨0, n, n + extra⟩
  some (some ci', b64Encode (heap'.drop (n + extra)))

/-- crypt.go:38-43 `Cryptor.Decrypt`: the decoded bytes are passed as destination, the fresh buffer as source, and the fresh
buffer is returned. -/
def cryptorDecrypt (c : Option Cipher) (extra : Nat) (encoded : Str) : Option (Option Cipher × Str) := do
  let ci ← c
  let bytes := b64Decode encoded
  let n := bytes.length
  let heap := bytes ++ List.replicate extra 0 ++ List.replicate n 0
  let (ci', heap') ← ci.decrypt heap ⟨0, n, n + extra⟩ ⟨n + extra, n, n⟩
  some (some ci', heap'.drop (n + extra))

end Verif.Crypter
