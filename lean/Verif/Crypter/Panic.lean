import Verif.Crypter.Model
/-
crypter.go:150-252 store by store: where a call that panics (an index or a slice bound out of range) stops, and what it has changed by then. The caller may recover and go on using the
cipher.
-/
namespace Verif.Crypter

/-- How a call ended: whether it panicked, and the cipher and the memory then. -/
structure Ended where
  panicked : Bool
  c : Cipher
  m : Mem

/-- crypter.go:157-159, 182-184: `k` iterations from `i` on; `src[i*8 : i*8+8]` panics beyond the capacity. -/
def loadLoop (h : Str) (s : Slice) : (k i : Nat) → List W → Bool × List W
  | 0, _, tmp => (false, tmp)
  | k + 1, i, tmp => if i * 8 + 8 ≤ s.cap then loadLoop h s k (i + 1) (tmp.set i (leWord ((h.drop (s.off + i * 8)).take 8))) else (true, tmp)

/-- crypter.go:162-164, 187-189: likewise for the destination. -/
def storeLoop (s : Slice) (tmp : List W) : (k i : Nat) → Str → Bool × Str
  | 0, _, h => (false, h)
  | k + 1, i, h => if i * 8 + 8 ≤ s.cap then storeLoop s tmp k (i + 1) (splice h (s.off + i * 8) (leBytes (tmp.getD i 0))) else (true, h)

/-- crypter.go:150-165, 175-190: `block` is `encrypt` or `decrypt` of the implementation. -/
def Cipher.byteEnd (c : Cipher) (block : List W → List W) (m : Mem) (dst src : Slice) : Ended :=
  match loadLoop m.bytes src (c.stateSize / 64) 0 c.int.tmp1 with
  | (true, tmp1) => ⟨true, { c with int := { c.int with tmp1 := tmp1 } }, m⟩
  | (false, tmp1) =>
    let r := storeLoop dst (block tmp1) (c.stateSize / 64) 0 m.bytes
    ⟨r.1, { c with int := { c.int with tmp1 := tmp1, tmp2 := block tmp1 } }, { m with bytes := r.2 }⟩

/-- The order in which the output words are stored: crypter256.go:408-411, 907-910, crypter512.go:740-747, 1722-1729 and crypter1024.go:1549-1564, 3708-3723. -/
def Size.outOrder : Size → (decrypting : Bool) → List Nat
  | .s512, true => (List.range 8).reverse
  | .s1024, true => (List.range 16).reverse
  | sz, _ => List.range sz.words

/-- The stores of the output words. -/
def storeWords (dst : Slice) (out : List W) : List Nat → List W → Bool × List W
  | [], h => (false, h)
  | i :: is, h => if i < dst.len then storeWords dst out is (h.set (dst.off + i) (out.getD i 0)) else (true, h)

/-- crypter.go:201-203, 214-216: all input words are read first (crypter256.go:68-71 etc.). -/
def Cipher.wordEnd (c : Cipher) (decrypting : Bool) (m : Mem) (dst src : Slice) : Ended :=
  if c.int.size.words ≤ src.len then
    let input := src.first m.words c.int.size.words
    let r := storeWords dst (if decrypting then c.int.dec input else c.int.enc input) (c.int.size.outOrder decrypting) m.words
    ⟨r.1, c, { m with words := r.2 }⟩
  else ⟨true, c, m⟩

/-- crypter.go:243-252 `setKey`: `n` iterations from `i` on, then the parity is stored. -/
def keySteps (key : List W) : (n i : Nat) → (ek : List W) → (parity : W) → Bool × List W
  | 0, i, ek, parity => (false, ek.set i parity)
  | n + 1, i, ek, parity => match key[i]? with
    | some k => keySteps key n (i + 1) (ek.set i k) (parity ^^^ k)
    | none => (true, ek)

/-- crypter.go:235-241 `setTweak`. -/
def tweakSteps : Option (List W) → List W → Bool × List W
  | none, et => (false, et)
  | some [], et => (true, et)
  | some [t0], et => (true, et.set 0 t0)
  | some (t0 :: t1 :: _), et => (false, ((et.set 0 t0).set 1 t1).set 2 (t0 ^^^ t1))

/-- A call of an exported method of `*Cipher` (crypter.go:150-232), whether it returns or panics. -/
def Cipher.ended (c : Cipher) (m : Mem) : Call → Ended
  | .encrypt dst src => c.byteEnd c.int.enc m dst src
  | .decrypt dst src => c.byteEnd c.int.dec m dst src
  | .encrypt64 dst src => c.wordEnd false m dst src
  | .decrypt64 dst src => c.wordEnd true m dst src
  | .setKey key => let r := keySteps key c.int.size.words 0 c.int.ek KEY_SCHEDULE_CONST; ⟨r.1, { c with int := { c.int with ek := r.2 } }, m⟩
  | .setTweak tweak => let r := tweakSteps tweak c.int.et; ⟨r.1, { c with int := { c.int with et := r.2 } }, m⟩

/-- A sequence of calls by a caller who recovers from every panic: which calls panicked, and the memory after each of them. -/
def Cipher.recovering (c : Cipher) (m : Mem) : List Call → List (Bool × Mem)
  | [] => []
  | x :: xs => ((c.ended m x).panicked, (c.ended m x).m) :: (c.ended m x).c.recovering (c.ended m x).m xs

end Verif.Crypter
