import Verif.Crypter.Machine
/-
The Threefish block cipher as published (The Skein Hash Function Family, version 1.3, section 3.3): words, MIX, permutation,
key schedule. Independent of the code.
-/
namespace Verif.Crypter.Threefish

/-- Table 4 (rotation constants) and Table 3 (word permutation) for one state size. -/
structure Params where
  words : Nat
  rounds : Nat
  /-- `rot[d % 8][j]` -/
  rot : List (List Nat)
  /-- word `i` after the permutation is word `perm[i]` before it -/
  perm : List Nat

def p256 : Params where
  words := 4
  rounds := 72
  rot := [[14, 16], [52, 57], [23, 40], [5, 37], [25, 33], [46, 12], [58, 22], [32, 32]]
  perm := [0, 3, 2, 1]

def p512 : Params where
  words := 8
  rounds := 72
  rot := [[46, 36, 19, 37], [33, 27, 14, 42], [17, 49, 36, 39], [44, 9, 54, 56],
          [39, 30, 34, 24], [13, 50, 10, 17], [25, 29, 39, 43], [8, 35, 56, 22]]
  perm := [2, 1, 4, 7, 6, 5, 0, 3]

def p1024 : Params where
  words := 16
  rounds := 80
  rot := [[24, 13, 8, 47, 8, 17, 22, 37], [38, 19, 10, 55, 49, 18, 23, 52],
          [33, 4, 51, 13, 34, 41, 59, 17], [5, 20, 48, 41, 47, 28, 16, 25],
          [41, 9, 37, 31, 12, 47, 44, 30], [16, 34, 56, 51, 4, 53, 42, 41],
          [31, 44, 47, 46, 19, 42, 44, 25], [9, 48, 35, 52, 23, 31, 37, 20]]
  perm := [0, 9, 2, 13, 6, 11, 4, 15, 10, 7, 12, 3, 14, 5, 8, 1]

/-- The key-schedule constant C240. -/
def C240 : W := 0x1BD11BDAA9FC1A22

/-- `k_{Nw} = C240 xor k_0 xor ... xor k_{Nw-1}`. -/
def extKey (key : List W) : List W := key ++ [key.foldl (· ^^^ ·) C240]

/-- `t_2 = t_0 xor t_1`. -/
def extTweak (t0 t1 : W) : List W := [t0, t1, t0 ^^^ t1]

/-- Subkey `s`: words `k_{(s+i) mod (Nw+1)}`, plus tweak words at positions `Nw-3`, `Nw-2` and `s` at `Nw-1`. -/
def subkey (p : Params) (ek et : List W) (s : Nat) : List W :=
  (List.range p.words).map fun i =>
    let k := ek.getD ((s + i) % (p.words + 1)) 0
    if i = p.words - 3 then k + et.getD (s % 3) 0
    else if i = p.words - 2 then k + et.getD ((s + 1) % 3) 0
    else if i = p.words - 1 then k + BitVec.ofNat 64 s
    else k

/-- MIX on consecutive pairs: `y0 = x0 + x1`, `y1 = (x1 <<< R) xor y0`. -/
def mix : List W → List Nat → List W
  | x0 :: x1 :: xs, r :: rs => (x0 + x1) :: (x1.rotateLeft r ^^^ (x0 + x1)) :: mix xs rs
  | _, _ => []

/-- One round `d`: subkey before every fourth round, MIX, permutation. -/
def round (p : Params) (ek et : List W) (v : List W) (d : Nat) : List W :=
  let e := if d % 4 = 0 then List.zipWith (· + ·) v (subkey p ek et (d / 4)) else v
  let f := mix e (p.rot.getD (d % 8) [])
  p.perm.map fun i => f.getD i 0

/-- Encryption of one block. -/
def encrypt (p : Params) (key : List W) (t0 t1 : W) (block : List W) : List W :=
  let ek := extKey key
  let et := extTweak t0 t1
  let v := (List.range p.rounds).foldl (round p ek et) block
  List.zipWith (· + ·) v (subkey p ek et (p.rounds / 4))

end Verif.Crypter.Threefish

namespace Verif.Crypter

/-- Little-endian bytes of a sequence of words: byte `i` of a word is bits `8i..8i+7`. -/
def bytesOfWords (ws : List W) : List UInt8 :=
  ws.flatMap fun w => (List.range 8).map fun i => UInt8.ofNat (w.toNat / 256 ^ i % 256)

end Verif.Crypter
