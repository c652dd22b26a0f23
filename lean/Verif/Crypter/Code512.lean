import Verif.Crypter.Machine
/-
Generated by tools/gen_threefish.py from /repo/crypter/crypter512.go, one `Raw` per Go statement, in order.
`var tmp uint64` is the zero-initialised `tmp` of `RawState`.
-/
namespace Verif.Crypter

/-- crypter512.go:68-170 -/
def encrypt512_0 : List Raw := [
  .loadB 0 0, .loadB 1 1, .loadB 2 2, .loadB 3 3, .loadB 4 4,
  .loadB 5 5, .loadB 6 6, .loadB 7 7, .loadK 0 0, .loadK 1 1,
  .loadK 2 2, .loadK 3 3, .loadK 4 4, .loadK 5 5, .loadK 6 6,
  .loadK 7 7, .loadK 8 8, .loadT 0 0, .loadT 1 1, .loadT 2 2,
  .add 1 none (some 1) none 0, .add 0 (some 1) (some 0) none 0, .rolXor 1 1 46 1 64 46 0, .add 3 none (some 3) none 0, .add 2 (some 3) (some 2) none 0,
  .rolXor 3 3 36 3 64 36 2, .add 5 none (some 5) (some 0) 0, .add 4 (some 5) (some 4) none 0, .rolXor 5 5 19 5 64 19 4, .add 7 none (some 7) none 0,
  .add 6 (some 7) (some 6) (some 1) 0, .rolXor 7 7 37 7 64 37 6, .add 2 (some 1) none none 0, .rolXor 1 1 33 1 64 33 2, .add 4 (some 7) none none 0,
  .rolXor 7 7 27 7 64 27 4, .add 6 (some 5) none none 0, .rolXor 5 5 14 5 64 14 6, .add 0 (some 3) none none 0, .rolXor 3 3 42 3 64 42 0,
  .add 4 (some 1) none none 0, .rolXor 1 1 17 1 64 17 4, .add 6 (some 3) none none 0, .rolXor 3 3 49 3 64 49 6, .add 0 (some 5) none none 0,
  .rolXor 5 5 36 5 64 36 0, .add 2 (some 7) none none 0, .rolXor 7 7 39 7 64 39 2, .add 6 (some 1) none none 0, .rolXor 1 1 44 1 64 44 6,
  .add 0 (some 7) none none 0, .rolXor 7 7 9 7 64 9 0, .add 2 (some 5) none none 0, .rolXor 5 5 54 5 64 54 2, .add 4 (some 3) none none 0,
  .rolXor 3 3 56 3 64 56 4, .add 1 none (some 2) none 0, .add 0 (some 1) (some 1) none 0, .rolXor 1 1 39 1 64 39 0, .add 3 none (some 4) none 0,
  .add 2 (some 3) (some 3) none 0, .rolXor 3 3 30 3 64 30 2, .add 5 none (some 6) (some 1) 0, .add 4 (some 5) (some 5) none 0, .rolXor 5 5 34 5 64 34 4,
  .add 7 none (some 8) none 1, .add 6 (some 7) (some 7) (some 2) 0, .rolXor 7 7 24 7 64 24 6, .add 2 (some 1) none none 0, .rolXor 1 1 13 1 64 13 2,
  .add 4 (some 7) none none 0, .rolXor 7 7 50 7 64 50 4, .add 6 (some 5) none none 0, .rolXor 5 5 10 5 64 10 6, .add 0 (some 3) none none 0,
  .rolXor 3 3 17 3 64 17 0, .add 4 (some 1) none none 0, .rolXor 1 1 25 1 64 25 4, .add 6 (some 3) none none 0, .rolXor 3 3 29 3 64 29 6,
  .add 0 (some 5) none none 0, .rolXor 5 5 39 5 64 39 0, .add 2 (some 7) none none 0, .rolXor 7 7 43 7 64 43 2, .add 6 (some 1) none none 0,
  .rolXor 1 1 8 1 64 8 6, .add 0 (some 7) none none 0, .rolXor 7 7 35 7 64 35 0, .add 2 (some 5) none none 0, .rolXor 5 5 56 5 64 56 2,
  .add 4 (some 3) none none 0, .rolXor 3 3 22 3 64 22 4, .add 1 none (some 3) none 0, .add 0 (some 1) (some 2) none 0, .rolXor 1 1 46 1 64 46 0,
  .add 3 none (some 5) none 0, .add 2 (some 3) (some 4) none 0, .rolXor 3 3 36 3 64 36 2, .add 5 none (some 7) (some 2) 0, .add 4 (some 5) (some 6) none 0]

/-- crypter512.go:171-270 -/
def encrypt512_1 : List Raw := [
  .rolXor 5 5 19 5 64 19 4, .add 7 none (some 0) none 2, .add 6 (some 7) (some 8) (some 0) 0, .rolXor 7 7 37 7 64 37 6, .add 2 (some 1) none none 0,
  .rolXor 1 1 33 1 64 33 2, .add 4 (some 7) none none 0, .rolXor 7 7 27 7 64 27 4, .add 6 (some 5) none none 0, .rolXor 5 5 14 5 64 14 6,
  .add 0 (some 3) none none 0, .rolXor 3 3 42 3 64 42 0, .add 4 (some 1) none none 0, .rolXor 1 1 17 1 64 17 4, .add 6 (some 3) none none 0,
  .rolXor 3 3 49 3 64 49 6, .add 0 (some 5) none none 0, .rolXor 5 5 36 5 64 36 0, .add 2 (some 7) none none 0, .rolXor 7 7 39 7 64 39 2,
  .add 6 (some 1) none none 0, .rolXor 1 1 44 1 64 44 6, .add 0 (some 7) none none 0, .rolXor 7 7 9 7 64 9 0, .add 2 (some 5) none none 0,
  .rolXor 5 5 54 5 64 54 2, .add 4 (some 3) none none 0, .rolXor 3 3 56 3 64 56 4, .add 1 none (some 4) none 0, .add 0 (some 1) (some 3) none 0,
  .rolXor 1 1 39 1 64 39 0, .add 3 none (some 6) none 0, .add 2 (some 3) (some 5) none 0, .rolXor 3 3 30 3 64 30 2, .add 5 none (some 8) (some 0) 0,
  .add 4 (some 5) (some 7) none 0, .rolXor 5 5 34 5 64 34 4, .add 7 none (some 1) none 3, .add 6 (some 7) (some 0) (some 1) 0, .rolXor 7 7 24 7 64 24 6,
  .add 2 (some 1) none none 0, .rolXor 1 1 13 1 64 13 2, .add 4 (some 7) none none 0, .rolXor 7 7 50 7 64 50 4, .add 6 (some 5) none none 0,
  .rolXor 5 5 10 5 64 10 6, .add 0 (some 3) none none 0, .rolXor 3 3 17 3 64 17 0, .add 4 (some 1) none none 0, .rolXor 1 1 25 1 64 25 4,
  .add 6 (some 3) none none 0, .rolXor 3 3 29 3 64 29 6, .add 0 (some 5) none none 0, .rolXor 5 5 39 5 64 39 0, .add 2 (some 7) none none 0,
  .rolXor 7 7 43 7 64 43 2, .add 6 (some 1) none none 0, .rolXor 1 1 8 1 64 8 6, .add 0 (some 7) none none 0, .rolXor 7 7 35 7 64 35 0,
  .add 2 (some 5) none none 0, .rolXor 5 5 56 5 64 56 2, .add 4 (some 3) none none 0, .rolXor 3 3 22 3 64 22 4, .add 1 none (some 5) none 0,
  .add 0 (some 1) (some 4) none 0, .rolXor 1 1 46 1 64 46 0, .add 3 none (some 7) none 0, .add 2 (some 3) (some 6) none 0, .rolXor 3 3 36 3 64 36 2,
  .add 5 none (some 0) (some 1) 0, .add 4 (some 5) (some 8) none 0, .rolXor 5 5 19 5 64 19 4, .add 7 none (some 2) none 4, .add 6 (some 7) (some 1) (some 2) 0,
  .rolXor 7 7 37 7 64 37 6, .add 2 (some 1) none none 0, .rolXor 1 1 33 1 64 33 2, .add 4 (some 7) none none 0, .rolXor 7 7 27 7 64 27 4,
  .add 6 (some 5) none none 0, .rolXor 5 5 14 5 64 14 6, .add 0 (some 3) none none 0, .rolXor 3 3 42 3 64 42 0, .add 4 (some 1) none none 0,
  .rolXor 1 1 17 1 64 17 4, .add 6 (some 3) none none 0, .rolXor 3 3 49 3 64 49 6, .add 0 (some 5) none none 0, .rolXor 5 5 36 5 64 36 0,
  .add 2 (some 7) none none 0, .rolXor 7 7 39 7 64 39 2, .add 6 (some 1) none none 0, .rolXor 1 1 44 1 64 44 6, .add 0 (some 7) none none 0,
  .rolXor 7 7 9 7 64 9 0, .add 2 (some 5) none none 0, .rolXor 5 5 54 5 64 54 2, .add 4 (some 3) none none 0, .rolXor 3 3 56 3 64 56 4]

/-- crypter512.go:271-370 -/
def encrypt512_2 : List Raw := [
  .add 1 none (some 6) none 0, .add 0 (some 1) (some 5) none 0, .rolXor 1 1 39 1 64 39 0, .add 3 none (some 8) none 0, .add 2 (some 3) (some 7) none 0,
  .rolXor 3 3 30 3 64 30 2, .add 5 none (some 1) (some 2) 0, .add 4 (some 5) (some 0) none 0, .rolXor 5 5 34 5 64 34 4, .add 7 none (some 3) none 5,
  .add 6 (some 7) (some 2) (some 0) 0, .rolXor 7 7 24 7 64 24 6, .add 2 (some 1) none none 0, .rolXor 1 1 13 1 64 13 2, .add 4 (some 7) none none 0,
  .rolXor 7 7 50 7 64 50 4, .add 6 (some 5) none none 0, .rolXor 5 5 10 5 64 10 6, .add 0 (some 3) none none 0, .rolXor 3 3 17 3 64 17 0,
  .add 4 (some 1) none none 0, .rolXor 1 1 25 1 64 25 4, .add 6 (some 3) none none 0, .rolXor 3 3 29 3 64 29 6, .add 0 (some 5) none none 0,
  .rolXor 5 5 39 5 64 39 0, .add 2 (some 7) none none 0, .rolXor 7 7 43 7 64 43 2, .add 6 (some 1) none none 0, .rolXor 1 1 8 1 64 8 6,
  .add 0 (some 7) none none 0, .rolXor 7 7 35 7 64 35 0, .add 2 (some 5) none none 0, .rolXor 5 5 56 5 64 56 2, .add 4 (some 3) none none 0,
  .rolXor 3 3 22 3 64 22 4, .add 1 none (some 7) none 0, .add 0 (some 1) (some 6) none 0, .rolXor 1 1 46 1 64 46 0, .add 3 none (some 0) none 0,
  .add 2 (some 3) (some 8) none 0, .rolXor 3 3 36 3 64 36 2, .add 5 none (some 2) (some 0) 0, .add 4 (some 5) (some 1) none 0, .rolXor 5 5 19 5 64 19 4,
  .add 7 none (some 4) none 6, .add 6 (some 7) (some 3) (some 1) 0, .rolXor 7 7 37 7 64 37 6, .add 2 (some 1) none none 0, .rolXor 1 1 33 1 64 33 2,
  .add 4 (some 7) none none 0, .rolXor 7 7 27 7 64 27 4, .add 6 (some 5) none none 0, .rolXor 5 5 14 5 64 14 6, .add 0 (some 3) none none 0,
  .rolXor 3 3 42 3 64 42 0, .add 4 (some 1) none none 0, .rolXor 1 1 17 1 64 17 4, .add 6 (some 3) none none 0, .rolXor 3 3 49 3 64 49 6,
  .add 0 (some 5) none none 0, .rolXor 5 5 36 5 64 36 0, .add 2 (some 7) none none 0, .rolXor 7 7 39 7 64 39 2, .add 6 (some 1) none none 0,
  .rolXor 1 1 44 1 64 44 6, .add 0 (some 7) none none 0, .rolXor 7 7 9 7 64 9 0, .add 2 (some 5) none none 0, .rolXor 5 5 54 5 64 54 2,
  .add 4 (some 3) none none 0, .rolXor 3 3 56 3 64 56 4, .add 1 none (some 8) none 0, .add 0 (some 1) (some 7) none 0, .rolXor 1 1 39 1 64 39 0,
  .add 3 none (some 1) none 0, .add 2 (some 3) (some 0) none 0, .rolXor 3 3 30 3 64 30 2, .add 5 none (some 3) (some 1) 0, .add 4 (some 5) (some 2) none 0,
  .rolXor 5 5 34 5 64 34 4, .add 7 none (some 5) none 7, .add 6 (some 7) (some 4) (some 2) 0, .rolXor 7 7 24 7 64 24 6, .add 2 (some 1) none none 0,
  .rolXor 1 1 13 1 64 13 2, .add 4 (some 7) none none 0, .rolXor 7 7 50 7 64 50 4, .add 6 (some 5) none none 0, .rolXor 5 5 10 5 64 10 6,
  .add 0 (some 3) none none 0, .rolXor 3 3 17 3 64 17 0, .add 4 (some 1) none none 0, .rolXor 1 1 25 1 64 25 4, .add 6 (some 3) none none 0,
  .rolXor 3 3 29 3 64 29 6, .add 0 (some 5) none none 0, .rolXor 5 5 39 5 64 39 0, .add 2 (some 7) none none 0, .rolXor 7 7 43 7 64 43 2]

/-- crypter512.go:371-470 -/
def encrypt512_3 : List Raw := [
  .add 6 (some 1) none none 0, .rolXor 1 1 8 1 64 8 6, .add 0 (some 7) none none 0, .rolXor 7 7 35 7 64 35 0, .add 2 (some 5) none none 0,
  .rolXor 5 5 56 5 64 56 2, .add 4 (some 3) none none 0, .rolXor 3 3 22 3 64 22 4, .add 1 none (some 0) none 0, .add 0 (some 1) (some 8) none 0,
  .rolXor 1 1 46 1 64 46 0, .add 3 none (some 2) none 0, .add 2 (some 3) (some 1) none 0, .rolXor 3 3 36 3 64 36 2, .add 5 none (some 4) (some 2) 0,
  .add 4 (some 5) (some 3) none 0, .rolXor 5 5 19 5 64 19 4, .add 7 none (some 6) none 8, .add 6 (some 7) (some 5) (some 0) 0, .rolXor 7 7 37 7 64 37 6,
  .add 2 (some 1) none none 0, .rolXor 1 1 33 1 64 33 2, .add 4 (some 7) none none 0, .rolXor 7 7 27 7 64 27 4, .add 6 (some 5) none none 0,
  .rolXor 5 5 14 5 64 14 6, .add 0 (some 3) none none 0, .rolXor 3 3 42 3 64 42 0, .add 4 (some 1) none none 0, .rolXor 1 1 17 1 64 17 4,
  .add 6 (some 3) none none 0, .rolXor 3 3 49 3 64 49 6, .add 0 (some 5) none none 0, .rolXor 5 5 36 5 64 36 0, .add 2 (some 7) none none 0,
  .rolXor 7 7 39 7 64 39 2, .add 6 (some 1) none none 0, .rolXor 1 1 44 1 64 44 6, .add 0 (some 7) none none 0, .rolXor 7 7 9 7 64 9 0,
  .add 2 (some 5) none none 0, .rolXor 5 5 54 5 64 54 2, .add 4 (some 3) none none 0, .rolXor 3 3 56 3 64 56 4, .add 1 none (some 1) none 0,
  .add 0 (some 1) (some 0) none 0, .rolXor 1 1 39 1 64 39 0, .add 3 none (some 3) none 0, .add 2 (some 3) (some 2) none 0, .rolXor 3 3 30 3 64 30 2,
  .add 5 none (some 5) (some 0) 0, .add 4 (some 5) (some 4) none 0, .rolXor 5 5 34 5 64 34 4, .add 7 none (some 7) none 9, .add 6 (some 7) (some 6) (some 1) 0,
  .rolXor 7 7 24 7 64 24 6, .add 2 (some 1) none none 0, .rolXor 1 1 13 1 64 13 2, .add 4 (some 7) none none 0, .rolXor 7 7 50 7 64 50 4,
  .add 6 (some 5) none none 0, .rolXor 5 5 10 5 64 10 6, .add 0 (some 3) none none 0, .rolXor 3 3 17 3 64 17 0, .add 4 (some 1) none none 0,
  .rolXor 1 1 25 1 64 25 4, .add 6 (some 3) none none 0, .rolXor 3 3 29 3 64 29 6, .add 0 (some 5) none none 0, .rolXor 5 5 39 5 64 39 0,
  .add 2 (some 7) none none 0, .rolXor 7 7 43 7 64 43 2, .add 6 (some 1) none none 0, .rolXor 1 1 8 1 64 8 6, .add 0 (some 7) none none 0,
  .rolXor 7 7 35 7 64 35 0, .add 2 (some 5) none none 0, .rolXor 5 5 56 5 64 56 2, .add 4 (some 3) none none 0, .rolXor 3 3 22 3 64 22 4,
  .add 1 none (some 2) none 0, .add 0 (some 1) (some 1) none 0, .rolXor 1 1 46 1 64 46 0, .add 3 none (some 4) none 0, .add 2 (some 3) (some 3) none 0,
  .rolXor 3 3 36 3 64 36 2, .add 5 none (some 6) (some 1) 0, .add 4 (some 5) (some 5) none 0, .rolXor 5 5 19 5 64 19 4, .add 7 none (some 8) none 10,
  .add 6 (some 7) (some 7) (some 2) 0, .rolXor 7 7 37 7 64 37 6, .add 2 (some 1) none none 0, .rolXor 1 1 33 1 64 33 2, .add 4 (some 7) none none 0,
  .rolXor 7 7 27 7 64 27 4, .add 6 (some 5) none none 0, .rolXor 5 5 14 5 64 14 6, .add 0 (some 3) none none 0, .rolXor 3 3 42 3 64 42 0]

/-- crypter512.go:471-570 -/
def encrypt512_4 : List Raw := [
  .add 4 (some 1) none none 0, .rolXor 1 1 17 1 64 17 4, .add 6 (some 3) none none 0, .rolXor 3 3 49 3 64 49 6, .add 0 (some 5) none none 0,
  .rolXor 5 5 36 5 64 36 0, .add 2 (some 7) none none 0, .rolXor 7 7 39 7 64 39 2, .add 6 (some 1) none none 0, .rolXor 1 1 44 1 64 44 6,
  .add 0 (some 7) none none 0, .rolXor 7 7 9 7 64 9 0, .add 2 (some 5) none none 0, .rolXor 5 5 54 5 64 54 2, .add 4 (some 3) none none 0,
  .rolXor 3 3 56 3 64 56 4, .add 1 none (some 3) none 0, .add 0 (some 1) (some 2) none 0, .rolXor 1 1 39 1 64 39 0, .add 3 none (some 5) none 0,
  .add 2 (some 3) (some 4) none 0, .rolXor 3 3 30 3 64 30 2, .add 5 none (some 7) (some 2) 0, .add 4 (some 5) (some 6) none 0, .rolXor 5 5 34 5 64 34 4,
  .add 7 none (some 0) none 11, .add 6 (some 7) (some 8) (some 0) 0, .rolXor 7 7 24 7 64 24 6, .add 2 (some 1) none none 0, .rolXor 1 1 13 1 64 13 2,
  .add 4 (some 7) none none 0, .rolXor 7 7 50 7 64 50 4, .add 6 (some 5) none none 0, .rolXor 5 5 10 5 64 10 6, .add 0 (some 3) none none 0,
  .rolXor 3 3 17 3 64 17 0, .add 4 (some 1) none none 0, .rolXor 1 1 25 1 64 25 4, .add 6 (some 3) none none 0, .rolXor 3 3 29 3 64 29 6,
  .add 0 (some 5) none none 0, .rolXor 5 5 39 5 64 39 0, .add 2 (some 7) none none 0, .rolXor 7 7 43 7 64 43 2, .add 6 (some 1) none none 0,
  .rolXor 1 1 8 1 64 8 6, .add 0 (some 7) none none 0, .rolXor 7 7 35 7 64 35 0, .add 2 (some 5) none none 0, .rolXor 5 5 56 5 64 56 2,
  .add 4 (some 3) none none 0, .rolXor 3 3 22 3 64 22 4, .add 1 none (some 4) none 0, .add 0 (some 1) (some 3) none 0, .rolXor 1 1 46 1 64 46 0,
  .add 3 none (some 6) none 0, .add 2 (some 3) (some 5) none 0, .rolXor 3 3 36 3 64 36 2, .add 5 none (some 8) (some 0) 0, .add 4 (some 5) (some 7) none 0,
  .rolXor 5 5 19 5 64 19 4, .add 7 none (some 1) none 12, .add 6 (some 7) (some 0) (some 1) 0, .rolXor 7 7 37 7 64 37 6, .add 2 (some 1) none none 0,
  .rolXor 1 1 33 1 64 33 2, .add 4 (some 7) none none 0, .rolXor 7 7 27 7 64 27 4, .add 6 (some 5) none none 0, .rolXor 5 5 14 5 64 14 6,
  .add 0 (some 3) none none 0, .rolXor 3 3 42 3 64 42 0, .add 4 (some 1) none none 0, .rolXor 1 1 17 1 64 17 4, .add 6 (some 3) none none 0,
  .rolXor 3 3 49 3 64 49 6, .add 0 (some 5) none none 0, .rolXor 5 5 36 5 64 36 0, .add 2 (some 7) none none 0, .rolXor 7 7 39 7 64 39 2,
  .add 6 (some 1) none none 0, .rolXor 1 1 44 1 64 44 6, .add 0 (some 7) none none 0, .rolXor 7 7 9 7 64 9 0, .add 2 (some 5) none none 0,
  .rolXor 5 5 54 5 64 54 2, .add 4 (some 3) none none 0, .rolXor 3 3 56 3 64 56 4, .add 1 none (some 5) none 0, .add 0 (some 1) (some 4) none 0,
  .rolXor 1 1 39 1 64 39 0, .add 3 none (some 7) none 0, .add 2 (some 3) (some 6) none 0, .rolXor 3 3 30 3 64 30 2, .add 5 none (some 0) (some 1) 0,
  .add 4 (some 5) (some 8) none 0, .rolXor 5 5 34 5 64 34 4, .add 7 none (some 2) none 13, .add 6 (some 7) (some 1) (some 2) 0, .rolXor 7 7 24 7 64 24 6]

/-- crypter512.go:571-670 -/
def encrypt512_5 : List Raw := [
  .add 2 (some 1) none none 0, .rolXor 1 1 13 1 64 13 2, .add 4 (some 7) none none 0, .rolXor 7 7 50 7 64 50 4, .add 6 (some 5) none none 0,
  .rolXor 5 5 10 5 64 10 6, .add 0 (some 3) none none 0, .rolXor 3 3 17 3 64 17 0, .add 4 (some 1) none none 0, .rolXor 1 1 25 1 64 25 4,
  .add 6 (some 3) none none 0, .rolXor 3 3 29 3 64 29 6, .add 0 (some 5) none none 0, .rolXor 5 5 39 5 64 39 0, .add 2 (some 7) none none 0,
  .rolXor 7 7 43 7 64 43 2, .add 6 (some 1) none none 0, .rolXor 1 1 8 1 64 8 6, .add 0 (some 7) none none 0, .rolXor 7 7 35 7 64 35 0,
  .add 2 (some 5) none none 0, .rolXor 5 5 56 5 64 56 2, .add 4 (some 3) none none 0, .rolXor 3 3 22 3 64 22 4, .add 1 none (some 6) none 0,
  .add 0 (some 1) (some 5) none 0, .rolXor 1 1 46 1 64 46 0, .add 3 none (some 8) none 0, .add 2 (some 3) (some 7) none 0, .rolXor 3 3 36 3 64 36 2,
  .add 5 none (some 1) (some 2) 0, .add 4 (some 5) (some 0) none 0, .rolXor 5 5 19 5 64 19 4, .add 7 none (some 3) none 14, .add 6 (some 7) (some 2) (some 0) 0,
  .rolXor 7 7 37 7 64 37 6, .add 2 (some 1) none none 0, .rolXor 1 1 33 1 64 33 2, .add 4 (some 7) none none 0, .rolXor 7 7 27 7 64 27 4,
  .add 6 (some 5) none none 0, .rolXor 5 5 14 5 64 14 6, .add 0 (some 3) none none 0, .rolXor 3 3 42 3 64 42 0, .add 4 (some 1) none none 0,
  .rolXor 1 1 17 1 64 17 4, .add 6 (some 3) none none 0, .rolXor 3 3 49 3 64 49 6, .add 0 (some 5) none none 0, .rolXor 5 5 36 5 64 36 0,
  .add 2 (some 7) none none 0, .rolXor 7 7 39 7 64 39 2, .add 6 (some 1) none none 0, .rolXor 1 1 44 1 64 44 6, .add 0 (some 7) none none 0,
  .rolXor 7 7 9 7 64 9 0, .add 2 (some 5) none none 0, .rolXor 5 5 54 5 64 54 2, .add 4 (some 3) none none 0, .rolXor 3 3 56 3 64 56 4,
  .add 1 none (some 7) none 0, .add 0 (some 1) (some 6) none 0, .rolXor 1 1 39 1 64 39 0, .add 3 none (some 0) none 0, .add 2 (some 3) (some 8) none 0,
  .rolXor 3 3 30 3 64 30 2, .add 5 none (some 2) (some 0) 0, .add 4 (some 5) (some 1) none 0, .rolXor 5 5 34 5 64 34 4, .add 7 none (some 4) none 15,
  .add 6 (some 7) (some 3) (some 1) 0, .rolXor 7 7 24 7 64 24 6, .add 2 (some 1) none none 0, .rolXor 1 1 13 1 64 13 2, .add 4 (some 7) none none 0,
  .rolXor 7 7 50 7 64 50 4, .add 6 (some 5) none none 0, .rolXor 5 5 10 5 64 10 6, .add 0 (some 3) none none 0, .rolXor 3 3 17 3 64 17 0,
  .add 4 (some 1) none none 0, .rolXor 1 1 25 1 64 25 4, .add 6 (some 3) none none 0, .rolXor 3 3 29 3 64 29 6, .add 0 (some 5) none none 0,
  .rolXor 5 5 39 5 64 39 0, .add 2 (some 7) none none 0, .rolXor 7 7 43 7 64 43 2, .add 6 (some 1) none none 0, .rolXor 1 1 8 1 64 8 6,
  .add 0 (some 7) none none 0, .rolXor 7 7 35 7 64 35 0, .add 2 (some 5) none none 0, .rolXor 5 5 56 5 64 56 2, .add 4 (some 3) none none 0,
  .rolXor 3 3 22 3 64 22 4, .add 1 none (some 8) none 0, .add 0 (some 1) (some 7) none 0, .rolXor 1 1 46 1 64 46 0, .add 3 none (some 1) none 0]

/-- crypter512.go:671-747 -/
def encrypt512_6 : List Raw := [
  .add 2 (some 3) (some 0) none 0, .rolXor 3 3 36 3 64 36 2, .add 5 none (some 3) (some 1) 0, .add 4 (some 5) (some 2) none 0, .rolXor 5 5 19 5 64 19 4,
  .add 7 none (some 5) none 16, .add 6 (some 7) (some 4) (some 2) 0, .rolXor 7 7 37 7 64 37 6, .add 2 (some 1) none none 0, .rolXor 1 1 33 1 64 33 2,
  .add 4 (some 7) none none 0, .rolXor 7 7 27 7 64 27 4, .add 6 (some 5) none none 0, .rolXor 5 5 14 5 64 14 6, .add 0 (some 3) none none 0,
  .rolXor 3 3 42 3 64 42 0, .add 4 (some 1) none none 0, .rolXor 1 1 17 1 64 17 4, .add 6 (some 3) none none 0, .rolXor 3 3 49 3 64 49 6,
  .add 0 (some 5) none none 0, .rolXor 5 5 36 5 64 36 0, .add 2 (some 7) none none 0, .rolXor 7 7 39 7 64 39 2, .add 6 (some 1) none none 0,
  .rolXor 1 1 44 1 64 44 6, .add 0 (some 7) none none 0, .rolXor 7 7 9 7 64 9 0, .add 2 (some 5) none none 0, .rolXor 5 5 54 5 64 54 2,
  .add 4 (some 3) none none 0, .rolXor 3 3 56 3 64 56 4, .add 1 none (some 0) none 0, .add 0 (some 1) (some 8) none 0, .rolXor 1 1 39 1 64 39 0,
  .add 3 none (some 2) none 0, .add 2 (some 3) (some 1) none 0, .rolXor 3 3 30 3 64 30 2, .add 5 none (some 4) (some 2) 0, .add 4 (some 5) (some 3) none 0,
  .rolXor 5 5 34 5 64 34 4, .add 7 none (some 6) none 17, .add 6 (some 7) (some 5) (some 0) 0, .rolXor 7 7 24 7 64 24 6, .add 2 (some 1) none none 0,
  .rolXor 1 1 13 1 64 13 2, .add 4 (some 7) none none 0, .rolXor 7 7 50 7 64 50 4, .add 6 (some 5) none none 0, .rolXor 5 5 10 5 64 10 6,
  .add 0 (some 3) none none 0, .rolXor 3 3 17 3 64 17 0, .add 4 (some 1) none none 0, .rolXor 1 1 25 1 64 25 4, .add 6 (some 3) none none 0,
  .rolXor 3 3 29 3 64 29 6, .add 0 (some 5) none none 0, .rolXor 5 5 39 5 64 39 0, .add 2 (some 7) none none 0, .rolXor 7 7 43 7 64 43 2,
  .add 6 (some 1) none none 0, .rolXor 1 1 8 1 64 8 6, .add 0 (some 7) none none 0, .rolXor 7 7 35 7 64 35 0, .add 2 (some 5) none none 0,
  .rolXor 5 5 56 5 64 56 2, .add 4 (some 3) none none 0, .rolXor 3 3 22 3 64 22 4, .out 0 0 (some 0) none 0, .out 1 1 (some 1) none 0,
  .out 2 2 (some 2) none 0, .out 3 3 (some 3) none 0, .out 4 4 (some 4) none 0, .out 5 5 (some 5) (some 0) 0, .out 6 6 (some 6) (some 1) 0,
  .out 7 7 (some 7) none 18]

/-- The body of `threefish512.encrypt`, crypter512.go:66-748. -/
def encrypt512 : List Raw := encrypt512_0 ++ encrypt512_1 ++ encrypt512_2 ++ encrypt512_3 ++ encrypt512_4 ++ encrypt512_5 ++ encrypt512_6

/-- crypter512.go:752-856 -/
def decrypt512_0 : List Raw := [
  .loadB 0 0, .loadB 1 1, .loadB 2 2, .loadB 3 3, .loadB 4 4,
  .loadB 5 5, .loadB 6 6, .loadB 7 7, .loadK 0 0, .loadK 1 1,
  .loadK 2 2, .loadK 3 3, .loadK 4 4, .loadK 5 5, .loadK 6 6,
  .loadK 7 7, .loadK 8 8, .loadT 0 0, .loadT 1 1, .loadT 2 2,
  .sub 0 none (some 0) none 0, .sub 1 none (some 1) none 0, .sub 2 none (some 2) none 0, .sub 3 none (some 3) none 0, .sub 4 none (some 4) none 0,
  .sub 5 none (some 5) (some 0) 0, .sub 6 none (some 6) (some 1) 0, .sub 7 none (some 7) none 18, .tmpXor 3 4, .rorTmp 3 22 64 22,
  .sub 4 (some 3) none none 0, .tmpXor 5 2, .rorTmp 5 56 64 56, .sub 2 (some 5) none none 0, .tmpXor 7 0,
  .rorTmp 7 35 64 35, .sub 0 (some 7) none none 0, .tmpXor 1 6, .rorTmp 1 8 64 8, .sub 6 (some 1) none none 0,
  .tmpXor 7 2, .rorTmp 7 43 64 43, .sub 2 (some 7) none none 0, .tmpXor 5 0, .rorTmp 5 39 64 39,
  .sub 0 (some 5) none none 0, .tmpXor 3 6, .rorTmp 3 29 64 29, .sub 6 (some 3) none none 0, .tmpXor 1 4,
  .rorTmp 1 25 64 25, .sub 4 (some 1) none none 0, .tmpXor 3 0, .rorTmp 3 17 64 17, .sub 0 (some 3) none none 0,
  .tmpXor 5 6, .rorTmp 5 10 64 10, .sub 6 (some 5) none none 0, .tmpXor 7 4, .rorTmp 7 50 64 50,
  .sub 4 (some 7) none none 0, .tmpXor 1 2, .rorTmp 1 13 64 13, .sub 2 (some 1) none none 0, .tmpXor 7 6,
  .rorTmp 7 24 64 24, .sub 6 (some 7) (some 5) (some 0) 0, .sub 7 none (some 6) none 17, .tmpXor 5 4, .rorTmp 5 34 64 34,
  .sub 4 (some 5) (some 3) none 0, .sub 5 none (some 4) (some 2) 0, .tmpXor 3 2, .rorTmp 3 30 64 30, .sub 2 (some 3) (some 1) none 0,
  .sub 3 none (some 2) none 0, .tmpXor 1 0, .rorTmp 1 39 64 39, .sub 0 (some 1) (some 8) none 0, .sub 1 none (some 0) none 0,
  .tmpXor 3 4, .rorTmp 3 56 64 56, .sub 4 (some 3) none none 0, .tmpXor 5 2, .rorTmp 5 54 64 54,
  .sub 2 (some 5) none none 0, .tmpXor 7 0, .rorTmp 7 9 64 9, .sub 0 (some 7) none none 0, .tmpXor 1 6,
  .rorTmp 1 44 64 44, .sub 6 (some 1) none none 0, .tmpXor 7 2, .rorTmp 7 39 64 39, .sub 2 (some 7) none none 0,
  .tmpXor 5 0, .rorTmp 5 36 64 36, .sub 0 (some 5) none none 0, .tmpXor 3 6, .rorTmp 3 49 64 49]

/-- crypter512.go:857-956 -/
def decrypt512_1 : List Raw := [
  .sub 6 (some 3) none none 0, .tmpXor 1 4, .rorTmp 1 17 64 17, .sub 4 (some 1) none none 0, .tmpXor 3 0,
  .rorTmp 3 42 64 42, .sub 0 (some 3) none none 0, .tmpXor 5 6, .rorTmp 5 14 64 14, .sub 6 (some 5) none none 0,
  .tmpXor 7 4, .rorTmp 7 27 64 27, .sub 4 (some 7) none none 0, .tmpXor 1 2, .rorTmp 1 33 64 33,
  .sub 2 (some 1) none none 0, .tmpXor 7 6, .rorTmp 7 37 64 37, .sub 6 (some 7) (some 4) (some 2) 0, .sub 7 none (some 5) none 16,
  .tmpXor 5 4, .rorTmp 5 19 64 19, .sub 4 (some 5) (some 2) none 0, .sub 5 none (some 3) (some 1) 0, .tmpXor 3 2,
  .rorTmp 3 36 64 36, .sub 2 (some 3) (some 0) none 0, .sub 3 none (some 1) none 0, .tmpXor 1 0, .rorTmp 1 46 64 46,
  .sub 0 (some 1) (some 7) none 0, .sub 1 none (some 8) none 0, .tmpXor 3 4, .rorTmp 3 22 64 22, .sub 4 (some 3) none none 0,
  .tmpXor 5 2, .rorTmp 5 56 64 56, .sub 2 (some 5) none none 0, .tmpXor 7 0, .rorTmp 7 35 64 35,
  .sub 0 (some 7) none none 0, .tmpXor 1 6, .rorTmp 1 8 64 8, .sub 6 (some 1) none none 0, .tmpXor 7 2,
  .rorTmp 7 43 64 43, .sub 2 (some 7) none none 0, .tmpXor 5 0, .rorTmp 5 39 64 39, .sub 0 (some 5) none none 0,
  .tmpXor 3 6, .rorTmp 3 29 64 29, .sub 6 (some 3) none none 0, .tmpXor 1 4, .rorTmp 1 25 64 25,
  .sub 4 (some 1) none none 0, .tmpXor 3 0, .rorTmp 3 17 64 17, .sub 0 (some 3) none none 0, .tmpXor 5 6,
  .rorTmp 5 10 64 10, .sub 6 (some 5) none none 0, .tmpXor 7 4, .rorTmp 7 50 64 50, .sub 4 (some 7) none none 0,
  .tmpXor 1 2, .rorTmp 1 13 64 13, .sub 2 (some 1) none none 0, .tmpXor 7 6, .rorTmp 7 24 64 24,
  .sub 6 (some 7) (some 3) (some 1) 0, .sub 7 none (some 4) none 15, .tmpXor 5 4, .rorTmp 5 34 64 34, .sub 4 (some 5) (some 1) none 0,
  .sub 5 none (some 2) (some 0) 0, .tmpXor 3 2, .rorTmp 3 30 64 30, .sub 2 (some 3) (some 8) none 0, .sub 3 none (some 0) none 0,
  .tmpXor 1 0, .rorTmp 1 39 64 39, .sub 0 (some 1) (some 6) none 0, .sub 1 none (some 7) none 0, .tmpXor 3 4,
  .rorTmp 3 56 64 56, .sub 4 (some 3) none none 0, .tmpXor 5 2, .rorTmp 5 54 64 54, .sub 2 (some 5) none none 0,
  .tmpXor 7 0, .rorTmp 7 9 64 9, .sub 0 (some 7) none none 0, .tmpXor 1 6, .rorTmp 1 44 64 44,
  .sub 6 (some 1) none none 0, .tmpXor 7 2, .rorTmp 7 39 64 39, .sub 2 (some 7) none none 0, .tmpXor 5 0]

/-- crypter512.go:957-1056 -/
def decrypt512_2 : List Raw := [
  .rorTmp 5 36 64 36, .sub 0 (some 5) none none 0, .tmpXor 3 6, .rorTmp 3 49 64 49, .sub 6 (some 3) none none 0,
  .tmpXor 1 4, .rorTmp 1 17 64 17, .sub 4 (some 1) none none 0, .tmpXor 3 0, .rorTmp 3 42 64 42,
  .sub 0 (some 3) none none 0, .tmpXor 5 6, .rorTmp 5 14 64 14, .sub 6 (some 5) none none 0, .tmpXor 7 4,
  .rorTmp 7 27 64 27, .sub 4 (some 7) none none 0, .tmpXor 1 2, .rorTmp 1 33 64 33, .sub 2 (some 1) none none 0,
  .tmpXor 7 6, .rorTmp 7 37 64 37, .sub 6 (some 7) (some 2) (some 0) 0, .sub 7 none (some 3) none 14, .tmpXor 5 4,
  .rorTmp 5 19 64 19, .sub 4 (some 5) (some 0) none 0, .sub 5 none (some 1) (some 2) 0, .tmpXor 3 2, .rorTmp 3 36 64 36,
  .sub 2 (some 3) (some 7) none 0, .sub 3 none (some 8) none 0, .tmpXor 1 0, .rorTmp 1 46 64 46, .sub 0 (some 1) (some 5) none 0,
  .sub 1 none (some 6) none 0, .tmpXor 3 4, .rorTmp 3 22 64 22, .sub 4 (some 3) none none 0, .tmpXor 5 2,
  .rorTmp 5 56 64 56, .sub 2 (some 5) none none 0, .tmpXor 7 0, .rorTmp 7 35 64 35, .sub 0 (some 7) none none 0,
  .tmpXor 1 6, .rorTmp 1 8 64 8, .sub 6 (some 1) none none 0, .tmpXor 7 2, .rorTmp 7 43 64 43,
  .sub 2 (some 7) none none 0, .tmpXor 5 0, .rorTmp 5 39 64 39, .sub 0 (some 5) none none 0, .tmpXor 3 6,
  .rorTmp 3 29 64 29, .sub 6 (some 3) none none 0, .tmpXor 1 4, .rorTmp 1 25 64 25, .sub 4 (some 1) none none 0,
  .tmpXor 3 0, .rorTmp 3 17 64 17, .sub 0 (some 3) none none 0, .tmpXor 5 6, .rorTmp 5 10 64 10,
  .sub 6 (some 5) none none 0, .tmpXor 7 4, .rorTmp 7 50 64 50, .sub 4 (some 7) none none 0, .tmpXor 1 2,
  .rorTmp 1 13 64 13, .sub 2 (some 1) none none 0, .tmpXor 7 6, .rorTmp 7 24 64 24, .sub 6 (some 7) (some 1) (some 2) 0,
  .sub 7 none (some 2) none 13, .tmpXor 5 4, .rorTmp 5 34 64 34, .sub 4 (some 5) (some 8) none 0, .sub 5 none (some 0) (some 1) 0,
  .tmpXor 3 2, .rorTmp 3 30 64 30, .sub 2 (some 3) (some 6) none 0, .sub 3 none (some 7) none 0, .tmpXor 1 0,
  .rorTmp 1 39 64 39, .sub 0 (some 1) (some 4) none 0, .sub 1 none (some 5) none 0, .tmpXor 3 4, .rorTmp 3 56 64 56,
  .sub 4 (some 3) none none 0, .tmpXor 5 2, .rorTmp 5 54 64 54, .sub 2 (some 5) none none 0, .tmpXor 7 0,
  .rorTmp 7 9 64 9, .sub 0 (some 7) none none 0, .tmpXor 1 6, .rorTmp 1 44 64 44, .sub 6 (some 1) none none 0]

/-- crypter512.go:1057-1156 -/
def decrypt512_3 : List Raw := [
  .tmpXor 7 2, .rorTmp 7 39 64 39, .sub 2 (some 7) none none 0, .tmpXor 5 0, .rorTmp 5 36 64 36,
  .sub 0 (some 5) none none 0, .tmpXor 3 6, .rorTmp 3 49 64 49, .sub 6 (some 3) none none 0, .tmpXor 1 4,
  .rorTmp 1 17 64 17, .sub 4 (some 1) none none 0, .tmpXor 3 0, .rorTmp 3 42 64 42, .sub 0 (some 3) none none 0,
  .tmpXor 5 6, .rorTmp 5 14 64 14, .sub 6 (some 5) none none 0, .tmpXor 7 4, .rorTmp 7 27 64 27,
  .sub 4 (some 7) none none 0, .tmpXor 1 2, .rorTmp 1 33 64 33, .sub 2 (some 1) none none 0, .tmpXor 7 6,
  .rorTmp 7 37 64 37, .sub 6 (some 7) (some 0) (some 1) 0, .sub 7 none (some 1) none 12, .tmpXor 5 4, .rorTmp 5 19 64 19,
  .sub 4 (some 5) (some 7) none 0, .sub 5 none (some 8) (some 0) 0, .tmpXor 3 2, .rorTmp 3 36 64 36, .sub 2 (some 3) (some 5) none 0,
  .sub 3 none (some 6) none 0, .tmpXor 1 0, .rorTmp 1 46 64 46, .sub 0 (some 1) (some 3) none 0, .sub 1 none (some 4) none 0,
  .tmpXor 3 4, .rorTmp 3 22 64 22, .sub 4 (some 3) none none 0, .tmpXor 5 2, .rorTmp 5 56 64 56,
  .sub 2 (some 5) none none 0, .tmpXor 7 0, .rorTmp 7 35 64 35, .sub 0 (some 7) none none 0, .tmpXor 1 6,
  .rorTmp 1 8 64 8, .sub 6 (some 1) none none 0, .tmpXor 7 2, .rorTmp 7 43 64 43, .sub 2 (some 7) none none 0,
  .tmpXor 5 0, .rorTmp 5 39 64 39, .sub 0 (some 5) none none 0, .tmpXor 3 6, .rorTmp 3 29 64 29,
  .sub 6 (some 3) none none 0, .tmpXor 1 4, .rorTmp 1 25 64 25, .sub 4 (some 1) none none 0, .tmpXor 3 0,
  .rorTmp 3 17 64 17, .sub 0 (some 3) none none 0, .tmpXor 5 6, .rorTmp 5 10 64 10, .sub 6 (some 5) none none 0,
  .tmpXor 7 4, .rorTmp 7 50 64 50, .sub 4 (some 7) none none 0, .tmpXor 1 2, .rorTmp 1 13 64 13,
  .sub 2 (some 1) none none 0, .tmpXor 7 6, .rorTmp 7 24 64 24, .sub 6 (some 7) (some 8) (some 0) 0, .sub 7 none (some 0) none 11,
  .tmpXor 5 4, .rorTmp 5 34 64 34, .sub 4 (some 5) (some 6) none 0, .sub 5 none (some 7) (some 2) 0, .tmpXor 3 2,
  .rorTmp 3 30 64 30, .sub 2 (some 3) (some 4) none 0, .sub 3 none (some 5) none 0, .tmpXor 1 0, .rorTmp 1 39 64 39,
  .sub 0 (some 1) (some 2) none 0, .sub 1 none (some 3) none 0, .tmpXor 3 4, .rorTmp 3 56 64 56, .sub 4 (some 3) none none 0,
  .tmpXor 5 2, .rorTmp 5 54 64 54, .sub 2 (some 5) none none 0, .tmpXor 7 0, .rorTmp 7 9 64 9]

/-- crypter512.go:1157-1256 -/
def decrypt512_4 : List Raw := [
  .sub 0 (some 7) none none 0, .tmpXor 1 6, .rorTmp 1 44 64 44, .sub 6 (some 1) none none 0, .tmpXor 7 2,
  .rorTmp 7 39 64 39, .sub 2 (some 7) none none 0, .tmpXor 5 0, .rorTmp 5 36 64 36, .sub 0 (some 5) none none 0,
  .tmpXor 3 6, .rorTmp 3 49 64 49, .sub 6 (some 3) none none 0, .tmpXor 1 4, .rorTmp 1 17 64 17,
  .sub 4 (some 1) none none 0, .tmpXor 3 0, .rorTmp 3 42 64 42, .sub 0 (some 3) none none 0, .tmpXor 5 6,
  .rorTmp 5 14 64 14, .sub 6 (some 5) none none 0, .tmpXor 7 4, .rorTmp 7 27 64 27, .sub 4 (some 7) none none 0,
  .tmpXor 1 2, .rorTmp 1 33 64 33, .sub 2 (some 1) none none 0, .tmpXor 7 6, .rorTmp 7 37 64 37,
  .sub 6 (some 7) (some 7) (some 2) 0, .sub 7 none (some 8) none 10, .tmpXor 5 4, .rorTmp 5 19 64 19, .sub 4 (some 5) (some 5) none 0,
  .sub 5 none (some 6) (some 1) 0, .tmpXor 3 2, .rorTmp 3 36 64 36, .sub 2 (some 3) (some 3) none 0, .sub 3 none (some 4) none 0,
  .tmpXor 1 0, .rorTmp 1 46 64 46, .sub 0 (some 1) (some 1) none 0, .sub 1 none (some 2) none 0, .tmpXor 3 4,
  .rorTmp 3 22 64 22, .sub 4 (some 3) none none 0, .tmpXor 5 2, .rorTmp 5 56 64 56, .sub 2 (some 5) none none 0,
  .tmpXor 7 0, .rorTmp 7 35 64 35, .sub 0 (some 7) none none 0, .tmpXor 1 6, .rorTmp 1 8 64 8,
  .sub 6 (some 1) none none 0, .tmpXor 7 2, .rorTmp 7 43 64 43, .sub 2 (some 7) none none 0, .tmpXor 5 0,
  .rorTmp 5 39 64 39, .sub 0 (some 5) none none 0, .tmpXor 3 6, .rorTmp 3 29 64 29, .sub 6 (some 3) none none 0,
  .tmpXor 1 4, .rorTmp 1 25 64 25, .sub 4 (some 1) none none 0, .tmpXor 3 0, .rorTmp 3 17 64 17,
  .sub 0 (some 3) none none 0, .tmpXor 5 6, .rorTmp 5 10 64 10, .sub 6 (some 5) none none 0, .tmpXor 7 4,
  .rorTmp 7 50 64 50, .sub 4 (some 7) none none 0, .tmpXor 1 2, .rorTmp 1 13 64 13, .sub 2 (some 1) none none 0,
  .tmpXor 7 6, .rorTmp 7 24 64 24, .sub 6 (some 7) (some 6) (some 1) 0, .sub 7 none (some 7) none 9, .tmpXor 5 4,
  .rorTmp 5 34 64 34, .sub 4 (some 5) (some 4) none 0, .sub 5 none (some 5) (some 0) 0, .tmpXor 3 2, .rorTmp 3 30 64 30,
  .sub 2 (some 3) (some 2) none 0, .sub 3 none (some 3) none 0, .tmpXor 1 0, .rorTmp 1 39 64 39, .sub 0 (some 1) (some 0) none 0,
  .sub 1 none (some 1) none 0, .tmpXor 3 4, .rorTmp 3 56 64 56, .sub 4 (some 3) none none 0, .tmpXor 5 2]

/-- crypter512.go:1257-1356 -/
def decrypt512_5 : List Raw := [
  .rorTmp 5 54 64 54, .sub 2 (some 5) none none 0, .tmpXor 7 0, .rorTmp 7 9 64 9, .sub 0 (some 7) none none 0,
  .tmpXor 1 6, .rorTmp 1 44 64 44, .sub 6 (some 1) none none 0, .tmpXor 7 2, .rorTmp 7 39 64 39,
  .sub 2 (some 7) none none 0, .tmpXor 5 0, .rorTmp 5 36 64 36, .sub 0 (some 5) none none 0, .tmpXor 3 6,
  .rorTmp 3 49 64 49, .sub 6 (some 3) none none 0, .tmpXor 1 4, .rorTmp 1 17 64 17, .sub 4 (some 1) none none 0,
  .tmpXor 3 0, .rorTmp 3 42 64 42, .sub 0 (some 3) none none 0, .tmpXor 5 6, .rorTmp 5 14 64 14,
  .sub 6 (some 5) none none 0, .tmpXor 7 4, .rorTmp 7 27 64 27, .sub 4 (some 7) none none 0, .tmpXor 1 2,
  .rorTmp 1 33 64 33, .sub 2 (some 1) none none 0, .tmpXor 7 6, .rorTmp 7 37 64 37, .sub 6 (some 7) (some 5) (some 0) 0,
  .sub 7 none (some 6) none 8, .tmpXor 5 4, .rorTmp 5 19 64 19, .sub 4 (some 5) (some 3) none 0, .sub 5 none (some 4) (some 2) 0,
  .tmpXor 3 2, .rorTmp 3 36 64 36, .sub 2 (some 3) (some 1) none 0, .sub 3 none (some 2) none 0, .tmpXor 1 0,
  .rorTmp 1 46 64 46, .sub 0 (some 1) (some 8) none 0, .sub 1 none (some 0) none 0, .tmpXor 3 4, .rorTmp 3 22 64 22,
  .sub 4 (some 3) none none 0, .tmpXor 5 2, .rorTmp 5 56 64 56, .sub 2 (some 5) none none 0, .tmpXor 7 0,
  .rorTmp 7 35 64 35, .sub 0 (some 7) none none 0, .tmpXor 1 6, .rorTmp 1 8 64 8, .sub 6 (some 1) none none 0,
  .tmpXor 7 2, .rorTmp 7 43 64 43, .sub 2 (some 7) none none 0, .tmpXor 5 0, .rorTmp 5 39 64 39,
  .sub 0 (some 5) none none 0, .tmpXor 3 6, .rorTmp 3 29 64 29, .sub 6 (some 3) none none 0, .tmpXor 1 4,
  .rorTmp 1 25 64 25, .sub 4 (some 1) none none 0, .tmpXor 3 0, .rorTmp 3 17 64 17, .sub 0 (some 3) none none 0,
  .tmpXor 5 6, .rorTmp 5 10 64 10, .sub 6 (some 5) none none 0, .tmpXor 7 4, .rorTmp 7 50 64 50,
  .sub 4 (some 7) none none 0, .tmpXor 1 2, .rorTmp 1 13 64 13, .sub 2 (some 1) none none 0, .tmpXor 7 6,
  .rorTmp 7 24 64 24, .sub 6 (some 7) (some 4) (some 2) 0, .sub 7 none (some 5) none 7, .tmpXor 5 4, .rorTmp 5 34 64 34,
  .sub 4 (some 5) (some 2) none 0, .sub 5 none (some 3) (some 1) 0, .tmpXor 3 2, .rorTmp 3 30 64 30, .sub 2 (some 3) (some 0) none 0,
  .sub 3 none (some 1) none 0, .tmpXor 1 0, .rorTmp 1 39 64 39, .sub 0 (some 1) (some 7) none 0, .sub 1 none (some 8) none 0]

/-- crypter512.go:1357-1456 -/
def decrypt512_6 : List Raw := [
  .tmpXor 3 4, .rorTmp 3 56 64 56, .sub 4 (some 3) none none 0, .tmpXor 5 2, .rorTmp 5 54 64 54,
  .sub 2 (some 5) none none 0, .tmpXor 7 0, .rorTmp 7 9 64 9, .sub 0 (some 7) none none 0, .tmpXor 1 6,
  .rorTmp 1 44 64 44, .sub 6 (some 1) none none 0, .tmpXor 7 2, .rorTmp 7 39 64 39, .sub 2 (some 7) none none 0,
  .tmpXor 5 0, .rorTmp 5 36 64 36, .sub 0 (some 5) none none 0, .tmpXor 3 6, .rorTmp 3 49 64 49,
  .sub 6 (some 3) none none 0, .tmpXor 1 4, .rorTmp 1 17 64 17, .sub 4 (some 1) none none 0, .tmpXor 3 0,
  .rorTmp 3 42 64 42, .sub 0 (some 3) none none 0, .tmpXor 5 6, .rorTmp 5 14 64 14, .sub 6 (some 5) none none 0,
  .tmpXor 7 4, .rorTmp 7 27 64 27, .sub 4 (some 7) none none 0, .tmpXor 1 2, .rorTmp 1 33 64 33,
  .sub 2 (some 1) none none 0, .tmpXor 7 6, .rorTmp 7 37 64 37, .sub 6 (some 7) (some 3) (some 1) 0, .sub 7 none (some 4) none 6,
  .tmpXor 5 4, .rorTmp 5 19 64 19, .sub 4 (some 5) (some 1) none 0, .sub 5 none (some 2) (some 0) 0, .tmpXor 3 2,
  .rorTmp 3 36 64 36, .sub 2 (some 3) (some 8) none 0, .sub 3 none (some 0) none 0, .tmpXor 1 0, .rorTmp 1 46 64 46,
  .sub 0 (some 1) (some 6) none 0, .sub 1 none (some 7) none 0, .tmpXor 3 4, .rorTmp 3 22 64 22, .sub 4 (some 3) none none 0,
  .tmpXor 5 2, .rorTmp 5 56 64 56, .sub 2 (some 5) none none 0, .tmpXor 7 0, .rorTmp 7 35 64 35,
  .sub 0 (some 7) none none 0, .tmpXor 1 6, .rorTmp 1 8 64 8, .sub 6 (some 1) none none 0, .tmpXor 7 2,
  .rorTmp 7 43 64 43, .sub 2 (some 7) none none 0, .tmpXor 5 0, .rorTmp 5 39 64 39, .sub 0 (some 5) none none 0,
  .tmpXor 3 6, .rorTmp 3 29 64 29, .sub 6 (some 3) none none 0, .tmpXor 1 4, .rorTmp 1 25 64 25,
  .sub 4 (some 1) none none 0, .tmpXor 3 0, .rorTmp 3 17 64 17, .sub 0 (some 3) none none 0, .tmpXor 5 6,
  .rorTmp 5 10 64 10, .sub 6 (some 5) none none 0, .tmpXor 7 4, .rorTmp 7 50 64 50, .sub 4 (some 7) none none 0,
  .tmpXor 1 2, .rorTmp 1 13 64 13, .sub 2 (some 1) none none 0, .tmpXor 7 6, .rorTmp 7 24 64 24,
  .sub 6 (some 7) (some 2) (some 0) 0, .sub 7 none (some 3) none 5, .tmpXor 5 4, .rorTmp 5 34 64 34, .sub 4 (some 5) (some 0) none 0,
  .sub 5 none (some 1) (some 2) 0, .tmpXor 3 2, .rorTmp 3 30 64 30, .sub 2 (some 3) (some 7) none 0, .sub 3 none (some 8) none 0]

/-- crypter512.go:1457-1556 -/
def decrypt512_7 : List Raw := [
  .tmpXor 1 0, .rorTmp 1 39 64 39, .sub 0 (some 1) (some 5) none 0, .sub 1 none (some 6) none 0, .tmpXor 3 4,
  .rorTmp 3 56 64 56, .sub 4 (some 3) none none 0, .tmpXor 5 2, .rorTmp 5 54 64 54, .sub 2 (some 5) none none 0,
  .tmpXor 7 0, .rorTmp 7 9 64 9, .sub 0 (some 7) none none 0, .tmpXor 1 6, .rorTmp 1 44 64 44,
  .sub 6 (some 1) none none 0, .tmpXor 7 2, .rorTmp 7 39 64 39, .sub 2 (some 7) none none 0, .tmpXor 5 0,
  .rorTmp 5 36 64 36, .sub 0 (some 5) none none 0, .tmpXor 3 6, .rorTmp 3 49 64 49, .sub 6 (some 3) none none 0,
  .tmpXor 1 4, .rorTmp 1 17 64 17, .sub 4 (some 1) none none 0, .tmpXor 3 0, .rorTmp 3 42 64 42,
  .sub 0 (some 3) none none 0, .tmpXor 5 6, .rorTmp 5 14 64 14, .sub 6 (some 5) none none 0, .tmpXor 7 4,
  .rorTmp 7 27 64 27, .sub 4 (some 7) none none 0, .tmpXor 1 2, .rorTmp 1 33 64 33, .sub 2 (some 1) none none 0,
  .tmpXor 7 6, .rorTmp 7 37 64 37, .sub 6 (some 7) (some 1) (some 2) 0, .sub 7 none (some 2) none 4, .tmpXor 5 4,
  .rorTmp 5 19 64 19, .sub 4 (some 5) (some 8) none 0, .sub 5 none (some 0) (some 1) 0, .tmpXor 3 2, .rorTmp 3 36 64 36,
  .sub 2 (some 3) (some 6) none 0, .sub 3 none (some 7) none 0, .tmpXor 1 0, .rorTmp 1 46 64 46, .sub 0 (some 1) (some 4) none 0,
  .sub 1 none (some 5) none 0, .tmpXor 3 4, .rorTmp 3 22 64 22, .sub 4 (some 3) none none 0, .tmpXor 5 2,
  .rorTmp 5 56 64 56, .sub 2 (some 5) none none 0, .tmpXor 7 0, .rorTmp 7 35 64 35, .sub 0 (some 7) none none 0,
  .tmpXor 1 6, .rorTmp 1 8 64 8, .sub 6 (some 1) none none 0, .tmpXor 7 2, .rorTmp 7 43 64 43,
  .sub 2 (some 7) none none 0, .tmpXor 5 0, .rorTmp 5 39 64 39, .sub 0 (some 5) none none 0, .tmpXor 3 6,
  .rorTmp 3 29 64 29, .sub 6 (some 3) none none 0, .tmpXor 1 4, .rorTmp 1 25 64 25, .sub 4 (some 1) none none 0,
  .tmpXor 3 0, .rorTmp 3 17 64 17, .sub 0 (some 3) none none 0, .tmpXor 5 6, .rorTmp 5 10 64 10,
  .sub 6 (some 5) none none 0, .tmpXor 7 4, .rorTmp 7 50 64 50, .sub 4 (some 7) none none 0, .tmpXor 1 2,
  .rorTmp 1 13 64 13, .sub 2 (some 1) none none 0, .tmpXor 7 6, .rorTmp 7 24 64 24, .sub 6 (some 7) (some 0) (some 1) 0,
  .sub 7 none (some 1) none 3, .tmpXor 5 4, .rorTmp 5 34 64 34, .sub 4 (some 5) (some 7) none 0, .sub 5 none (some 8) (some 0) 0]

/-- crypter512.go:1557-1656 -/
def decrypt512_8 : List Raw := [
  .tmpXor 3 2, .rorTmp 3 30 64 30, .sub 2 (some 3) (some 5) none 0, .sub 3 none (some 6) none 0, .tmpXor 1 0,
  .rorTmp 1 39 64 39, .sub 0 (some 1) (some 3) none 0, .sub 1 none (some 4) none 0, .tmpXor 3 4, .rorTmp 3 56 64 56,
  .sub 4 (some 3) none none 0, .tmpXor 5 2, .rorTmp 5 54 64 54, .sub 2 (some 5) none none 0, .tmpXor 7 0,
  .rorTmp 7 9 64 9, .sub 0 (some 7) none none 0, .tmpXor 1 6, .rorTmp 1 44 64 44, .sub 6 (some 1) none none 0,
  .tmpXor 7 2, .rorTmp 7 39 64 39, .sub 2 (some 7) none none 0, .tmpXor 5 0, .rorTmp 5 36 64 36,
  .sub 0 (some 5) none none 0, .tmpXor 3 6, .rorTmp 3 49 64 49, .sub 6 (some 3) none none 0, .tmpXor 1 4,
  .rorTmp 1 17 64 17, .sub 4 (some 1) none none 0, .tmpXor 3 0, .rorTmp 3 42 64 42, .sub 0 (some 3) none none 0,
  .tmpXor 5 6, .rorTmp 5 14 64 14, .sub 6 (some 5) none none 0, .tmpXor 7 4, .rorTmp 7 27 64 27,
  .sub 4 (some 7) none none 0, .tmpXor 1 2, .rorTmp 1 33 64 33, .sub 2 (some 1) none none 0, .tmpXor 7 6,
  .rorTmp 7 37 64 37, .sub 6 (some 7) (some 8) (some 0) 0, .sub 7 none (some 0) none 2, .tmpXor 5 4, .rorTmp 5 19 64 19,
  .sub 4 (some 5) (some 6) none 0, .sub 5 none (some 7) (some 2) 0, .tmpXor 3 2, .rorTmp 3 36 64 36, .sub 2 (some 3) (some 4) none 0,
  .sub 3 none (some 5) none 0, .tmpXor 1 0, .rorTmp 1 46 64 46, .sub 0 (some 1) (some 2) none 0, .sub 1 none (some 3) none 0,
  .tmpXor 3 4, .rorTmp 3 22 64 22, .sub 4 (some 3) none none 0, .tmpXor 5 2, .rorTmp 5 56 64 56,
  .sub 2 (some 5) none none 0, .tmpXor 7 0, .rorTmp 7 35 64 35, .sub 0 (some 7) none none 0, .tmpXor 1 6,
  .rorTmp 1 8 64 8, .sub 6 (some 1) none none 0, .tmpXor 7 2, .rorTmp 7 43 64 43, .sub 2 (some 7) none none 0,
  .tmpXor 5 0, .rorTmp 5 39 64 39, .sub 0 (some 5) none none 0, .tmpXor 3 6, .rorTmp 3 29 64 29,
  .sub 6 (some 3) none none 0, .tmpXor 1 4, .rorTmp 1 25 64 25, .sub 4 (some 1) none none 0, .tmpXor 3 0,
  .rorTmp 3 17 64 17, .sub 0 (some 3) none none 0, .tmpXor 5 6, .rorTmp 5 10 64 10, .sub 6 (some 5) none none 0,
  .tmpXor 7 4, .rorTmp 7 50 64 50, .sub 4 (some 7) none none 0, .tmpXor 1 2, .rorTmp 1 13 64 13,
  .sub 2 (some 1) none none 0, .tmpXor 7 6, .rorTmp 7 24 64 24, .sub 6 (some 7) (some 7) (some 2) 0, .sub 7 none (some 8) none 1]

/-- crypter512.go:1657-1729 -/
def decrypt512_9 : List Raw := [
  .tmpXor 5 4, .rorTmp 5 34 64 34, .sub 4 (some 5) (some 5) none 0, .sub 5 none (some 6) (some 1) 0, .tmpXor 3 2,
  .rorTmp 3 30 64 30, .sub 2 (some 3) (some 3) none 0, .sub 3 none (some 4) none 0, .tmpXor 1 0, .rorTmp 1 39 64 39,
  .sub 0 (some 1) (some 1) none 0, .sub 1 none (some 2) none 0, .tmpXor 3 4, .rorTmp 3 56 64 56, .sub 4 (some 3) none none 0,
  .tmpXor 5 2, .rorTmp 5 54 64 54, .sub 2 (some 5) none none 0, .tmpXor 7 0, .rorTmp 7 9 64 9,
  .sub 0 (some 7) none none 0, .tmpXor 1 6, .rorTmp 1 44 64 44, .sub 6 (some 1) none none 0, .tmpXor 7 2,
  .rorTmp 7 39 64 39, .sub 2 (some 7) none none 0, .tmpXor 5 0, .rorTmp 5 36 64 36, .sub 0 (some 5) none none 0,
  .tmpXor 3 6, .rorTmp 3 49 64 49, .sub 6 (some 3) none none 0, .tmpXor 1 4, .rorTmp 1 17 64 17,
  .sub 4 (some 1) none none 0, .tmpXor 3 0, .rorTmp 3 42 64 42, .sub 0 (some 3) none none 0, .tmpXor 5 6,
  .rorTmp 5 14 64 14, .sub 6 (some 5) none none 0, .tmpXor 7 4, .rorTmp 7 27 64 27, .sub 4 (some 7) none none 0,
  .tmpXor 1 2, .rorTmp 1 33 64 33, .sub 2 (some 1) none none 0, .tmpXor 7 6, .rorTmp 7 37 64 37,
  .sub 6 (some 7) (some 6) (some 1) 0, .sub 7 none (some 7) none 0, .tmpXor 5 4, .rorTmp 5 19 64 19, .sub 4 (some 5) (some 4) none 0,
  .sub 5 none (some 5) (some 0) 0, .tmpXor 3 2, .rorTmp 3 36 64 36, .sub 2 (some 3) (some 2) none 0, .sub 3 none (some 3) none 0,
  .tmpXor 1 0, .rorTmp 1 46 64 46, .sub 0 (some 1) (some 0) none 0, .sub 1 none (some 1) none 0, .out 7 7 none none 0,
  .out 6 6 none none 0, .out 5 5 none none 0, .out 4 4 none none 0, .out 3 3 none none 0, .out 2 2 none none 0,
  .out 1 1 none none 0, .out 0 0 none none 0]

/-- The body of `threefish512.decrypt`, crypter512.go:750-1730. -/
def decrypt512 : List Raw := decrypt512_0 ++ decrypt512_1 ++ decrypt512_2 ++ decrypt512_3 ++ decrypt512_4 ++ decrypt512_5 ++ decrypt512_6 ++ decrypt512_7 ++ decrypt512_8 ++ decrypt512_9

end Verif.Crypter
