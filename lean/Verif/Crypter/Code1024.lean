import Verif.Crypter.Machine
/-
Generated by tools/gen_threefish.py from /repo/crypter/crypter1024.go, one `Raw` per Go statement, in order.
`var tmp uint64` is the zero-initialised `tmp` of `RawState`.
-/
namespace Verif.Crypter

/-- crypter1024.go:68-171 -/
def encrypt1024_0 : List Raw := [
  .loadB 0 0, .loadB 1 1, .loadB 2 2, .loadB 3 3, .loadB 4 4,
  .loadB 5 5, .loadB 6 6, .loadB 7 7, .loadB 8 8, .loadB 9 9,
  .loadB 10 10, .loadB 11 11, .loadB 12 12, .loadB 13 13, .loadB 14 14,
  .loadB 15 15, .loadK 0 0, .loadK 1 1, .loadK 2 2, .loadK 3 3,
  .loadK 4 4, .loadK 5 5, .loadK 6 6, .loadK 7 7, .loadK 8 8,
  .loadK 9 9, .loadK 10 10, .loadK 11 11, .loadK 12 12, .loadK 13 13,
  .loadK 14 14, .loadK 15 15, .loadK 16 16, .loadT 0 0, .loadT 1 1,
  .loadT 2 2, .add 1 none (some 1) none 0, .add 0 (some 1) (some 0) none 0, .rolXor 1 1 24 1 64 24 0, .add 3 none (some 3) none 0,
  .add 2 (some 3) (some 2) none 0, .rolXor 3 3 13 3 64 13 2, .add 5 none (some 5) none 0, .add 4 (some 5) (some 4) none 0, .rolXor 5 5 8 5 64 8 4,
  .add 7 none (some 7) none 0, .add 6 (some 7) (some 6) none 0, .rolXor 7 7 47 7 64 47 6, .add 9 none (some 9) none 0, .add 8 (some 9) (some 8) none 0,
  .rolXor 9 9 8 9 64 8 8, .add 11 none (some 11) none 0, .add 10 (some 11) (some 10) none 0, .rolXor 11 11 17 11 64 17 10, .add 13 none (some 13) (some 0) 0,
  .add 12 (some 13) (some 12) none 0, .rolXor 13 13 22 13 64 22 12, .add 15 none (some 15) none 0, .add 14 (some 15) (some 14) (some 1) 0, .rolXor 15 15 37 15 64 37 14,
  .add 0 (some 9) none none 0, .rolXor 9 9 38 9 64 38 0, .add 2 (some 13) none none 0, .rolXor 13 13 19 13 64 19 2, .add 6 (some 11) none none 0,
  .rolXor 11 11 10 11 64 10 6, .add 4 (some 15) none none 0, .rolXor 15 15 55 15 64 55 4, .add 10 (some 7) none none 0, .rolXor 7 7 49 7 64 49 10,
  .add 12 (some 3) none none 0, .rolXor 3 3 18 3 64 18 12, .add 14 (some 5) none none 0, .rolXor 5 5 23 5 64 23 14, .add 8 (some 1) none none 0,
  .rolXor 1 1 52 1 64 52 8, .add 0 (some 7) none none 0, .rolXor 7 7 33 7 64 33 0, .add 2 (some 5) none none 0, .rolXor 5 5 4 5 64 4 2,
  .add 4 (some 3) none none 0, .rolXor 3 3 51 3 64 51 4, .add 6 (some 1) none none 0, .rolXor 1 1 13 1 64 13 6, .add 12 (some 15) none none 0,
  .rolXor 15 15 34 15 64 34 12, .add 14 (some 13) none none 0, .rolXor 13 13 41 13 64 41 14, .add 8 (some 11) none none 0, .rolXor 11 11 59 11 64 59 8,
  .add 10 (some 9) none none 0, .rolXor 9 9 17 9 64 17 10, .add 0 (some 15) none none 0, .rolXor 15 15 5 15 64 5 0, .add 2 (some 11) none none 0,
  .rolXor 11 11 20 11 64 20 2, .add 6 (some 13) none none 0, .rolXor 13 13 48 13 64 48 6, .add 4 (some 9) none none 0, .rolXor 9 9 41 9 64 41 4]

/-- crypter1024.go:172-271 -/
def encrypt1024_1 : List Raw := [
  .add 14 (some 1) none none 0, .rolXor 1 1 47 1 64 47 14, .add 8 (some 5) none none 0, .rolXor 5 5 28 5 64 28 8, .add 10 (some 3) none none 0,
  .rolXor 3 3 16 3 64 16 10, .add 12 (some 7) none none 0, .rolXor 7 7 25 7 64 25 12, .add 1 none (some 2) none 0, .add 0 (some 1) (some 1) none 0,
  .rolXor 1 1 41 1 64 41 0, .add 3 none (some 4) none 0, .add 2 (some 3) (some 3) none 0, .rolXor 3 3 9 3 64 9 2, .add 5 none (some 6) none 0,
  .add 4 (some 5) (some 5) none 0, .rolXor 5 5 37 5 64 37 4, .add 7 none (some 8) none 0, .add 6 (some 7) (some 7) none 0, .rolXor 7 7 31 7 64 31 6,
  .add 9 none (some 10) none 0, .add 8 (some 9) (some 9) none 0, .rolXor 9 9 12 9 64 12 8, .add 11 none (some 12) none 0, .add 10 (some 11) (some 11) none 0,
  .rolXor 11 11 47 11 64 47 10, .add 13 none (some 14) (some 1) 0, .add 12 (some 13) (some 13) none 0, .rolXor 13 13 44 13 64 44 12, .add 15 none (some 16) none 1,
  .add 14 (some 15) (some 15) (some 2) 0, .rolXor 15 15 30 15 64 30 14, .add 0 (some 9) none none 0, .rolXor 9 9 16 9 64 16 0, .add 2 (some 13) none none 0,
  .rolXor 13 13 34 13 64 34 2, .add 6 (some 11) none none 0, .rolXor 11 11 56 11 64 56 6, .add 4 (some 15) none none 0, .rolXor 15 15 51 15 64 51 4,
  .add 10 (some 7) none none 0, .rolXor 7 7 4 7 64 4 10, .add 12 (some 3) none none 0, .rolXor 3 3 53 3 64 53 12, .add 14 (some 5) none none 0,
  .rolXor 5 5 42 5 64 42 14, .add 8 (some 1) none none 0, .rolXor 1 1 41 1 64 41 8, .add 0 (some 7) none none 0, .rolXor 7 7 31 7 64 31 0,
  .add 2 (some 5) none none 0, .rolXor 5 5 44 5 64 44 2, .add 4 (some 3) none none 0, .rolXor 3 3 47 3 64 47 4, .add 6 (some 1) none none 0,
  .rolXor 1 1 46 1 64 46 6, .add 12 (some 15) none none 0, .rolXor 15 15 19 15 64 19 12, .add 14 (some 13) none none 0, .rolXor 13 13 42 13 64 42 14,
  .add 8 (some 11) none none 0, .rolXor 11 11 44 11 64 44 8, .add 10 (some 9) none none 0, .rolXor 9 9 25 9 64 25 10, .add 0 (some 15) none none 0,
  .rolXor 15 15 9 15 64 9 0, .add 2 (some 11) none none 0, .rolXor 11 11 48 11 64 48 2, .add 6 (some 13) none none 0, .rolXor 13 13 35 13 64 35 6,
  .add 4 (some 9) none none 0, .rolXor 9 9 52 9 64 52 4, .add 14 (some 1) none none 0, .rolXor 1 1 23 1 64 23 14, .add 8 (some 5) none none 0,
  .rolXor 5 5 31 5 64 31 8, .add 10 (some 3) none none 0, .rolXor 3 3 37 3 64 37 10, .add 12 (some 7) none none 0, .rolXor 7 7 20 7 64 20 12,
  .add 1 none (some 3) none 0, .add 0 (some 1) (some 2) none 0, .rolXor 1 1 24 1 64 24 0, .add 3 none (some 5) none 0, .add 2 (some 3) (some 4) none 0,
  .rolXor 3 3 13 3 64 13 2, .add 5 none (some 7) none 0, .add 4 (some 5) (some 6) none 0, .rolXor 5 5 8 5 64 8 4, .add 7 none (some 9) none 0,
  .add 6 (some 7) (some 8) none 0, .rolXor 7 7 47 7 64 47 6, .add 9 none (some 11) none 0, .add 8 (some 9) (some 10) none 0, .rolXor 9 9 8 9 64 8 8,
  .add 11 none (some 13) none 0, .add 10 (some 11) (some 12) none 0, .rolXor 11 11 17 11 64 17 10, .add 13 none (some 15) (some 2) 0, .add 12 (some 13) (some 14) none 0]

/-- crypter1024.go:272-371 -/
def encrypt1024_2 : List Raw := [
  .rolXor 13 13 22 13 64 22 12, .add 15 none (some 0) none 2, .add 14 (some 15) (some 16) (some 0) 0, .rolXor 15 15 37 15 64 37 14, .add 0 (some 9) none none 0,
  .rolXor 9 9 38 9 64 38 0, .add 2 (some 13) none none 0, .rolXor 13 13 19 13 64 19 2, .add 6 (some 11) none none 0, .rolXor 11 11 10 11 64 10 6,
  .add 4 (some 15) none none 0, .rolXor 15 15 55 15 64 55 4, .add 10 (some 7) none none 0, .rolXor 7 7 49 7 64 49 10, .add 12 (some 3) none none 0,
  .rolXor 3 3 18 3 64 18 12, .add 14 (some 5) none none 0, .rolXor 5 5 23 5 64 23 14, .add 8 (some 1) none none 0, .rolXor 1 1 52 1 64 52 8,
  .add 0 (some 7) none none 0, .rolXor 7 7 33 7 64 33 0, .add 2 (some 5) none none 0, .rolXor 5 5 4 5 64 4 2, .add 4 (some 3) none none 0,
  .rolXor 3 3 51 3 64 51 4, .add 6 (some 1) none none 0, .rolXor 1 1 13 1 64 13 6, .add 12 (some 15) none none 0, .rolXor 15 15 34 15 64 34 12,
  .add 14 (some 13) none none 0, .rolXor 13 13 41 13 64 41 14, .add 8 (some 11) none none 0, .rolXor 11 11 59 11 64 59 8, .add 10 (some 9) none none 0,
  .rolXor 9 9 17 9 64 17 10, .add 0 (some 15) none none 0, .rolXor 15 15 5 15 64 5 0, .add 2 (some 11) none none 0, .rolXor 11 11 20 11 64 20 2,
  .add 6 (some 13) none none 0, .rolXor 13 13 48 13 64 48 6, .add 4 (some 9) none none 0, .rolXor 9 9 41 9 64 41 4, .add 14 (some 1) none none 0,
  .rolXor 1 1 47 1 64 47 14, .add 8 (some 5) none none 0, .rolXor 5 5 28 5 64 28 8, .add 10 (some 3) none none 0, .rolXor 3 3 16 3 64 16 10,
  .add 12 (some 7) none none 0, .rolXor 7 7 25 7 64 25 12, .add 1 none (some 4) none 0, .add 0 (some 1) (some 3) none 0, .rolXor 1 1 41 1 64 41 0,
  .add 3 none (some 6) none 0, .add 2 (some 3) (some 5) none 0, .rolXor 3 3 9 3 64 9 2, .add 5 none (some 8) none 0, .add 4 (some 5) (some 7) none 0,
  .rolXor 5 5 37 5 64 37 4, .add 7 none (some 10) none 0, .add 6 (some 7) (some 9) none 0, .rolXor 7 7 31 7 64 31 6, .add 9 none (some 12) none 0,
  .add 8 (some 9) (some 11) none 0, .rolXor 9 9 12 9 64 12 8, .add 11 none (some 14) none 0, .add 10 (some 11) (some 13) none 0, .rolXor 11 11 47 11 64 47 10,
  .add 13 none (some 16) (some 0) 0, .add 12 (some 13) (some 15) none 0, .rolXor 13 13 44 13 64 44 12, .add 15 none (some 1) none 3, .add 14 (some 15) (some 0) (some 1) 0,
  .rolXor 15 15 30 15 64 30 14, .add 0 (some 9) none none 0, .rolXor 9 9 16 9 64 16 0, .add 2 (some 13) none none 0, .rolXor 13 13 34 13 64 34 2,
  .add 6 (some 11) none none 0, .rolXor 11 11 56 11 64 56 6, .add 4 (some 15) none none 0, .rolXor 15 15 51 15 64 51 4, .add 10 (some 7) none none 0,
  .rolXor 7 7 4 7 64 4 10, .add 12 (some 3) none none 0, .rolXor 3 3 53 3 64 53 12, .add 14 (some 5) none none 0, .rolXor 5 5 42 5 64 42 14,
  .add 8 (some 1) none none 0, .rolXor 1 1 41 1 64 41 8, .add 0 (some 7) none none 0, .rolXor 7 7 31 7 64 31 0, .add 2 (some 5) none none 0,
  .rolXor 5 5 44 5 64 44 2, .add 4 (some 3) none none 0, .rolXor 3 3 47 3 64 47 4, .add 6 (some 1) none none 0, .rolXor 1 1 46 1 64 46 6]

/-- crypter1024.go:372-471 -/
def encrypt1024_3 : List Raw := [
  .add 12 (some 15) none none 0, .rolXor 15 15 19 15 64 19 12, .add 14 (some 13) none none 0, .rolXor 13 13 42 13 64 42 14, .add 8 (some 11) none none 0,
  .rolXor 11 11 44 11 64 44 8, .add 10 (some 9) none none 0, .rolXor 9 9 25 9 64 25 10, .add 0 (some 15) none none 0, .rolXor 15 15 9 15 64 9 0,
  .add 2 (some 11) none none 0, .rolXor 11 11 48 11 64 48 2, .add 6 (some 13) none none 0, .rolXor 13 13 35 13 64 35 6, .add 4 (some 9) none none 0,
  .rolXor 9 9 52 9 64 52 4, .add 14 (some 1) none none 0, .rolXor 1 1 23 1 64 23 14, .add 8 (some 5) none none 0, .rolXor 5 5 31 5 64 31 8,
  .add 10 (some 3) none none 0, .rolXor 3 3 37 3 64 37 10, .add 12 (some 7) none none 0, .rolXor 7 7 20 7 64 20 12, .add 1 none (some 5) none 0,
  .add 0 (some 1) (some 4) none 0, .rolXor 1 1 24 1 64 24 0, .add 3 none (some 7) none 0, .add 2 (some 3) (some 6) none 0, .rolXor 3 3 13 3 64 13 2,
  .add 5 none (some 9) none 0, .add 4 (some 5) (some 8) none 0, .rolXor 5 5 8 5 64 8 4, .add 7 none (some 11) none 0, .add 6 (some 7) (some 10) none 0,
  .rolXor 7 7 47 7 64 47 6, .add 9 none (some 13) none 0, .add 8 (some 9) (some 12) none 0, .rolXor 9 9 8 9 64 8 8, .add 11 none (some 15) none 0,
  .add 10 (some 11) (some 14) none 0, .rolXor 11 11 17 11 64 17 10, .add 13 none (some 0) (some 1) 0, .add 12 (some 13) (some 16) none 0, .rolXor 13 13 22 13 64 22 12,
  .add 15 none (some 2) none 4, .add 14 (some 15) (some 1) (some 2) 0, .rolXor 15 15 37 15 64 37 14, .add 0 (some 9) none none 0, .rolXor 9 9 38 9 64 38 0,
  .add 2 (some 13) none none 0, .rolXor 13 13 19 13 64 19 2, .add 6 (some 11) none none 0, .rolXor 11 11 10 11 64 10 6, .add 4 (some 15) none none 0,
  .rolXor 15 15 55 15 64 55 4, .add 10 (some 7) none none 0, .rolXor 7 7 49 7 64 49 10, .add 12 (some 3) none none 0, .rolXor 3 3 18 3 64 18 12,
  .add 14 (some 5) none none 0, .rolXor 5 5 23 5 64 23 14, .add 8 (some 1) none none 0, .rolXor 1 1 52 1 64 52 8, .add 0 (some 7) none none 0,
  .rolXor 7 7 33 7 64 33 0, .add 2 (some 5) none none 0, .rolXor 5 5 4 5 64 4 2, .add 4 (some 3) none none 0, .rolXor 3 3 51 3 64 51 4,
  .add 6 (some 1) none none 0, .rolXor 1 1 13 1 64 13 6, .add 12 (some 15) none none 0, .rolXor 15 15 34 15 64 34 12, .add 14 (some 13) none none 0,
  .rolXor 13 13 41 13 64 41 14, .add 8 (some 11) none none 0, .rolXor 11 11 59 11 64 59 8, .add 10 (some 9) none none 0, .rolXor 9 9 17 9 64 17 10,
  .add 0 (some 15) none none 0, .rolXor 15 15 5 15 64 5 0, .add 2 (some 11) none none 0, .rolXor 11 11 20 11 64 20 2, .add 6 (some 13) none none 0,
  .rolXor 13 13 48 13 64 48 6, .add 4 (some 9) none none 0, .rolXor 9 9 41 9 64 41 4, .add 14 (some 1) none none 0, .rolXor 1 1 47 1 64 47 14,
  .add 8 (some 5) none none 0, .rolXor 5 5 28 5 64 28 8, .add 10 (some 3) none none 0, .rolXor 3 3 16 3 64 16 10, .add 12 (some 7) none none 0,
  .rolXor 7 7 25 7 64 25 12, .add 1 none (some 6) none 0, .add 0 (some 1) (some 5) none 0, .rolXor 1 1 41 1 64 41 0, .add 3 none (some 8) none 0]

/-- crypter1024.go:472-571 -/
def encrypt1024_4 : List Raw := [
  .add 2 (some 3) (some 7) none 0, .rolXor 3 3 9 3 64 9 2, .add 5 none (some 10) none 0, .add 4 (some 5) (some 9) none 0, .rolXor 5 5 37 5 64 37 4,
  .add 7 none (some 12) none 0, .add 6 (some 7) (some 11) none 0, .rolXor 7 7 31 7 64 31 6, .add 9 none (some 14) none 0, .add 8 (some 9) (some 13) none 0,
  .rolXor 9 9 12 9 64 12 8, .add 11 none (some 16) none 0, .add 10 (some 11) (some 15) none 0, .rolXor 11 11 47 11 64 47 10, .add 13 none (some 1) (some 2) 0,
  .add 12 (some 13) (some 0) none 0, .rolXor 13 13 44 13 64 44 12, .add 15 none (some 3) none 5, .add 14 (some 15) (some 2) (some 0) 0, .rolXor 15 15 30 15 64 30 14,
  .add 0 (some 9) none none 0, .rolXor 9 9 16 9 64 16 0, .add 2 (some 13) none none 0, .rolXor 13 13 34 13 64 34 2, .add 6 (some 11) none none 0,
  .rolXor 11 11 56 11 64 56 6, .add 4 (some 15) none none 0, .rolXor 15 15 51 15 64 51 4, .add 10 (some 7) none none 0, .rolXor 7 7 4 7 64 4 10,
  .add 12 (some 3) none none 0, .rolXor 3 3 53 3 64 53 12, .add 14 (some 5) none none 0, .rolXor 5 5 42 5 64 42 14, .add 8 (some 1) none none 0,
  .rolXor 1 1 41 1 64 41 8, .add 0 (some 7) none none 0, .rolXor 7 7 31 7 64 31 0, .add 2 (some 5) none none 0, .rolXor 5 5 44 5 64 44 2,
  .add 4 (some 3) none none 0, .rolXor 3 3 47 3 64 47 4, .add 6 (some 1) none none 0, .rolXor 1 1 46 1 64 46 6, .add 12 (some 15) none none 0,
  .rolXor 15 15 19 15 64 19 12, .add 14 (some 13) none none 0, .rolXor 13 13 42 13 64 42 14, .add 8 (some 11) none none 0, .rolXor 11 11 44 11 64 44 8,
  .add 10 (some 9) none none 0, .rolXor 9 9 25 9 64 25 10, .add 0 (some 15) none none 0, .rolXor 15 15 9 15 64 9 0, .add 2 (some 11) none none 0,
  .rolXor 11 11 48 11 64 48 2, .add 6 (some 13) none none 0, .rolXor 13 13 35 13 64 35 6, .add 4 (some 9) none none 0, .rolXor 9 9 52 9 64 52 4,
  .add 14 (some 1) none none 0, .rolXor 1 1 23 1 64 23 14, .add 8 (some 5) none none 0, .rolXor 5 5 31 5 64 31 8, .add 10 (some 3) none none 0,
  .rolXor 3 3 37 3 64 37 10, .add 12 (some 7) none none 0, .rolXor 7 7 20 7 64 20 12, .add 1 none (some 7) none 0, .add 0 (some 1) (some 6) none 0,
  .rolXor 1 1 24 1 64 24 0, .add 3 none (some 9) none 0, .add 2 (some 3) (some 8) none 0, .rolXor 3 3 13 3 64 13 2, .add 5 none (some 11) none 0,
  .add 4 (some 5) (some 10) none 0, .rolXor 5 5 8 5 64 8 4, .add 7 none (some 13) none 0, .add 6 (some 7) (some 12) none 0, .rolXor 7 7 47 7 64 47 6,
  .add 9 none (some 15) none 0, .add 8 (some 9) (some 14) none 0, .rolXor 9 9 8 9 64 8 8, .add 11 none (some 0) none 0, .add 10 (some 11) (some 16) none 0,
  .rolXor 11 11 17 11 64 17 10, .add 13 none (some 2) (some 0) 0, .add 12 (some 13) (some 1) none 0, .rolXor 13 13 22 13 64 22 12, .add 15 none (some 4) none 6,
  .add 14 (some 15) (some 3) (some 1) 0, .rolXor 15 15 37 15 64 37 14, .add 0 (some 9) none none 0, .rolXor 9 9 38 9 64 38 0, .add 2 (some 13) none none 0,
  .rolXor 13 13 19 13 64 19 2, .add 6 (some 11) none none 0, .rolXor 11 11 10 11 64 10 6, .add 4 (some 15) none none 0, .rolXor 15 15 55 15 64 55 4]

/-- crypter1024.go:572-671 -/
def encrypt1024_5 : List Raw := [
  .add 10 (some 7) none none 0, .rolXor 7 7 49 7 64 49 10, .add 12 (some 3) none none 0, .rolXor 3 3 18 3 64 18 12, .add 14 (some 5) none none 0,
  .rolXor 5 5 23 5 64 23 14, .add 8 (some 1) none none 0, .rolXor 1 1 52 1 64 52 8, .add 0 (some 7) none none 0, .rolXor 7 7 33 7 64 33 0,
  .add 2 (some 5) none none 0, .rolXor 5 5 4 5 64 4 2, .add 4 (some 3) none none 0, .rolXor 3 3 51 3 64 51 4, .add 6 (some 1) none none 0,
  .rolXor 1 1 13 1 64 13 6, .add 12 (some 15) none none 0, .rolXor 15 15 34 15 64 34 12, .add 14 (some 13) none none 0, .rolXor 13 13 41 13 64 41 14,
  .add 8 (some 11) none none 0, .rolXor 11 11 59 11 64 59 8, .add 10 (some 9) none none 0, .rolXor 9 9 17 9 64 17 10, .add 0 (some 15) none none 0,
  .rolXor 15 15 5 15 64 5 0, .add 2 (some 11) none none 0, .rolXor 11 11 20 11 64 20 2, .add 6 (some 13) none none 0, .rolXor 13 13 48 13 64 48 6,
  .add 4 (some 9) none none 0, .rolXor 9 9 41 9 64 41 4, .add 14 (some 1) none none 0, .rolXor 1 1 47 1 64 47 14, .add 8 (some 5) none none 0,
  .rolXor 5 5 28 5 64 28 8, .add 10 (some 3) none none 0, .rolXor 3 3 16 3 64 16 10, .add 12 (some 7) none none 0, .rolXor 7 7 25 7 64 25 12,
  .add 1 none (some 8) none 0, .add 0 (some 1) (some 7) none 0, .rolXor 1 1 41 1 64 41 0, .add 3 none (some 10) none 0, .add 2 (some 3) (some 9) none 0,
  .rolXor 3 3 9 3 64 9 2, .add 5 none (some 12) none 0, .add 4 (some 5) (some 11) none 0, .rolXor 5 5 37 5 64 37 4, .add 7 none (some 14) none 0,
  .add 6 (some 7) (some 13) none 0, .rolXor 7 7 31 7 64 31 6, .add 9 none (some 16) none 0, .add 8 (some 9) (some 15) none 0, .rolXor 9 9 12 9 64 12 8,
  .add 11 none (some 1) none 0, .add 10 (some 11) (some 0) none 0, .rolXor 11 11 47 11 64 47 10, .add 13 none (some 3) (some 1) 0, .add 12 (some 13) (some 2) none 0,
  .rolXor 13 13 44 13 64 44 12, .add 15 none (some 5) none 7, .add 14 (some 15) (some 4) (some 2) 0, .rolXor 15 15 30 15 64 30 14, .add 0 (some 9) none none 0,
  .rolXor 9 9 16 9 64 16 0, .add 2 (some 13) none none 0, .rolXor 13 13 34 13 64 34 2, .add 6 (some 11) none none 0, .rolXor 11 11 56 11 64 56 6,
  .add 4 (some 15) none none 0, .rolXor 15 15 51 15 64 51 4, .add 10 (some 7) none none 0, .rolXor 7 7 4 7 64 4 10, .add 12 (some 3) none none 0,
  .rolXor 3 3 53 3 64 53 12, .add 14 (some 5) none none 0, .rolXor 5 5 42 5 64 42 14, .add 8 (some 1) none none 0, .rolXor 1 1 41 1 64 41 8,
  .add 0 (some 7) none none 0, .rolXor 7 7 31 7 64 31 0, .add 2 (some 5) none none 0, .rolXor 5 5 44 5 64 44 2, .add 4 (some 3) none none 0,
  .rolXor 3 3 47 3 64 47 4, .add 6 (some 1) none none 0, .rolXor 1 1 46 1 64 46 6, .add 12 (some 15) none none 0, .rolXor 15 15 19 15 64 19 12,
  .add 14 (some 13) none none 0, .rolXor 13 13 42 13 64 42 14, .add 8 (some 11) none none 0, .rolXor 11 11 44 11 64 44 8, .add 10 (some 9) none none 0,
  .rolXor 9 9 25 9 64 25 10, .add 0 (some 15) none none 0, .rolXor 15 15 9 15 64 9 0, .add 2 (some 11) none none 0, .rolXor 11 11 48 11 64 48 2]

/-- crypter1024.go:672-771 -/
def encrypt1024_6 : List Raw := [
  .add 6 (some 13) none none 0, .rolXor 13 13 35 13 64 35 6, .add 4 (some 9) none none 0, .rolXor 9 9 52 9 64 52 4, .add 14 (some 1) none none 0,
  .rolXor 1 1 23 1 64 23 14, .add 8 (some 5) none none 0, .rolXor 5 5 31 5 64 31 8, .add 10 (some 3) none none 0, .rolXor 3 3 37 3 64 37 10,
  .add 12 (some 7) none none 0, .rolXor 7 7 20 7 64 20 12, .add 1 none (some 9) none 0, .add 0 (some 1) (some 8) none 0, .rolXor 1 1 24 1 64 24 0,
  .add 3 none (some 11) none 0, .add 2 (some 3) (some 10) none 0, .rolXor 3 3 13 3 64 13 2, .add 5 none (some 13) none 0, .add 4 (some 5) (some 12) none 0,
  .rolXor 5 5 8 5 64 8 4, .add 7 none (some 15) none 0, .add 6 (some 7) (some 14) none 0, .rolXor 7 7 47 7 64 47 6, .add 9 none (some 0) none 0,
  .add 8 (some 9) (some 16) none 0, .rolXor 9 9 8 9 64 8 8, .add 11 none (some 2) none 0, .add 10 (some 11) (some 1) none 0, .rolXor 11 11 17 11 64 17 10,
  .add 13 none (some 4) (some 2) 0, .add 12 (some 13) (some 3) none 0, .rolXor 13 13 22 13 64 22 12, .add 15 none (some 6) none 8, .add 14 (some 15) (some 5) (some 0) 0,
  .rolXor 15 15 37 15 64 37 14, .add 0 (some 9) none none 0, .rolXor 9 9 38 9 64 38 0, .add 2 (some 13) none none 0, .rolXor 13 13 19 13 64 19 2,
  .add 6 (some 11) none none 0, .rolXor 11 11 10 11 64 10 6, .add 4 (some 15) none none 0, .rolXor 15 15 55 15 64 55 4, .add 10 (some 7) none none 0,
  .rolXor 7 7 49 7 64 49 10, .add 12 (some 3) none none 0, .rolXor 3 3 18 3 64 18 12, .add 14 (some 5) none none 0, .rolXor 5 5 23 5 64 23 14,
  .add 8 (some 1) none none 0, .rolXor 1 1 52 1 64 52 8, .add 0 (some 7) none none 0, .rolXor 7 7 33 7 64 33 0, .add 2 (some 5) none none 0,
  .rolXor 5 5 4 5 64 4 2, .add 4 (some 3) none none 0, .rolXor 3 3 51 3 64 51 4, .add 6 (some 1) none none 0, .rolXor 1 1 13 1 64 13 6,
  .add 12 (some 15) none none 0, .rolXor 15 15 34 15 64 34 12, .add 14 (some 13) none none 0, .rolXor 13 13 41 13 64 41 14, .add 8 (some 11) none none 0,
  .rolXor 11 11 59 11 64 59 8, .add 10 (some 9) none none 0, .rolXor 9 9 17 9 64 17 10, .add 0 (some 15) none none 0, .rolXor 15 15 5 15 64 5 0,
  .add 2 (some 11) none none 0, .rolXor 11 11 20 11 64 20 2, .add 6 (some 13) none none 0, .rolXor 13 13 48 13 64 48 6, .add 4 (some 9) none none 0,
  .rolXor 9 9 41 9 64 41 4, .add 14 (some 1) none none 0, .rolXor 1 1 47 1 64 47 14, .add 8 (some 5) none none 0, .rolXor 5 5 28 5 64 28 8,
  .add 10 (some 3) none none 0, .rolXor 3 3 16 3 64 16 10, .add 12 (some 7) none none 0, .rolXor 7 7 25 7 64 25 12, .add 1 none (some 10) none 0,
  .add 0 (some 1) (some 9) none 0, .rolXor 1 1 41 1 64 41 0, .add 3 none (some 12) none 0, .add 2 (some 3) (some 11) none 0, .rolXor 3 3 9 3 64 9 2,
  .add 5 none (some 14) none 0, .add 4 (some 5) (some 13) none 0, .rolXor 5 5 37 5 64 37 4, .add 7 none (some 16) none 0, .add 6 (some 7) (some 15) none 0,
  .rolXor 7 7 31 7 64 31 6, .add 9 none (some 1) none 0, .add 8 (some 9) (some 0) none 0, .rolXor 9 9 12 9 64 12 8, .add 11 none (some 3) none 0]

/-- crypter1024.go:772-871 -/
def encrypt1024_7 : List Raw := [
  .add 10 (some 11) (some 2) none 0, .rolXor 11 11 47 11 64 47 10, .add 13 none (some 5) (some 0) 0, .add 12 (some 13) (some 4) none 0, .rolXor 13 13 44 13 64 44 12,
  .add 15 none (some 7) none 9, .add 14 (some 15) (some 6) (some 1) 0, .rolXor 15 15 30 15 64 30 14, .add 0 (some 9) none none 0, .rolXor 9 9 16 9 64 16 0,
  .add 2 (some 13) none none 0, .rolXor 13 13 34 13 64 34 2, .add 6 (some 11) none none 0, .rolXor 11 11 56 11 64 56 6, .add 4 (some 15) none none 0,
  .rolXor 15 15 51 15 64 51 4, .add 10 (some 7) none none 0, .rolXor 7 7 4 7 64 4 10, .add 12 (some 3) none none 0, .rolXor 3 3 53 3 64 53 12,
  .add 14 (some 5) none none 0, .rolXor 5 5 42 5 64 42 14, .add 8 (some 1) none none 0, .rolXor 1 1 41 1 64 41 8, .add 0 (some 7) none none 0,
  .rolXor 7 7 31 7 64 31 0, .add 2 (some 5) none none 0, .rolXor 5 5 44 5 64 44 2, .add 4 (some 3) none none 0, .rolXor 3 3 47 3 64 47 4,
  .add 6 (some 1) none none 0, .rolXor 1 1 46 1 64 46 6, .add 12 (some 15) none none 0, .rolXor 15 15 19 15 64 19 12, .add 14 (some 13) none none 0,
  .rolXor 13 13 42 13 64 42 14, .add 8 (some 11) none none 0, .rolXor 11 11 44 11 64 44 8, .add 10 (some 9) none none 0, .rolXor 9 9 25 9 64 25 10,
  .add 0 (some 15) none none 0, .rolXor 15 15 9 15 64 9 0, .add 2 (some 11) none none 0, .rolXor 11 11 48 11 64 48 2, .add 6 (some 13) none none 0,
  .rolXor 13 13 35 13 64 35 6, .add 4 (some 9) none none 0, .rolXor 9 9 52 9 64 52 4, .add 14 (some 1) none none 0, .rolXor 1 1 23 1 64 23 14,
  .add 8 (some 5) none none 0, .rolXor 5 5 31 5 64 31 8, .add 10 (some 3) none none 0, .rolXor 3 3 37 3 64 37 10, .add 12 (some 7) none none 0,
  .rolXor 7 7 20 7 64 20 12, .add 1 none (some 11) none 0, .add 0 (some 1) (some 10) none 0, .rolXor 1 1 24 1 64 24 0, .add 3 none (some 13) none 0,
  .add 2 (some 3) (some 12) none 0, .rolXor 3 3 13 3 64 13 2, .add 5 none (some 15) none 0, .add 4 (some 5) (some 14) none 0, .rolXor 5 5 8 5 64 8 4,
  .add 7 none (some 0) none 0, .add 6 (some 7) (some 16) none 0, .rolXor 7 7 47 7 64 47 6, .add 9 none (some 2) none 0, .add 8 (some 9) (some 1) none 0,
  .rolXor 9 9 8 9 64 8 8, .add 11 none (some 4) none 0, .add 10 (some 11) (some 3) none 0, .rolXor 11 11 17 11 64 17 10, .add 13 none (some 6) (some 1) 0,
  .add 12 (some 13) (some 5) none 0, .rolXor 13 13 22 13 64 22 12, .add 15 none (some 8) none 10, .add 14 (some 15) (some 7) (some 2) 0, .rolXor 15 15 37 15 64 37 14,
  .add 0 (some 9) none none 0, .rolXor 9 9 38 9 64 38 0, .add 2 (some 13) none none 0, .rolXor 13 13 19 13 64 19 2, .add 6 (some 11) none none 0,
  .rolXor 11 11 10 11 64 10 6, .add 4 (some 15) none none 0, .rolXor 15 15 55 15 64 55 4, .add 10 (some 7) none none 0, .rolXor 7 7 49 7 64 49 10,
  .add 12 (some 3) none none 0, .rolXor 3 3 18 3 64 18 12, .add 14 (some 5) none none 0, .rolXor 5 5 23 5 64 23 14, .add 8 (some 1) none none 0,
  .rolXor 1 1 52 1 64 52 8, .add 0 (some 7) none none 0, .rolXor 7 7 33 7 64 33 0, .add 2 (some 5) none none 0, .rolXor 5 5 4 5 64 4 2]

/-- crypter1024.go:872-971 -/
def encrypt1024_8 : List Raw := [
  .add 4 (some 3) none none 0, .rolXor 3 3 51 3 64 51 4, .add 6 (some 1) none none 0, .rolXor 1 1 13 1 64 13 6, .add 12 (some 15) none none 0,
  .rolXor 15 15 34 15 64 34 12, .add 14 (some 13) none none 0, .rolXor 13 13 41 13 64 41 14, .add 8 (some 11) none none 0, .rolXor 11 11 59 11 64 59 8,
  .add 10 (some 9) none none 0, .rolXor 9 9 17 9 64 17 10, .add 0 (some 15) none none 0, .rolXor 15 15 5 15 64 5 0, .add 2 (some 11) none none 0,
  .rolXor 11 11 20 11 64 20 2, .add 6 (some 13) none none 0, .rolXor 13 13 48 13 64 48 6, .add 4 (some 9) none none 0, .rolXor 9 9 41 9 64 41 4,
  .add 14 (some 1) none none 0, .rolXor 1 1 47 1 64 47 14, .add 8 (some 5) none none 0, .rolXor 5 5 28 5 64 28 8, .add 10 (some 3) none none 0,
  .rolXor 3 3 16 3 64 16 10, .add 12 (some 7) none none 0, .rolXor 7 7 25 7 64 25 12, .add 1 none (some 12) none 0, .add 0 (some 1) (some 11) none 0,
  .rolXor 1 1 41 1 64 41 0, .add 3 none (some 14) none 0, .add 2 (some 3) (some 13) none 0, .rolXor 3 3 9 3 64 9 2, .add 5 none (some 16) none 0,
  .add 4 (some 5) (some 15) none 0, .rolXor 5 5 37 5 64 37 4, .add 7 none (some 1) none 0, .add 6 (some 7) (some 0) none 0, .rolXor 7 7 31 7 64 31 6,
  .add 9 none (some 3) none 0, .add 8 (some 9) (some 2) none 0, .rolXor 9 9 12 9 64 12 8, .add 11 none (some 5) none 0, .add 10 (some 11) (some 4) none 0,
  .rolXor 11 11 47 11 64 47 10, .add 13 none (some 7) (some 2) 0, .add 12 (some 13) (some 6) none 0, .rolXor 13 13 44 13 64 44 12, .add 15 none (some 9) none 11,
  .add 14 (some 15) (some 8) (some 0) 0, .rolXor 15 15 30 15 64 30 14, .add 0 (some 9) none none 0, .rolXor 9 9 16 9 64 16 0, .add 2 (some 13) none none 0,
  .rolXor 13 13 34 13 64 34 2, .add 6 (some 11) none none 0, .rolXor 11 11 56 11 64 56 6, .add 4 (some 15) none none 0, .rolXor 15 15 51 15 64 51 4,
  .add 10 (some 7) none none 0, .rolXor 7 7 4 7 64 4 10, .add 12 (some 3) none none 0, .rolXor 3 3 53 3 64 53 12, .add 14 (some 5) none none 0,
  .rolXor 5 5 42 5 64 42 14, .add 8 (some 1) none none 0, .rolXor 1 1 41 1 64 41 8, .add 0 (some 7) none none 0, .rolXor 7 7 31 7 64 31 0,
  .add 2 (some 5) none none 0, .rolXor 5 5 44 5 64 44 2, .add 4 (some 3) none none 0, .rolXor 3 3 47 3 64 47 4, .add 6 (some 1) none none 0,
  .rolXor 1 1 46 1 64 46 6, .add 12 (some 15) none none 0, .rolXor 15 15 19 15 64 19 12, .add 14 (some 13) none none 0, .rolXor 13 13 42 13 64 42 14,
  .add 8 (some 11) none none 0, .rolXor 11 11 44 11 64 44 8, .add 10 (some 9) none none 0, .rolXor 9 9 25 9 64 25 10, .add 0 (some 15) none none 0,
  .rolXor 15 15 9 15 64 9 0, .add 2 (some 11) none none 0, .rolXor 11 11 48 11 64 48 2, .add 6 (some 13) none none 0, .rolXor 13 13 35 13 64 35 6,
  .add 4 (some 9) none none 0, .rolXor 9 9 52 9 64 52 4, .add 14 (some 1) none none 0, .rolXor 1 1 23 1 64 23 14, .add 8 (some 5) none none 0,
  .rolXor 5 5 31 5 64 31 8, .add 10 (some 3) none none 0, .rolXor 3 3 37 3 64 37 10, .add 12 (some 7) none none 0, .rolXor 7 7 20 7 64 20 12]

/-- crypter1024.go:972-1071 -/
def encrypt1024_9 : List Raw := [
  .add 1 none (some 13) none 0, .add 0 (some 1) (some 12) none 0, .rolXor 1 1 24 1 64 24 0, .add 3 none (some 15) none 0, .add 2 (some 3) (some 14) none 0,
  .rolXor 3 3 13 3 64 13 2, .add 5 none (some 0) none 0, .add 4 (some 5) (some 16) none 0, .rolXor 5 5 8 5 64 8 4, .add 7 none (some 2) none 0,
  .add 6 (some 7) (some 1) none 0, .rolXor 7 7 47 7 64 47 6, .add 9 none (some 4) none 0, .add 8 (some 9) (some 3) none 0, .rolXor 9 9 8 9 64 8 8,
  .add 11 none (some 6) none 0, .add 10 (some 11) (some 5) none 0, .rolXor 11 11 17 11 64 17 10, .add 13 none (some 8) (some 0) 0, .add 12 (some 13) (some 7) none 0,
  .rolXor 13 13 22 13 64 22 12, .add 15 none (some 10) none 12, .add 14 (some 15) (some 9) (some 1) 0, .rolXor 15 15 37 15 64 37 14, .add 0 (some 9) none none 0,
  .rolXor 9 9 38 9 64 38 0, .add 2 (some 13) none none 0, .rolXor 13 13 19 13 64 19 2, .add 6 (some 11) none none 0, .rolXor 11 11 10 11 64 10 6,
  .add 4 (some 15) none none 0, .rolXor 15 15 55 15 64 55 4, .add 10 (some 7) none none 0, .rolXor 7 7 49 7 64 49 10, .add 12 (some 3) none none 0,
  .rolXor 3 3 18 3 64 18 12, .add 14 (some 5) none none 0, .rolXor 5 5 23 5 64 23 14, .add 8 (some 1) none none 0, .rolXor 1 1 52 1 64 52 8,
  .add 0 (some 7) none none 0, .rolXor 7 7 33 7 64 33 0, .add 2 (some 5) none none 0, .rolXor 5 5 4 5 64 4 2, .add 4 (some 3) none none 0,
  .rolXor 3 3 51 3 64 51 4, .add 6 (some 1) none none 0, .rolXor 1 1 13 1 64 13 6, .add 12 (some 15) none none 0, .rolXor 15 15 34 15 64 34 12,
  .add 14 (some 13) none none 0, .rolXor 13 13 41 13 64 41 14, .add 8 (some 11) none none 0, .rolXor 11 11 59 11 64 59 8, .add 10 (some 9) none none 0,
  .rolXor 9 9 17 9 64 17 10, .add 0 (some 15) none none 0, .rolXor 15 15 5 15 64 5 0, .add 2 (some 11) none none 0, .rolXor 11 11 20 11 64 20 2,
  .add 6 (some 13) none none 0, .rolXor 13 13 48 13 64 48 6, .add 4 (some 9) none none 0, .rolXor 9 9 41 9 64 41 4, .add 14 (some 1) none none 0,
  .rolXor 1 1 47 1 64 47 14, .add 8 (some 5) none none 0, .rolXor 5 5 28 5 64 28 8, .add 10 (some 3) none none 0, .rolXor 3 3 16 3 64 16 10,
  .add 12 (some 7) none none 0, .rolXor 7 7 25 7 64 25 12, .add 1 none (some 14) none 0, .add 0 (some 1) (some 13) none 0, .rolXor 1 1 41 1 64 41 0,
  .add 3 none (some 16) none 0, .add 2 (some 3) (some 15) none 0, .rolXor 3 3 9 3 64 9 2, .add 5 none (some 1) none 0, .add 4 (some 5) (some 0) none 0,
  .rolXor 5 5 37 5 64 37 4, .add 7 none (some 3) none 0, .add 6 (some 7) (some 2) none 0, .rolXor 7 7 31 7 64 31 6, .add 9 none (some 5) none 0,
  .add 8 (some 9) (some 4) none 0, .rolXor 9 9 12 9 64 12 8, .add 11 none (some 7) none 0, .add 10 (some 11) (some 6) none 0, .rolXor 11 11 47 11 64 47 10,
  .add 13 none (some 9) (some 1) 0, .add 12 (some 13) (some 8) none 0, .rolXor 13 13 44 13 64 44 12, .add 15 none (some 11) none 13, .add 14 (some 15) (some 10) (some 2) 0,
  .rolXor 15 15 30 15 64 30 14, .add 0 (some 9) none none 0, .rolXor 9 9 16 9 64 16 0, .add 2 (some 13) none none 0, .rolXor 13 13 34 13 64 34 2]

/-- crypter1024.go:1072-1171 -/
def encrypt1024_10 : List Raw := [
  .add 6 (some 11) none none 0, .rolXor 11 11 56 11 64 56 6, .add 4 (some 15) none none 0, .rolXor 15 15 51 15 64 51 4, .add 10 (some 7) none none 0,
  .rolXor 7 7 4 7 64 4 10, .add 12 (some 3) none none 0, .rolXor 3 3 53 3 64 53 12, .add 14 (some 5) none none 0, .rolXor 5 5 42 5 64 42 14,
  .add 8 (some 1) none none 0, .rolXor 1 1 41 1 64 41 8, .add 0 (some 7) none none 0, .rolXor 7 7 31 7 64 31 0, .add 2 (some 5) none none 0,
  .rolXor 5 5 44 5 64 44 2, .add 4 (some 3) none none 0, .rolXor 3 3 47 3 64 47 4, .add 6 (some 1) none none 0, .rolXor 1 1 46 1 64 46 6,
  .add 12 (some 15) none none 0, .rolXor 15 15 19 15 64 19 12, .add 14 (some 13) none none 0, .rolXor 13 13 42 13 64 42 14, .add 8 (some 11) none none 0,
  .rolXor 11 11 44 11 64 44 8, .add 10 (some 9) none none 0, .rolXor 9 9 25 9 64 25 10, .add 0 (some 15) none none 0, .rolXor 15 15 9 15 64 9 0,
  .add 2 (some 11) none none 0, .rolXor 11 11 48 11 64 48 2, .add 6 (some 13) none none 0, .rolXor 13 13 35 13 64 35 6, .add 4 (some 9) none none 0,
  .rolXor 9 9 52 9 64 52 4, .add 14 (some 1) none none 0, .rolXor 1 1 23 1 64 23 14, .add 8 (some 5) none none 0, .rolXor 5 5 31 5 64 31 8,
  .add 10 (some 3) none none 0, .rolXor 3 3 37 3 64 37 10, .add 12 (some 7) none none 0, .rolXor 7 7 20 7 64 20 12, .add 1 none (some 15) none 0,
  .add 0 (some 1) (some 14) none 0, .rolXor 1 1 24 1 64 24 0, .add 3 none (some 0) none 0, .add 2 (some 3) (some 16) none 0, .rolXor 3 3 13 3 64 13 2,
  .add 5 none (some 2) none 0, .add 4 (some 5) (some 1) none 0, .rolXor 5 5 8 5 64 8 4, .add 7 none (some 4) none 0, .add 6 (some 7) (some 3) none 0,
  .rolXor 7 7 47 7 64 47 6, .add 9 none (some 6) none 0, .add 8 (some 9) (some 5) none 0, .rolXor 9 9 8 9 64 8 8, .add 11 none (some 8) none 0,
  .add 10 (some 11) (some 7) none 0, .rolXor 11 11 17 11 64 17 10, .add 13 none (some 10) (some 2) 0, .add 12 (some 13) (some 9) none 0, .rolXor 13 13 22 13 64 22 12,
  .add 15 none (some 12) none 14, .add 14 (some 15) (some 11) (some 0) 0, .rolXor 15 15 37 15 64 37 14, .add 0 (some 9) none none 0, .rolXor 9 9 38 9 64 38 0,
  .add 2 (some 13) none none 0, .rolXor 13 13 19 13 64 19 2, .add 6 (some 11) none none 0, .rolXor 11 11 10 11 64 10 6, .add 4 (some 15) none none 0,
  .rolXor 15 15 55 15 64 55 4, .add 10 (some 7) none none 0, .rolXor 7 7 49 7 64 49 10, .add 12 (some 3) none none 0, .rolXor 3 3 18 3 64 18 12,
  .add 14 (some 5) none none 0, .rolXor 5 5 23 5 64 23 14, .add 8 (some 1) none none 0, .rolXor 1 1 52 1 64 52 8, .add 0 (some 7) none none 0,
  .rolXor 7 7 33 7 64 33 0, .add 2 (some 5) none none 0, .rolXor 5 5 4 5 64 4 2, .add 4 (some 3) none none 0, .rolXor 3 3 51 3 64 51 4,
  .add 6 (some 1) none none 0, .rolXor 1 1 13 1 64 13 6, .add 12 (some 15) none none 0, .rolXor 15 15 34 15 64 34 12, .add 14 (some 13) none none 0,
  .rolXor 13 13 41 13 64 41 14, .add 8 (some 11) none none 0, .rolXor 11 11 59 11 64 59 8, .add 10 (some 9) none none 0, .rolXor 9 9 17 9 64 17 10]

/-- crypter1024.go:1172-1271 -/
def encrypt1024_11 : List Raw := [
  .add 0 (some 15) none none 0, .rolXor 15 15 5 15 64 5 0, .add 2 (some 11) none none 0, .rolXor 11 11 20 11 64 20 2, .add 6 (some 13) none none 0,
  .rolXor 13 13 48 13 64 48 6, .add 4 (some 9) none none 0, .rolXor 9 9 41 9 64 41 4, .add 14 (some 1) none none 0, .rolXor 1 1 47 1 64 47 14,
  .add 8 (some 5) none none 0, .rolXor 5 5 28 5 64 28 8, .add 10 (some 3) none none 0, .rolXor 3 3 16 3 64 16 10, .add 12 (some 7) none none 0,
  .rolXor 7 7 25 7 64 25 12, .add 1 none (some 16) none 0, .add 0 (some 1) (some 15) none 0, .rolXor 1 1 41 1 64 41 0, .add 3 none (some 1) none 0,
  .add 2 (some 3) (some 0) none 0, .rolXor 3 3 9 3 64 9 2, .add 5 none (some 3) none 0, .add 4 (some 5) (some 2) none 0, .rolXor 5 5 37 5 64 37 4,
  .add 7 none (some 5) none 0, .add 6 (some 7) (some 4) none 0, .rolXor 7 7 31 7 64 31 6, .add 9 none (some 7) none 0, .add 8 (some 9) (some 6) none 0,
  .rolXor 9 9 12 9 64 12 8, .add 11 none (some 9) none 0, .add 10 (some 11) (some 8) none 0, .rolXor 11 11 47 11 64 47 10, .add 13 none (some 11) (some 0) 0,
  .add 12 (some 13) (some 10) none 0, .rolXor 13 13 44 13 64 44 12, .add 15 none (some 13) none 15, .add 14 (some 15) (some 12) (some 1) 0, .rolXor 15 15 30 15 64 30 14,
  .add 0 (some 9) none none 0, .rolXor 9 9 16 9 64 16 0, .add 2 (some 13) none none 0, .rolXor 13 13 34 13 64 34 2, .add 6 (some 11) none none 0,
  .rolXor 11 11 56 11 64 56 6, .add 4 (some 15) none none 0, .rolXor 15 15 51 15 64 51 4, .add 10 (some 7) none none 0, .rolXor 7 7 4 7 64 4 10,
  .add 12 (some 3) none none 0, .rolXor 3 3 53 3 64 53 12, .add 14 (some 5) none none 0, .rolXor 5 5 42 5 64 42 14, .add 8 (some 1) none none 0,
  .rolXor 1 1 41 1 64 41 8, .add 0 (some 7) none none 0, .rolXor 7 7 31 7 64 31 0, .add 2 (some 5) none none 0, .rolXor 5 5 44 5 64 44 2,
  .add 4 (some 3) none none 0, .rolXor 3 3 47 3 64 47 4, .add 6 (some 1) none none 0, .rolXor 1 1 46 1 64 46 6, .add 12 (some 15) none none 0,
  .rolXor 15 15 19 15 64 19 12, .add 14 (some 13) none none 0, .rolXor 13 13 42 13 64 42 14, .add 8 (some 11) none none 0, .rolXor 11 11 44 11 64 44 8,
  .add 10 (some 9) none none 0, .rolXor 9 9 25 9 64 25 10, .add 0 (some 15) none none 0, .rolXor 15 15 9 15 64 9 0, .add 2 (some 11) none none 0,
  .rolXor 11 11 48 11 64 48 2, .add 6 (some 13) none none 0, .rolXor 13 13 35 13 64 35 6, .add 4 (some 9) none none 0, .rolXor 9 9 52 9 64 52 4,
  .add 14 (some 1) none none 0, .rolXor 1 1 23 1 64 23 14, .add 8 (some 5) none none 0, .rolXor 5 5 31 5 64 31 8, .add 10 (some 3) none none 0,
  .rolXor 3 3 37 3 64 37 10, .add 12 (some 7) none none 0, .rolXor 7 7 20 7 64 20 12, .add 1 none (some 0) none 0, .add 0 (some 1) (some 16) none 0,
  .rolXor 1 1 24 1 64 24 0, .add 3 none (some 2) none 0, .add 2 (some 3) (some 1) none 0, .rolXor 3 3 13 3 64 13 2, .add 5 none (some 4) none 0,
  .add 4 (some 5) (some 3) none 0, .rolXor 5 5 8 5 64 8 4, .add 7 none (some 6) none 0, .add 6 (some 7) (some 5) none 0, .rolXor 7 7 47 7 64 47 6]

/-- crypter1024.go:1272-1371 -/
def encrypt1024_12 : List Raw := [
  .add 9 none (some 8) none 0, .add 8 (some 9) (some 7) none 0, .rolXor 9 9 8 9 64 8 8, .add 11 none (some 10) none 0, .add 10 (some 11) (some 9) none 0,
  .rolXor 11 11 17 11 64 17 10, .add 13 none (some 12) (some 1) 0, .add 12 (some 13) (some 11) none 0, .rolXor 13 13 22 13 64 22 12, .add 15 none (some 14) none 16,
  .add 14 (some 15) (some 13) (some 2) 0, .rolXor 15 15 37 15 64 37 14, .add 0 (some 9) none none 0, .rolXor 9 9 38 9 64 38 0, .add 2 (some 13) none none 0,
  .rolXor 13 13 19 13 64 19 2, .add 6 (some 11) none none 0, .rolXor 11 11 10 11 64 10 6, .add 4 (some 15) none none 0, .rolXor 15 15 55 15 64 55 4,
  .add 10 (some 7) none none 0, .rolXor 7 7 49 7 64 49 10, .add 12 (some 3) none none 0, .rolXor 3 3 18 3 64 18 12, .add 14 (some 5) none none 0,
  .rolXor 5 5 23 5 64 23 14, .add 8 (some 1) none none 0, .rolXor 1 1 52 1 64 52 8, .add 0 (some 7) none none 0, .rolXor 7 7 33 7 64 33 0,
  .add 2 (some 5) none none 0, .rolXor 5 5 4 5 64 4 2, .add 4 (some 3) none none 0, .rolXor 3 3 51 3 64 51 4, .add 6 (some 1) none none 0,
  .rolXor 1 1 13 1 64 13 6, .add 12 (some 15) none none 0, .rolXor 15 15 34 15 64 34 12, .add 14 (some 13) none none 0, .rolXor 13 13 41 13 64 41 14,
  .add 8 (some 11) none none 0, .rolXor 11 11 59 11 64 59 8, .add 10 (some 9) none none 0, .rolXor 9 9 17 9 64 17 10, .add 0 (some 15) none none 0,
  .rolXor 15 15 5 15 64 5 0, .add 2 (some 11) none none 0, .rolXor 11 11 20 11 64 20 2, .add 6 (some 13) none none 0, .rolXor 13 13 48 13 64 48 6,
  .add 4 (some 9) none none 0, .rolXor 9 9 41 9 64 41 4, .add 14 (some 1) none none 0, .rolXor 1 1 47 1 64 47 14, .add 8 (some 5) none none 0,
  .rolXor 5 5 28 5 64 28 8, .add 10 (some 3) none none 0, .rolXor 3 3 16 3 64 16 10, .add 12 (some 7) none none 0, .rolXor 7 7 25 7 64 25 12,
  .add 1 none (some 1) none 0, .add 0 (some 1) (some 0) none 0, .rolXor 1 1 41 1 64 41 0, .add 3 none (some 3) none 0, .add 2 (some 3) (some 2) none 0,
  .rolXor 3 3 9 3 64 9 2, .add 5 none (some 5) none 0, .add 4 (some 5) (some 4) none 0, .rolXor 5 5 37 5 64 37 4, .add 7 none (some 7) none 0,
  .add 6 (some 7) (some 6) none 0, .rolXor 7 7 31 7 64 31 6, .add 9 none (some 9) none 0, .add 8 (some 9) (some 8) none 0, .rolXor 9 9 12 9 64 12 8,
  .add 11 none (some 11) none 0, .add 10 (some 11) (some 10) none 0, .rolXor 11 11 47 11 64 47 10, .add 13 none (some 13) (some 2) 0, .add 12 (some 13) (some 12) none 0,
  .rolXor 13 13 44 13 64 44 12, .add 15 none (some 15) none 17, .add 14 (some 15) (some 14) (some 0) 0, .rolXor 15 15 30 15 64 30 14, .add 0 (some 9) none none 0,
  .rolXor 9 9 16 9 64 16 0, .add 2 (some 13) none none 0, .rolXor 13 13 34 13 64 34 2, .add 6 (some 11) none none 0, .rolXor 11 11 56 11 64 56 6,
  .add 4 (some 15) none none 0, .rolXor 15 15 51 15 64 51 4, .add 10 (some 7) none none 0, .rolXor 7 7 4 7 64 4 10, .add 12 (some 3) none none 0,
  .rolXor 3 3 53 3 64 53 12, .add 14 (some 5) none none 0, .rolXor 5 5 42 5 64 42 14, .add 8 (some 1) none none 0, .rolXor 1 1 41 1 64 41 8]

/-- crypter1024.go:1372-1471 -/
def encrypt1024_13 : List Raw := [
  .add 0 (some 7) none none 0, .rolXor 7 7 31 7 64 31 0, .add 2 (some 5) none none 0, .rolXor 5 5 44 5 64 44 2, .add 4 (some 3) none none 0,
  .rolXor 3 3 47 3 64 47 4, .add 6 (some 1) none none 0, .rolXor 1 1 46 1 64 46 6, .add 12 (some 15) none none 0, .rolXor 15 15 19 15 64 19 12,
  .add 14 (some 13) none none 0, .rolXor 13 13 42 13 64 42 14, .add 8 (some 11) none none 0, .rolXor 11 11 44 11 64 44 8, .add 10 (some 9) none none 0,
  .rolXor 9 9 25 9 64 25 10, .add 0 (some 15) none none 0, .rolXor 15 15 9 15 64 9 0, .add 2 (some 11) none none 0, .rolXor 11 11 48 11 64 48 2,
  .add 6 (some 13) none none 0, .rolXor 13 13 35 13 64 35 6, .add 4 (some 9) none none 0, .rolXor 9 9 52 9 64 52 4, .add 14 (some 1) none none 0,
  .rolXor 1 1 23 1 64 23 14, .add 8 (some 5) none none 0, .rolXor 5 5 31 5 64 31 8, .add 10 (some 3) none none 0, .rolXor 3 3 37 3 64 37 10,
  .add 12 (some 7) none none 0, .rolXor 7 7 20 7 64 20 12, .add 1 none (some 2) none 0, .add 0 (some 1) (some 1) none 0, .rolXor 1 1 24 1 64 24 0,
  .add 3 none (some 4) none 0, .add 2 (some 3) (some 3) none 0, .rolXor 3 3 13 3 64 13 2, .add 5 none (some 6) none 0, .add 4 (some 5) (some 5) none 0,
  .rolXor 5 5 8 5 64 8 4, .add 7 none (some 8) none 0, .add 6 (some 7) (some 7) none 0, .rolXor 7 7 47 7 64 47 6, .add 9 none (some 10) none 0,
  .add 8 (some 9) (some 9) none 0, .rolXor 9 9 8 9 64 8 8, .add 11 none (some 12) none 0, .add 10 (some 11) (some 11) none 0, .rolXor 11 11 17 11 64 17 10,
  .add 13 none (some 14) (some 0) 0, .add 12 (some 13) (some 13) none 0, .rolXor 13 13 22 13 64 22 12, .add 15 none (some 16) none 18, .add 14 (some 15) (some 15) (some 1) 0,
  .rolXor 15 15 37 15 64 37 14, .add 0 (some 9) none none 0, .rolXor 9 9 38 9 64 38 0, .add 2 (some 13) none none 0, .rolXor 13 13 19 13 64 19 2,
  .add 6 (some 11) none none 0, .rolXor 11 11 10 11 64 10 6, .add 4 (some 15) none none 0, .rolXor 15 15 55 15 64 55 4, .add 10 (some 7) none none 0,
  .rolXor 7 7 49 7 64 49 10, .add 12 (some 3) none none 0, .rolXor 3 3 18 3 64 18 12, .add 14 (some 5) none none 0, .rolXor 5 5 23 5 64 23 14,
  .add 8 (some 1) none none 0, .rolXor 1 1 52 1 64 52 8, .add 0 (some 7) none none 0, .rolXor 7 7 33 7 64 33 0, .add 2 (some 5) none none 0,
  .rolXor 5 5 4 5 64 4 2, .add 4 (some 3) none none 0, .rolXor 3 3 51 3 64 51 4, .add 6 (some 1) none none 0, .rolXor 1 1 13 1 64 13 6,
  .add 12 (some 15) none none 0, .rolXor 15 15 34 15 64 34 12, .add 14 (some 13) none none 0, .rolXor 13 13 41 13 64 41 14, .add 8 (some 11) none none 0,
  .rolXor 11 11 59 11 64 59 8, .add 10 (some 9) none none 0, .rolXor 9 9 17 9 64 17 10, .add 0 (some 15) none none 0, .rolXor 15 15 5 15 64 5 0,
  .add 2 (some 11) none none 0, .rolXor 11 11 20 11 64 20 2, .add 6 (some 13) none none 0, .rolXor 13 13 48 13 64 48 6, .add 4 (some 9) none none 0,
  .rolXor 9 9 41 9 64 41 4, .add 14 (some 1) none none 0, .rolXor 1 1 47 1 64 47 14, .add 8 (some 5) none none 0, .rolXor 5 5 28 5 64 28 8]

/-- crypter1024.go:1472-1564 -/
def encrypt1024_14 : List Raw := [
  .add 10 (some 3) none none 0, .rolXor 3 3 16 3 64 16 10, .add 12 (some 7) none none 0, .rolXor 7 7 25 7 64 25 12, .add 1 none (some 3) none 0,
  .add 0 (some 1) (some 2) none 0, .rolXor 1 1 41 1 64 41 0, .add 3 none (some 5) none 0, .add 2 (some 3) (some 4) none 0, .rolXor 3 3 9 3 64 9 2,
  .add 5 none (some 7) none 0, .add 4 (some 5) (some 6) none 0, .rolXor 5 5 37 5 64 37 4, .add 7 none (some 9) none 0, .add 6 (some 7) (some 8) none 0,
  .rolXor 7 7 31 7 64 31 6, .add 9 none (some 11) none 0, .add 8 (some 9) (some 10) none 0, .rolXor 9 9 12 9 64 12 8, .add 11 none (some 13) none 0,
  .add 10 (some 11) (some 12) none 0, .rolXor 11 11 47 11 64 47 10, .add 13 none (some 15) (some 1) 0, .add 12 (some 13) (some 14) none 0, .rolXor 13 13 44 13 64 44 12,
  .add 15 none (some 0) none 19, .add 14 (some 15) (some 16) (some 2) 0, .rolXor 15 15 30 15 64 30 14, .add 0 (some 9) none none 0, .rolXor 9 9 16 9 64 16 0,
  .add 2 (some 13) none none 0, .rolXor 13 13 34 13 64 34 2, .add 6 (some 11) none none 0, .rolXor 11 11 56 11 64 56 6, .add 4 (some 15) none none 0,
  .rolXor 15 15 51 15 64 51 4, .add 10 (some 7) none none 0, .rolXor 7 7 4 7 64 4 10, .add 12 (some 3) none none 0, .rolXor 3 3 53 3 64 53 12,
  .add 14 (some 5) none none 0, .rolXor 5 5 42 5 64 42 14, .add 8 (some 1) none none 0, .rolXor 1 1 41 1 64 41 8, .add 0 (some 7) none none 0,
  .rolXor 7 7 31 7 64 31 0, .add 2 (some 5) none none 0, .rolXor 5 5 44 5 64 44 2, .add 4 (some 3) none none 0, .rolXor 3 3 47 3 64 47 4,
  .add 6 (some 1) none none 0, .rolXor 1 1 46 1 64 46 6, .add 12 (some 15) none none 0, .rolXor 15 15 19 15 64 19 12, .add 14 (some 13) none none 0,
  .rolXor 13 13 42 13 64 42 14, .add 8 (some 11) none none 0, .rolXor 11 11 44 11 64 44 8, .add 10 (some 9) none none 0, .rolXor 9 9 25 9 64 25 10,
  .add 0 (some 15) none none 0, .rolXor 15 15 9 15 64 9 0, .add 2 (some 11) none none 0, .rolXor 11 11 48 11 64 48 2, .add 6 (some 13) none none 0,
  .rolXor 13 13 35 13 64 35 6, .add 4 (some 9) none none 0, .rolXor 9 9 52 9 64 52 4, .add 14 (some 1) none none 0, .rolXor 1 1 23 1 64 23 14,
  .add 8 (some 5) none none 0, .rolXor 5 5 31 5 64 31 8, .add 10 (some 3) none none 0, .rolXor 3 3 37 3 64 37 10, .add 12 (some 7) none none 0,
  .rolXor 7 7 20 7 64 20 12, .out 0 0 (some 3) none 0, .out 1 1 (some 4) none 0, .out 2 2 (some 5) none 0, .out 3 3 (some 6) none 0,
  .out 4 4 (some 7) none 0, .out 5 5 (some 8) none 0, .out 6 6 (some 9) none 0, .out 7 7 (some 10) none 0, .out 8 8 (some 11) none 0,
  .out 9 9 (some 12) none 0, .out 10 10 (some 13) none 0, .out 11 11 (some 14) none 0, .out 12 12 (some 15) none 0, .out 13 13 (some 16) (some 2) 0,
  .out 14 14 (some 0) (some 0) 0, .out 15 15 (some 1) none 20]

/-- The body of `threefish1024.encrypt`, crypter1024.go:66-1565. -/
def encrypt1024 : List Raw := encrypt1024_0 ++ encrypt1024_1 ++ encrypt1024_2 ++ encrypt1024_3 ++ encrypt1024_4 ++ encrypt1024_5 ++ encrypt1024_6 ++ encrypt1024_7 ++ encrypt1024_8 ++ encrypt1024_9 ++ encrypt1024_10 ++ encrypt1024_11 ++ encrypt1024_12 ++ encrypt1024_13 ++ encrypt1024_14

/-- crypter1024.go:1569-1674 -/
def decrypt1024_0 : List Raw := [
  .loadB 0 0, .loadB 1 1, .loadB 2 2, .loadB 3 3, .loadB 4 4,
  .loadB 5 5, .loadB 6 6, .loadB 7 7, .loadB 8 8, .loadB 9 9,
  .loadB 10 10, .loadB 11 11, .loadB 12 12, .loadB 13 13, .loadB 14 14,
  .loadB 15 15, .loadK 0 0, .loadK 1 1, .loadK 2 2, .loadK 3 3,
  .loadK 4 4, .loadK 5 5, .loadK 6 6, .loadK 7 7, .loadK 8 8,
  .loadK 9 9, .loadK 10 10, .loadK 11 11, .loadK 12 12, .loadK 13 13,
  .loadK 14 14, .loadK 15 15, .loadK 16 16, .loadT 0 0, .loadT 1 1,
  .loadT 2 2, .sub 0 none (some 3) none 0, .sub 1 none (some 4) none 0, .sub 2 none (some 5) none 0, .sub 3 none (some 6) none 0,
  .sub 4 none (some 7) none 0, .sub 5 none (some 8) none 0, .sub 6 none (some 9) none 0, .sub 7 none (some 10) none 0, .sub 8 none (some 11) none 0,
  .sub 9 none (some 12) none 0, .sub 10 none (some 13) none 0, .sub 11 none (some 14) none 0, .sub 12 none (some 15) none 0, .sub 13 none (some 16) (some 2) 0,
  .sub 14 none (some 0) (some 0) 0, .sub 15 none (some 1) none 20, .tmpXor 7 12, .rorTmp 7 20 64 20, .sub 12 (some 7) none none 0,
  .tmpXor 3 10, .rorTmp 3 37 64 37, .sub 10 (some 3) none none 0, .tmpXor 5 8, .rorTmp 5 31 64 31,
  .sub 8 (some 5) none none 0, .tmpXor 1 14, .rorTmp 1 23 64 23, .sub 14 (some 1) none none 0, .tmpXor 9 4,
  .rorTmp 9 52 64 52, .sub 4 (some 9) none none 0, .tmpXor 13 6, .rorTmp 13 35 64 35, .sub 6 (some 13) none none 0,
  .tmpXor 11 2, .rorTmp 11 48 64 48, .sub 2 (some 11) none none 0, .tmpXor 15 0, .rorTmp 15 9 64 9,
  .sub 0 (some 15) none none 0, .tmpXor 9 10, .rorTmp 9 25 64 25, .sub 10 (some 9) none none 0, .tmpXor 11 8,
  .rorTmp 11 44 64 44, .sub 8 (some 11) none none 0, .tmpXor 13 14, .rorTmp 13 42 64 42, .sub 14 (some 13) none none 0,
  .tmpXor 15 12, .rorTmp 15 19 64 19, .sub 12 (some 15) none none 0, .tmpXor 1 6, .rorTmp 1 46 64 46,
  .sub 6 (some 1) none none 0, .tmpXor 3 4, .rorTmp 3 47 64 47, .sub 4 (some 3) none none 0, .tmpXor 5 2,
  .rorTmp 5 44 64 44, .sub 2 (some 5) none none 0, .tmpXor 7 0, .rorTmp 7 31 64 31, .sub 0 (some 7) none none 0]

/-- crypter1024.go:1675-1774 -/
def decrypt1024_1 : List Raw := [
  .tmpXor 1 8, .rorTmp 1 41 64 41, .sub 8 (some 1) none none 0, .tmpXor 5 14, .rorTmp 5 42 64 42,
  .sub 14 (some 5) none none 0, .tmpXor 3 12, .rorTmp 3 53 64 53, .sub 12 (some 3) none none 0, .tmpXor 7 10,
  .rorTmp 7 4 64 4, .sub 10 (some 7) none none 0, .tmpXor 15 4, .rorTmp 15 51 64 51, .sub 4 (some 15) none none 0,
  .tmpXor 11 6, .rorTmp 11 56 64 56, .sub 6 (some 11) none none 0, .tmpXor 13 2, .rorTmp 13 34 64 34,
  .sub 2 (some 13) none none 0, .tmpXor 9 0, .rorTmp 9 16 64 16, .sub 0 (some 9) none none 0, .tmpXor 15 14,
  .rorTmp 15 30 64 30, .sub 14 (some 15) (some 16) (some 2) 0, .sub 15 none (some 0) none 19, .tmpXor 13 12, .rorTmp 13 44 64 44,
  .sub 12 (some 13) (some 14) none 0, .sub 13 none (some 15) (some 1) 0, .tmpXor 11 10, .rorTmp 11 47 64 47, .sub 10 (some 11) (some 12) none 0,
  .sub 11 none (some 13) none 0, .tmpXor 9 8, .rorTmp 9 12 64 12, .sub 8 (some 9) (some 10) none 0, .sub 9 none (some 11) none 0,
  .tmpXor 7 6, .rorTmp 7 31 64 31, .sub 6 (some 7) (some 8) none 0, .sub 7 none (some 9) none 0, .tmpXor 5 4,
  .rorTmp 5 37 64 37, .sub 4 (some 5) (some 6) none 0, .sub 5 none (some 7) none 0, .tmpXor 3 2, .rorTmp 3 9 64 9,
  .sub 2 (some 3) (some 4) none 0, .sub 3 none (some 5) none 0, .tmpXor 1 0, .rorTmp 1 41 64 41, .sub 0 (some 1) (some 2) none 0,
  .sub 1 none (some 3) none 0, .tmpXor 7 12, .rorTmp 7 25 64 25, .sub 12 (some 7) none none 0, .tmpXor 3 10,
  .rorTmp 3 16 64 16, .sub 10 (some 3) none none 0, .tmpXor 5 8, .rorTmp 5 28 64 28, .sub 8 (some 5) none none 0,
  .tmpXor 1 14, .rorTmp 1 47 64 47, .sub 14 (some 1) none none 0, .tmpXor 9 4, .rorTmp 9 41 64 41,
  .sub 4 (some 9) none none 0, .tmpXor 13 6, .rorTmp 13 48 64 48, .sub 6 (some 13) none none 0, .tmpXor 11 2,
  .rorTmp 11 20 64 20, .sub 2 (some 11) none none 0, .tmpXor 15 0, .rorTmp 15 5 64 5, .sub 0 (some 15) none none 0,
  .tmpXor 9 10, .rorTmp 9 17 64 17, .sub 10 (some 9) none none 0, .tmpXor 11 8, .rorTmp 11 59 64 59,
  .sub 8 (some 11) none none 0, .tmpXor 13 14, .rorTmp 13 41 64 41, .sub 14 (some 13) none none 0, .tmpXor 15 12,
  .rorTmp 15 34 64 34, .sub 12 (some 15) none none 0, .tmpXor 1 6, .rorTmp 1 13 64 13, .sub 6 (some 1) none none 0,
  .tmpXor 3 4, .rorTmp 3 51 64 51, .sub 4 (some 3) none none 0, .tmpXor 5 2, .rorTmp 5 4 64 4]

/-- crypter1024.go:1775-1874 -/
def decrypt1024_2 : List Raw := [
  .sub 2 (some 5) none none 0, .tmpXor 7 0, .rorTmp 7 33 64 33, .sub 0 (some 7) none none 0, .tmpXor 1 8,
  .rorTmp 1 52 64 52, .sub 8 (some 1) none none 0, .tmpXor 5 14, .rorTmp 5 23 64 23, .sub 14 (some 5) none none 0,
  .tmpXor 3 12, .rorTmp 3 18 64 18, .sub 12 (some 3) none none 0, .tmpXor 7 10, .rorTmp 7 49 64 49,
  .sub 10 (some 7) none none 0, .tmpXor 15 4, .rorTmp 15 55 64 55, .sub 4 (some 15) none none 0, .tmpXor 11 6,
  .rorTmp 11 10 64 10, .sub 6 (some 11) none none 0, .tmpXor 13 2, .rorTmp 13 19 64 19, .sub 2 (some 13) none none 0,
  .tmpXor 9 0, .rorTmp 9 38 64 38, .sub 0 (some 9) none none 0, .tmpXor 15 14, .rorTmp 15 37 64 37,
  .sub 14 (some 15) (some 15) (some 1) 0, .sub 15 none (some 16) none 18, .tmpXor 13 12, .rorTmp 13 22 64 22, .sub 12 (some 13) (some 13) none 0,
  .sub 13 none (some 14) (some 0) 0, .tmpXor 11 10, .rorTmp 11 17 64 17, .sub 10 (some 11) (some 11) none 0, .sub 11 none (some 12) none 0,
  .tmpXor 9 8, .rorTmp 9 8 64 8, .sub 8 (some 9) (some 9) none 0, .sub 9 none (some 10) none 0, .tmpXor 7 6,
  .rorTmp 7 47 64 47, .sub 6 (some 7) (some 7) none 0, .sub 7 none (some 8) none 0, .tmpXor 5 4, .rorTmp 5 8 64 8,
  .sub 4 (some 5) (some 5) none 0, .sub 5 none (some 6) none 0, .tmpXor 3 2, .rorTmp 3 13 64 13, .sub 2 (some 3) (some 3) none 0,
  .sub 3 none (some 4) none 0, .tmpXor 1 0, .rorTmp 1 24 64 24, .sub 0 (some 1) (some 1) none 0, .sub 1 none (some 2) none 0,
  .tmpXor 7 12, .rorTmp 7 20 64 20, .sub 12 (some 7) none none 0, .tmpXor 3 10, .rorTmp 3 37 64 37,
  .sub 10 (some 3) none none 0, .tmpXor 5 8, .rorTmp 5 31 64 31, .sub 8 (some 5) none none 0, .tmpXor 1 14,
  .rorTmp 1 23 64 23, .sub 14 (some 1) none none 0, .tmpXor 9 4, .rorTmp 9 52 64 52, .sub 4 (some 9) none none 0,
  .tmpXor 13 6, .rorTmp 13 35 64 35, .sub 6 (some 13) none none 0, .tmpXor 11 2, .rorTmp 11 48 64 48,
  .sub 2 (some 11) none none 0, .tmpXor 15 0, .rorTmp 15 9 64 9, .sub 0 (some 15) none none 0, .tmpXor 9 10,
  .rorTmp 9 25 64 25, .sub 10 (some 9) none none 0, .tmpXor 11 8, .rorTmp 11 44 64 44, .sub 8 (some 11) none none 0,
  .tmpXor 13 14, .rorTmp 13 42 64 42, .sub 14 (some 13) none none 0, .tmpXor 15 12, .rorTmp 15 19 64 19,
  .sub 12 (some 15) none none 0, .tmpXor 1 6, .rorTmp 1 46 64 46, .sub 6 (some 1) none none 0, .tmpXor 3 4]

/-- crypter1024.go:1875-1974 -/
def decrypt1024_3 : List Raw := [
  .rorTmp 3 47 64 47, .sub 4 (some 3) none none 0, .tmpXor 5 2, .rorTmp 5 44 64 44, .sub 2 (some 5) none none 0,
  .tmpXor 7 0, .rorTmp 7 31 64 31, .sub 0 (some 7) none none 0, .tmpXor 1 8, .rorTmp 1 41 64 41,
  .sub 8 (some 1) none none 0, .tmpXor 5 14, .rorTmp 5 42 64 42, .sub 14 (some 5) none none 0, .tmpXor 3 12,
  .rorTmp 3 53 64 53, .sub 12 (some 3) none none 0, .tmpXor 7 10, .rorTmp 7 4 64 4, .sub 10 (some 7) none none 0,
  .tmpXor 15 4, .rorTmp 15 51 64 51, .sub 4 (some 15) none none 0, .tmpXor 11 6, .rorTmp 11 56 64 56,
  .sub 6 (some 11) none none 0, .tmpXor 13 2, .rorTmp 13 34 64 34, .sub 2 (some 13) none none 0, .tmpXor 9 0,
  .rorTmp 9 16 64 16, .sub 0 (some 9) none none 0, .tmpXor 15 14, .rorTmp 15 30 64 30, .sub 14 (some 15) (some 14) (some 0) 0,
  .sub 15 none (some 15) none 17, .tmpXor 13 12, .rorTmp 13 44 64 44, .sub 12 (some 13) (some 12) none 0, .sub 13 none (some 13) (some 2) 0,
  .tmpXor 11 10, .rorTmp 11 47 64 47, .sub 10 (some 11) (some 10) none 0, .sub 11 none (some 11) none 0, .tmpXor 9 8,
  .rorTmp 9 12 64 12, .sub 8 (some 9) (some 8) none 0, .sub 9 none (some 9) none 0, .tmpXor 7 6, .rorTmp 7 31 64 31,
  .sub 6 (some 7) (some 6) none 0, .sub 7 none (some 7) none 0, .tmpXor 5 4, .rorTmp 5 37 64 37, .sub 4 (some 5) (some 4) none 0,
  .sub 5 none (some 5) none 0, .tmpXor 3 2, .rorTmp 3 9 64 9, .sub 2 (some 3) (some 2) none 0, .sub 3 none (some 3) none 0,
  .tmpXor 1 0, .rorTmp 1 41 64 41, .sub 0 (some 1) (some 0) none 0, .sub 1 none (some 1) none 0, .tmpXor 7 12,
  .rorTmp 7 25 64 25, .sub 12 (some 7) none none 0, .tmpXor 3 10, .rorTmp 3 16 64 16, .sub 10 (some 3) none none 0,
  .tmpXor 5 8, .rorTmp 5 28 64 28, .sub 8 (some 5) none none 0, .tmpXor 1 14, .rorTmp 1 47 64 47,
  .sub 14 (some 1) none none 0, .tmpXor 9 4, .rorTmp 9 41 64 41, .sub 4 (some 9) none none 0, .tmpXor 13 6,
  .rorTmp 13 48 64 48, .sub 6 (some 13) none none 0, .tmpXor 11 2, .rorTmp 11 20 64 20, .sub 2 (some 11) none none 0,
  .tmpXor 15 0, .rorTmp 15 5 64 5, .sub 0 (some 15) none none 0, .tmpXor 9 10, .rorTmp 9 17 64 17,
  .sub 10 (some 9) none none 0, .tmpXor 11 8, .rorTmp 11 59 64 59, .sub 8 (some 11) none none 0, .tmpXor 13 14,
  .rorTmp 13 41 64 41, .sub 14 (some 13) none none 0, .tmpXor 15 12, .rorTmp 15 34 64 34, .sub 12 (some 15) none none 0]

/-- crypter1024.go:1975-2074 -/
def decrypt1024_4 : List Raw := [
  .tmpXor 1 6, .rorTmp 1 13 64 13, .sub 6 (some 1) none none 0, .tmpXor 3 4, .rorTmp 3 51 64 51,
  .sub 4 (some 3) none none 0, .tmpXor 5 2, .rorTmp 5 4 64 4, .sub 2 (some 5) none none 0, .tmpXor 7 0,
  .rorTmp 7 33 64 33, .sub 0 (some 7) none none 0, .tmpXor 1 8, .rorTmp 1 52 64 52, .sub 8 (some 1) none none 0,
  .tmpXor 5 14, .rorTmp 5 23 64 23, .sub 14 (some 5) none none 0, .tmpXor 3 12, .rorTmp 3 18 64 18,
  .sub 12 (some 3) none none 0, .tmpXor 7 10, .rorTmp 7 49 64 49, .sub 10 (some 7) none none 0, .tmpXor 15 4,
  .rorTmp 15 55 64 55, .sub 4 (some 15) none none 0, .tmpXor 11 6, .rorTmp 11 10 64 10, .sub 6 (some 11) none none 0,
  .tmpXor 13 2, .rorTmp 13 19 64 19, .sub 2 (some 13) none none 0, .tmpXor 9 0, .rorTmp 9 38 64 38,
  .sub 0 (some 9) none none 0, .tmpXor 15 14, .rorTmp 15 37 64 37, .sub 14 (some 15) (some 13) (some 2) 0, .sub 15 none (some 14) none 16,
  .tmpXor 13 12, .rorTmp 13 22 64 22, .sub 12 (some 13) (some 11) none 0, .sub 13 none (some 12) (some 1) 0, .tmpXor 11 10,
  .rorTmp 11 17 64 17, .sub 10 (some 11) (some 9) none 0, .sub 11 none (some 10) none 0, .tmpXor 9 8, .rorTmp 9 8 64 8,
  .sub 8 (some 9) (some 7) none 0, .sub 9 none (some 8) none 0, .tmpXor 7 6, .rorTmp 7 47 64 47, .sub 6 (some 7) (some 5) none 0,
  .sub 7 none (some 6) none 0, .tmpXor 5 4, .rorTmp 5 8 64 8, .sub 4 (some 5) (some 3) none 0, .sub 5 none (some 4) none 0,
  .tmpXor 3 2, .rorTmp 3 13 64 13, .sub 2 (some 3) (some 1) none 0, .sub 3 none (some 2) none 0, .tmpXor 1 0,
  .rorTmp 1 24 64 24, .sub 0 (some 1) (some 16) none 0, .sub 1 none (some 0) none 0, .tmpXor 7 12, .rorTmp 7 20 64 20,
  .sub 12 (some 7) none none 0, .tmpXor 3 10, .rorTmp 3 37 64 37, .sub 10 (some 3) none none 0, .tmpXor 5 8,
  .rorTmp 5 31 64 31, .sub 8 (some 5) none none 0, .tmpXor 1 14, .rorTmp 1 23 64 23, .sub 14 (some 1) none none 0,
  .tmpXor 9 4, .rorTmp 9 52 64 52, .sub 4 (some 9) none none 0, .tmpXor 13 6, .rorTmp 13 35 64 35,
  .sub 6 (some 13) none none 0, .tmpXor 11 2, .rorTmp 11 48 64 48, .sub 2 (some 11) none none 0, .tmpXor 15 0,
  .rorTmp 15 9 64 9, .sub 0 (some 15) none none 0, .tmpXor 9 10, .rorTmp 9 25 64 25, .sub 10 (some 9) none none 0,
  .tmpXor 11 8, .rorTmp 11 44 64 44, .sub 8 (some 11) none none 0, .tmpXor 13 14, .rorTmp 13 42 64 42]

/-- crypter1024.go:2075-2174 -/
def decrypt1024_5 : List Raw := [
  .sub 14 (some 13) none none 0, .tmpXor 15 12, .rorTmp 15 19 64 19, .sub 12 (some 15) none none 0, .tmpXor 1 6,
  .rorTmp 1 46 64 46, .sub 6 (some 1) none none 0, .tmpXor 3 4, .rorTmp 3 47 64 47, .sub 4 (some 3) none none 0,
  .tmpXor 5 2, .rorTmp 5 44 64 44, .sub 2 (some 5) none none 0, .tmpXor 7 0, .rorTmp 7 31 64 31,
  .sub 0 (some 7) none none 0, .tmpXor 1 8, .rorTmp 1 41 64 41, .sub 8 (some 1) none none 0, .tmpXor 5 14,
  .rorTmp 5 42 64 42, .sub 14 (some 5) none none 0, .tmpXor 3 12, .rorTmp 3 53 64 53, .sub 12 (some 3) none none 0,
  .tmpXor 7 10, .rorTmp 7 4 64 4, .sub 10 (some 7) none none 0, .tmpXor 15 4, .rorTmp 15 51 64 51,
  .sub 4 (some 15) none none 0, .tmpXor 11 6, .rorTmp 11 56 64 56, .sub 6 (some 11) none none 0, .tmpXor 13 2,
  .rorTmp 13 34 64 34, .sub 2 (some 13) none none 0, .tmpXor 9 0, .rorTmp 9 16 64 16, .sub 0 (some 9) none none 0,
  .tmpXor 15 14, .rorTmp 15 30 64 30, .sub 14 (some 15) (some 12) (some 1) 0, .sub 15 none (some 13) none 15, .tmpXor 13 12,
  .rorTmp 13 44 64 44, .sub 12 (some 13) (some 10) none 0, .sub 13 none (some 11) (some 0) 0, .tmpXor 11 10, .rorTmp 11 47 64 47,
  .sub 10 (some 11) (some 8) none 0, .sub 11 none (some 9) none 0, .tmpXor 9 8, .rorTmp 9 12 64 12, .sub 8 (some 9) (some 6) none 0,
  .sub 9 none (some 7) none 0, .tmpXor 7 6, .rorTmp 7 31 64 31, .sub 6 (some 7) (some 4) none 0, .sub 7 none (some 5) none 0,
  .tmpXor 5 4, .rorTmp 5 37 64 37, .sub 4 (some 5) (some 2) none 0, .sub 5 none (some 3) none 0, .tmpXor 3 2,
  .rorTmp 3 9 64 9, .sub 2 (some 3) (some 0) none 0, .sub 3 none (some 1) none 0, .tmpXor 1 0, .rorTmp 1 41 64 41,
  .sub 0 (some 1) (some 15) none 0, .sub 1 none (some 16) none 0, .tmpXor 7 12, .rorTmp 7 25 64 25, .sub 12 (some 7) none none 0,
  .tmpXor 3 10, .rorTmp 3 16 64 16, .sub 10 (some 3) none none 0, .tmpXor 5 8, .rorTmp 5 28 64 28,
  .sub 8 (some 5) none none 0, .tmpXor 1 14, .rorTmp 1 47 64 47, .sub 14 (some 1) none none 0, .tmpXor 9 4,
  .rorTmp 9 41 64 41, .sub 4 (some 9) none none 0, .tmpXor 13 6, .rorTmp 13 48 64 48, .sub 6 (some 13) none none 0,
  .tmpXor 11 2, .rorTmp 11 20 64 20, .sub 2 (some 11) none none 0, .tmpXor 15 0, .rorTmp 15 5 64 5,
  .sub 0 (some 15) none none 0, .tmpXor 9 10, .rorTmp 9 17 64 17, .sub 10 (some 9) none none 0, .tmpXor 11 8]

/-- crypter1024.go:2175-2274 -/
def decrypt1024_6 : List Raw := [
  .rorTmp 11 59 64 59, .sub 8 (some 11) none none 0, .tmpXor 13 14, .rorTmp 13 41 64 41, .sub 14 (some 13) none none 0,
  .tmpXor 15 12, .rorTmp 15 34 64 34, .sub 12 (some 15) none none 0, .tmpXor 1 6, .rorTmp 1 13 64 13,
  .sub 6 (some 1) none none 0, .tmpXor 3 4, .rorTmp 3 51 64 51, .sub 4 (some 3) none none 0, .tmpXor 5 2,
  .rorTmp 5 4 64 4, .sub 2 (some 5) none none 0, .tmpXor 7 0, .rorTmp 7 33 64 33, .sub 0 (some 7) none none 0,
  .tmpXor 1 8, .rorTmp 1 52 64 52, .sub 8 (some 1) none none 0, .tmpXor 5 14, .rorTmp 5 23 64 23,
  .sub 14 (some 5) none none 0, .tmpXor 3 12, .rorTmp 3 18 64 18, .sub 12 (some 3) none none 0, .tmpXor 7 10,
  .rorTmp 7 49 64 49, .sub 10 (some 7) none none 0, .tmpXor 15 4, .rorTmp 15 55 64 55, .sub 4 (some 15) none none 0,
  .tmpXor 11 6, .rorTmp 11 10 64 10, .sub 6 (some 11) none none 0, .tmpXor 13 2, .rorTmp 13 19 64 19,
  .sub 2 (some 13) none none 0, .tmpXor 9 0, .rorTmp 9 38 64 38, .sub 0 (some 9) none none 0, .tmpXor 15 14,
  .rorTmp 15 37 64 37, .sub 14 (some 15) (some 11) (some 0) 0, .sub 15 none (some 12) none 14, .tmpXor 13 12, .rorTmp 13 22 64 22,
  .sub 12 (some 13) (some 9) none 0, .sub 13 none (some 10) (some 2) 0, .tmpXor 11 10, .rorTmp 11 17 64 17, .sub 10 (some 11) (some 7) none 0,
  .sub 11 none (some 8) none 0, .tmpXor 9 8, .rorTmp 9 8 64 8, .sub 8 (some 9) (some 5) none 0, .sub 9 none (some 6) none 0,
  .tmpXor 7 6, .rorTmp 7 47 64 47, .sub 6 (some 7) (some 3) none 0, .sub 7 none (some 4) none 0, .tmpXor 5 4,
  .rorTmp 5 8 64 8, .sub 4 (some 5) (some 1) none 0, .sub 5 none (some 2) none 0, .tmpXor 3 2, .rorTmp 3 13 64 13,
  .sub 2 (some 3) (some 16) none 0, .sub 3 none (some 0) none 0, .tmpXor 1 0, .rorTmp 1 24 64 24, .sub 0 (some 1) (some 14) none 0,
  .sub 1 none (some 15) none 0, .tmpXor 7 12, .rorTmp 7 20 64 20, .sub 12 (some 7) none none 0, .tmpXor 3 10,
  .rorTmp 3 37 64 37, .sub 10 (some 3) none none 0, .tmpXor 5 8, .rorTmp 5 31 64 31, .sub 8 (some 5) none none 0,
  .tmpXor 1 14, .rorTmp 1 23 64 23, .sub 14 (some 1) none none 0, .tmpXor 9 4, .rorTmp 9 52 64 52,
  .sub 4 (some 9) none none 0, .tmpXor 13 6, .rorTmp 13 35 64 35, .sub 6 (some 13) none none 0, .tmpXor 11 2,
  .rorTmp 11 48 64 48, .sub 2 (some 11) none none 0, .tmpXor 15 0, .rorTmp 15 9 64 9, .sub 0 (some 15) none none 0]

/-- crypter1024.go:2275-2374 -/
def decrypt1024_7 : List Raw := [
  .tmpXor 9 10, .rorTmp 9 25 64 25, .sub 10 (some 9) none none 0, .tmpXor 11 8, .rorTmp 11 44 64 44,
  .sub 8 (some 11) none none 0, .tmpXor 13 14, .rorTmp 13 42 64 42, .sub 14 (some 13) none none 0, .tmpXor 15 12,
  .rorTmp 15 19 64 19, .sub 12 (some 15) none none 0, .tmpXor 1 6, .rorTmp 1 46 64 46, .sub 6 (some 1) none none 0,
  .tmpXor 3 4, .rorTmp 3 47 64 47, .sub 4 (some 3) none none 0, .tmpXor 5 2, .rorTmp 5 44 64 44,
  .sub 2 (some 5) none none 0, .tmpXor 7 0, .rorTmp 7 31 64 31, .sub 0 (some 7) none none 0, .tmpXor 1 8,
  .rorTmp 1 41 64 41, .sub 8 (some 1) none none 0, .tmpXor 5 14, .rorTmp 5 42 64 42, .sub 14 (some 5) none none 0,
  .tmpXor 3 12, .rorTmp 3 53 64 53, .sub 12 (some 3) none none 0, .tmpXor 7 10, .rorTmp 7 4 64 4,
  .sub 10 (some 7) none none 0, .tmpXor 15 4, .rorTmp 15 51 64 51, .sub 4 (some 15) none none 0, .tmpXor 11 6,
  .rorTmp 11 56 64 56, .sub 6 (some 11) none none 0, .tmpXor 13 2, .rorTmp 13 34 64 34, .sub 2 (some 13) none none 0,
  .tmpXor 9 0, .rorTmp 9 16 64 16, .sub 0 (some 9) none none 0, .tmpXor 15 14, .rorTmp 15 30 64 30,
  .sub 14 (some 15) (some 10) (some 2) 0, .sub 15 none (some 11) none 13, .tmpXor 13 12, .rorTmp 13 44 64 44, .sub 12 (some 13) (some 8) none 0,
  .sub 13 none (some 9) (some 1) 0, .tmpXor 11 10, .rorTmp 11 47 64 47, .sub 10 (some 11) (some 6) none 0, .sub 11 none (some 7) none 0,
  .tmpXor 9 8, .rorTmp 9 12 64 12, .sub 8 (some 9) (some 4) none 0, .sub 9 none (some 5) none 0, .tmpXor 7 6,
  .rorTmp 7 31 64 31, .sub 6 (some 7) (some 2) none 0, .sub 7 none (some 3) none 0, .tmpXor 5 4, .rorTmp 5 37 64 37,
  .sub 4 (some 5) (some 0) none 0, .sub 5 none (some 1) none 0, .tmpXor 3 2, .rorTmp 3 9 64 9, .sub 2 (some 3) (some 15) none 0,
  .sub 3 none (some 16) none 0, .tmpXor 1 0, .rorTmp 1 41 64 41, .sub 0 (some 1) (some 13) none 0, .sub 1 none (some 14) none 0,
  .tmpXor 7 12, .rorTmp 7 25 64 25, .sub 12 (some 7) none none 0, .tmpXor 3 10, .rorTmp 3 16 64 16,
  .sub 10 (some 3) none none 0, .tmpXor 5 8, .rorTmp 5 28 64 28, .sub 8 (some 5) none none 0, .tmpXor 1 14,
  .rorTmp 1 47 64 47, .sub 14 (some 1) none none 0, .tmpXor 9 4, .rorTmp 9 41 64 41, .sub 4 (some 9) none none 0,
  .tmpXor 13 6, .rorTmp 13 48 64 48, .sub 6 (some 13) none none 0, .tmpXor 11 2, .rorTmp 11 20 64 20]

/-- crypter1024.go:2375-2474 -/
def decrypt1024_8 : List Raw := [
  .sub 2 (some 11) none none 0, .tmpXor 15 0, .rorTmp 15 5 64 5, .sub 0 (some 15) none none 0, .tmpXor 9 10,
  .rorTmp 9 17 64 17, .sub 10 (some 9) none none 0, .tmpXor 11 8, .rorTmp 11 59 64 59, .sub 8 (some 11) none none 0,
  .tmpXor 13 14, .rorTmp 13 41 64 41, .sub 14 (some 13) none none 0, .tmpXor 15 12, .rorTmp 15 34 64 34,
  .sub 12 (some 15) none none 0, .tmpXor 1 6, .rorTmp 1 13 64 13, .sub 6 (some 1) none none 0, .tmpXor 3 4,
  .rorTmp 3 51 64 51, .sub 4 (some 3) none none 0, .tmpXor 5 2, .rorTmp 5 4 64 4, .sub 2 (some 5) none none 0,
  .tmpXor 7 0, .rorTmp 7 33 64 33, .sub 0 (some 7) none none 0, .tmpXor 1 8, .rorTmp 1 52 64 52,
  .sub 8 (some 1) none none 0, .tmpXor 5 14, .rorTmp 5 23 64 23, .sub 14 (some 5) none none 0, .tmpXor 3 12,
  .rorTmp 3 18 64 18, .sub 12 (some 3) none none 0, .tmpXor 7 10, .rorTmp 7 49 64 49, .sub 10 (some 7) none none 0,
  .tmpXor 15 4, .rorTmp 15 55 64 55, .sub 4 (some 15) none none 0, .tmpXor 11 6, .rorTmp 11 10 64 10,
  .sub 6 (some 11) none none 0, .tmpXor 13 2, .rorTmp 13 19 64 19, .sub 2 (some 13) none none 0, .tmpXor 9 0,
  .rorTmp 9 38 64 38, .sub 0 (some 9) none none 0, .tmpXor 15 14, .rorTmp 15 37 64 37, .sub 14 (some 15) (some 9) (some 1) 0,
  .sub 15 none (some 10) none 12, .tmpXor 13 12, .rorTmp 13 22 64 22, .sub 12 (some 13) (some 7) none 0, .sub 13 none (some 8) (some 0) 0,
  .tmpXor 11 10, .rorTmp 11 17 64 17, .sub 10 (some 11) (some 5) none 0, .sub 11 none (some 6) none 0, .tmpXor 9 8,
  .rorTmp 9 8 64 8, .sub 8 (some 9) (some 3) none 0, .sub 9 none (some 4) none 0, .tmpXor 7 6, .rorTmp 7 47 64 47,
  .sub 6 (some 7) (some 1) none 0, .sub 7 none (some 2) none 0, .tmpXor 5 4, .rorTmp 5 8 64 8, .sub 4 (some 5) (some 16) none 0,
  .sub 5 none (some 0) none 0, .tmpXor 3 2, .rorTmp 3 13 64 13, .sub 2 (some 3) (some 14) none 0, .sub 3 none (some 15) none 0,
  .tmpXor 1 0, .rorTmp 1 24 64 24, .sub 0 (some 1) (some 12) none 0, .sub 1 none (some 13) none 0, .tmpXor 7 12,
  .rorTmp 7 20 64 20, .sub 12 (some 7) none none 0, .tmpXor 3 10, .rorTmp 3 37 64 37, .sub 10 (some 3) none none 0,
  .tmpXor 5 8, .rorTmp 5 31 64 31, .sub 8 (some 5) none none 0, .tmpXor 1 14, .rorTmp 1 23 64 23,
  .sub 14 (some 1) none none 0, .tmpXor 9 4, .rorTmp 9 52 64 52, .sub 4 (some 9) none none 0, .tmpXor 13 6]

/-- crypter1024.go:2475-2574 -/
def decrypt1024_9 : List Raw := [
  .rorTmp 13 35 64 35, .sub 6 (some 13) none none 0, .tmpXor 11 2, .rorTmp 11 48 64 48, .sub 2 (some 11) none none 0,
  .tmpXor 15 0, .rorTmp 15 9 64 9, .sub 0 (some 15) none none 0, .tmpXor 9 10, .rorTmp 9 25 64 25,
  .sub 10 (some 9) none none 0, .tmpXor 11 8, .rorTmp 11 44 64 44, .sub 8 (some 11) none none 0, .tmpXor 13 14,
  .rorTmp 13 42 64 42, .sub 14 (some 13) none none 0, .tmpXor 15 12, .rorTmp 15 19 64 19, .sub 12 (some 15) none none 0,
  .tmpXor 1 6, .rorTmp 1 46 64 46, .sub 6 (some 1) none none 0, .tmpXor 3 4, .rorTmp 3 47 64 47,
  .sub 4 (some 3) none none 0, .tmpXor 5 2, .rorTmp 5 44 64 44, .sub 2 (some 5) none none 0, .tmpXor 7 0,
  .rorTmp 7 31 64 31, .sub 0 (some 7) none none 0, .tmpXor 1 8, .rorTmp 1 41 64 41, .sub 8 (some 1) none none 0,
  .tmpXor 5 14, .rorTmp 5 42 64 42, .sub 14 (some 5) none none 0, .tmpXor 3 12, .rorTmp 3 53 64 53,
  .sub 12 (some 3) none none 0, .tmpXor 7 10, .rorTmp 7 4 64 4, .sub 10 (some 7) none none 0, .tmpXor 15 4,
  .rorTmp 15 51 64 51, .sub 4 (some 15) none none 0, .tmpXor 11 6, .rorTmp 11 56 64 56, .sub 6 (some 11) none none 0,
  .tmpXor 13 2, .rorTmp 13 34 64 34, .sub 2 (some 13) none none 0, .tmpXor 9 0, .rorTmp 9 16 64 16,
  .sub 0 (some 9) none none 0, .tmpXor 15 14, .rorTmp 15 30 64 30, .sub 14 (some 15) (some 8) (some 0) 0, .sub 15 none (some 9) none 11,
  .tmpXor 13 12, .rorTmp 13 44 64 44, .sub 12 (some 13) (some 6) none 0, .sub 13 none (some 7) (some 2) 0, .tmpXor 11 10,
  .rorTmp 11 47 64 47, .sub 10 (some 11) (some 4) none 0, .sub 11 none (some 5) none 0, .tmpXor 9 8, .rorTmp 9 12 64 12,
  .sub 8 (some 9) (some 2) none 0, .sub 9 none (some 3) none 0, .tmpXor 7 6, .rorTmp 7 31 64 31, .sub 6 (some 7) (some 0) none 0,
  .sub 7 none (some 1) none 0, .tmpXor 5 4, .rorTmp 5 37 64 37, .sub 4 (some 5) (some 15) none 0, .sub 5 none (some 16) none 0,
  .tmpXor 3 2, .rorTmp 3 9 64 9, .sub 2 (some 3) (some 13) none 0, .sub 3 none (some 14) none 0, .tmpXor 1 0,
  .rorTmp 1 41 64 41, .sub 0 (some 1) (some 11) none 0, .sub 1 none (some 12) none 0, .tmpXor 7 12, .rorTmp 7 25 64 25,
  .sub 12 (some 7) none none 0, .tmpXor 3 10, .rorTmp 3 16 64 16, .sub 10 (some 3) none none 0, .tmpXor 5 8,
  .rorTmp 5 28 64 28, .sub 8 (some 5) none none 0, .tmpXor 1 14, .rorTmp 1 47 64 47, .sub 14 (some 1) none none 0]

/-- crypter1024.go:2575-2674 -/
def decrypt1024_10 : List Raw := [
  .tmpXor 9 4, .rorTmp 9 41 64 41, .sub 4 (some 9) none none 0, .tmpXor 13 6, .rorTmp 13 48 64 48,
  .sub 6 (some 13) none none 0, .tmpXor 11 2, .rorTmp 11 20 64 20, .sub 2 (some 11) none none 0, .tmpXor 15 0,
  .rorTmp 15 5 64 5, .sub 0 (some 15) none none 0, .tmpXor 9 10, .rorTmp 9 17 64 17, .sub 10 (some 9) none none 0,
  .tmpXor 11 8, .rorTmp 11 59 64 59, .sub 8 (some 11) none none 0, .tmpXor 13 14, .rorTmp 13 41 64 41,
  .sub 14 (some 13) none none 0, .tmpXor 15 12, .rorTmp 15 34 64 34, .sub 12 (some 15) none none 0, .tmpXor 1 6,
  .rorTmp 1 13 64 13, .sub 6 (some 1) none none 0, .tmpXor 3 4, .rorTmp 3 51 64 51, .sub 4 (some 3) none none 0,
  .tmpXor 5 2, .rorTmp 5 4 64 4, .sub 2 (some 5) none none 0, .tmpXor 7 0, .rorTmp 7 33 64 33,
  .sub 0 (some 7) none none 0, .tmpXor 1 8, .rorTmp 1 52 64 52, .sub 8 (some 1) none none 0, .tmpXor 5 14,
  .rorTmp 5 23 64 23, .sub 14 (some 5) none none 0, .tmpXor 3 12, .rorTmp 3 18 64 18, .sub 12 (some 3) none none 0,
  .tmpXor 7 10, .rorTmp 7 49 64 49, .sub 10 (some 7) none none 0, .tmpXor 15 4, .rorTmp 15 55 64 55,
  .sub 4 (some 15) none none 0, .tmpXor 11 6, .rorTmp 11 10 64 10, .sub 6 (some 11) none none 0, .tmpXor 13 2,
  .rorTmp 13 19 64 19, .sub 2 (some 13) none none 0, .tmpXor 9 0, .rorTmp 9 38 64 38, .sub 0 (some 9) none none 0,
  .tmpXor 15 14, .rorTmp 15 37 64 37, .sub 14 (some 15) (some 7) (some 2) 0, .sub 15 none (some 8) none 10, .tmpXor 13 12,
  .rorTmp 13 22 64 22, .sub 12 (some 13) (some 5) none 0, .sub 13 none (some 6) (some 1) 0, .tmpXor 11 10, .rorTmp 11 17 64 17,
  .sub 10 (some 11) (some 3) none 0, .sub 11 none (some 4) none 0, .tmpXor 9 8, .rorTmp 9 8 64 8, .sub 8 (some 9) (some 1) none 0,
  .sub 9 none (some 2) none 0, .tmpXor 7 6, .rorTmp 7 47 64 47, .sub 6 (some 7) (some 16) none 0, .sub 7 none (some 0) none 0,
  .tmpXor 5 4, .rorTmp 5 8 64 8, .sub 4 (some 5) (some 14) none 0, .sub 5 none (some 15) none 0, .tmpXor 3 2,
  .rorTmp 3 13 64 13, .sub 2 (some 3) (some 12) none 0, .sub 3 none (some 13) none 0, .tmpXor 1 0, .rorTmp 1 24 64 24,
  .sub 0 (some 1) (some 10) none 0, .sub 1 none (some 11) none 0, .tmpXor 7 12, .rorTmp 7 20 64 20, .sub 12 (some 7) none none 0,
  .tmpXor 3 10, .rorTmp 3 37 64 37, .sub 10 (some 3) none none 0, .tmpXor 5 8, .rorTmp 5 31 64 31]

/-- crypter1024.go:2675-2774 -/
def decrypt1024_11 : List Raw := [
  .sub 8 (some 5) none none 0, .tmpXor 1 14, .rorTmp 1 23 64 23, .sub 14 (some 1) none none 0, .tmpXor 9 4,
  .rorTmp 9 52 64 52, .sub 4 (some 9) none none 0, .tmpXor 13 6, .rorTmp 13 35 64 35, .sub 6 (some 13) none none 0,
  .tmpXor 11 2, .rorTmp 11 48 64 48, .sub 2 (some 11) none none 0, .tmpXor 15 0, .rorTmp 15 9 64 9,
  .sub 0 (some 15) none none 0, .tmpXor 9 10, .rorTmp 9 25 64 25, .sub 10 (some 9) none none 0, .tmpXor 11 8,
  .rorTmp 11 44 64 44, .sub 8 (some 11) none none 0, .tmpXor 13 14, .rorTmp 13 42 64 42, .sub 14 (some 13) none none 0,
  .tmpXor 15 12, .rorTmp 15 19 64 19, .sub 12 (some 15) none none 0, .tmpXor 1 6, .rorTmp 1 46 64 46,
  .sub 6 (some 1) none none 0, .tmpXor 3 4, .rorTmp 3 47 64 47, .sub 4 (some 3) none none 0, .tmpXor 5 2,
  .rorTmp 5 44 64 44, .sub 2 (some 5) none none 0, .tmpXor 7 0, .rorTmp 7 31 64 31, .sub 0 (some 7) none none 0,
  .tmpXor 1 8, .rorTmp 1 41 64 41, .sub 8 (some 1) none none 0, .tmpXor 5 14, .rorTmp 5 42 64 42,
  .sub 14 (some 5) none none 0, .tmpXor 3 12, .rorTmp 3 53 64 53, .sub 12 (some 3) none none 0, .tmpXor 7 10,
  .rorTmp 7 4 64 4, .sub 10 (some 7) none none 0, .tmpXor 15 4, .rorTmp 15 51 64 51, .sub 4 (some 15) none none 0,
  .tmpXor 11 6, .rorTmp 11 56 64 56, .sub 6 (some 11) none none 0, .tmpXor 13 2, .rorTmp 13 34 64 34,
  .sub 2 (some 13) none none 0, .tmpXor 9 0, .rorTmp 9 16 64 16, .sub 0 (some 9) none none 0, .tmpXor 15 14,
  .rorTmp 15 30 64 30, .sub 14 (some 15) (some 6) (some 1) 0, .sub 15 none (some 7) none 9, .tmpXor 13 12, .rorTmp 13 44 64 44,
  .sub 12 (some 13) (some 4) none 0, .sub 13 none (some 5) (some 0) 0, .tmpXor 11 10, .rorTmp 11 47 64 47, .sub 10 (some 11) (some 2) none 0,
  .sub 11 none (some 3) none 0, .tmpXor 9 8, .rorTmp 9 12 64 12, .sub 8 (some 9) (some 0) none 0, .sub 9 none (some 1) none 0,
  .tmpXor 7 6, .rorTmp 7 31 64 31, .sub 6 (some 7) (some 15) none 0, .sub 7 none (some 16) none 0, .tmpXor 5 4,
  .rorTmp 5 37 64 37, .sub 4 (some 5) (some 13) none 0, .sub 5 none (some 14) none 0, .tmpXor 3 2, .rorTmp 3 9 64 9,
  .sub 2 (some 3) (some 11) none 0, .sub 3 none (some 12) none 0, .tmpXor 1 0, .rorTmp 1 41 64 41, .sub 0 (some 1) (some 9) none 0,
  .sub 1 none (some 10) none 0, .tmpXor 7 12, .rorTmp 7 25 64 25, .sub 12 (some 7) none none 0, .tmpXor 3 10]

/-- crypter1024.go:2775-2874 -/
def decrypt1024_12 : List Raw := [
  .rorTmp 3 16 64 16, .sub 10 (some 3) none none 0, .tmpXor 5 8, .rorTmp 5 28 64 28, .sub 8 (some 5) none none 0,
  .tmpXor 1 14, .rorTmp 1 47 64 47, .sub 14 (some 1) none none 0, .tmpXor 9 4, .rorTmp 9 41 64 41,
  .sub 4 (some 9) none none 0, .tmpXor 13 6, .rorTmp 13 48 64 48, .sub 6 (some 13) none none 0, .tmpXor 11 2,
  .rorTmp 11 20 64 20, .sub 2 (some 11) none none 0, .tmpXor 15 0, .rorTmp 15 5 64 5, .sub 0 (some 15) none none 0,
  .tmpXor 9 10, .rorTmp 9 17 64 17, .sub 10 (some 9) none none 0, .tmpXor 11 8, .rorTmp 11 59 64 59,
  .sub 8 (some 11) none none 0, .tmpXor 13 14, .rorTmp 13 41 64 41, .sub 14 (some 13) none none 0, .tmpXor 15 12,
  .rorTmp 15 34 64 34, .sub 12 (some 15) none none 0, .tmpXor 1 6, .rorTmp 1 13 64 13, .sub 6 (some 1) none none 0,
  .tmpXor 3 4, .rorTmp 3 51 64 51, .sub 4 (some 3) none none 0, .tmpXor 5 2, .rorTmp 5 4 64 4,
  .sub 2 (some 5) none none 0, .tmpXor 7 0, .rorTmp 7 33 64 33, .sub 0 (some 7) none none 0, .tmpXor 1 8,
  .rorTmp 1 52 64 52, .sub 8 (some 1) none none 0, .tmpXor 5 14, .rorTmp 5 23 64 23, .sub 14 (some 5) none none 0,
  .tmpXor 3 12, .rorTmp 3 18 64 18, .sub 12 (some 3) none none 0, .tmpXor 7 10, .rorTmp 7 49 64 49,
  .sub 10 (some 7) none none 0, .tmpXor 15 4, .rorTmp 15 55 64 55, .sub 4 (some 15) none none 0, .tmpXor 11 6,
  .rorTmp 11 10 64 10, .sub 6 (some 11) none none 0, .tmpXor 13 2, .rorTmp 13 19 64 19, .sub 2 (some 13) none none 0,
  .tmpXor 9 0, .rorTmp 9 38 64 38, .sub 0 (some 9) none none 0, .tmpXor 15 14, .rorTmp 15 37 64 37,
  .sub 14 (some 15) (some 5) (some 0) 0, .sub 15 none (some 6) none 8, .tmpXor 13 12, .rorTmp 13 22 64 22, .sub 12 (some 13) (some 3) none 0,
  .sub 13 none (some 4) (some 2) 0, .tmpXor 11 10, .rorTmp 11 17 64 17, .sub 10 (some 11) (some 1) none 0, .sub 11 none (some 2) none 0,
  .tmpXor 9 8, .rorTmp 9 8 64 8, .sub 8 (some 9) (some 16) none 0, .sub 9 none (some 0) none 0, .tmpXor 7 6,
  .rorTmp 7 47 64 47, .sub 6 (some 7) (some 14) none 0, .sub 7 none (some 15) none 0, .tmpXor 5 4, .rorTmp 5 8 64 8,
  .sub 4 (some 5) (some 12) none 0, .sub 5 none (some 13) none 0, .tmpXor 3 2, .rorTmp 3 13 64 13, .sub 2 (some 3) (some 10) none 0,
  .sub 3 none (some 11) none 0, .tmpXor 1 0, .rorTmp 1 24 64 24, .sub 0 (some 1) (some 8) none 0, .sub 1 none (some 9) none 0]

/-- crypter1024.go:2875-2974 -/
def decrypt1024_13 : List Raw := [
  .tmpXor 7 12, .rorTmp 7 20 64 20, .sub 12 (some 7) none none 0, .tmpXor 3 10, .rorTmp 3 37 64 37,
  .sub 10 (some 3) none none 0, .tmpXor 5 8, .rorTmp 5 31 64 31, .sub 8 (some 5) none none 0, .tmpXor 1 14,
  .rorTmp 1 23 64 23, .sub 14 (some 1) none none 0, .tmpXor 9 4, .rorTmp 9 52 64 52, .sub 4 (some 9) none none 0,
  .tmpXor 13 6, .rorTmp 13 35 64 35, .sub 6 (some 13) none none 0, .tmpXor 11 2, .rorTmp 11 48 64 48,
  .sub 2 (some 11) none none 0, .tmpXor 15 0, .rorTmp 15 9 64 9, .sub 0 (some 15) none none 0, .tmpXor 9 10,
  .rorTmp 9 25 64 25, .sub 10 (some 9) none none 0, .tmpXor 11 8, .rorTmp 11 44 64 44, .sub 8 (some 11) none none 0,
  .tmpXor 13 14, .rorTmp 13 42 64 42, .sub 14 (some 13) none none 0, .tmpXor 15 12, .rorTmp 15 19 64 19,
  .sub 12 (some 15) none none 0, .tmpXor 1 6, .rorTmp 1 46 64 46, .sub 6 (some 1) none none 0, .tmpXor 3 4,
  .rorTmp 3 47 64 47, .sub 4 (some 3) none none 0, .tmpXor 5 2, .rorTmp 5 44 64 44, .sub 2 (some 5) none none 0,
  .tmpXor 7 0, .rorTmp 7 31 64 31, .sub 0 (some 7) none none 0, .tmpXor 1 8, .rorTmp 1 41 64 41,
  .sub 8 (some 1) none none 0, .tmpXor 5 14, .rorTmp 5 42 64 42, .sub 14 (some 5) none none 0, .tmpXor 3 12,
  .rorTmp 3 53 64 53, .sub 12 (some 3) none none 0, .tmpXor 7 10, .rorTmp 7 4 64 4, .sub 10 (some 7) none none 0,
  .tmpXor 15 4, .rorTmp 15 51 64 51, .sub 4 (some 15) none none 0, .tmpXor 11 6, .rorTmp 11 56 64 56,
  .sub 6 (some 11) none none 0, .tmpXor 13 2, .rorTmp 13 34 64 34, .sub 2 (some 13) none none 0, .tmpXor 9 0,
  .rorTmp 9 16 64 16, .sub 0 (some 9) none none 0, .tmpXor 15 14, .rorTmp 15 30 64 30, .sub 14 (some 15) (some 4) (some 2) 0,
  .sub 15 none (some 5) none 7, .tmpXor 13 12, .rorTmp 13 44 64 44, .sub 12 (some 13) (some 2) none 0, .sub 13 none (some 3) (some 1) 0,
  .tmpXor 11 10, .rorTmp 11 47 64 47, .sub 10 (some 11) (some 0) none 0, .sub 11 none (some 1) none 0, .tmpXor 9 8,
  .rorTmp 9 12 64 12, .sub 8 (some 9) (some 15) none 0, .sub 9 none (some 16) none 0, .tmpXor 7 6, .rorTmp 7 31 64 31,
  .sub 6 (some 7) (some 13) none 0, .sub 7 none (some 14) none 0, .tmpXor 5 4, .rorTmp 5 37 64 37, .sub 4 (some 5) (some 11) none 0,
  .sub 5 none (some 12) none 0, .tmpXor 3 2, .rorTmp 3 9 64 9, .sub 2 (some 3) (some 9) none 0, .sub 3 none (some 10) none 0]

/-- crypter1024.go:2975-3074 -/
def decrypt1024_14 : List Raw := [
  .tmpXor 1 0, .rorTmp 1 41 64 41, .sub 0 (some 1) (some 7) none 0, .sub 1 none (some 8) none 0, .tmpXor 7 12,
  .rorTmp 7 25 64 25, .sub 12 (some 7) none none 0, .tmpXor 3 10, .rorTmp 3 16 64 16, .sub 10 (some 3) none none 0,
  .tmpXor 5 8, .rorTmp 5 28 64 28, .sub 8 (some 5) none none 0, .tmpXor 1 14, .rorTmp 1 47 64 47,
  .sub 14 (some 1) none none 0, .tmpXor 9 4, .rorTmp 9 41 64 41, .sub 4 (some 9) none none 0, .tmpXor 13 6,
  .rorTmp 13 48 64 48, .sub 6 (some 13) none none 0, .tmpXor 11 2, .rorTmp 11 20 64 20, .sub 2 (some 11) none none 0,
  .tmpXor 15 0, .rorTmp 15 5 64 5, .sub 0 (some 15) none none 0, .tmpXor 9 10, .rorTmp 9 17 64 17,
  .sub 10 (some 9) none none 0, .tmpXor 11 8, .rorTmp 11 59 64 59, .sub 8 (some 11) none none 0, .tmpXor 13 14,
  .rorTmp 13 41 64 41, .sub 14 (some 13) none none 0, .tmpXor 15 12, .rorTmp 15 34 64 34, .sub 12 (some 15) none none 0,
  .tmpXor 1 6, .rorTmp 1 13 64 13, .sub 6 (some 1) none none 0, .tmpXor 3 4, .rorTmp 3 51 64 51,
  .sub 4 (some 3) none none 0, .tmpXor 5 2, .rorTmp 5 4 64 4, .sub 2 (some 5) none none 0, .tmpXor 7 0,
  .rorTmp 7 33 64 33, .sub 0 (some 7) none none 0, .tmpXor 1 8, .rorTmp 1 52 64 52, .sub 8 (some 1) none none 0,
  .tmpXor 5 14, .rorTmp 5 23 64 23, .sub 14 (some 5) none none 0, .tmpXor 3 12, .rorTmp 3 18 64 18,
  .sub 12 (some 3) none none 0, .tmpXor 7 10, .rorTmp 7 49 64 49, .sub 10 (some 7) none none 0, .tmpXor 15 4,
  .rorTmp 15 55 64 55, .sub 4 (some 15) none none 0, .tmpXor 11 6, .rorTmp 11 10 64 10, .sub 6 (some 11) none none 0,
  .tmpXor 13 2, .rorTmp 13 19 64 19, .sub 2 (some 13) none none 0, .tmpXor 9 0, .rorTmp 9 38 64 38,
  .sub 0 (some 9) none none 0, .tmpXor 15 14, .rorTmp 15 37 64 37, .sub 14 (some 15) (some 3) (some 1) 0, .sub 15 none (some 4) none 6,
  .tmpXor 13 12, .rorTmp 13 22 64 22, .sub 12 (some 13) (some 1) none 0, .sub 13 none (some 2) (some 0) 0, .tmpXor 11 10,
  .rorTmp 11 17 64 17, .sub 10 (some 11) (some 16) none 0, .sub 11 none (some 0) none 0, .tmpXor 9 8, .rorTmp 9 8 64 8,
  .sub 8 (some 9) (some 14) none 0, .sub 9 none (some 15) none 0, .tmpXor 7 6, .rorTmp 7 47 64 47, .sub 6 (some 7) (some 12) none 0,
  .sub 7 none (some 13) none 0, .tmpXor 5 4, .rorTmp 5 8 64 8, .sub 4 (some 5) (some 10) none 0, .sub 5 none (some 11) none 0]

/-- crypter1024.go:3075-3174 -/
def decrypt1024_15 : List Raw := [
  .tmpXor 3 2, .rorTmp 3 13 64 13, .sub 2 (some 3) (some 8) none 0, .sub 3 none (some 9) none 0, .tmpXor 1 0,
  .rorTmp 1 24 64 24, .sub 0 (some 1) (some 6) none 0, .sub 1 none (some 7) none 0, .tmpXor 7 12, .rorTmp 7 20 64 20,
  .sub 12 (some 7) none none 0, .tmpXor 3 10, .rorTmp 3 37 64 37, .sub 10 (some 3) none none 0, .tmpXor 5 8,
  .rorTmp 5 31 64 31, .sub 8 (some 5) none none 0, .tmpXor 1 14, .rorTmp 1 23 64 23, .sub 14 (some 1) none none 0,
  .tmpXor 9 4, .rorTmp 9 52 64 52, .sub 4 (some 9) none none 0, .tmpXor 13 6, .rorTmp 13 35 64 35,
  .sub 6 (some 13) none none 0, .tmpXor 11 2, .rorTmp 11 48 64 48, .sub 2 (some 11) none none 0, .tmpXor 15 0,
  .rorTmp 15 9 64 9, .sub 0 (some 15) none none 0, .tmpXor 9 10, .rorTmp 9 25 64 25, .sub 10 (some 9) none none 0,
  .tmpXor 11 8, .rorTmp 11 44 64 44, .sub 8 (some 11) none none 0, .tmpXor 13 14, .rorTmp 13 42 64 42,
  .sub 14 (some 13) none none 0, .tmpXor 15 12, .rorTmp 15 19 64 19, .sub 12 (some 15) none none 0, .tmpXor 1 6,
  .rorTmp 1 46 64 46, .sub 6 (some 1) none none 0, .tmpXor 3 4, .rorTmp 3 47 64 47, .sub 4 (some 3) none none 0,
  .tmpXor 5 2, .rorTmp 5 44 64 44, .sub 2 (some 5) none none 0, .tmpXor 7 0, .rorTmp 7 31 64 31,
  .sub 0 (some 7) none none 0, .tmpXor 1 8, .rorTmp 1 41 64 41, .sub 8 (some 1) none none 0, .tmpXor 5 14,
  .rorTmp 5 42 64 42, .sub 14 (some 5) none none 0, .tmpXor 3 12, .rorTmp 3 53 64 53, .sub 12 (some 3) none none 0,
  .tmpXor 7 10, .rorTmp 7 4 64 4, .sub 10 (some 7) none none 0, .tmpXor 15 4, .rorTmp 15 51 64 51,
  .sub 4 (some 15) none none 0, .tmpXor 11 6, .rorTmp 11 56 64 56, .sub 6 (some 11) none none 0, .tmpXor 13 2,
  .rorTmp 13 34 64 34, .sub 2 (some 13) none none 0, .tmpXor 9 0, .rorTmp 9 16 64 16, .sub 0 (some 9) none none 0,
  .tmpXor 15 14, .rorTmp 15 30 64 30, .sub 14 (some 15) (some 2) (some 0) 0, .sub 15 none (some 3) none 5, .tmpXor 13 12,
  .rorTmp 13 44 64 44, .sub 12 (some 13) (some 0) none 0, .sub 13 none (some 1) (some 2) 0, .tmpXor 11 10, .rorTmp 11 47 64 47,
  .sub 10 (some 11) (some 15) none 0, .sub 11 none (some 16) none 0, .tmpXor 9 8, .rorTmp 9 12 64 12, .sub 8 (some 9) (some 13) none 0,
  .sub 9 none (some 14) none 0, .tmpXor 7 6, .rorTmp 7 31 64 31, .sub 6 (some 7) (some 11) none 0, .sub 7 none (some 12) none 0]

/-- crypter1024.go:3175-3274 -/
def decrypt1024_16 : List Raw := [
  .tmpXor 5 4, .rorTmp 5 37 64 37, .sub 4 (some 5) (some 9) none 0, .sub 5 none (some 10) none 0, .tmpXor 3 2,
  .rorTmp 3 9 64 9, .sub 2 (some 3) (some 7) none 0, .sub 3 none (some 8) none 0, .tmpXor 1 0, .rorTmp 1 41 64 41,
  .sub 0 (some 1) (some 5) none 0, .sub 1 none (some 6) none 0, .tmpXor 7 12, .rorTmp 7 25 64 25, .sub 12 (some 7) none none 0,
  .tmpXor 3 10, .rorTmp 3 16 64 16, .sub 10 (some 3) none none 0, .tmpXor 5 8, .rorTmp 5 28 64 28,
  .sub 8 (some 5) none none 0, .tmpXor 1 14, .rorTmp 1 47 64 47, .sub 14 (some 1) none none 0, .tmpXor 9 4,
  .rorTmp 9 41 64 41, .sub 4 (some 9) none none 0, .tmpXor 13 6, .rorTmp 13 48 64 48, .sub 6 (some 13) none none 0,
  .tmpXor 11 2, .rorTmp 11 20 64 20, .sub 2 (some 11) none none 0, .tmpXor 15 0, .rorTmp 15 5 64 5,
  .sub 0 (some 15) none none 0, .tmpXor 9 10, .rorTmp 9 17 64 17, .sub 10 (some 9) none none 0, .tmpXor 11 8,
  .rorTmp 11 59 64 59, .sub 8 (some 11) none none 0, .tmpXor 13 14, .rorTmp 13 41 64 41, .sub 14 (some 13) none none 0,
  .tmpXor 15 12, .rorTmp 15 34 64 34, .sub 12 (some 15) none none 0, .tmpXor 1 6, .rorTmp 1 13 64 13,
  .sub 6 (some 1) none none 0, .tmpXor 3 4, .rorTmp 3 51 64 51, .sub 4 (some 3) none none 0, .tmpXor 5 2,
  .rorTmp 5 4 64 4, .sub 2 (some 5) none none 0, .tmpXor 7 0, .rorTmp 7 33 64 33, .sub 0 (some 7) none none 0,
  .tmpXor 1 8, .rorTmp 1 52 64 52, .sub 8 (some 1) none none 0, .tmpXor 5 14, .rorTmp 5 23 64 23,
  .sub 14 (some 5) none none 0, .tmpXor 3 12, .rorTmp 3 18 64 18, .sub 12 (some 3) none none 0, .tmpXor 7 10,
  .rorTmp 7 49 64 49, .sub 10 (some 7) none none 0, .tmpXor 15 4, .rorTmp 15 55 64 55, .sub 4 (some 15) none none 0,
  .tmpXor 11 6, .rorTmp 11 10 64 10, .sub 6 (some 11) none none 0, .tmpXor 13 2, .rorTmp 13 19 64 19,
  .sub 2 (some 13) none none 0, .tmpXor 9 0, .rorTmp 9 38 64 38, .sub 0 (some 9) none none 0, .tmpXor 15 14,
  .rorTmp 15 37 64 37, .sub 14 (some 15) (some 1) (some 2) 0, .sub 15 none (some 2) none 4, .tmpXor 13 12, .rorTmp 13 22 64 22,
  .sub 12 (some 13) (some 16) none 0, .sub 13 none (some 0) (some 1) 0, .tmpXor 11 10, .rorTmp 11 17 64 17, .sub 10 (some 11) (some 14) none 0,
  .sub 11 none (some 15) none 0, .tmpXor 9 8, .rorTmp 9 8 64 8, .sub 8 (some 9) (some 12) none 0, .sub 9 none (some 13) none 0]

/-- crypter1024.go:3275-3374 -/
def decrypt1024_17 : List Raw := [
  .tmpXor 7 6, .rorTmp 7 47 64 47, .sub 6 (some 7) (some 10) none 0, .sub 7 none (some 11) none 0, .tmpXor 5 4,
  .rorTmp 5 8 64 8, .sub 4 (some 5) (some 8) none 0, .sub 5 none (some 9) none 0, .tmpXor 3 2, .rorTmp 3 13 64 13,
  .sub 2 (some 3) (some 6) none 0, .sub 3 none (some 7) none 0, .tmpXor 1 0, .rorTmp 1 24 64 24, .sub 0 (some 1) (some 4) none 0,
  .sub 1 none (some 5) none 0, .tmpXor 7 12, .rorTmp 7 20 64 20, .sub 12 (some 7) none none 0, .tmpXor 3 10,
  .rorTmp 3 37 64 37, .sub 10 (some 3) none none 0, .tmpXor 5 8, .rorTmp 5 31 64 31, .sub 8 (some 5) none none 0,
  .tmpXor 1 14, .rorTmp 1 23 64 23, .sub 14 (some 1) none none 0, .tmpXor 9 4, .rorTmp 9 52 64 52,
  .sub 4 (some 9) none none 0, .tmpXor 13 6, .rorTmp 13 35 64 35, .sub 6 (some 13) none none 0, .tmpXor 11 2,
  .rorTmp 11 48 64 48, .sub 2 (some 11) none none 0, .tmpXor 15 0, .rorTmp 15 9 64 9, .sub 0 (some 15) none none 0,
  .tmpXor 9 10, .rorTmp 9 25 64 25, .sub 10 (some 9) none none 0, .tmpXor 11 8, .rorTmp 11 44 64 44,
  .sub 8 (some 11) none none 0, .tmpXor 13 14, .rorTmp 13 42 64 42, .sub 14 (some 13) none none 0, .tmpXor 15 12,
  .rorTmp 15 19 64 19, .sub 12 (some 15) none none 0, .tmpXor 1 6, .rorTmp 1 46 64 46, .sub 6 (some 1) none none 0,
  .tmpXor 3 4, .rorTmp 3 47 64 47, .sub 4 (some 3) none none 0, .tmpXor 5 2, .rorTmp 5 44 64 44,
  .sub 2 (some 5) none none 0, .tmpXor 7 0, .rorTmp 7 31 64 31, .sub 0 (some 7) none none 0, .tmpXor 1 8,
  .rorTmp 1 41 64 41, .sub 8 (some 1) none none 0, .tmpXor 5 14, .rorTmp 5 42 64 42, .sub 14 (some 5) none none 0,
  .tmpXor 3 12, .rorTmp 3 53 64 53, .sub 12 (some 3) none none 0, .tmpXor 7 10, .rorTmp 7 4 64 4,
  .sub 10 (some 7) none none 0, .tmpXor 15 4, .rorTmp 15 51 64 51, .sub 4 (some 15) none none 0, .tmpXor 11 6,
  .rorTmp 11 56 64 56, .sub 6 (some 11) none none 0, .tmpXor 13 2, .rorTmp 13 34 64 34, .sub 2 (some 13) none none 0,
  .tmpXor 9 0, .rorTmp 9 16 64 16, .sub 0 (some 9) none none 0, .tmpXor 15 14, .rorTmp 15 30 64 30,
  .sub 14 (some 15) (some 0) (some 1) 0, .sub 15 none (some 1) none 3, .tmpXor 13 12, .rorTmp 13 44 64 44, .sub 12 (some 13) (some 15) none 0,
  .sub 13 none (some 16) (some 0) 0, .tmpXor 11 10, .rorTmp 11 47 64 47, .sub 10 (some 11) (some 13) none 0, .sub 11 none (some 14) none 0]

/-- crypter1024.go:3375-3474 -/
def decrypt1024_18 : List Raw := [
  .tmpXor 9 8, .rorTmp 9 12 64 12, .sub 8 (some 9) (some 11) none 0, .sub 9 none (some 12) none 0, .tmpXor 7 6,
  .rorTmp 7 31 64 31, .sub 6 (some 7) (some 9) none 0, .sub 7 none (some 10) none 0, .tmpXor 5 4, .rorTmp 5 37 64 37,
  .sub 4 (some 5) (some 7) none 0, .sub 5 none (some 8) none 0, .tmpXor 3 2, .rorTmp 3 9 64 9, .sub 2 (some 3) (some 5) none 0,
  .sub 3 none (some 6) none 0, .tmpXor 1 0, .rorTmp 1 41 64 41, .sub 0 (some 1) (some 3) none 0, .sub 1 none (some 4) none 0,
  .tmpXor 7 12, .rorTmp 7 25 64 25, .sub 12 (some 7) none none 0, .tmpXor 3 10, .rorTmp 3 16 64 16,
  .sub 10 (some 3) none none 0, .tmpXor 5 8, .rorTmp 5 28 64 28, .sub 8 (some 5) none none 0, .tmpXor 1 14,
  .rorTmp 1 47 64 47, .sub 14 (some 1) none none 0, .tmpXor 9 4, .rorTmp 9 41 64 41, .sub 4 (some 9) none none 0,
  .tmpXor 13 6, .rorTmp 13 48 64 48, .sub 6 (some 13) none none 0, .tmpXor 11 2, .rorTmp 11 20 64 20,
  .sub 2 (some 11) none none 0, .tmpXor 15 0, .rorTmp 15 5 64 5, .sub 0 (some 15) none none 0, .tmpXor 9 10,
  .rorTmp 9 17 64 17, .sub 10 (some 9) none none 0, .tmpXor 11 8, .rorTmp 11 59 64 59, .sub 8 (some 11) none none 0,
  .tmpXor 13 14, .rorTmp 13 41 64 41, .sub 14 (some 13) none none 0, .tmpXor 15 12, .rorTmp 15 34 64 34,
  .sub 12 (some 15) none none 0, .tmpXor 1 6, .rorTmp 1 13 64 13, .sub 6 (some 1) none none 0, .tmpXor 3 4,
  .rorTmp 3 51 64 51, .sub 4 (some 3) none none 0, .tmpXor 5 2, .rorTmp 5 4 64 4, .sub 2 (some 5) none none 0,
  .tmpXor 7 0, .rorTmp 7 33 64 33, .sub 0 (some 7) none none 0, .tmpXor 1 8, .rorTmp 1 52 64 52,
  .sub 8 (some 1) none none 0, .tmpXor 5 14, .rorTmp 5 23 64 23, .sub 14 (some 5) none none 0, .tmpXor 3 12,
  .rorTmp 3 18 64 18, .sub 12 (some 3) none none 0, .tmpXor 7 10, .rorTmp 7 49 64 49, .sub 10 (some 7) none none 0,
  .tmpXor 15 4, .rorTmp 15 55 64 55, .sub 4 (some 15) none none 0, .tmpXor 11 6, .rorTmp 11 10 64 10,
  .sub 6 (some 11) none none 0, .tmpXor 13 2, .rorTmp 13 19 64 19, .sub 2 (some 13) none none 0, .tmpXor 9 0,
  .rorTmp 9 38 64 38, .sub 0 (some 9) none none 0, .tmpXor 15 14, .rorTmp 15 37 64 37, .sub 14 (some 15) (some 16) (some 0) 0,
  .sub 15 none (some 0) none 2, .tmpXor 13 12, .rorTmp 13 22 64 22, .sub 12 (some 13) (some 14) none 0, .sub 13 none (some 15) (some 2) 0]

/-- crypter1024.go:3475-3574 -/
def decrypt1024_19 : List Raw := [
  .tmpXor 11 10, .rorTmp 11 17 64 17, .sub 10 (some 11) (some 12) none 0, .sub 11 none (some 13) none 0, .tmpXor 9 8,
  .rorTmp 9 8 64 8, .sub 8 (some 9) (some 10) none 0, .sub 9 none (some 11) none 0, .tmpXor 7 6, .rorTmp 7 47 64 47,
  .sub 6 (some 7) (some 8) none 0, .sub 7 none (some 9) none 0, .tmpXor 5 4, .rorTmp 5 8 64 8, .sub 4 (some 5) (some 6) none 0,
  .sub 5 none (some 7) none 0, .tmpXor 3 2, .rorTmp 3 13 64 13, .sub 2 (some 3) (some 4) none 0, .sub 3 none (some 5) none 0,
  .tmpXor 1 0, .rorTmp 1 24 64 24, .sub 0 (some 1) (some 2) none 0, .sub 1 none (some 3) none 0, .tmpXor 7 12,
  .rorTmp 7 20 64 20, .sub 12 (some 7) none none 0, .tmpXor 3 10, .rorTmp 3 37 64 37, .sub 10 (some 3) none none 0,
  .tmpXor 5 8, .rorTmp 5 31 64 31, .sub 8 (some 5) none none 0, .tmpXor 1 14, .rorTmp 1 23 64 23,
  .sub 14 (some 1) none none 0, .tmpXor 9 4, .rorTmp 9 52 64 52, .sub 4 (some 9) none none 0, .tmpXor 13 6,
  .rorTmp 13 35 64 35, .sub 6 (some 13) none none 0, .tmpXor 11 2, .rorTmp 11 48 64 48, .sub 2 (some 11) none none 0,
  .tmpXor 15 0, .rorTmp 15 9 64 9, .sub 0 (some 15) none none 0, .tmpXor 9 10, .rorTmp 9 25 64 25,
  .sub 10 (some 9) none none 0, .tmpXor 11 8, .rorTmp 11 44 64 44, .sub 8 (some 11) none none 0, .tmpXor 13 14,
  .rorTmp 13 42 64 42, .sub 14 (some 13) none none 0, .tmpXor 15 12, .rorTmp 15 19 64 19, .sub 12 (some 15) none none 0,
  .tmpXor 1 6, .rorTmp 1 46 64 46, .sub 6 (some 1) none none 0, .tmpXor 3 4, .rorTmp 3 47 64 47,
  .sub 4 (some 3) none none 0, .tmpXor 5 2, .rorTmp 5 44 64 44, .sub 2 (some 5) none none 0, .tmpXor 7 0,
  .rorTmp 7 31 64 31, .sub 0 (some 7) none none 0, .tmpXor 1 8, .rorTmp 1 41 64 41, .sub 8 (some 1) none none 0,
  .tmpXor 5 14, .rorTmp 5 42 64 42, .sub 14 (some 5) none none 0, .tmpXor 3 12, .rorTmp 3 53 64 53,
  .sub 12 (some 3) none none 0, .tmpXor 7 10, .rorTmp 7 4 64 4, .sub 10 (some 7) none none 0, .tmpXor 15 4,
  .rorTmp 15 51 64 51, .sub 4 (some 15) none none 0, .tmpXor 11 6, .rorTmp 11 56 64 56, .sub 6 (some 11) none none 0,
  .tmpXor 13 2, .rorTmp 13 34 64 34, .sub 2 (some 13) none none 0, .tmpXor 9 0, .rorTmp 9 16 64 16,
  .sub 0 (some 9) none none 0, .tmpXor 15 14, .rorTmp 15 30 64 30, .sub 14 (some 15) (some 15) (some 2) 0, .sub 15 none (some 16) none 1]

/-- crypter1024.go:3575-3674 -/
def decrypt1024_20 : List Raw := [
  .tmpXor 13 12, .rorTmp 13 44 64 44, .sub 12 (some 13) (some 13) none 0, .sub 13 none (some 14) (some 1) 0, .tmpXor 11 10,
  .rorTmp 11 47 64 47, .sub 10 (some 11) (some 11) none 0, .sub 11 none (some 12) none 0, .tmpXor 9 8, .rorTmp 9 12 64 12,
  .sub 8 (some 9) (some 9) none 0, .sub 9 none (some 10) none 0, .tmpXor 7 6, .rorTmp 7 31 64 31, .sub 6 (some 7) (some 7) none 0,
  .sub 7 none (some 8) none 0, .tmpXor 5 4, .rorTmp 5 37 64 37, .sub 4 (some 5) (some 5) none 0, .sub 5 none (some 6) none 0,
  .tmpXor 3 2, .rorTmp 3 9 64 9, .sub 2 (some 3) (some 3) none 0, .sub 3 none (some 4) none 0, .tmpXor 1 0,
  .rorTmp 1 41 64 41, .sub 0 (some 1) (some 1) none 0, .sub 1 none (some 2) none 0, .tmpXor 7 12, .rorTmp 7 25 64 25,
  .sub 12 (some 7) none none 0, .tmpXor 3 10, .rorTmp 3 16 64 16, .sub 10 (some 3) none none 0, .tmpXor 5 8,
  .rorTmp 5 28 64 28, .sub 8 (some 5) none none 0, .tmpXor 1 14, .rorTmp 1 47 64 47, .sub 14 (some 1) none none 0,
  .tmpXor 9 4, .rorTmp 9 41 64 41, .sub 4 (some 9) none none 0, .tmpXor 13 6, .rorTmp 13 48 64 48,
  .sub 6 (some 13) none none 0, .tmpXor 11 2, .rorTmp 11 20 64 20, .sub 2 (some 11) none none 0, .tmpXor 15 0,
  .rorTmp 15 5 64 5, .sub 0 (some 15) none none 0, .tmpXor 9 10, .rorTmp 9 17 64 17, .sub 10 (some 9) none none 0,
  .tmpXor 11 8, .rorTmp 11 59 64 59, .sub 8 (some 11) none none 0, .tmpXor 13 14, .rorTmp 13 41 64 41,
  .sub 14 (some 13) none none 0, .tmpXor 15 12, .rorTmp 15 34 64 34, .sub 12 (some 15) none none 0, .tmpXor 1 6,
  .rorTmp 1 13 64 13, .sub 6 (some 1) none none 0, .tmpXor 3 4, .rorTmp 3 51 64 51, .sub 4 (some 3) none none 0,
  .tmpXor 5 2, .rorTmp 5 4 64 4, .sub 2 (some 5) none none 0, .tmpXor 7 0, .rorTmp 7 33 64 33,
  .sub 0 (some 7) none none 0, .tmpXor 1 8, .rorTmp 1 52 64 52, .sub 8 (some 1) none none 0, .tmpXor 5 14,
  .rorTmp 5 23 64 23, .sub 14 (some 5) none none 0, .tmpXor 3 12, .rorTmp 3 18 64 18, .sub 12 (some 3) none none 0,
  .tmpXor 7 10, .rorTmp 7 49 64 49, .sub 10 (some 7) none none 0, .tmpXor 15 4, .rorTmp 15 55 64 55,
  .sub 4 (some 15) none none 0, .tmpXor 11 6, .rorTmp 11 10 64 10, .sub 6 (some 11) none none 0, .tmpXor 13 2,
  .rorTmp 13 19 64 19, .sub 2 (some 13) none none 0, .tmpXor 9 0, .rorTmp 9 38 64 38, .sub 0 (some 9) none none 0]

/-- crypter1024.go:3675-3723 -/
def decrypt1024_21 : List Raw := [
  .tmpXor 15 14, .rorTmp 15 37 64 37, .sub 14 (some 15) (some 14) (some 1) 0, .sub 15 none (some 15) none 0, .tmpXor 13 12,
  .rorTmp 13 22 64 22, .sub 12 (some 13) (some 12) none 0, .sub 13 none (some 13) (some 0) 0, .tmpXor 11 10, .rorTmp 11 17 64 17,
  .sub 10 (some 11) (some 10) none 0, .sub 11 none (some 11) none 0, .tmpXor 9 8, .rorTmp 9 8 64 8, .sub 8 (some 9) (some 8) none 0,
  .sub 9 none (some 9) none 0, .tmpXor 7 6, .rorTmp 7 47 64 47, .sub 6 (some 7) (some 6) none 0, .sub 7 none (some 7) none 0,
  .tmpXor 5 4, .rorTmp 5 8 64 8, .sub 4 (some 5) (some 4) none 0, .sub 5 none (some 5) none 0, .tmpXor 3 2,
  .rorTmp 3 13 64 13, .sub 2 (some 3) (some 2) none 0, .sub 3 none (some 3) none 0, .tmpXor 1 0, .rorTmp 1 24 64 24,
  .sub 0 (some 1) (some 0) none 0, .sub 1 none (some 1) none 0, .out 15 15 none none 0, .out 14 14 none none 0, .out 13 13 none none 0,
  .out 12 12 none none 0, .out 11 11 none none 0, .out 10 10 none none 0, .out 9 9 none none 0, .out 8 8 none none 0,
  .out 7 7 none none 0, .out 6 6 none none 0, .out 5 5 none none 0, .out 4 4 none none 0, .out 3 3 none none 0,
  .out 2 2 none none 0, .out 1 1 none none 0, .out 0 0 none none 0]

/-- The body of `threefish1024.decrypt`, crypter1024.go:1567-3724. -/
def decrypt1024 : List Raw := decrypt1024_0 ++ decrypt1024_1 ++ decrypt1024_2 ++ decrypt1024_3 ++ decrypt1024_4 ++ decrypt1024_5 ++ decrypt1024_6 ++ decrypt1024_7 ++ decrypt1024_8 ++ decrypt1024_9 ++ decrypt1024_10 ++ decrypt1024_11 ++ decrypt1024_12 ++ decrypt1024_13 ++ decrypt1024_14 ++ decrypt1024_15 ++ decrypt1024_16 ++ decrypt1024_17 ++ decrypt1024_18 ++ decrypt1024_19 ++ decrypt1024_20 ++ decrypt1024_21

end Verif.Crypter
