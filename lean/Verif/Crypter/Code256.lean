import Verif.Crypter.Machine
/-
Generated by tools/gen_threefish.py from /repo/crypter/crypter256.go, one `Raw` per Go statement, in order.
`var tmp uint64` is the zero-initialised `tmp` of `RawState`.
-/
namespace Verif.Crypter

/-- crypter256.go:68-170 -/
def encrypt256_0 : List Raw := [
  .loadB 0 0, .loadB 1 1, .loadB 2 2, .loadB 3 3, .loadK 0 0,
  .loadK 1 1, .loadK 2 2, .loadK 3 3, .loadK 4 4, .loadT 0 0,
  .loadT 1 1, .loadT 2 2, .add 1 none (some 1) (some 0) 0, .add 0 (some 1) (some 0) none 0, .rolXor 1 1 14 1 64 14 0,
  .add 3 none (some 3) none 0, .add 2 (some 3) (some 2) (some 1) 0, .rolXor 3 3 16 3 64 16 2, .add 0 (some 3) none none 0, .rolXor 3 3 52 3 64 52 0,
  .add 2 (some 1) none none 0, .rolXor 1 1 57 1 64 57 2, .add 0 (some 1) none none 0, .rolXor 1 1 23 1 64 23 0, .add 2 (some 3) none none 0,
  .rolXor 3 3 40 3 64 40 2, .add 0 (some 3) none none 0, .rolXor 3 3 5 3 64 5 0, .add 2 (some 1) none none 0, .rolXor 1 1 37 1 64 37 2,
  .add 1 none (some 2) (some 1) 0, .add 0 (some 1) (some 1) none 0, .rolXor 1 1 25 1 64 25 0, .add 3 none (some 4) none 1, .add 2 (some 3) (some 3) (some 2) 0,
  .rolXor 3 3 33 3 64 33 2, .add 0 (some 3) none none 0, .rolXor 3 3 46 3 64 46 0, .add 2 (some 1) none none 0, .rolXor 1 1 12 1 64 12 2,
  .add 0 (some 1) none none 0, .rolXor 1 1 58 1 64 58 0, .add 2 (some 3) none none 0, .rolXor 3 3 22 3 64 22 2, .add 0 (some 3) none none 0,
  .rolXor 3 3 32 3 64 32 0, .add 2 (some 1) none none 0, .rolXor 1 1 32 1 64 32 2, .add 1 none (some 3) (some 2) 0, .add 0 (some 1) (some 2) none 0,
  .rolXor 1 1 14 1 64 14 0, .add 3 none (some 0) none 2, .add 2 (some 3) (some 4) (some 0) 0, .rolXor 3 3 16 3 64 16 2, .add 0 (some 3) none none 0,
  .rolXor 3 3 52 3 64 52 0, .add 2 (some 1) none none 0, .rolXor 1 1 57 1 64 57 2, .add 0 (some 1) none none 0, .rolXor 1 1 23 1 64 23 0,
  .add 2 (some 3) none none 0, .rolXor 3 3 40 3 64 40 2, .add 0 (some 3) none none 0, .rolXor 3 3 5 3 64 5 0, .add 2 (some 1) none none 0,
  .rolXor 1 1 37 1 64 37 2, .add 1 none (some 4) (some 0) 0, .add 0 (some 1) (some 3) none 0, .rolXor 1 1 25 1 64 25 0, .add 3 none (some 1) none 3,
  .add 2 (some 3) (some 0) (some 1) 0, .rolXor 3 3 33 3 64 33 2, .add 0 (some 3) none none 0, .rolXor 3 3 46 3 64 46 0, .add 2 (some 1) none none 0,
  .rolXor 1 1 12 1 64 12 2, .add 0 (some 1) none none 0, .rolXor 1 1 58 1 64 58 0, .add 2 (some 3) none none 0, .rolXor 3 3 22 3 64 22 2,
  .add 0 (some 3) none none 0, .rolXor 3 3 32 3 64 32 0, .add 2 (some 1) none none 0, .rolXor 1 1 32 1 64 32 2, .add 1 none (some 0) (some 1) 0,
  .add 0 (some 1) (some 4) none 0, .rolXor 1 1 14 1 64 14 0, .add 3 none (some 2) none 4, .add 2 (some 3) (some 1) (some 2) 0, .rolXor 3 3 16 3 64 16 2,
  .add 0 (some 3) none none 0, .rolXor 3 3 52 3 64 52 0, .add 2 (some 1) none none 0, .rolXor 1 1 57 1 64 57 2, .add 0 (some 1) none none 0,
  .rolXor 1 1 23 1 64 23 0, .add 2 (some 3) none none 0, .rolXor 3 3 40 3 64 40 2, .add 0 (some 3) none none 0, .rolXor 3 3 5 3 64 5 0]

/-- crypter256.go:171-270 -/
def encrypt256_1 : List Raw := [
  .add 2 (some 1) none none 0, .rolXor 1 1 37 1 64 37 2, .add 1 none (some 1) (some 2) 0, .add 0 (some 1) (some 0) none 0, .rolXor 1 1 25 1 64 25 0,
  .add 3 none (some 3) none 5, .add 2 (some 3) (some 2) (some 0) 0, .rolXor 3 3 33 3 64 33 2, .add 0 (some 3) none none 0, .rolXor 3 3 46 3 64 46 0,
  .add 2 (some 1) none none 0, .rolXor 1 1 12 1 64 12 2, .add 0 (some 1) none none 0, .rolXor 1 1 58 1 64 58 0, .add 2 (some 3) none none 0,
  .rolXor 3 3 22 3 64 22 2, .add 0 (some 3) none none 0, .rolXor 3 3 32 3 64 32 0, .add 2 (some 1) none none 0, .rolXor 1 1 32 1 64 32 2,
  .add 1 none (some 2) (some 0) 0, .add 0 (some 1) (some 1) none 0, .rolXor 1 1 14 1 64 14 0, .add 3 none (some 4) none 6, .add 2 (some 3) (some 3) (some 1) 0,
  .rolXor 3 3 16 3 64 16 2, .add 0 (some 3) none none 0, .rolXor 3 3 52 3 64 52 0, .add 2 (some 1) none none 0, .rolXor 1 1 57 1 64 57 2,
  .add 0 (some 1) none none 0, .rolXor 1 1 23 1 64 23 0, .add 2 (some 3) none none 0, .rolXor 3 3 40 3 64 40 2, .add 0 (some 3) none none 0,
  .rolXor 3 3 5 3 64 5 0, .add 2 (some 1) none none 0, .rolXor 1 1 37 1 64 37 2, .add 1 none (some 3) (some 1) 0, .add 0 (some 1) (some 2) none 0,
  .rolXor 1 1 25 1 64 25 0, .add 3 none (some 0) none 7, .add 2 (some 3) (some 4) (some 2) 0, .rolXor 3 3 33 3 64 33 2, .add 0 (some 3) none none 0,
  .rolXor 3 3 46 3 64 46 0, .add 2 (some 1) none none 0, .rolXor 1 1 12 1 64 12 2, .add 0 (some 1) none none 0, .rolXor 1 1 58 1 64 58 0,
  .add 2 (some 3) none none 0, .rolXor 3 3 22 3 64 22 2, .add 0 (some 3) none none 0, .rolXor 3 3 32 3 64 32 0, .add 2 (some 1) none none 0,
  .rolXor 1 1 32 1 64 32 2, .add 1 none (some 4) (some 2) 0, .add 0 (some 1) (some 3) none 0, .rolXor 1 1 14 1 64 14 0, .add 3 none (some 1) none 8,
  .add 2 (some 3) (some 0) (some 0) 0, .rolXor 3 3 16 3 64 16 2, .add 0 (some 3) none none 0, .rolXor 3 3 52 3 64 52 0, .add 2 (some 1) none none 0,
  .rolXor 1 1 57 1 64 57 2, .add 0 (some 1) none none 0, .rolXor 1 1 23 1 64 23 0, .add 2 (some 3) none none 0, .rolXor 3 3 40 3 64 40 2,
  .add 0 (some 3) none none 0, .rolXor 3 3 5 3 64 5 0, .add 2 (some 1) none none 0, .rolXor 1 1 37 1 64 37 2, .add 1 none (some 0) (some 0) 0,
  .add 0 (some 1) (some 4) none 0, .rolXor 1 1 25 1 64 25 0, .add 3 none (some 2) none 9, .add 2 (some 3) (some 1) (some 1) 0, .rolXor 3 3 33 3 64 33 2,
  .add 0 (some 3) none none 0, .rolXor 3 3 46 3 64 46 0, .add 2 (some 1) none none 0, .rolXor 1 1 12 1 64 12 2, .add 0 (some 1) none none 0,
  .rolXor 1 1 58 1 64 58 0, .add 2 (some 3) none none 0, .rolXor 3 3 22 3 64 22 2, .add 0 (some 3) none none 0, .rolXor 3 3 32 3 64 32 0,
  .add 2 (some 1) none none 0, .rolXor 1 1 32 1 64 32 2, .add 1 none (some 1) (some 1) 0, .add 0 (some 1) (some 0) none 0, .rolXor 1 1 14 1 64 14 0,
  .add 3 none (some 3) none 10, .add 2 (some 3) (some 2) (some 2) 0, .rolXor 3 3 16 3 64 16 2, .add 0 (some 3) none none 0, .rolXor 3 3 52 3 64 52 0]

/-- crypter256.go:271-370 -/
def encrypt256_2 : List Raw := [
  .add 2 (some 1) none none 0, .rolXor 1 1 57 1 64 57 2, .add 0 (some 1) none none 0, .rolXor 1 1 23 1 64 23 0, .add 2 (some 3) none none 0,
  .rolXor 3 3 40 3 64 40 2, .add 0 (some 3) none none 0, .rolXor 3 3 5 3 64 5 0, .add 2 (some 1) none none 0, .rolXor 1 1 37 1 64 37 2,
  .add 1 none (some 2) (some 2) 0, .add 0 (some 1) (some 1) none 0, .rolXor 1 1 25 1 64 25 0, .add 3 none (some 4) none 11, .add 2 (some 3) (some 3) (some 0) 0,
  .rolXor 3 3 33 3 64 33 2, .add 0 (some 3) none none 0, .rolXor 3 3 46 3 64 46 0, .add 2 (some 1) none none 0, .rolXor 1 1 12 1 64 12 2,
  .add 0 (some 1) none none 0, .rolXor 1 1 58 1 64 58 0, .add 2 (some 3) none none 0, .rolXor 3 3 22 3 64 22 2, .add 0 (some 3) none none 0,
  .rolXor 3 3 32 3 64 32 0, .add 2 (some 1) none none 0, .rolXor 1 1 32 1 64 32 2, .add 1 none (some 3) (some 0) 0, .add 0 (some 1) (some 2) none 0,
  .rolXor 1 1 14 1 64 14 0, .add 3 none (some 0) none 12, .add 2 (some 3) (some 4) (some 1) 0, .rolXor 3 3 16 3 64 16 2, .add 0 (some 3) none none 0,
  .rolXor 3 3 52 3 64 52 0, .add 2 (some 1) none none 0, .rolXor 1 1 57 1 64 57 2, .add 0 (some 1) none none 0, .rolXor 1 1 23 1 64 23 0,
  .add 2 (some 3) none none 0, .rolXor 3 3 40 3 64 40 2, .add 0 (some 3) none none 0, .rolXor 3 3 5 3 64 5 0, .add 2 (some 1) none none 0,
  .rolXor 1 1 37 1 64 37 2, .add 1 none (some 4) (some 1) 0, .add 0 (some 1) (some 3) none 0, .rolXor 1 1 25 1 64 25 0, .add 3 none (some 1) none 13,
  .add 2 (some 3) (some 0) (some 2) 0, .rolXor 3 3 33 3 64 33 2, .add 0 (some 3) none none 0, .rolXor 3 3 46 3 64 46 0, .add 2 (some 1) none none 0,
  .rolXor 1 1 12 1 64 12 2, .add 0 (some 1) none none 0, .rolXor 1 1 58 1 64 58 0, .add 2 (some 3) none none 0, .rolXor 3 3 22 3 64 22 2,
  .add 0 (some 3) none none 0, .rolXor 3 3 32 3 64 32 0, .add 2 (some 1) none none 0, .rolXor 1 1 32 1 64 32 2, .add 1 none (some 0) (some 2) 0,
  .add 0 (some 1) (some 4) none 0, .rolXor 1 1 14 1 64 14 0, .add 3 none (some 2) none 14, .add 2 (some 3) (some 1) (some 0) 0, .rolXor 3 3 16 3 64 16 2,
  .add 0 (some 3) none none 0, .rolXor 3 3 52 3 64 52 0, .add 2 (some 1) none none 0, .rolXor 1 1 57 1 64 57 2, .add 0 (some 1) none none 0,
  .rolXor 1 1 23 1 64 23 0, .add 2 (some 3) none none 0, .rolXor 3 3 40 3 64 40 2, .add 0 (some 3) none none 0, .rolXor 3 3 5 3 64 5 0,
  .add 2 (some 1) none none 0, .rolXor 1 1 37 1 64 37 2, .add 1 none (some 1) (some 0) 0, .add 0 (some 1) (some 0) none 0, .rolXor 1 1 25 1 64 25 0,
  .add 3 none (some 3) none 15, .add 2 (some 3) (some 2) (some 1) 0, .rolXor 3 3 33 3 64 33 2, .add 0 (some 3) none none 0, .rolXor 3 3 46 3 64 46 0,
  .add 2 (some 1) none none 0, .rolXor 1 1 12 1 64 12 2, .add 0 (some 1) none none 0, .rolXor 1 1 58 1 64 58 0, .add 2 (some 3) none none 0,
  .rolXor 3 3 22 3 64 22 2, .add 0 (some 3) none none 0, .rolXor 3 3 32 3 64 32 0, .add 2 (some 1) none none 0, .rolXor 1 1 32 1 64 32 2]

/-- crypter256.go:371-411 -/
def encrypt256_3 : List Raw := [
  .add 1 none (some 2) (some 1) 0, .add 0 (some 1) (some 1) none 0, .rolXor 1 1 14 1 64 14 0, .add 3 none (some 4) none 16, .add 2 (some 3) (some 3) (some 2) 0,
  .rolXor 3 3 16 3 64 16 2, .add 0 (some 3) none none 0, .rolXor 3 3 52 3 64 52 0, .add 2 (some 1) none none 0, .rolXor 1 1 57 1 64 57 2,
  .add 0 (some 1) none none 0, .rolXor 1 1 23 1 64 23 0, .add 2 (some 3) none none 0, .rolXor 3 3 40 3 64 40 2, .add 0 (some 3) none none 0,
  .rolXor 3 3 5 3 64 5 0, .add 2 (some 1) none none 0, .rolXor 1 1 37 1 64 37 2, .add 1 none (some 3) (some 2) 0, .add 0 (some 1) (some 2) none 0,
  .rolXor 1 1 25 1 64 25 0, .add 3 none (some 0) none 17, .add 2 (some 3) (some 4) (some 0) 0, .rolXor 3 3 33 3 64 33 2, .add 0 (some 3) none none 0,
  .rolXor 3 3 46 3 64 46 0, .add 2 (some 1) none none 0, .rolXor 1 1 12 1 64 12 2, .add 0 (some 1) none none 0, .rolXor 1 1 58 1 64 58 0,
  .add 2 (some 3) none none 0, .rolXor 3 3 22 3 64 22 2, .add 0 (some 3) none none 0, .rolXor 3 3 32 3 64 32 0, .add 2 (some 1) none none 0,
  .rolXor 1 1 32 1 64 32 2, .out 0 0 (some 3) none 0, .out 1 1 (some 4) (some 0) 0, .out 2 2 (some 0) (some 1) 0, .out 3 3 (some 1) none 18]

/-- The body of `threefish256.encrypt`, crypter256.go:66-413. -/
def encrypt256 : List Raw := encrypt256_0 ++ encrypt256_1 ++ encrypt256_2 ++ encrypt256_3

/-- crypter256.go:417-521 -/
def decrypt256_0 : List Raw := [
  .loadB 0 0, .loadB 1 1, .loadB 2 2, .loadB 3 3, .loadK 0 0,
  .loadK 1 1, .loadK 2 2, .loadK 3 3, .loadK 4 4, .loadT 0 0,
  .loadT 1 1, .loadT 2 2, .sub 0 none (some 3) none 0, .sub 1 none (some 4) (some 0) 0, .sub 2 none (some 0) (some 1) 0,
  .sub 3 none (some 1) none 18, .tmpXor 3 0, .rorTmp 3 32 64 32, .sub 0 (some 3) none none 0, .tmpXor 1 2,
  .rorTmp 1 32 64 32, .sub 2 (some 1) none none 0, .tmpXor 1 0, .rorTmp 1 58 64 58, .sub 0 (some 1) none none 0,
  .tmpXor 3 2, .rorTmp 3 22 64 22, .sub 2 (some 3) none none 0, .tmpXor 3 0, .rorTmp 3 46 64 46,
  .sub 0 (some 3) none none 0, .tmpXor 1 2, .rorTmp 1 12 64 12, .sub 2 (some 1) none none 0, .tmpXor 1 0,
  .rorTmp 1 25 64 25, .sub 0 (some 1) (some 2) none 0, .sub 1 none (some 3) (some 2) 0, .tmpXor 3 2, .rorTmp 3 33 64 33,
  .sub 2 (some 3) (some 4) (some 0) 0, .sub 3 none (some 0) none 17, .tmpXor 3 0, .rorTmp 3 5 64 5, .sub 0 (some 3) none none 0,
  .tmpXor 1 2, .rorTmp 1 37 64 37, .sub 2 (some 1) none none 0, .tmpXor 1 0, .rorTmp 1 23 64 23,
  .sub 0 (some 1) none none 0, .tmpXor 3 2, .rorTmp 3 40 64 40, .sub 2 (some 3) none none 0, .tmpXor 3 0,
  .rorTmp 3 52 64 52, .sub 0 (some 3) none none 0, .tmpXor 1 2, .rorTmp 1 57 64 57, .sub 2 (some 1) none none 0,
  .tmpXor 1 0, .rorTmp 1 14 64 14, .sub 0 (some 1) (some 1) none 0, .sub 1 none (some 2) (some 1) 0, .tmpXor 3 2,
  .rorTmp 3 16 64 16, .sub 2 (some 3) (some 3) (some 2) 0, .sub 3 none (some 4) none 16, .tmpXor 3 0, .rorTmp 3 32 64 32,
  .sub 0 (some 3) none none 0, .tmpXor 1 2, .rorTmp 1 32 64 32, .sub 2 (some 1) none none 0, .tmpXor 1 0,
  .rorTmp 1 58 64 58, .sub 0 (some 1) none none 0, .tmpXor 3 2, .rorTmp 3 22 64 22, .sub 2 (some 3) none none 0,
  .tmpXor 3 0, .rorTmp 3 46 64 46, .sub 0 (some 3) none none 0, .tmpXor 1 2, .rorTmp 1 12 64 12,
  .sub 2 (some 1) none none 0, .tmpXor 1 0, .rorTmp 1 25 64 25, .sub 0 (some 1) (some 0) none 0, .sub 1 none (some 1) (some 0) 0,
  .tmpXor 3 2, .rorTmp 3 33 64 33, .sub 2 (some 3) (some 2) (some 1) 0, .sub 3 none (some 3) none 15, .tmpXor 3 0,
  .rorTmp 3 5 64 5, .sub 0 (some 3) none none 0, .tmpXor 1 2, .rorTmp 1 37 64 37, .sub 2 (some 1) none none 0]

/-- crypter256.go:522-621 -/
def decrypt256_1 : List Raw := [
  .tmpXor 1 0, .rorTmp 1 23 64 23, .sub 0 (some 1) none none 0, .tmpXor 3 2, .rorTmp 3 40 64 40,
  .sub 2 (some 3) none none 0, .tmpXor 3 0, .rorTmp 3 52 64 52, .sub 0 (some 3) none none 0, .tmpXor 1 2,
  .rorTmp 1 57 64 57, .sub 2 (some 1) none none 0, .tmpXor 1 0, .rorTmp 1 14 64 14, .sub 0 (some 1) (some 4) none 0,
  .sub 1 none (some 0) (some 2) 0, .tmpXor 3 2, .rorTmp 3 16 64 16, .sub 2 (some 3) (some 1) (some 0) 0, .sub 3 none (some 2) none 14,
  .tmpXor 3 0, .rorTmp 3 32 64 32, .sub 0 (some 3) none none 0, .tmpXor 1 2, .rorTmp 1 32 64 32,
  .sub 2 (some 1) none none 0, .tmpXor 1 0, .rorTmp 1 58 64 58, .sub 0 (some 1) none none 0, .tmpXor 3 2,
  .rorTmp 3 22 64 22, .sub 2 (some 3) none none 0, .tmpXor 3 0, .rorTmp 3 46 64 46, .sub 0 (some 3) none none 0,
  .tmpXor 1 2, .rorTmp 1 12 64 12, .sub 2 (some 1) none none 0, .tmpXor 1 0, .rorTmp 1 25 64 25,
  .sub 0 (some 1) (some 3) none 0, .sub 1 none (some 4) (some 1) 0, .tmpXor 3 2, .rorTmp 3 33 64 33, .sub 2 (some 3) (some 0) (some 2) 0,
  .sub 3 none (some 1) none 13, .tmpXor 3 0, .rorTmp 3 5 64 5, .sub 0 (some 3) none none 0, .tmpXor 1 2,
  .rorTmp 1 37 64 37, .sub 2 (some 1) none none 0, .tmpXor 1 0, .rorTmp 1 23 64 23, .sub 0 (some 1) none none 0,
  .tmpXor 3 2, .rorTmp 3 40 64 40, .sub 2 (some 3) none none 0, .tmpXor 3 0, .rorTmp 3 52 64 52,
  .sub 0 (some 3) none none 0, .tmpXor 1 2, .rorTmp 1 57 64 57, .sub 2 (some 1) none none 0, .tmpXor 1 0,
  .rorTmp 1 14 64 14, .sub 0 (some 1) (some 2) none 0, .sub 1 none (some 3) (some 0) 0, .tmpXor 3 2, .rorTmp 3 16 64 16,
  .sub 2 (some 3) (some 4) (some 1) 0, .sub 3 none (some 0) none 12, .tmpXor 3 0, .rorTmp 3 32 64 32, .sub 0 (some 3) none none 0,
  .tmpXor 1 2, .rorTmp 1 32 64 32, .sub 2 (some 1) none none 0, .tmpXor 1 0, .rorTmp 1 58 64 58,
  .sub 0 (some 1) none none 0, .tmpXor 3 2, .rorTmp 3 22 64 22, .sub 2 (some 3) none none 0, .tmpXor 3 0,
  .rorTmp 3 46 64 46, .sub 0 (some 3) none none 0, .tmpXor 1 2, .rorTmp 1 12 64 12, .sub 2 (some 1) none none 0,
  .tmpXor 1 0, .rorTmp 1 25 64 25, .sub 0 (some 1) (some 1) none 0, .sub 1 none (some 2) (some 2) 0, .tmpXor 3 2,
  .rorTmp 3 33 64 33, .sub 2 (some 3) (some 3) (some 0) 0, .sub 3 none (some 4) none 11, .tmpXor 3 0, .rorTmp 3 5 64 5]

/-- crypter256.go:622-721 -/
def decrypt256_2 : List Raw := [
  .sub 0 (some 3) none none 0, .tmpXor 1 2, .rorTmp 1 37 64 37, .sub 2 (some 1) none none 0, .tmpXor 1 0,
  .rorTmp 1 23 64 23, .sub 0 (some 1) none none 0, .tmpXor 3 2, .rorTmp 3 40 64 40, .sub 2 (some 3) none none 0,
  .tmpXor 3 0, .rorTmp 3 52 64 52, .sub 0 (some 3) none none 0, .tmpXor 1 2, .rorTmp 1 57 64 57,
  .sub 2 (some 1) none none 0, .tmpXor 1 0, .rorTmp 1 14 64 14, .sub 0 (some 1) (some 0) none 0, .sub 1 none (some 1) (some 1) 0,
  .tmpXor 3 2, .rorTmp 3 16 64 16, .sub 2 (some 3) (some 2) (some 2) 0, .sub 3 none (some 3) none 10, .tmpXor 3 0,
  .rorTmp 3 32 64 32, .sub 0 (some 3) none none 0, .tmpXor 1 2, .rorTmp 1 32 64 32, .sub 2 (some 1) none none 0,
  .tmpXor 1 0, .rorTmp 1 58 64 58, .sub 0 (some 1) none none 0, .tmpXor 3 2, .rorTmp 3 22 64 22,
  .sub 2 (some 3) none none 0, .tmpXor 3 0, .rorTmp 3 46 64 46, .sub 0 (some 3) none none 0, .tmpXor 1 2,
  .rorTmp 1 12 64 12, .sub 2 (some 1) none none 0, .tmpXor 1 0, .rorTmp 1 25 64 25, .sub 0 (some 1) (some 4) none 0,
  .sub 1 none (some 0) (some 0) 0, .tmpXor 3 2, .rorTmp 3 33 64 33, .sub 2 (some 3) (some 1) (some 1) 0, .sub 3 none (some 2) none 9,
  .tmpXor 3 0, .rorTmp 3 5 64 5, .sub 0 (some 3) none none 0, .tmpXor 1 2, .rorTmp 1 37 64 37,
  .sub 2 (some 1) none none 0, .tmpXor 1 0, .rorTmp 1 23 64 23, .sub 0 (some 1) none none 0, .tmpXor 3 2,
  .rorTmp 3 40 64 40, .sub 2 (some 3) none none 0, .tmpXor 3 0, .rorTmp 3 52 64 52, .sub 0 (some 3) none none 0,
  .tmpXor 1 2, .rorTmp 1 57 64 57, .sub 2 (some 1) none none 0, .tmpXor 1 0, .rorTmp 1 14 64 14,
  .sub 0 (some 1) (some 3) none 0, .sub 1 none (some 4) (some 2) 0, .tmpXor 3 2, .rorTmp 3 16 64 16, .sub 2 (some 3) (some 0) (some 0) 0,
  .sub 3 none (some 1) none 8, .tmpXor 3 0, .rorTmp 3 32 64 32, .sub 0 (some 3) none none 0, .tmpXor 1 2,
  .rorTmp 1 32 64 32, .sub 2 (some 1) none none 0, .tmpXor 1 0, .rorTmp 1 58 64 58, .sub 0 (some 1) none none 0,
  .tmpXor 3 2, .rorTmp 3 22 64 22, .sub 2 (some 3) none none 0, .tmpXor 3 0, .rorTmp 3 46 64 46,
  .sub 0 (some 3) none none 0, .tmpXor 1 2, .rorTmp 1 12 64 12, .sub 2 (some 1) none none 0, .tmpXor 1 0,
  .rorTmp 1 25 64 25, .sub 0 (some 1) (some 2) none 0, .sub 1 none (some 3) (some 1) 0, .tmpXor 3 2, .rorTmp 3 33 64 33]

/-- crypter256.go:722-821 -/
def decrypt256_3 : List Raw := [
  .sub 2 (some 3) (some 4) (some 2) 0, .sub 3 none (some 0) none 7, .tmpXor 3 0, .rorTmp 3 5 64 5, .sub 0 (some 3) none none 0,
  .tmpXor 1 2, .rorTmp 1 37 64 37, .sub 2 (some 1) none none 0, .tmpXor 1 0, .rorTmp 1 23 64 23,
  .sub 0 (some 1) none none 0, .tmpXor 3 2, .rorTmp 3 40 64 40, .sub 2 (some 3) none none 0, .tmpXor 3 0,
  .rorTmp 3 52 64 52, .sub 0 (some 3) none none 0, .tmpXor 1 2, .rorTmp 1 57 64 57, .sub 2 (some 1) none none 0,
  .tmpXor 1 0, .rorTmp 1 14 64 14, .sub 0 (some 1) (some 1) none 0, .sub 1 none (some 2) (some 0) 0, .tmpXor 3 2,
  .rorTmp 3 16 64 16, .sub 2 (some 3) (some 3) (some 1) 0, .sub 3 none (some 4) none 6, .tmpXor 3 0, .rorTmp 3 32 64 32,
  .sub 0 (some 3) none none 0, .tmpXor 1 2, .rorTmp 1 32 64 32, .sub 2 (some 1) none none 0, .tmpXor 1 0,
  .rorTmp 1 58 64 58, .sub 0 (some 1) none none 0, .tmpXor 3 2, .rorTmp 3 22 64 22, .sub 2 (some 3) none none 0,
  .tmpXor 3 0, .rorTmp 3 46 64 46, .sub 0 (some 3) none none 0, .tmpXor 1 2, .rorTmp 1 12 64 12,
  .sub 2 (some 1) none none 0, .tmpXor 1 0, .rorTmp 1 25 64 25, .sub 0 (some 1) (some 0) none 0, .sub 1 none (some 1) (some 2) 0,
  .tmpXor 3 2, .rorTmp 3 33 64 33, .sub 2 (some 3) (some 2) (some 0) 0, .sub 3 none (some 3) none 5, .tmpXor 3 0,
  .rorTmp 3 5 64 5, .sub 0 (some 3) none none 0, .tmpXor 1 2, .rorTmp 1 37 64 37, .sub 2 (some 1) none none 0,
  .tmpXor 1 0, .rorTmp 1 23 64 23, .sub 0 (some 1) none none 0, .tmpXor 3 2, .rorTmp 3 40 64 40,
  .sub 2 (some 3) none none 0, .tmpXor 3 0, .rorTmp 3 52 64 52, .sub 0 (some 3) none none 0, .tmpXor 1 2,
  .rorTmp 1 57 64 57, .sub 2 (some 1) none none 0, .tmpXor 1 0, .rorTmp 1 14 64 14, .sub 0 (some 1) (some 4) none 0,
  .sub 1 none (some 0) (some 1) 0, .tmpXor 3 2, .rorTmp 3 16 64 16, .sub 2 (some 3) (some 1) (some 2) 0, .sub 3 none (some 2) none 4,
  .tmpXor 3 0, .rorTmp 3 32 64 32, .sub 0 (some 3) none none 0, .tmpXor 1 2, .rorTmp 1 32 64 32,
  .sub 2 (some 1) none none 0, .tmpXor 1 0, .rorTmp 1 58 64 58, .sub 0 (some 1) none none 0, .tmpXor 3 2,
  .rorTmp 3 22 64 22, .sub 2 (some 3) none none 0, .tmpXor 3 0, .rorTmp 3 46 64 46, .sub 0 (some 3) none none 0,
  .tmpXor 1 2, .rorTmp 1 12 64 12, .sub 2 (some 1) none none 0, .tmpXor 1 0, .rorTmp 1 25 64 25]

/-- crypter256.go:822-910 -/
def decrypt256_4 : List Raw := [
  .sub 0 (some 1) (some 3) none 0, .sub 1 none (some 4) (some 0) 0, .tmpXor 3 2, .rorTmp 3 33 64 33, .sub 2 (some 3) (some 0) (some 1) 0,
  .sub 3 none (some 1) none 3, .tmpXor 3 0, .rorTmp 3 5 64 5, .sub 0 (some 3) none none 0, .tmpXor 1 2,
  .rorTmp 1 37 64 37, .sub 2 (some 1) none none 0, .tmpXor 1 0, .rorTmp 1 23 64 23, .sub 0 (some 1) none none 0,
  .tmpXor 3 2, .rorTmp 3 40 64 40, .sub 2 (some 3) none none 0, .tmpXor 3 0, .rorTmp 3 52 64 52,
  .sub 0 (some 3) none none 0, .tmpXor 1 2, .rorTmp 1 57 64 57, .sub 2 (some 1) none none 0, .tmpXor 1 0,
  .rorTmp 1 14 64 14, .sub 0 (some 1) (some 2) none 0, .sub 1 none (some 3) (some 2) 0, .tmpXor 3 2, .rorTmp 3 16 64 16,
  .sub 2 (some 3) (some 4) (some 0) 0, .sub 3 none (some 0) none 2, .tmpXor 3 0, .rorTmp 3 32 64 32, .sub 0 (some 3) none none 0,
  .tmpXor 1 2, .rorTmp 1 32 64 32, .sub 2 (some 1) none none 0, .tmpXor 1 0, .rorTmp 1 58 64 58,
  .sub 0 (some 1) none none 0, .tmpXor 3 2, .rorTmp 3 22 64 22, .sub 2 (some 3) none none 0, .tmpXor 3 0,
  .rorTmp 3 46 64 46, .sub 0 (some 3) none none 0, .tmpXor 1 2, .rorTmp 1 12 64 12, .sub 2 (some 1) none none 0,
  .tmpXor 1 0, .rorTmp 1 25 64 25, .sub 0 (some 1) (some 1) none 0, .sub 1 none (some 2) (some 1) 0, .tmpXor 3 2,
  .rorTmp 3 33 64 33, .sub 2 (some 3) (some 3) (some 2) 0, .sub 3 none (some 4) none 1, .tmpXor 3 0, .rorTmp 3 5 64 5,
  .sub 0 (some 3) none none 0, .tmpXor 1 2, .rorTmp 1 37 64 37, .sub 2 (some 1) none none 0, .tmpXor 1 0,
  .rorTmp 1 23 64 23, .sub 0 (some 1) none none 0, .tmpXor 3 2, .rorTmp 3 40 64 40, .sub 2 (some 3) none none 0,
  .tmpXor 3 0, .rorTmp 3 52 64 52, .sub 0 (some 3) none none 0, .tmpXor 1 2, .rorTmp 1 57 64 57,
  .sub 2 (some 1) none none 0, .tmpXor 1 0, .rorTmp 1 14 64 14, .sub 0 (some 1) (some 0) none 0, .sub 1 none (some 1) (some 0) 0,
  .tmpXor 3 2, .rorTmp 3 16 64 16, .sub 2 (some 3) (some 2) (some 1) 0, .sub 3 none (some 3) none 0, .out 0 0 none none 0,
  .out 1 1 none none 0, .out 2 2 none none 0, .out 3 3 none none 0]

/-- The body of `threefish256.decrypt`, crypter256.go:415-911. -/
def decrypt256 : List Raw := decrypt256_0 ++ decrypt256_1 ++ decrypt256_2 ++ decrypt256_3 ++ decrypt256_4

end Verif.Crypter
