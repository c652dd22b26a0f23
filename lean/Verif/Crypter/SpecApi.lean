import Verif.Crypter.Model
import Verif.Crypter.Spec
/-
Specification vocabulary for the API theorems: which key and tweak a cipher should be using.
-/
namespace Verif.Crypter
open Threefish

/-- Published parameters of a size. -/
def Size.params : Size → Params
  | .s256 => p256
  | .s512 => p512
  | .s1024 => p1024

/-- The tweak words a constructor argument stands for (nil is zero). -/
def tweak0 : Option (List W) → W
  | some (a :: _ :: _) => a
  | _ => 0

def tweak1 : Option (List W) → W
  | some (_ :: b :: _) => b
  | _ => 0

/-- Nil or at least two words. -/
def tweakOk : Option (List W) → Prop
  | none => True
  | some l => 2 ≤ l.length

/-- The key in force after a call, for a state of `n` words: `SetKey` uses the first `n` words given. -/
def keyAfter (n : Nat) (key : List W) : Call → List W
  | .setKey k => k.take n
  | _ => key

/-- The tweak in force after a call: `SetTweak(nil)` changes nothing. -/
def tweakAfter (t : W × W) : Call → W × W
  | .setTweak (some (a :: b :: _)) => (a, b)
  | _ => t

/-- `InUse byteApi sz key t c`: the cipher `c` was made by an exported constructor and then used by any sequence of calls that
returned; `key` and `t` are the key and tweak last set. With `byteApi = true` ciphers made by `New64` are excluded. -/
inductive InUse (byteApi : Bool) (sz : Size) : List W → W × W → Cipher → Prop
  | new (key : List W) (tw : Option (List W)) (c : Cipher) : key.length = sz.words → new (bytesOfWords key) tw = .ok c →
      InUse byteApi sz key (tweak0 tw, tweak1 tw) c
  | newSize (c : Cipher) : newSize (64 * sz.words : Nat) = .ok c → InUse byteApi sz (List.replicate sz.words 0) (0, 0) c
  | new64 (key : List W) (tw : Option (List W)) (c : Cipher) : key.length = sz.words → new64 key tw = .ok c → byteApi = false →
      InUse byteApi sz key (tweak0 tw, tweak1 tw) c
  | call {key : List W} {t : W × W} {c c' : Cipher} : InUse byteApi sz key t c → ∀ (m : Mem) (x : Call) (m' : Mem),
      c.call m x = some (c', m') → InUse byteApi sz (keyAfter sz.words key x) (tweakAfter t x) c'

end Verif.Crypter
