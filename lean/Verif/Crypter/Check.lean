import Verif.Crypter.Compile
import Verif.Crypter.Code256
import Verif.Crypter.Code512
import Verif.Crypter.Code1024
/-
Kernel evaluation of the normaliser and the equivalence checker on the six translated bodies.
-/
namespace Verif.Crypter
open Threefish

/-- All of the checks for one state size: the bodies have the expected shape, the encryption body is the compiled published
cipher up to reordering of independent operations, the decryption body undoes it. -/
def checkBody (n : Nat) (idx : List Nat) (prog : List Raw) (want : List Op) : Bool :=
  let hd := header n
  let rest := prog.drop hd.length
  let body := rest.take (rest.length - n)
  let outs := rest.drop (rest.length - n)
  match normBody body, normOut idx outs with
  | some o1, some o2 => equiv (o1 ++ o2) want
  | _, _ => false

def Raw.beq : Raw → Raw → Bool
  | .loadB i j, .loadB i' j' => Nat.beq i i' && Nat.beq j j'
  | .loadK i j, .loadK i' j' => Nat.beq i i' && Nat.beq j j'
  | .loadT i j, .loadT i' j' => Nat.beq i i' && Nat.beq j j'
  | _, _ => false

theorem Raw.beq_eq {a b : Raw} (h : a.beq b = true) : a = b := by
  cases a <;> cases b <;> simp_all [Raw.beq]

def headerOk : List Raw → List Raw → Bool
  | [], _ => true
  | _ :: _, [] => false
  | a :: h, b :: p => a.beq b && headerOk h p

theorem headerOk_sound {h p : List Raw} (e : headerOk h p = true) : p = h ++ p.drop h.length := by
  induction h generalizing p with
  | nil => simp
  | cons a h ih =>
    cases p with
    | nil => simp [headerOk] at e
    | cons b p =>
      simp only [headerOk, Bool.and_eq_true] at e
      have := Raw.beq_eq e.1
      subst this
      simp only [List.length_cons, List.drop_succ_cons, List.cons_append]
      rw [← ih e.2]

theorem checkBody_sound {n : Nat} {idx : List Nat} {prog : List Raw} {want : List Op} (hidx : idx.Nodup)
    (hmem : ∀ j, j < n → j ∈ idx) (h1 : headerOk (header n) prog = true)
    (h2 : checkBody n idx prog want = true) (inp ek et : Nat → W) (j : Nat) (hj : j < n) :
    runRaw prog inp ek et j =
      execOps (loaded n inp ek et).k (loaded n inp ek et).t (loaded n inp ek et).b want j := by
  unfold checkBody at h2
  simp only at h2
  split at h2
  · rename_i o1 o2 e1 e2
    rw [norm_sound n idx hidx hmem prog _ _ o1 o2 (by rw [List.take_append_drop]; exact headerOk_sound h1) e1 e2 inp ek et j hj]
    rw [equiv_sound h2]
  · simp at h2

def spec256 : List Op := compileFrom p256 72 0 (List.range 4)
def spec512 : List Op := compileFrom p512 72 0 (List.range 8)
def spec1024 : List Op := compileFrom p1024 80 0 (List.range 16)

set_option maxRecDepth 100000

theorem good256 : Params.good p256 = true := by decide +kernel
theorem good512 : Params.good p512 = true := by decide +kernel
theorem good1024 : Params.good p1024 = true := by decide +kernel
theorem id256 : regsAfter p256 72 (List.range 4) = List.range 4 := by decide +kernel
theorem id512 : regsAfter p512 72 (List.range 8) = List.range 8 := by decide +kernel
theorem id1024 : regsAfter p1024 80 (List.range 16) = List.range 16 := by decide +kernel
theorem ok256 : spec256.all Op.ok = true := by decide +kernel
theorem ok512 : spec512.all Op.ok = true := by decide +kernel
theorem ok1024 : spec1024.all Op.ok = true := by decide +kernel

theorem hdr_e256 : headerOk (header 4) encrypt256 = true := by decide +kernel
theorem hdr_d256 : headerOk (header 4) decrypt256 = true := by decide +kernel
theorem hdr_e512 : headerOk (header 8) encrypt512 = true := by decide +kernel
theorem hdr_d512 : headerOk (header 8) decrypt512 = true := by decide +kernel
theorem hdr_e1024 : headerOk (header 16) encrypt1024 = true := by decide +kernel
theorem hdr_d1024 : headerOk (header 16) decrypt1024 = true := by decide +kernel

theorem chk_e256 : checkBody 4 (List.range 4) encrypt256 spec256 = true := by decide +kernel
theorem chk_d256 : checkBody 4 (List.range 4) decrypt256 (undo spec256) = true := by decide +kernel
theorem chk_e512 : checkBody 8 (List.range 8) encrypt512 spec512 = true := by decide +kernel
theorem chk_d512 : checkBody 8 (List.range 8).reverse decrypt512 (undo spec512) = true := by decide +kernel
theorem chk_e1024 : checkBody 16 (List.range 16) encrypt1024 spec1024 = true := by decide +kernel
theorem chk_d1024 : checkBody 16 (List.range 16).reverse decrypt1024 (undo spec1024) = true := by decide +kernel

end Verif.Crypter
