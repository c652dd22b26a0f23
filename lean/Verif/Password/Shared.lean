import Verif.Password.Model
/-
password/generate.go used by several goroutines at once: the fields of a `Generator` are never written after `NewGenerator`, so what the goroutines share is the reader. A read of the random
source (`io.ReadFull` in crypto/rand.Int) is one step; between two reads of a goroutine the others may do anything. The reader must itself be safe for concurrent use, as
`rand.Reader` is.
-/
namespace Verif.Password

/-- A goroutine that executes a call: on its way, or at its end. -/
inductive Gor (α : Type) where
  | running (p : Prog α)
  | done (o : Out α)

/-- One step of a call, up to and including its next read: what comes next and the bytes that were read. The loop of crypto/rand.Int (crypto/rand/util.go) is cut at its reads; a read
that finds too few bytes takes them all and fails. -/
def Prog.step {α : Type} (src : Str) : Prog α → Gor α × Str
  | .ret a => (.done (.ok a), [])
  | .fail e => (.done (.err e), [])
  | .stuck => (.done .nofuel, [])
  | .draw max k =>
    if max = 0 then (.done .panic, [])
    else
      let bl := bitLen (max - 1)
      if bl = 0 then (.running (k 0), [])
      else
        let b := if bl % 8 = 0 then 8 else bl % 8
        let n := (bl + 7) / 8
        if src.length < n then (.done (.err .read), src)
        else
          let v := ofBytes (maskTop b (src.take n))
          if v < max then (.running (k v), src.take n) else (.running (.draw max k), src.take n)

/-- The source and the goroutines. -/
structure Shared (α : Type) where
  src : Str
  gs : List (Gor α)

/-- The goroutines that are scheduled one after the other (a goroutine that is done or does not exist does nothing): the final state, and who read which bytes. -/
def Shared.exec {α : Type} : List Nat → Shared α → Shared α × List (Nat × Str)
  | [], c => (c, [])
  | i :: is, c => match c.gs[i]? with
    | some (.running p) =>
      let s := p.step c.src
      let r := Shared.exec is ⟨c.src.drop s.2.length, c.gs.set i s.1⟩
      (r.1, (i, s.2) :: r.2)
    | _ => Shared.exec is c

/-- Calls that are started at once on a source. -/
def Shared.start {α : Type} (calls : List (Prog α)) (src : Str) : Shared α := ⟨src, calls.map .running⟩

end Verif.Password
