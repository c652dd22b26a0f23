import Verif.Closest.Model
/-
`Save` (closestmatch.go:85-96) does not take the mutex, so `Add` may be at work on the two maps while `Save` reads them. `Add` is modelled by
its single writes to the maps, `Save` by the moments at which encoding/json reads each key, each set and each entry. A read sees a write either
completely or not at all; what the Go runtime does about the race itself (it may abort the program with "concurrent map iteration and map
write") is not modelled.
-/
namespace Verif.Closest

/-- A write of `Add` to the index. -/
inductive Write where
  /-- closestmatch.go:73 `cm.ID[uint32(i)] = IDInfo{…}`. -/
  | id (i : Nat) (inf : IDInfo)
  /-- closestmatch.go:75-77: an empty set for a fragment that has none. -/
  | mk (f : Str)
  /-- closestmatch.go:78 `cm.SubstringToID[substring][uint32(i)] = struct{}{}`. -/
  | ins (i : Nat) (f : Str)

/-- closestmatch.go:73-78: the index after a write. -/
def Write.apply (cm : CM) : Write → CM
  | .id i inf => { cm with id := fun k => if k = i then some inf else cm.id k }
  | .mk f => { cm with sub := fun g => if g = f then some ((cm.sub f).getD []) else cm.sub g }
  | .ins i f => { cm with sub := fun g => if g = f then some (((cm.sub f).getD []).insert i) else cm.sub g }

/-- closestmatch.go:73-79: the writes for the word `s` with the number `i`; `order` is the order in which `range` visits its fragments. -/
def wordWrites (i : Nat) (s : Str) (order : List Str) : List Write :=
  .id i ⟨s, order.length⟩ :: order.flatMap fun f => [.mk f, .ins i f]

/-- closestmatch.go:71-80: the writes for the words `ss`, the first of them with the number `i`. -/
inductive AddWrites (other : Str → Str) (sizes : List Int) : Nat → List Str → List Write → Prop where
  | nil (i) : AddWrites other sizes i [] []
  | cons (i s ss fs order ws) : splitWord sizes (toLower other s) = some fs → order.Perm fs → AddWrites other sizes (i + 1) ss ws →
      AddWrites other sizes i (s :: ss) (wordWrites i s order ++ ws)

/-- closestmatch.go:69-82: the writes of calls of `Add` with the given words; the mutex puts one call after the other. -/
inductive AddsWrites (other : Str → Str) (sizes : List Int) : List (List Str) → List Write → Prop where
  | nil : AddsWrites other sizes [] []
  | cons (words more w ws) : AddWrites other sizes 0 words w → AddsWrites other sizes more ws → AddsWrites other sizes (words :: more) (w ++ ws)

/-- The index after the first `t` of the writes. -/
def during (cm : CM) (ws : List Write) (t : Nat) : CM := (ws.take t).foldl Write.apply cm

/-- closestmatch.go:94 `enc.Encode(cm)`: the index that is written to the file when the index in memory is `st t` at the moment `t`. The fields
are written one after the other (encoding/json/encode.go, structEncoder): the sizes, `SubstringToID`, `ID`. For a map encoding/json first
collects the keys and the values, which for `SubstringToID` are references to the sets (mapEncoder), then writes the values. So there are
moments `p ≤ r` such that whether `f` is a key is read at a moment `σ f` up to `p`, whether `i` is in the set of `f` at a moment `τ f i` between
`p` and `r`, and the entry of `i` at a moment `ρ i` after `r`. (A key that is entered while `range` runs may be visited or not; nothing is
ever removed.) -/
def SavedWhile (st : Nat → CM) (cm : CM) : Prop :=
  ∃ (p r : Nat) (σ : Str → Nat) (τ : Str → Nat → Nat) (ρ : Nat → Nat),
    (∀ f, σ f ≤ p) ∧ (∀ f i, p ≤ τ f i ∧ τ f i ≤ r) ∧ (∀ i, r ≤ ρ i) ∧ cm.sizes = (st 0).sizes ∧
    (∀ f, (cm.sub f).isSome ↔ ((st (σ f)).sub f).isSome) ∧
    (∀ f ids, cm.sub f = some ids → ids.Nodup ∧ ∀ i, i ∈ ids ↔ i ∈ ((st (τ f i)).sub f).getD []) ∧
    ∀ i, cm.id i = (st (ρ i)).id i

end Verif.Closest
