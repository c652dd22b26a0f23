import Verif.Go.Utf8
import Verif.Go.Order
import Mathlib.Data.List.Dedup
/-
closestmatch/closestmatch.go.

Go maps with fixed contents are functions to `Option`; the order in which `range` visits a map is arbitrary, so wherever it matters the model
has an arbitrary permutation. `other` is the non-ASCII part of `strings.ToLower` (any function). Identifiers are `uint32(i)`; the model has
natural numbers here; word lists of more than 2^32 words are modelled in Closest/Wrap.lean.
-/
namespace Verif.Closest

/-- closestmatch.go:24-27 `IDInfo`. -/
structure IDInfo where
  key : Str
  numSubstrings : Nat
deriving DecidableEq

/-- closestmatch.go:16-21 `ClosestMatch`. A set of identifiers `map[uint32]struct{}` is a list without repetitions. -/
structure CM where
  sizes : List Int
  sub : Str → Option (List Nat)
  id : Nat → Option IDInfo

/-- closestmatch.go:200-207: the fragments of size `j` of a word, those that are not blank. -/
def fragmentsOf (word : Str) (j : Nat) : List Str :=
  ((List.range (word.length + 1 - j)).map fun i => (word.drop i).take j).filter fun f => !blank f

/-- closestmatch.go:198-212 `splitWord`: the keys of the returned map. A negative size makes the slice expression `word[0:j]` panic,
unless it is so small that the bound of the loop, `len(word)-j+1`, wraps around; then there are no fragments of this size. -/
def splitWord (sizes : List Int) (word : Str) : Option (List Str) :=
  if sizes.any (fun j => j < 0 ∧ (word.length : Int) - j + 1 < 2 ^ 63) then none
  else
    let wordHash := (sizes.flatMap fun j => fragmentsOf word j.toNat).dedup
    some (if wordHash.length = 0 then [word] else wordHash)

/-- closestmatch.go:39-42, 75-78: enter the identifier `i` under a fragment. -/
def addId (i : Nat) (sub : Str → Option (List Nat)) (f : Str) : Str → Option (List Nat) :=
  fun g => if g = f then some (((sub f).getD []).insert i) else sub g

/-- closestmatch.go:36-43, 72-79: enter the word `s` under the identifier `i`. -/
def addWord (other : Str → Str) (cm : CM) (i : Nat) (s : Str) : Option CM :=
  (splitWord cm.sizes (toLower other s)).map fun substrings =>
    { cm with
      id := fun k => if k = i then some ⟨s, substrings.length⟩ else cm.id k
      sub := substrings.foldl (addId i) cm.sub }

/-- closestmatch.go:71-80: the loop over the words, `i` being the index of the next one. -/
def addWords (other : Str → Str) : Nat → List Str → CM → Option CM
  | _, [], cm => some cm
  | i, s :: ss, cm => (addWord other cm i s).bind fun cm => addWords other (i + 1) ss cm

/-- closestmatch.go:69-82 `Add`. -/
def CM.add (other : Str → Str) (cm : CM) (possible : List Str) : Option CM := addWords other 0 possible cm

/-- closestmatch.go:30-47 `New`. -/
def new (other : Str → Str) (possible : List Str) (subsetSize : List Int) : Option CM :=
  addWords other 0 possible ⟨subsetSize, fun _ => none, fun _ => none⟩

/-- A `map[string]int` of scores. -/
abbrev Scores := Str → Option Nat

/-- `m[key] += v` where a missing key counts as 0 (closestmatch.go:105-108). -/
def bump (m : Scores) (key : Str) (v : Nat) : Scores := fun k => if k = key then some ((m key).getD 0 + v) else m k

/-- closestmatch.go:104-109: the loop over the identifiers in the order `ids`; `none` is the division by zero for an empty key. -/
def scoreIds (cm : CM) (weight : Nat) : List Nat → Scores → Option Scores
  | [], m => some m
  | i :: ids, m =>
    let key := ((cm.id i).getD ⟨[], 0⟩).key
    if key.length = 0 then none else scoreIds cm weight ids (bump m key (1 + 1000 / key.length + weight))

/-- closestmatch.go:100-111: what a worker computes for a fragment, visiting the identifiers in the order `order`. -/
def lookup (cm : CM) (f : Str) (order : List Nat) : Option Scores :=
  match cm.sub f with
  | none => some fun _ => none
  | some ids => if ids.length = 0 then none else scoreIds cm (1000 / ids.length) order fun _ => none

/-- closestmatch.go:144-150: add a result to the sum. The keys of `r` are visited once each, in any order, independently of each other. -/
def merge (m r : Scores) : Scores := fun k =>
  match r k with
  | none => m k
  | some v => match m k with
    | some w => some (w + v)
    | none => some v

/-- Where a worker goroutine is (closestmatch.go:98-114). -/
inductive Worker where
  /-- before `range jobs` -/
  | idle
  /-- has a job, before `Lock` -/
  | got (f : Str)
  /-- between `Lock` and `Unlock` -/
  | locked (f : Str)
  /-- before `results <-` -/
  | computed (m : Scores)
  /-- returned -/
  | exited

/-- A state of `match` (closestmatch.go:124-154) and its goroutines: the fragments not sent yet (in the order of the map iteration), the two
channels, the workers, the mutex, the number of results still to receive, and the sum so far. -/
structure Conf where
  toSend : List Str
  jobs : List Str
  closed : Bool
  ws : List Worker
  mux : Bool
  results : List Scores
  need : Nat
  acc : Scores

/-- One step of one goroutine; the result `none` is a panic, which ends the program. `cap` is the capacity of the channels. -/
inductive Step (cm : CM) (cap : Nat) : Conf → Option Conf → Prop where
  /-- closestmatch.go:136-138: the main goroutine sends a job (blocks while the channel is full). -/
  | send (c f r) : c.toSend = f :: r → c.jobs.length < cap → Step cm cap c (some { c with toSend := r, jobs := c.jobs ++ [f] })
  /-- closestmatch.go:139 `close(jobs)`. -/
  | close (c) : c.toSend = [] → c.closed = false → Step cm cap c (some { c with closed := true })
  /-- closestmatch.go:99: a worker receives a job. -/
  | take (c f r l₁ l₂) : c.jobs = f :: r → c.ws = l₁ ++ .idle :: l₂ → Step cm cap c (some { c with jobs := r, ws := l₁ ++ .got f :: l₂ })
  /-- closestmatch.go:99: a worker sees the closed channel. -/
  | exit (c l₁ l₂) : c.jobs = [] → c.closed = true → c.ws = l₁ ++ .idle :: l₂ → Step cm cap c (some { c with ws := l₁ ++ .exited :: l₂ })
  /-- closestmatch.go:101 `Lock`. -/
  | lock (c f l₁ l₂) : c.mux = false → c.ws = l₁ ++ .got f :: l₂ → Step cm cap c (some { c with mux := true, ws := l₁ ++ .locked f :: l₂ })
  /-- closestmatch.go:102-111: the computation under the mutex, then `Unlock`. -/
  | compute (c f l₁ l₂ order m) : c.ws = l₁ ++ .locked f :: l₂ → order.Perm ((cm.sub f).getD []) → lookup cm f order = some m →
      Step cm cap c (some { c with mux := false, ws := l₁ ++ .computed m :: l₂ })
  /-- closestmatch.go:102-111: division by zero. -/
  | crash (c f l₁ l₂ order) : c.ws = l₁ ++ .locked f :: l₂ → order.Perm ((cm.sub f).getD []) → lookup cm f order = none → Step cm cap c none
  /-- closestmatch.go:112 `results <-` (blocks while the channel is full). -/
  | result (c m l₁ l₂) : c.ws = l₁ ++ .computed m :: l₂ → c.results.length < cap →
      Step cm cap c (some { c with results := c.results ++ [m], ws := l₁ ++ .idle :: l₂ })
  /-- closestmatch.go:142-151: the main goroutine receives a result. -/
  | receive (c m r n) : c.closed = true → c.need = n + 1 → c.results = m :: r →
      Step cm cap c (some { c with results := r, need := n, acc := merge c.acc m })

/-- closestmatch.go:124-134: the state after starting `workers` workers; `order` is the order in which the fragments are visited. -/
def start (workers : Nat) (order : List Str) : Conf :=
  ⟨order, [], false, List.replicate workers .idle, false, [], order.length, fun _ => none⟩

/-- closestmatch.go:153: `match` returns. -/
def Conf.done (c : Conf) : Prop := c.closed = true ∧ c.need = 0

/-- Executions. -/
inductive Steps (cm : CM) (cap : Nat) : Conf → Option Conf → Prop where
  | refl (c) : Steps cm cap c (some c)
  | step {c c' o} : Steps cm cap c (some c') → Step cm cap c' o → Steps cm cap c o

/-- closestmatch.go:124-154 `match`: some execution returns the score map `m` (8 workers). -/
def Match (cm : CM) (q : Str) (m : Scores) : Prop :=
  ∃ fs order c, splitWord cm.sizes q = some fs ∧ order.Perm fs ∧ Steps cm fs.length (start 8 order) (some c) ∧ c.done ∧ c.acc = m

/-- `match` may panic (in the caller or in a worker). -/
def MatchPanics (cm : CM) (q : Str) : Prop :=
  splitWord cm.sizes q = none ∨ ∃ fs order, splitWord cm.sizes q = some fs ∧ order.Perm fs ∧ Steps cm fs.length (start 8 order) none

/-- closestmatch.go:176-185 `rankByWordCount`: the pairs of the map in an order sorted by falling value. `sort.Sort` is not stable and the
map is visited in any order, so any such list is possible. -/
def Ranked (m : Scores) (pl : List (Str × Nat)) : Prop :=
  (pl.map Prod.fst).Nodup ∧ (∀ k v, (k, v) ∈ pl ↔ m k = some v) ∧ pl.Pairwise fun a b => b.2 ≤ a.2

/-- closestmatch.go:157-162 `Closest`: `out` is a possible result. -/
def Closest (cm : CM) (q out : Str) : Prop := ∃ m pl, Match cm q m ∧ Ranked m pl ∧ out = (pl.map Prod.fst).headD []

/-- closestmatch.go:167-173: the loop; `i` is the index of the next pair. -/
def takeLoop (max : Int) : Nat → List (Str × Nat) → List Str
  | _, [] => []
  | i, p :: pl => if (i : Int) ≥ max then [] else p.1 :: takeLoop max (i + 1) pl

/-- The call `make([]string, 0, max)` does not panic. A string has 16 bytes, and the runtime refuses a negative capacity and more than 2^48 bytes (`makeslice` in runtime/slice.go
and `maxAlloc` in runtime/malloc.go, on a machine with 64 bits). That less memory than this is not there is not modelled. -/
abbrev CanMake (max : Int) : Prop := 0 ≤ max ∧ max ≤ 2 ^ 44

/-- closestmatch.go:165-174 `ClosestN`: `out` is a possible result (line 166, `make`, may panic before anything else). -/
def ClosestN (cm : CM) (q : Str) (max : Int) (out : List Str) : Prop :=
  CanMake max ∧ ∃ m pl, Match cm q m ∧ Ranked m pl ∧ out = takeLoop max 0 pl

/-- What is left of a string after it is written to JSON and read back (encoding/json): a byte that is not part of valid UTF-8 becomes U+FFFD,
everything else is kept; at most `n` runes. -/
def jsonAux : Nat → Str → Str
  | 0, _ => []
  | _ + 1, [] => []
  | n + 1, b :: s =>
    let d := decodeRune (b :: s)
    (if d.1 = runeError ∧ d.2 = 1 then [0xEF, 0xBF, 0xBD] else (b :: s).take d.2) ++ jsonAux n ((b :: s).drop d.2)

/-- What is left of a string after it is written to JSON and read back. -/
def jsonString (s : Str) : Str := jsonAux s.length s

/-- closestmatch.go:50-66 `Load` of a file written by closestmatch.go:85-96 `Save`, when the file system and gzip give back what was written.
encoding/json writes the keys of a map in the order of their bytes and, reading, a later key replaces an earlier equal one. This
says what JSON does to strings; that it is what reading the text gives is proved in Closest/JsonProps (C147). -/
def SaveLoad (cm cm' : CM) : Prop :=
  cm'.sizes = cm.sizes ∧
  (∀ g ids, cm'.sub g = some ids ↔ ∃ f, cm.sub f = some ids ∧ jsonString f = g ∧ ∀ f', (cm.sub f').isSome → jsonString f' = g → ¬ (strLt f f' = true)) ∧
  (∀ i, cm'.id i = (cm.id i).map fun inf => { inf with key := jsonString inf.key })

end Verif.Closest
