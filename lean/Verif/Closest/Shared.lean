import Verif.Closest.Model
/-
Several goroutines use one `ClosestMatch` at the same time: any number of searches (`Closest`, `ClosestN`), each with its eight workers, and
any number of calls of `Add`. The mutex `cm.mux` (closestmatch.go:20) is shared by all of them.
-/
namespace Verif.Closest

/-- A search on its way (closestmatch.go:124-154). `query` and `since` are only used to state properties: the query, and the number of calls of
`Add` that had ended when the search began. `conf.mux` says that a worker of this search has the mutex. -/
structure Search where
  query : Str
  since : Nat
  cap : Nat
  conf : Conf

/-- The index, the call of `Add` that has the mutex (number of the next word, words left), and the searches. `lists` is only used to state
properties: the arguments of `New` and of the calls of `Add`, in the order in which these got the mutex. -/
structure Shared where
  cm : CM
  adding : Option (Nat × List Str)
  searches : List Search
  lists : List (List Str)

/-- Nobody has the mutex. -/
def Shared.free (s : Shared) : Prop := s.adding = none ∧ ∀ x ∈ s.searches, x.conf.mux = false

/-- The number of calls of `New` and `Add` that have ended. -/
def Shared.ended (s : Shared) : Nat := s.lists.length - (if s.adding.isSome then 1 else 0)

/-- A step of a call that has begun. The result `none` is a panic, which ends the program. -/
inductive SStep (other : Str → Str) : Shared → Option Shared → Prop where
  /-- A step of a goroutine of a search; `Lock` (closestmatch.go:101), the only step that sets `mux`, waits until nobody has the mutex. -/
  | search (s l₁ x l₂ c) : s.searches = l₁ ++ x :: l₂ → Step s.cm x.cap x.conf (some c) → (x.conf.mux = false → c.mux = true → s.free) →
      SStep other s (some { s with searches := l₁ ++ { x with conf := c } :: l₂ })
  /-- A worker of a search panics. -/
  | crash (s l₁ x l₂) : s.searches = l₁ ++ x :: l₂ → Step s.cm x.cap x.conf none → SStep other s none
  /-- closestmatch.go:71-80: `Add` enters a word. -/
  | word (s i w ws cm) : s.adding = some (i, w :: ws) → addWord other s.cm i w = some cm → SStep other s (some { s with cm := cm, adding := some (i + 1, ws) })
  /-- closestmatch.go:71-80: `splitWord` panics. -/
  | wordCrash (s i w ws) : s.adding = some (i, w :: ws) → addWord other s.cm i w = none → SStep other s none
  /-- closestmatch.go:81 `Unlock`. -/
  | unlock (s i) : s.adding = some (i, []) → SStep other s (some { s with adding := none })

/-- A call begins. -/
inductive SBegin : Shared → Shared → Prop where
  /-- closestmatch.go:124-134: a search splits its query and starts its workers. -/
  | search (s q fs order) : splitWord s.cm.sizes q = some fs → order.Perm fs →
      SBegin s { s with searches := s.searches ++ [⟨q, s.ended, fs.length, start 8 order⟩] }
  /-- closestmatch.go:70 `Lock`. -/
  | add (s words) : s.free → SBegin s { s with adding := some (0, words), lists := s.lists ++ [words] }

/-- The state after `New(words, sizes)`. -/
def shared0 (cm : CM) (words : List Str) : Shared := ⟨cm, none, [], [words]⟩

/-- The states that can be reached. -/
inductive SReach (other : Str → Str) (s₀ : Shared) : Shared → Prop where
  | refl : SReach other s₀ s₀
  | step {s s'} : SReach other s₀ s → SStep other s (some s') → SReach other s₀ s'
  | begins {s s'} : SReach other s₀ s → SBegin s s' → SReach other s₀ s'

end Verif.Closest
