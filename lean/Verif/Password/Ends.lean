import Verif.Password.Lemmas
import Verif.FormGen.Model
/-
The bound on the retries in the model of `Generate`: on a source that fails after finitely many bytes it can be chosen so large that it is never reached, and then
the result does not depend on it.
-/
namespace Verif.Password

/-- What is left of the source is not longer than what there was. -/
theorem randLoop_rest {max k b : Nat} {hk : 0 < k} : ∀ (n : Nat) {r r' : Str} {i : Nat}, r.length ≤ n → randLoop max k b hk r = .ok (i, r') → r'.length + k ≤ r.length
  | n, r, r', i, hn, h => by
    rw [randLoop] at h
    split at h
    · cases h
    · rename_i hl
      dsimp only at h
      split at h
      · simp only [Out.ok.injEq, Prod.mk.injEq] at h
        rw [← h.2, List.length_drop]; omega
      · cases n with
        | zero => omega
        | succ n =>
          have := randLoop_rest n (by rw [List.length_drop]; omega) h
          rw [List.length_drop] at this
          omega

theorem randInt_rest {m : Nat} {r r' : Str} {i : Nat} (h : randInt m r = .ok (i, r')) : r'.length ≤ r.length ∧ (2 ≤ m → r'.length < r.length) := by
  unfold randInt at h
  split at h
  · cases h
  · dsimp only at h
    split at h
    · rename_i h0 hb
      simp only [Out.ok.injEq, Prod.mk.injEq] at h
      refine ⟨by rw [h.2], fun hm => ?_⟩
      unfold bitLen at hb
      split at hb <;> omega
    · rename_i h0 hb
      have := randLoop_rest _ (Nat.le_refl _) h
      have : 1 ≤ (bitLen (m - 1) + 7) / 8 := by omega
      constructor
      · omega
      · intro; omega

theorem randInt_fuel (m : Nat) (r : Str) : randInt m r ≠ .nofuel := by
  rcases Nat.eq_zero_or_pos m with rfl | hm
  · simp [randInt]
  · rcases randInt_cases hm r with ⟨i, r', h⟩ | h <;> rw [h] <;> simp

theorem run_rest {α : Type} : ∀ (p : Prog α) {r r' : Str} {x : α}, p.run r = .ok (x, r') → r'.length ≤ r.length := by
  intro p
  induction p with
  | ret a => intro r r' x h; simp only [Prog.run, Out.ok.injEq, Prod.mk.injEq] at h; rw [h.2]
  | draw m k ih =>
    intro r r' x h
    simp only [Prog.run] at h
    split at h
    · rename_i i r1 h1
      exact (ih i h).trans (randInt_rest h1).1
    all_goals cases h
  | fail e => intro r r' x h; cases h
  | stuck => intro r r' x h; cases h

/-- On sources of fewer than `n` bytes, `q` ends, and so that `q'` ends in the same way. -/
def EndsLike {α : Type} (n : Nat) (q q' : Prog α) : Prop := ∀ r : Str, r.length < n → q.run r ≠ .nofuel ∧ q'.run r = q.run r

theorem EndsLike.mono {α : Type} {n m : Nat} {q q' : Prog α} (h : EndsLike n q q') (hm : m ≤ n) : EndsLike m q q' := fun r hr => h r (by omega)

theorem run_bind {α β : Type} (p : Prog α) (f : α → Prog β) (r : Str) : (p.bind f).run r = match p.run r with
    | .ok (a, r') => (f a).run r' | .err e => .err e | .panic => .panic | .nofuel => .nofuel := by
  induction p generalizing r with
  | ret a => rfl
  | draw m k ih =>
    simp only [Prog.bind, Prog.run]
    cases randInt m r with
    | ok x => exact ih _ _
    | err e => rfl
    | panic => rfl
    | nofuel => rfl
  | fail e => rfl
  | stuck => rfl

theorem EndsLike.bind {α β : Type} {n : Nat} {p p' : Prog α} {f f' : α → Prog β} (hp : EndsLike n p p') (hf : ∀ a, EndsLike n (f a) (f' a)) :
    EndsLike n (p.bind f) (p'.bind f') := by
  intro r hr
  obtain ⟨h1, h2⟩ := hp r hr
  rw [run_bind, run_bind, h2]
  cases hx : p.run r with
  | ok x =>
    obtain ⟨a, r'⟩ := x
    exact hf a r' (by have := run_rest p hx; omega)
  | err e => simp
  | panic => simp
  | nofuel => exact absurd hx h1

theorem EndsLike.ret {α : Type} (n : Nat) (a : α) : EndsLike n (.ret a) (.ret a) := fun _ _ => ⟨by simp [Prog.run], rfl⟩

theorem EndsLike.draw {α : Type} (n m : Nat) {k k' : Nat → Prog α} (h : ∀ i, EndsLike n (k i) (k' i)) : EndsLike n (.draw m k) (.draw m k') := by
  intro r hr
  simp only [Prog.run]
  cases hx : randInt m r with
  | ok x => exact h _ _ (by have := (randInt_rest hx).1; omega)
  | err e => simp
  | panic => simp
  | nofuel => exact absurd hx (randInt_fuel m r)

/-- A choice among at least two characters takes a byte of the source, so that there are fewer retries than bytes. -/
theorem pick_ends {A : Str} (hA : 2 ≤ A.length) (noRep : Bool) (res : Str) : ∀ (n f f' : Nat), n ≤ f → n ≤ f' → EndsLike n (pick A noRep res f) (pick A noRep res f')
  | 0, f, f', _, _ => fun r hr => by omega
  | n + 1, 0, f', h, _ => by omega
  | n + 1, _, 0, _, h => by omega
  | n + 1, f + 1, f' + 1, h, h' => by
    intro r hr
    simp only [pick, randomElement, Prog.bind, Prog.run]
    cases hx : randInt A.length r with
    | ok x =>
      obtain ⟨i, r1⟩ := x
      have hl := (randInt_rest hx).2 hA
      dsimp only
      split
      · exact pick_ends hA noRep res n f f' (by omega) (by omega) r1 (by omega)
      · exact EndsLike.ret n _ r1 (by omega)
    | err e => simp
    | panic => simp
    | nofuel => exact absurd hx (randInt_fuel _ r)

theorem fill_ends {A : Str} (hA : 2 ≤ A.length) (noRep : Bool) {n f f' : Nat} (h : n ≤ f) (h' : n ≤ f') :
    ∀ (m : Nat) (res : Str), EndsLike n (fill A noRep f m res) (fill A noRep f' m res)
  | 0, res => EndsLike.ret n res
  | m + 1, res => by
    unfold fill step
    refine EndsLike.bind (EndsLike.bind (pick_ends hA noRep res n f f' h h') fun ch => ?_) fun r => fill_ends hA noRep h h' m r
    unfold randomInsert
    split
    · exact EndsLike.ret n _
    · exact EndsLike.draw n _ fun i => EndsLike.ret n _

/-- **C140** With alphabets of at least two characters, a request and a source that fails after fewer than `fuel` bytes: `Generate` ends, with a password or an error,
and with the same one for every larger bound on the retries. -/
theorem C140_generate (g : Generator) (hl : 2 ≤ g.lowerLetters.length) (hd : 2 ≤ g.digits.length) (hs : 2 ≤ g.symbols.length) (length numDigits numSymbols : Int)
    (noUpper allowRepeat : Bool) (source : Str) (fuel fuel' : Nat) (h : source.length < fuel) (h' : fuel ≤ fuel') :
    (g.generate fuel length numDigits numSymbols noUpper allowRepeat).run source ≠ .nofuel ∧
    (g.generate fuel' length numDigits numSymbols noUpper allowRepeat).run source = (g.generate fuel length numDigits numSymbols noUpper allowRepeat).run source := by
  have hL : 2 ≤ (g.letters noUpper).length := by
    unfold Generator.letters
    split
    · exact hl
    · rw [List.length_append]; omega
  unfold Generator.generate
  dsimp only
  split
  · simp [Prog.run]
  · split
    · simp [Prog.run]
    · split
      · simp [Prog.run]
      · split
        · simp [Prog.run]
        · exact (EndsLike.bind (fill_ends hL _ (Nat.le_refl fuel) h' _ _) fun r1 => EndsLike.bind (fill_ends hd _ (Nat.le_refl fuel) h' _ _) fun r2 =>
            fill_ends hs _ (Nat.le_refl fuel) h' _ _) source h

/-- If `q` ends, `q'` ends in the same way. -/
def Extends {α : Type} (q q' : Prog α) : Prop := ∀ r : Str, q.run r ≠ .nofuel → q'.run r = q.run r

theorem Extends.refl {α : Type} (q : Prog α) : Extends q q := fun _ _ => rfl

theorem Extends.bind {α β : Type} {p p' : Prog α} {f f' : α → Prog β} (hp : Extends p p') (hf : ∀ a, Extends (f a) (f' a)) : Extends (p.bind f) (p'.bind f') := by
  intro r hr
  rw [run_bind] at hr ⊢
  rw [run_bind]
  cases hx : p.run r with
  | nofuel => rw [hx] at hr; exact absurd rfl hr
  | ok x =>
    rw [hx] at hr
    rw [hp r (by rw [hx]; simp), hx]
    exact hf x.1 x.2 hr
  | err e => rw [hp r (by rw [hx]; simp), hx]
  | panic => rw [hp r (by rw [hx]; simp), hx]

theorem pick_extends (A : Str) (noRep : Bool) (res : Str) : ∀ (f f' : Nat), f ≤ f' → Extends (pick A noRep res f) (pick A noRep res f')
  | 0, f', _ => fun r hr => by simp [pick, Prog.run] at hr
  | f + 1, 0, h => by omega
  | f + 1, f' + 1, h => by
    unfold pick
    refine Extends.bind (Extends.refl _) fun ch => ?_
    split
    · exact pick_extends A noRep res f f' (by omega)
    · exact Extends.refl _

theorem fill_extends (A : Str) (noRep : Bool) {f f' : Nat} (h : f ≤ f') : ∀ (m : Nat) (res : Str), Extends (fill A noRep f m res) (fill A noRep f' m res)
  | 0, res => Extends.refl _
  | m + 1, res => by
    unfold fill step
    exact Extends.bind (Extends.bind (pick_extends A noRep res f f' h) fun ch => Extends.refl _) fun r => fill_extends A noRep h m r

/-- **C140** Whatever the alphabets: if `Generate` ends within two bounds on the retries, it ends in the same way. -/
theorem C140_same_result (g : Generator) (length numDigits numSymbols : Int) (noUpper allowRepeat : Bool) (source : Str) (fuel fuel' : Nat)
    (h : (g.generate fuel length numDigits numSymbols noUpper allowRepeat).run source ≠ .nofuel)
    (h' : (g.generate fuel' length numDigits numSymbols noUpper allowRepeat).run source ≠ .nofuel) :
    (g.generate fuel length numDigits numSymbols noUpper allowRepeat).run source = (g.generate fuel' length numDigits numSymbols noUpper allowRepeat).run source := by
  have hx : ∀ f f', f ≤ f' → Extends (g.generate f length numDigits numSymbols noUpper allowRepeat) (g.generate f' length numDigits numSymbols noUpper allowRepeat) := by
    intro f f' hf
    unfold Generator.generate
    dsimp only
    split
    · exact Extends.refl _
    · split
      · exact Extends.refl _
      · split
        · exact Extends.refl _
        · split
          · exact Extends.refl _
          · exact Extends.bind (fill_extends _ _ hf _ _) fun r1 => Extends.bind (fill_extends _ _ hf _ _) fun r2 => fill_extends _ _ hf _ _
  rcases Nat.le_total fuel fuel' with hf | hf
  · exact (hx _ _ hf source h).symm
  · exact hx _ _ hf source h'

/-- On a source of six bytes the default generator makes a password of two characters, with three retries or more; on the empty source it reports the error. -/
example : (defaultGenerator.generate 3 2 1 0 true true).run [0, 3, 3, 3, 1, 0] = .ok (lit "a3", [3, 1, 0]) ∧
    (defaultGenerator.generate 1 2 1 0 true true).run [] = .err .read := by decide +kernel

end Verif.Password
