import Verif.Password.Shared
import Verif.Password.Props
/-
C118: `Generate` is safe for concurrent use.
-/
namespace Verif.Password

namespace Spec

/-- The bytes a goroutine has read, in order. -/
def bytesOf (i : Nat) (reads : List (Nat × Str)) : Str := (reads.filter fun r => r.1 = i).flatMap Prod.snd

/-- The result of a call that had the whole source for itself, if it used it up. -/
def aloneOn {α : Type} (o : Out α) : Out (α × Str) :=
  match o with
  | .ok a => .ok (a, [])
  | .err e => .err e
  | .panic => .panic
  | .nofuel => .nofuel

end Spec
open Spec

/-- The call `p` has read `bs`, and this is how it stands. -/
def Agrees {α : Type} (p : Prog α) (bs : Str) : Gor α → Prop
  | .running q => ∀ rest, p.run (bs ++ rest) = q.run rest
  | .done o => p.run bs = aloneOn o

theorem step_agrees {α : Type} (src : Str) (p : Prog α) :
    (p.step src).2 <+: src ∧ Agrees p (p.step src).2 (p.step src).1 := by
  cases p with
  | ret a => exact ⟨List.nil_prefix, rfl⟩
  | fail e => exact ⟨List.nil_prefix, rfl⟩
  | stuck => exact ⟨List.nil_prefix, rfl⟩
  | draw max k =>
    simp only [Prog.step]
    by_cases h0 : max = 0
    · rw [if_pos h0]; exact ⟨List.nil_prefix, by simp [Agrees, Prog.run, randInt, h0, aloneOn]⟩
    simp only [if_neg h0]
    generalize hbl : bitLen (max - 1) = bl
    obtain ⟨b, hbe⟩ : ∃ b, b = if bl % 8 = 0 then 8 else bl % 8 := ⟨_, rfl⟩
    obtain ⟨n, hne⟩ : ∃ n, n = (bl + 7) / 8 := ⟨_, rfl⟩
    obtain ⟨v, hve⟩ : ∃ v, v = ofBytes (maskTop b (src.take n)) := ⟨_, rfl⟩
    simp only [← hbe, ← hne, ← hve]
    by_cases hb : bl = 0
    · rw [if_pos hb]
      refine ⟨List.nil_prefix, fun rest => ?_⟩
      have hb' : bitLen (max - 1) = 0 := hbl.trans hb
      simp [Prog.run, randInt, h0, hb']
    rw [if_neg hb]
    have hb' : ¬ bitLen (max - 1) = 0 := by rw [hbl]; exact hb
    have hn : 0 < n := by omega
    have hrun : ∀ r, (Prog.draw max k).run r = match randLoop max n b hn r with
        | .ok (i, r') => (k i).run r'
        | .err e => .err e
        | .panic => .panic
        | .nofuel => .nofuel := by
      intro r
      rw [Prog.run, randInt, if_neg h0]
      subst hbe hne hbl
      simp only [dif_neg hb']
      rfl
    by_cases hs : src.length < n
    · rw [if_pos hs]
      refine ⟨List.prefix_refl _, ?_⟩
      simp only [Agrees]
      rw [hrun, randLoop, dif_pos hs]
      rfl
    · rw [if_neg hs]
      have hlen : (src.take n).length = n := by rw [List.length_take]; omega
      have hloop : ∀ rest, randLoop max n b hn (src.take n ++ rest) = if v < max then .ok (v, rest) else randLoop max n b hn rest := by
        intro rest
        rw [randLoop, dif_neg (by rw [List.length_append]; omega)]
        have e1 : (src.take n ++ rest).take n = src.take n := by rw [List.take_append_of_le_length (by omega), List.take_of_length_le (by omega)]
        have e2 : (src.take n ++ rest).drop n = rest := by rw [List.drop_append_of_le_length (by omega), List.drop_of_length_le (by omega)]; rfl
        rw [e1, e2, ← hve]
      by_cases hv : v < max
      · rw [if_pos hv]
        refine ⟨List.take_prefix _ _, fun rest => ?_⟩
        rw [hrun, hloop, if_pos hv]
      · rw [if_neg hv]
        refine ⟨List.take_prefix _ _, fun rest => ?_⟩
        rw [hrun, hloop, if_neg hv, hrun]

theorem Agrees.trans {α : Type} {p q : Prog α} {bs cs : Str} {g : Gor α} (h : Agrees p bs (.running q)) (h' : Agrees q cs g) : Agrees p (bs ++ cs) g := by
  cases g with
  | running r => intro rest; rw [List.append_assoc, h, h' rest]
  | done o => exact (h cs).trans h'

theorem bytesOf_append (i : Nat) (a b : List (Nat × Str)) : bytesOf i (a ++ b) = bytesOf i a ++ bytesOf i b := by
  unfold bytesOf; rw [List.filter_append, List.flatMap_append]

/-- The general form: from any state in which the goroutines stand as their calls do alone on the bytes they have read. -/
theorem exec_agrees {α : Type} (calls : List (Prog α)) (src : Str) : ∀ (is : List Nat) (c : Shared α) (reads : List (Nat × Str)),
    src = reads.flatMap Prod.snd ++ c.src → c.gs.length = calls.length → (∀ i p g, calls[i]? = some p → c.gs[i]? = some g → Agrees p (bytesOf i reads) g) →
    src = (reads ++ (c.exec is).2).flatMap Prod.snd ++ (c.exec is).1.src ∧ (c.exec is).1.gs.length = calls.length ∧
      ∀ i p g, calls[i]? = some p → (c.exec is).1.gs[i]? = some g → Agrees p (bytesOf i (reads ++ (c.exec is).2)) g
  | [], c, reads, h1, h2, h3 => by simpa [Shared.exec] using ⟨h1, h2, h3⟩
  | j :: is, c, reads, h1, h2, h3 => by
    rw [Shared.exec]
    split
    · rename_i p hp
      obtain ⟨⟨t, ht⟩, ha⟩ := step_agrees c.src p
      have hd : c.src.drop (p.step c.src).2.length = t := by
        have e := congrArg (List.drop (p.step c.src).2.length) ht
        rw [List.drop_left] at e
        exact e.symm
      have ih := exec_agrees calls src is ⟨c.src.drop (p.step c.src).2.length, c.gs.set j (p.step c.src).1⟩ (reads ++ [(j, (p.step c.src).2)])
        (by rw [h1, List.flatMap_append]; simp [hd, ht])
        (by rw [List.length_set]; exact h2)
        (by
          intro i q g hq hg
          by_cases hij : i = j
          · subst hij
            simp only [List.getElem?_set_self' ] at hg
            rw [hp] at hg
            simp only [Option.map_eq_map, Option.map_some, Option.some.injEq] at hg
            subst hg
            rw [bytesOf_append]
            have : bytesOf i [(i, (p.step c.src).2)] = (p.step c.src).2 := by simp [bytesOf]
            rw [this]
            exact (h3 i q _ hq hp).trans ha
          · simp only at hg
            rw [List.getElem?_set_ne (fun e => hij e.symm)] at hg
            rw [bytesOf_append]
            have : bytesOf i [(j, (p.step c.src).2)] = [] := by simp [bytesOf, Ne.symm hij]
            rw [this, List.append_nil]
            exact h3 i q g hq hg)
      simpa only [List.append_assoc, List.singleton_append] using ih
    · exact exec_agrees calls src is c reads h1 h2 h3

/-- **C118** Calls of `Generate` (or of anything that only reads the source) that run at the same time, in whatever order they are scheduled: every byte of the source goes to one call only, and
every call that is done has the result it would have alone on the bytes it got. -/
theorem C118_concurrent {α : Type} (calls : List (Prog α)) (src : Str) (schedule : List Nat) :
    ∃ (final : Shared α) (reads : List (Nat × Str)), (Shared.start calls src).exec schedule = (final, reads) ∧ src = reads.flatMap Prod.snd ++ final.src ∧
      final.gs.length = calls.length ∧ ∀ (i : Nat) (p : Prog α) (o : Out α), calls[i]? = some p → final.gs[i]? = some (Gor.done o) → p.run (bytesOf i reads) = aloneOn o := by
  refine ⟨_, _, rfl, ?_⟩
  have h := exec_agrees calls src schedule (Shared.start calls src) [] rfl (by simp [Shared.start]) (by
    intro i p g hp hg
    simp only [Shared.start, List.getElem?_map, hp, Option.map_some, Option.some.injEq] at hg
    subst hg
    intro rest
    rfl)
  rw [List.nil_append] at h
  exact ⟨h.1, h.2.1, fun i p o hp hg => h.2.2 i p _ hp hg⟩

/-- **C118** In particular every password that is returned while other calls run has the composition its own call asked for. -/
theorem C118_conforms (g : Generator) (hg : g.AllAscii) (hs : g.Separate) (fuel : Nat) (length numDigits numSymbols : Int) (hd : 0 ≤ numDigits) (hy : 0 ≤ numSymbols)
    (noUpper allowRepeat : Bool) (before after : List (Prog Str)) (src : Str) (schedule : List Nat) (pw : Str)
    (h : ((Shared.start (before ++ g.generate fuel length numDigits numSymbols noUpper allowRepeat :: after) src).exec schedule).1.gs[before.length]? = some (Gor.done (.ok pw))) :
    Conforms g length numDigits numSymbols noUpper allowRepeat pw := by
  obtain ⟨final, reads, e, -, -, hr⟩ := C118_concurrent (before ++ g.generate fuel length numDigits numSymbols noUpper allowRepeat :: after) src schedule
  rw [e] at h
  have hrun := hr before.length _ _ (by rw [List.getElem?_append_right (Nat.le_refl _), Nat.sub_self]; rfl) h
  exact can_conforms hg hs hd hy (run_can _ hrun)

/-- The outcome of a call that ends, with the source afterwards. -/
def outOf {α : Type} : Out (α × Str) → Out α
  | .ok (a, _) => .ok a
  | .err e => .err e
  | .panic => .panic
  | .nofuel => .nofuel

theorem draw_step {α : Type} (src : Str) (max : Nat) (k : Nat → Prog α) :
    (∃ o, (Prog.step src (.draw max k)).1 = .done o ∧ outOf ((Prog.draw max k).run src) = o) ∨ (∃ v, (Prog.step src (.draw max k)).1 = .running (k v)) ∨
      ((Prog.step src (.draw max k)).1 = .running (.draw max k) ∧ (Prog.step src (.draw max k)).2 ≠ []) := by
  have ha := (step_agrees src (.draw max k)).2
  revert ha
  simp only [Prog.step]
  by_cases h0 : max = 0
  · intro _; left; exact ⟨.panic, by simp [h0], by simp [Prog.run, randInt, h0, outOf]⟩
  simp only [if_neg h0]
  by_cases hb : bitLen (max - 1) = 0
  · intro _; right; left; exact ⟨0, by simp [hb]⟩
  simp only [if_neg hb]
  by_cases hs : src.length < (bitLen (max - 1) + 7) / 8
  · simp only [if_pos hs]
    intro ha
    left
    refine ⟨_, rfl, ?_⟩
    rw [show (Prog.draw max k).run src = _ from ha]
    rfl
  · simp only [if_neg hs]
    intro _
    right
    generalize ofBytes _ = v
    split
    · left; exact ⟨_, rfl⟩
    · right
      refine ⟨rfl, fun e => ?_⟩
      have := congrArg List.length e
      simp only [List.length_take, List.length_nil] at this
      omega

theorem exec_done {α : Type} (i : Nat) : ∀ (p : Prog α) (src : Str) (gs : List (Gor α)), gs[i]? = some (.running p) →
    ∃ n rest reads, (⟨src, gs⟩ : Shared α).exec (List.replicate n i) = (⟨rest, gs.set i (.done (outOf (p.run src)))⟩, reads) := by
  have single : ∀ (p : Prog α) (src : Str) (gs : List (Gor α)), gs[i]? = some (.running p) → ∀ n rest reads, 
      (⟨src.drop (p.step src).2.length, gs.set i (p.step src).1⟩ : Shared α).exec (List.replicate n i) = (rest, reads) →
      (⟨src, gs⟩ : Shared α).exec (List.replicate (n + 1) i) = (rest, (i, (p.step src).2) :: reads) := by
    intro p src gs h n rest reads h'
    rw [List.replicate_succ, Shared.exec]
    simp only [h, h']
  intro p
  induction p with
  | ret a => intro src gs h; exact ⟨1, _, _, single _ src gs h 0 _ _ rfl⟩
  | fail e => intro src gs h; exact ⟨1, _, _, single _ src gs h 0 _ _ rfl⟩
  | stuck => intro src gs h; exact ⟨1, _, _, single _ src gs h 0 _ _ rfl⟩
  | draw max k ih =>
    intro src
    induction hl : src.length using Nat.strongRecOn generalizing src with
    | _ len ihl =>
    intro gs h
    have hag := step_agrees src (.draw max k)
    have hset : ∀ g, (gs.set i g)[i]? = some g := by
      intro g
      have : i < gs.length := (List.getElem?_eq_some_iff.1 h).1
      simp [this]
    have hs := single _ src gs h
    obtain ⟨⟨t, ht⟩, ha⟩ := hag
    have hd : src.drop (Prog.step src (.draw max k)).2.length = t := by
      have e := congrArg (List.drop (Prog.step src (.draw max k)).2.length) ht
      rw [List.drop_left] at e
      exact e.symm
    rw [hd] at hs
    rcases draw_step src max k with ⟨o, e, hr⟩ | ⟨v, e⟩ | ⟨e, hlt⟩
    · rw [hr]
      rw [e] at hs
      exact ⟨1, t, _, hs 0 _ _ rfl⟩
    · rw [e] at ha hs
      obtain ⟨n, rest, reads, hx⟩ := ih v t _ (hset (.running (k v)))
      have hy := hs n _ _ hx
      rw [List.set_set, ← ha t, ht] at hy
      exact ⟨n + 1, rest, _, hy⟩
    · rw [e] at ha hs
      obtain ⟨n, rest, reads, hx⟩ := ihl t.length (by rw [← hl]; have := congrArg List.length ht; rw [List.length_append] at this; have := List.length_pos_iff.2 hlt; omega) t rfl _ (hset (.running (.draw max k)))
      have hy := hs n _ _ hx
      rw [List.set_set, ← ha t, ht] at hy
      exact ⟨n + 1, rest, _, hy⟩

theorem exec_append {α : Type} : ∀ (is js : List Nat) (c : Shared α), (c.exec (is ++ js)).1 = ((c.exec is).1.exec js).1
  | [], js, c => rfl
  | i :: is, js, c => by
    rw [List.cons_append, Shared.exec, Shared.exec]
    split
    · exact exec_append is js _
    · exact exec_append is js c

/-- **C118** No call waits for another: whatever has been scheduled before, a call that is still on its way ends when it alone goes on. -/
theorem C118_nonblocking {α : Type} (calls : List (Prog α)) (src : Str) (schedule : List Nat) (i : Nat) (hi : i < calls.length) :
    ∃ n o, ((Shared.start calls src).exec (schedule ++ List.replicate n i)).1.gs[i]? = some (Gor.done o) := by
  obtain ⟨final, reads, e, -, hl, -⟩ := C118_concurrent calls src schedule
  have hi' : i < final.gs.length := by rw [hl]; exact hi
  cases hg : final.gs[i] with
  | done o => exact ⟨0, o, by rw [List.replicate_zero, List.append_nil, e, List.getElem?_eq_getElem hi', hg]⟩
  | running p =>
    obtain ⟨n, rest, rs, hx⟩ := exec_done i p final.src final.gs (by rw [List.getElem?_eq_getElem hi', hg])
    refine ⟨n, outOf (p.run final.src), ?_⟩
    rw [exec_append, e]
    simp only [hx]
    simp [hi']

/-- Two calls that draw two numbers below 10, in turns: one has to draw a second time, and each gets the bytes it read itself. -/
def twoCalls : Shared (Nat × Nat) :=
  let p : Prog (Nat × Nat) := .draw 10 fun a => .draw 10 fun b => .ret (a, b)
  Shared.start [p, p] [1, 2, 15, 3, 4, 5]

example : (twoCalls.exec [0, 1, 0, 1, 0, 0, 1]).2 = [(0, [1]), (1, [2]), (0, [15]), (1, [3]), (0, [4]), (0, []), (1, [])] ∧
    ((twoCalls.exec [0, 1, 0, 1, 0, 0, 1]).1.gs.map fun g => match g with | .done (.ok x) => some x | _ => none) = [some (1, 4), some (2, 3)] := by decide +kernel

/-- Two calls on the default generator in turns: both return a password. -/
def twoPasswords : Shared Str :=
  let p := defaultGenerator.generate 30 4 1 1 false false
  (Shared.start [p, p] [1, 2, 3, 4, 5, 6, 7, 8, 9, 10, 11, 12, 0, 1, 2, 3, 0, 1, 2, 1]).exec (List.range 60 |>.map (· % 2)) |>.1

example : twoPasswords.gs.map (fun g => match g with | .done (.ok pw) => some pw | _ => none) = [some (lit "_b7d"), some (lit "e+c8")] := by decide +kernel

end Verif.Password
