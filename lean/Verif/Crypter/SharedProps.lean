import Verif.Crypter.Shared
import Verif.Crypter.Props
/-
C121: one cipher used by several goroutines.
-/
namespace Verif.Crypter.Shared

namespace Spec

/-- The bytes of memory from `off` on. -/
def HoldsBytes (m : Memory) (off : Nat) (bs : List UInt8) : Prop := ∀ i b, bs[i]? = some b → m (.byte (off + i)) = ofByte b

/-- The words of memory from `off` on. -/
def HoldsWords (m : Memory) (off : Nat) (ws : List W) : Prop := ∀ i w, ws[i]? = some w → m (.word (off + i)) = w

/-- Byte methods work on bytes, the others on words. -/
def bytes (a : CallAt) : Bool := a.method = .encrypt ∨ a.method = .decrypt

/-- The number of bytes or words of a block. -/
def units (a : CallAt) : Nat := if bytes a then 8 * a.c.int.size.words else a.c.int.size.words

/-- Two ranges without a common element. -/
def Clear (off n off' n' : Nat) : Prop := off + n ≤ off' ∨ off' + n' ≤ off

/-- Two calls that do not get into each other's way: neither writes where the other reads or writes, and they do not use the byte methods of the same cipher. -/
def Apart (a b : CallAt) : Prop :=
  bytes a = bytes b → Clear a.dst (units a) b.dst (units b) ∧ Clear a.dst (units a) b.src (units b) ∧ Clear b.dst (units b) a.src (units a) ∧ (bytes a = true → a.id ≠ b.id)

end Spec
open Spec

/-! ### Straight-line programs -/

def Op.loc : Op → Loc
  | .load l => l
  | .store l _ => l

def writes (ops : List Op) : List Loc := ops.filterMap fun | .load _ => none | .store l _ => some l

/-- Run alone. -/
def solo (ops : List Op) (s : List W × Memory) : List W × Memory := ops.foldl (fun s o => o.exec s) s

theorem solo_append (a b : List Op) (s : List W × Memory) : solo (a ++ b) s = solo b (solo a s) := List.foldl_append ..

/-- The state of a goroutine that started with `prog`: as alone, on its own cells. -/
def Ok (m0 : Memory) (prog : List Op) (m : Memory) (t : Thread) : Prop :=
  ∃ past, prog = past ++ t.ops ∧ t.regs = (solo past ([], m0)).1 ∧ ∀ o ∈ prog, m o.loc = (solo past ([], m0)).2 o.loc

theorem mem_writes {ops : List Op} {l : Loc} {f : List W → W} (h : Op.store l f ∈ ops) : l ∈ writes ops :=
  List.mem_filterMap.2 ⟨_, h, rfl⟩

/-- Programs that do not write each other's cells run as if alone, in every schedule. -/
theorem run_ok (progs : List (List Op)) (hsep : ∀ (i j : Nat) (p q : List Op), progs[i]? = some p → progs[j]? = some q → i ≠ j → ∀ o ∈ q, o.loc ∉ writes p) (m0 : Memory) :
    ∀ (is : List Nat) (s : List Thread × Memory), s.1.length = progs.length → (∀ (i : Nat) p t, progs[i]? = some p → s.1[i]? = some t → Ok m0 p s.2 t) →
      (∀ l, (∀ p ∈ progs, l ∉ writes p) → s.2 l = m0 l) →
      (run is s).1.length = progs.length ∧ (∀ (i : Nat) p t, progs[i]? = some p → (run is s).1[i]? = some t → Ok m0 p (run is s).2 t) ∧
      (∀ l, (∀ p ∈ progs, l ∉ writes p) → (run is s).2 l = m0 l)
  | [], s, h0, h1, h2 => ⟨h0, h1, h2⟩
  | i :: is, s, h0, h1, h2 => by
    rw [run]
    split
    · rename_i o ops regs ht
      have hi : i < progs.length := h0 ▸ (List.getElem?_eq_some_iff.1 ht).1
      have hp : progs[i]? = some progs[i] := List.getElem?_eq_getElem hi
      obtain ⟨past, e1, e2, e3⟩ := h1 i _ _ hp ht
      simp only at e1 e2
      have hmem : o ∈ progs[i] := by rw [e1]; simp
      -- the step of the goroutine is the step it makes alone
      have hstep : (o.exec (regs, s.2)).1 = (solo (past ++ [o]) ([], m0)).1 ∧ ∀ l, (∀ f, o ≠ .store l f) → (o.exec (regs, s.2)).2 l = s.2 l := by
        rw [solo_append]
        cases o with
        | load l => exact ⟨by simp [Op.exec, solo, e2]; exact e3 _ hmem, fun _ _ => rfl⟩
        | store l f =>
          refine ⟨by simp [Op.exec, solo, e2], fun l' hl' => ?_⟩
          have : l' ≠ l := fun e => hl' f (by rw [e])
          simp [Op.exec, this]
      have hown : ∀ o' ∈ progs[i], (o.exec (regs, s.2)).2 o'.loc = (solo (past ++ [o]) ([], m0)).2 o'.loc := by
        intro o' ho'
        rw [solo_append]
        have e4 := e3 o' ho'
        cases o with
        | load l => exact e4
        | store l f =>
          simp only [Op.exec, solo, List.foldl_cons, List.foldl_nil]
          split
          · exact congrArg f e2
          · exact e4
      have hother : ∀ l, l ∉ writes progs[i] → (o.exec (regs, s.2)).2 l = s.2 l := by
        intro l hl
        exact hstep.2 l fun f e => hl (mem_writes (e ▸ hmem))
      refine run_ok progs hsep m0 is _ (by rw [List.length_set]; exact h0) ?_ ?_
      · intro j p t hpj htj
        by_cases hj : j = i
        · subst hj
          rw [hp] at hpj; cases hpj
          simp only [List.getElem?_set_self', ht, Option.map_eq_map, Option.map_some, Option.some.injEq] at htj
          subst htj
          exact ⟨past ++ [o], by rw [e1]; simp, hstep.1, hown⟩
        · simp only [List.getElem?_set_ne (fun e => hj (Eq.symm e))] at htj
          obtain ⟨past', f1, f2, f3⟩ := h1 j p t hpj htj
          exact ⟨past', f1, f2, fun o' ho' => (hother _ (hsep i j _ _ hp hpj (fun e => hj e.symm) o' ho')).trans (f3 o' ho')⟩
      · intro l hl
        exact (hother l (hl _ (List.getElem_mem hi))).trans (h2 l hl)
    · exact run_ok progs hsep m0 is s h0 h1 h2

/-! ### What a call does alone -/

theorem solo_loads (L : List Nat) (f : Nat → Loc) : ∀ (regs : List W) (m : Memory), solo (L.map fun i => Op.load (f i)) (regs, m) = ((L.map fun i => m (f i)).reverse ++ regs, m) := by
  induction L with
  | nil => intro regs m; rfl
  | cons i L ih =>
    intro regs m
    change solo (L.map fun i => Op.load (f i)) (m (f i) :: regs, m) = _
    rw [ih]
    simp

theorem solo_stores (L : List Nat) (out : Nat → Loc) (hinj : ∀ i j, out i = out j → i = j) (f : Nat → List W → W) : ∀ (regs : List W) (m : Memory),
    ∃ m', solo (L.map fun i => Op.store (out i) (f i)) (regs, m) = (regs, m') ∧ (∀ i ∈ L, m' (out i) = f i regs) ∧ ∀ l, (∀ i ∈ L, l ≠ out i) → m' l = m l := by
  induction L with
  | nil => intro regs m; exact ⟨m, rfl, by simp, fun _ _ => rfl⟩
  | cons i L ih =>
    intro regs m
    obtain ⟨m', h1, h2, h3⟩ := ih regs (fun l' => if l' = out i then f i regs else m l')
    refine ⟨m', h1, ?_, ?_⟩
    · intro k hk
      by_cases hkl : k ∈ L
      · exact h2 k hkl
      · have : k = i := by simpa [hkl] using hk
        subst this
        rw [h3 _ fun j hj e => hkl (by rw [hinj _ _ e]; exact hj), if_pos rfl]
    · intro l hl
      rw [h3 l fun k hk => hl k (List.mem_cons_of_mem _ hk), if_neg (hl i (List.mem_cons_self ..))]

theorem solo_body (a : CallAt) (input output : Nat → Loc) (hinj : ∀ i j, output i = output j → i = j) (regs : List W) (m : Memory) :
    ∃ regs' m', solo (a.body input output) (regs, m) = (regs', m') ∧
      (∀ i < a.c.int.size.words, m' (output i) = (a.block ((List.range a.c.int.size.words).map fun i => m (input i))).getD i 0) ∧
      ∀ l, (∀ i < a.c.int.size.words, l ≠ output i) → m' l = m l := by
  unfold CallAt.body
  rw [solo_append, solo_loads]
  obtain ⟨m', h1, h2, h3⟩ := solo_stores (List.range a.c.int.size.words) output hinj
    (fun i regs => (a.block (regs.take a.c.int.size.words).reverse).getD i 0) (((List.range a.c.int.size.words).map fun i => m (input i)).reverse ++ regs) m
  refine ⟨_, m', h1, fun i hi => ?_, fun l hl => h3 l fun i hi => hl i (List.mem_range.1 hi)⟩
  rw [h2 i (List.mem_range.2 hi)]
  simp only [List.take_append_of_le_length (l₁ := (List.map (fun i => m (input i)) (List.range a.c.int.size.words)).reverse) (i := a.c.int.size.words) (by simp)]
  rw [List.take_of_length_le (by simp), List.reverse_reverse]

theorem solo_wordIn (a : CallAt) (i : Nat) (regs : List W) (m : Memory) :
    ∃ regs', solo (a.wordIn i) (regs, m) = (regs', fun l => if l = .tmp1 a.id i then leWord ((List.range 8).map fun j => toByte (m (.byte (a.src + (8 * i + j))))) else m l) := by
  unfold CallAt.wordIn
  rw [solo_append, solo_loads]
  refine ⟨((List.range 8).map fun j => m (.byte (a.src + (8 * i + j)))).reverse ++ regs, ?_⟩
  simp only [solo, List.foldl_cons, List.foldl_nil, Op.exec]
  rw [List.take_append_of_le_length (by simp), List.take_of_length_le (by simp), List.reverse_reverse, List.map_map]
  rfl

theorem solo_wordsIn (a : CallAt) (k : Nat) (regs : List W) (m : Memory) :
    ∃ regs' m', solo ((List.range k).flatMap a.wordIn) (regs, m) = (regs', m') ∧
      (∀ i < k, m' (.tmp1 a.id i) = leWord ((List.range 8).map fun j => toByte (m (.byte (a.src + (8 * i + j)))))) ∧ ∀ l, (∀ i < k, l ≠ .tmp1 a.id i) → m' l = m l := by
  induction k with
  | zero => exact ⟨regs, m, rfl, by simp, fun _ _ => rfl⟩
  | succ k ih =>
    obtain ⟨r1, m1, h1, h2, h3⟩ := ih
    rw [List.range_succ, List.flatMap_append, solo_append, h1]
    simp only [List.flatMap_cons, List.flatMap_nil, List.append_nil]
    obtain ⟨r2, e⟩ := solo_wordIn a k r1 m1
    refine ⟨r2, _, e, fun i hi => ?_, fun l hl => ?_⟩
    · have hb : ∀ x, m1 (.byte x) = m (.byte x) := fun x => h3 _ (by simp)
      simp only [Loc.tmp1.injEq, true_and]
      split
      · subst_vars; simp only [hb]
      · exact h2 i (by omega)
    · rw [if_neg (hl k (by omega)), h3 l fun i hi => hl i (by omega)]

theorem solo_wordOut (a : CallAt) (i : Nat) (regs : List W) (m : Memory) :
    ∃ regs' m', solo (a.wordOut i) (regs, m) = (regs', m') ∧ (∀ j < 8, m' (.byte (a.dst + (8 * i + j))) = ofByte ((leBytes (m (.tmp2 a.id i))).getD j 0)) ∧
      ∀ l, (∀ j < 8, l ≠ .byte (a.dst + (8 * i + j))) → m' l = m l := by
  unfold CallAt.wordOut
  obtain ⟨m', h1, h2, h3⟩ := solo_stores (List.range 8) (fun j => .byte (a.dst + (8 * i + j))) (by intro x y h; simpa using h)
    (fun j regs => ofByte ((leBytes (regs.headD 0)).getD j 0)) (m (.tmp2 a.id i) :: regs) m
  exact ⟨_, m', h1, fun j hj => h2 j (List.mem_range.2 hj), fun l hl => h3 l fun j hj => hl j (List.mem_range.1 hj)⟩

theorem solo_wordsOut (a : CallAt) (k : Nat) (regs : List W) (m : Memory) :
    ∃ regs' m', solo ((List.range k).flatMap a.wordOut) (regs, m) = (regs', m') ∧
      (∀ i < k, ∀ j < 8, m' (.byte (a.dst + (8 * i + j))) = ofByte ((leBytes (m (.tmp2 a.id i))).getD j 0)) ∧ ∀ l, (∀ i < 8 * k, l ≠ .byte (a.dst + i)) → m' l = m l := by
  induction k with
  | zero => exact ⟨regs, m, rfl, by simp, fun _ _ => rfl⟩
  | succ k ih =>
    obtain ⟨r1, m1, h1, h2, h3⟩ := ih
    rw [List.range_succ, List.flatMap_append, solo_append, h1]
    simp only [List.flatMap_cons, List.flatMap_nil, List.append_nil]
    obtain ⟨r2, m2, e, g2, g3⟩ := solo_wordOut a k r1 m1
    refine ⟨r2, m2, e, fun i hi j hj => ?_, fun l hl => ?_⟩
    · by_cases hik : i = k
      · subst hik
        rw [g2 j hj, h3 _ (by simp)]
      · rw [g3 _ (by intro j' hj' e; simp at e; omega)]
        exact h2 i (by omega) j hj
    · rw [g3 l fun j hj => hl _ (by omega), h3 l fun i hi => hl i (by omega)]

/-- The byte methods alone. -/
theorem solo_bytes (a : CallAt) (ha : bytes a = true) (hst : a.c.stateSize / 64 = a.c.int.size.words) (regs : List W) (m : Memory) :
    ∃ regs' m', solo a.prog (regs, m) = (regs', m') ∧ ∀ i < a.c.int.size.words, ∀ j < 8, m' (.byte (a.dst + (8 * i + j))) = ofByte ((leBytes ((a.block
      ((List.range a.c.int.size.words).map fun i => leWord ((List.range 8).map fun j => toByte (m (.byte (a.src + (8 * i + j))))))).getD i 0)).getD j 0) := by
  have hp : a.prog = (List.range a.c.int.size.words).flatMap a.wordIn ++ a.body (.tmp1 a.id) (.tmp2 a.id) ++ (List.range a.c.int.size.words).flatMap a.wordOut := by
    unfold CallAt.prog
    rw [hst]
    unfold bytes at ha
    cases hm : a.method <;> simp [hm] at ha ⊢
  rw [hp, solo_append, solo_append]
  obtain ⟨r1, m1, e1, f1, g1⟩ := solo_wordsIn a a.c.int.size.words regs m
  rw [e1]
  obtain ⟨r2, m2, e2, f2, g2⟩ := solo_body a (.tmp1 a.id) (.tmp2 a.id) (by simp) r1 m1
  rw [e2]
  obtain ⟨r3, m3, e3, f3, g3⟩ := solo_wordsOut a a.c.int.size.words r2 m2
  refine ⟨r3, m3, e3, fun i hi j hj => ?_⟩
  rw [f3 i hi j hj, f2 i hi]
  rw [List.map_congr_left fun k hk => f1 k (List.mem_range.1 hk)]

/-- The word methods alone. -/
theorem solo_words (a : CallAt) (ha : bytes a = false) (regs : List W) (m : Memory) :
    ∃ regs' m', solo a.prog (regs, m) = (regs', m') ∧ ∀ i < a.c.int.size.words, m' (.word (a.dst + i)) =
      (a.block ((List.range a.c.int.size.words).map fun i => m (.word (a.src + i)))).getD i 0 := by
  have hp : a.prog = a.body (fun i => .word (a.src + i)) (fun i => .word (a.dst + i)) := by
    unfold CallAt.prog
    unfold bytes at ha
    cases hm : a.method <;> simp [hm] at ha ⊢
  rw [hp]
  obtain ⟨r1, m1, e1, f1, -⟩ := solo_body a (fun i => .word (a.src + i)) (fun i => .word (a.dst + i)) (by intro i j h; simpa using h) regs m
  exact ⟨r1, m1, e1, f1⟩

/-! ### The cells of a call -/

theorem mem_body {a : CallAt} {input output : Nat → Loc} {o : Op} (h : o ∈ a.body input output) :
    (∃ i < a.c.int.size.words, o = .load (input i)) ∨ ∃ i < a.c.int.size.words, ∃ f, o = .store (output i) f := by
  unfold CallAt.body at h
  rcases List.mem_append.1 h with h | h
  · obtain ⟨i, hi, rfl⟩ := List.mem_map.1 h; exact .inl ⟨i, List.mem_range.1 hi, rfl⟩
  · obtain ⟨i, hi, rfl⟩ := List.mem_map.1 h; exact .inr ⟨i, List.mem_range.1 hi, _, rfl⟩

/-- What a call may read and write. -/
theorem mem_prog {a : CallAt} (hst : bytes a = true → a.c.stateSize / 64 = a.c.int.size.words) {o : Op} (h : o ∈ a.prog) :
    if bytes a then (∃ i < units a, o = .load (.byte (a.src + i))) ∨ (∃ i < units a, ∃ f, o = .store (.byte (a.dst + i)) f) ∨ (∃ i, o.loc = .tmp1 a.id i) ∨ ∃ i, o.loc = .tmp2 a.id i
    else (∃ i < units a, o = .load (.word (a.src + i))) ∨ ∃ i < units a, ∃ f, o = .store (.word (a.dst + i)) f := by
  by_cases ha : bytes a = true
  · rw [if_pos ha]
    have hu : units a = 8 * a.c.int.size.words := by simp [units, ha]
    rw [hu]
    have hp : a.prog = (List.range a.c.int.size.words).flatMap a.wordIn ++ a.body (.tmp1 a.id) (.tmp2 a.id) ++ (List.range a.c.int.size.words).flatMap a.wordOut := by
      unfold CallAt.prog
      rw [hst ha]
      unfold bytes at ha
      cases hm : a.method <;> simp [hm] at ha ⊢
    rw [hp] at h
    rcases List.mem_append.1 h with h | h
    · rcases List.mem_append.1 h with h | h
      · obtain ⟨i, hi, h⟩ := List.mem_flatMap.1 h
        have hi := List.mem_range.1 hi
        unfold CallAt.wordIn at h
        rcases List.mem_append.1 h with h | h
        · obtain ⟨j, hj, rfl⟩ := List.mem_map.1 h
          have hj := List.mem_range.1 hj
          exact .inl ⟨8 * i + j, by omega, rfl⟩
        · rw [List.mem_singleton] at h
          subst h
          exact .inr (.inr (.inl ⟨i, rfl⟩))
      · rcases mem_body h with ⟨i, _, rfl⟩ | ⟨i, _, f, rfl⟩
        · exact .inr (.inr (.inl ⟨i, rfl⟩))
        · exact .inr (.inr (.inr ⟨i, rfl⟩))
    · obtain ⟨i, hi, h⟩ := List.mem_flatMap.1 h
      have hi := List.mem_range.1 hi
      unfold CallAt.wordOut at h
      rcases List.mem_cons.1 h with rfl | h
      · exact .inr (.inr (.inr ⟨i, rfl⟩))
      · obtain ⟨j, hj, rfl⟩ := List.mem_map.1 h
        have hj := List.mem_range.1 hj
        exact .inr (.inl ⟨8 * i + j, by omega, _, rfl⟩)
  · rw [if_neg ha]
    have hu : units a = a.c.int.size.words := by simp [units, ha]
    rw [hu]
    have hp : a.prog = a.body (fun i => .word (a.src + i)) (fun i => .word (a.dst + i)) := by
      unfold CallAt.prog
      unfold bytes at ha
      cases hm : a.method <;> simp [hm] at ha ⊢
    rw [hp] at h
    exact mem_body h

theorem apart_sep {a b : CallAt} (ha : bytes a = true → a.c.stateSize / 64 = a.c.int.size.words) (hb : bytes b = true → b.c.stateSize / 64 = b.c.int.size.words) (h : Apart a b) :
    ∀ o ∈ b.prog, o.loc ∉ writes a.prog := by
  intro o ho hw
  obtain ⟨o', ho', e⟩ := List.mem_filterMap.1 hw
  cases o' with
  | load l => cases e
  | store l f =>
  simp only [Option.some.injEq] at e
  have h1 := mem_prog ha ho'
  have h2 := mem_prog hb ho
  unfold Apart Clear at h
  by_cases hab : bytes a = bytes b
  · obtain ⟨d1, d2, d3, d4⟩ := h hab
    cases hba : bytes a with
    | true =>
      rw [hba] at hab h1 d4
      rw [← hab] at h2
      have d4 := d4 rfl
      simp only [if_true] at h1 h2
      rcases h1 with ⟨i, hi, h1⟩ | ⟨i, hi, f', h1⟩ | ⟨i, h1⟩ | ⟨i, h1⟩
      · cases h1
      · injection h1 with h1 _
        rw [h1] at e
        rcases h2 with ⟨k, hk, h2⟩ | ⟨k, hk, f2, h2⟩ | ⟨k, h2⟩ | ⟨k, h2⟩
        · rw [h2] at e; simp only [Op.loc, Loc.byte.injEq] at e; omega
        · rw [h2] at e; simp only [Op.loc, Loc.byte.injEq] at e; omega
        · rw [h2] at e; cases e
        · rw [h2] at e; cases e
      · simp only [Op.loc] at h1
        rw [h1] at e
        rcases h2 with ⟨k, hk, h2⟩ | ⟨k, hk, f2, h2⟩ | ⟨k, h2⟩ | ⟨k, h2⟩
        · rw [h2] at e; cases e
        · rw [h2] at e; cases e
        · rw [h2] at e; simp only [Loc.tmp1.injEq] at e; exact d4 e.1
        · rw [h2] at e; cases e
      · simp only [Op.loc] at h1
        rw [h1] at e
        rcases h2 with ⟨k, hk, h2⟩ | ⟨k, hk, f2, h2⟩ | ⟨k, h2⟩ | ⟨k, h2⟩
        · rw [h2] at e; cases e
        · rw [h2] at e; cases e
        · rw [h2] at e; cases e
        · rw [h2] at e; simp only [Loc.tmp2.injEq] at e; exact d4 e.1
    | false =>
      rw [hba] at hab h1
      rw [← hab] at h2
      simp only [Bool.false_eq_true, if_false] at h1 h2
      rcases h1 with ⟨i, hi, h1⟩ | ⟨i, hi, f', h1⟩
      · cases h1
      · injection h1 with h1 _
        rw [h1] at e
        rcases h2 with ⟨k, hk, h2⟩ | ⟨k, hk, f2, h2⟩
        · rw [h2] at e; simp only [Op.loc, Loc.word.injEq] at e; omega
        · rw [h2] at e; simp only [Op.loc, Loc.word.injEq] at e; omega
  · cases hba : bytes a with
    | true =>
      have hbb : bytes b = false := by cases hb' : bytes b <;> simp_all
      rw [hba] at h1; rw [hbb] at h2
      simp only [if_true, Bool.false_eq_true, if_false] at h1 h2
      have hl : ∀ i, l ≠ .word i := by
        rcases h1 with ⟨i, hi, h1⟩ | ⟨i, hi, f', h1⟩ | ⟨i, h1⟩ | ⟨i, h1⟩
        · cases h1
        · injection h1 with h1 _; rw [h1]; simp
        · simp only [Op.loc] at h1; rw [h1]; simp
        · simp only [Op.loc] at h1; rw [h1]; simp
      rcases h2 with ⟨k, hk, h2⟩ | ⟨k, hk, f2, h2⟩
      · rw [h2] at e; exact hl _ e
      · rw [h2] at e; exact hl _ e
    | false =>
      have hbb : bytes b = true := by cases hb' : bytes b <;> simp_all
      rw [hba] at h1; rw [hbb] at h2
      simp only [if_true, Bool.false_eq_true, if_false] at h1 h2
      rcases h1 with ⟨i, hi, h1⟩ | ⟨i, hi, f', h1⟩
      · cases h1
      · injection h1 with h1 _
        rw [h1] at e
        rcases h2 with ⟨k, hk, h2⟩ | ⟨k, hk, f2, h2⟩ | ⟨k, h2⟩ | ⟨k, h2⟩ <;> · rw [h2] at e; cases e

/-! ### C121 -/

/-- The goroutines at their start. -/
def start (calls : List CallAt) (m : Memory) : List Thread × Memory := (calls.map fun a => ⟨a.prog, []⟩, m)

theorem calls_ok (calls : List CallAt) (hst : ∀ a ∈ calls, bytes a = true → a.c.stateSize / 64 = a.c.int.size.words)
    (hap : ∀ (i j : Nat) (a b : CallAt), calls[i]? = some a → calls[j]? = some b → i ≠ j → Apart a b) (m : Memory) (schedule : List Nat) :
    ∃ threads m', run schedule (start calls m) = (threads, m') ∧ (∀ (i : Nat) a t, calls[i]? = some a → threads[i]? = some t → Ok m a.prog m' t) ∧
      ∀ l, (∀ a ∈ calls, l ∉ writes a.prog) → m' l = m l := by
  refine ⟨_, _, rfl, ?_⟩
  obtain ⟨-, h2, h3⟩ := run_ok (calls.map CallAt.prog) (by
    intro i j p q hp hq hij
    rw [List.getElem?_map] at hp hq
    obtain ⟨a, ha, rfl⟩ := Option.map_eq_some_iff.1 hp
    obtain ⟨b, hb, rfl⟩ := Option.map_eq_some_iff.1 hq
    exact apart_sep (hst a (List.mem_of_getElem? ha)) (hst b (List.mem_of_getElem? hb)) (hap i j a b ha hb hij)) m schedule (start calls m) (by simp [start]) (by
    intro i p t hp ht
    rw [List.getElem?_map] at hp
    obtain ⟨a, ha, rfl⟩ := Option.map_eq_some_iff.1 hp
    simp only [start, List.getElem?_map, ha, Option.map_some, Option.some.injEq] at ht
    subst ht
    exact ⟨[], rfl, rfl, fun _ _ => rfl⟩) (fun _ _ => rfl)
  refine ⟨fun i a t ha ht => h2 i _ t (by rw [List.getElem?_map, ha]; rfl) ht, fun l hl => h3 l fun p hp => ?_⟩
  obtain ⟨a, ha, rfl⟩ := List.mem_map.1 hp
  exact hl a ha

theorem Ok.final {m0 m : Memory} {prog : List Op} {t : Thread} (h : Ok m0 prog m t) (ht : t.ops = []) : ∀ o ∈ prog, m o.loc = (solo prog ([], m0)).2 o.loc := by
  obtain ⟨past, e1, -, e3⟩ := h
  rw [ht, List.append_nil] at e1
  subst e1
  exact e3

theorem store_word (a : CallAt) (ha : bytes a = false) (i : Nat) (hi : i < a.c.int.size.words) : ∃ o ∈ a.prog, o.loc = .word (a.dst + i) := by
  have hp : a.prog = a.body (fun i => .word (a.src + i)) (fun i => .word (a.dst + i)) := by
    unfold CallAt.prog
    unfold bytes at ha
    cases hm : a.method <;> simp [hm] at ha ⊢
  rw [hp]
  exact ⟨_, List.mem_append_right _ (List.mem_map.2 ⟨i, List.mem_range.2 hi, rfl⟩), rfl⟩

theorem store_byte (a : CallAt) (ha : bytes a = true) (hst : a.c.stateSize / 64 = a.c.int.size.words) (i j : Nat) (hi : i < a.c.int.size.words) (hj : j < 8) :
    ∃ o ∈ a.prog, o.loc = .byte (a.dst + (8 * i + j)) := by
  have hp : a.prog = (List.range a.c.int.size.words).flatMap a.wordIn ++ a.body (.tmp1 a.id) (.tmp2 a.id) ++ (List.range a.c.int.size.words).flatMap a.wordOut := by
    unfold CallAt.prog
    rw [hst]
    unfold bytes at ha
    cases hm : a.method <;> simp [hm] at ha ⊢
  rw [hp]
  exact ⟨_, List.mem_append_right _ (List.mem_flatMap.2 ⟨i, List.mem_range.2 hi, List.mem_cons_of_mem _ (List.mem_map.2 ⟨j, List.mem_range.2 hj, rfl⟩)⟩), rfl⟩

theorem toByte_ofByte (b : UInt8) : toByte (ofByte b) = b := by
  apply UInt8.toBitVec_inj.1
  simp [toByte, ofByte, BitVec.setWidth_setWidth_of_le]

theorem holds_words {m : Memory} {off : Nat} {ws : List W} (h : HoldsWords m off ws) : (List.range ws.length).map (fun i => m (.word (off + i))) = ws := by
  apply List.ext_getElem
  · simp
  · intro i h1 h2
    simp only [List.getElem_map, List.getElem_range]
    exact h i _ (List.getElem?_eq_getElem h2)

theorem bytesOfWords_getElem? (ws : List W) (i j : Nat) (hj : j < 8) : (bytesOfWords ws)[8 * i + j]? = (ws[i]?).map fun w => (leBytes w).getD j 0 := by
  rw [bytesOfWords_eq]
  induction ws generalizing i with
  | nil => simp
  | cons w ws ih =>
    rw [List.flatMap_cons]
    cases i with
    | zero =>
      rw [List.getElem?_append_left (by rw [leBytes_length]; omega)]
      simp only [Nat.mul_zero, Nat.zero_add, List.getElem?_cons_zero, Option.map_some, List.getD_eq_getElem?_getD]
      rw [List.getElem?_eq_getElem (by rw [leBytes_length]; omega)]
      rfl
    | succ i =>
      rw [List.getElem?_append_right (by rw [leBytes_length]; omega), leBytes_length, show 8 * (i + 1) + j - 8 = 8 * i + j by omega, ih]
      simp

theorem holds_bytes {m : Memory} {off : Nat} {ws : List W} (h : HoldsBytes m off (bytesOfWords ws)) :
    (List.range ws.length).map (fun i => leWord ((List.range 8).map fun j => toByte (m (.byte (off + (8 * i + j)))))) = ws := by
  apply List.ext_getElem
  · simp
  · intro i h1 h2
    simp only [List.getElem_map, List.getElem_range]
    have hw : ∀ j < 8, m (.byte (off + (8 * i + j))) = ofByte ((leBytes ws[i]).getD j 0) := by
      intro j hj
      refine h (8 * i + j) _ ?_
      rw [bytesOfWords_getElem? _ _ _ hj, List.getElem?_eq_getElem h2]; rfl
    have e : (List.range 8).map (fun j => toByte (m (.byte (off + (8 * i + j))))) = leBytes ws[i] := by
      apply List.ext_getElem
      · simp [leBytes_length]
      · intro j h3 h4
        simp only [List.getElem_map, List.getElem_range]
        rw [hw j (by simpa using h3), toByte_ofByte, List.getD_eq_getElem?_getD, List.getElem?_eq_getElem h4]
        rfl
    rw [e]
    have := leWord_leBytes ws[i] []
    rwa [List.append_nil] at this

/-- **C121** (as far as it holds) Goroutines that call the methods of ciphers at the same time, in every schedule: if their slices do not overlap (but for the destination and source of one
call) and no two use the byte methods of the same cipher, every call that is done has made of its block what it would have made alone: Threefish, or its inverse. All other
memory of the callers is unchanged. -/
theorem C121_separate_partial (calls : List CallAt) (hin : ∀ a ∈ calls, ∃ sz key t, InUse (bytes a) sz key t a.c)
    (hap : ∀ (i j : Nat) (a b : CallAt), calls[i]? = some a → calls[j]? = some b → i ≠ j → Apart a b) (m : Memory) (schedule : List Nat) :
    ∃ threads m', run schedule (start calls m) = (threads, m') ∧
      (∀ (i : Nat) (a : CallAt) regs sz key t block, calls[i]? = some a → threads[i]? = some ⟨[], regs⟩ → InUse (bytes a) sz key t a.c → block.length = sz.words →
        (a.method = .encrypt64 → HoldsWords m a.src block → HoldsWords m' a.dst (Threefish.encrypt sz.params key t.1 t.2 block)) ∧
        (a.method = .decrypt64 → HoldsWords m a.src (Threefish.encrypt sz.params key t.1 t.2 block) → HoldsWords m' a.dst block) ∧
        (a.method = .encrypt → HoldsBytes m a.src (bytesOfWords block) → HoldsBytes m' a.dst (bytesOfWords (Threefish.encrypt sz.params key t.1 t.2 block))) ∧
        (a.method = .decrypt → HoldsBytes m a.src (bytesOfWords (Threefish.encrypt sz.params key t.1 t.2 block)) → HoldsBytes m' a.dst (bytesOfWords block))) ∧
      (∀ x, (∀ a ∈ calls, bytes a = true → x < a.dst ∨ a.dst + units a ≤ x) → m' (.byte x) = m (.byte x)) ∧
      ∀ x, (∀ a ∈ calls, bytes a = false → x < a.dst ∨ a.dst + units a ≤ x) → m' (.word x) = m (.word x) := by
  have hst : ∀ a ∈ calls, bytes a = true → a.c.stateSize / 64 = a.c.int.size.words := by
    intro a ha hb
    obtain ⟨sz, key, t, h⟩ := hin a ha
    obtain ⟨hh, -, h3⟩ := h.holds
    rw [h3 hb, hh.size]; omega
  obtain ⟨threads, m', hrun, hok, hrest⟩ := calls_ok calls hst hap m schedule
  refine ⟨threads, m', hrun, ?_, ?_, ?_⟩
  · intro i a regs sz key t block ha ht hu hb
    have hfin := (hok i a _ ha ht).final rfl
    obtain ⟨hh, -, h3⟩ := hu.holds
    have es := hh.size
    have enc : a.c.int.enc block = Threefish.encrypt sz.params key t.1 t.2 block := by
      have := Internal.enc_spec a.c.int key t.1 t.2 (by rw [es]; exact hh.klen) hh.ek hh.et block (by rw [es]; exact hb)
      rw [this, es]
    have dec : a.c.int.dec (Threefish.encrypt sz.params key t.1 t.2 block) = block := by
      rw [← enc]; exact Internal.dec_enc _ _ (by rw [es]; exact hb)
    have hel : (Threefish.encrypt sz.params key t.1 t.2 block).length = sz.words := by rw [← enc, Internal.enc_length, es]
    have words : ∀ x y, bytes a = false → x.length = sz.words → HoldsWords m a.src x → a.block x = y → y.length = sz.words → HoldsWords m' a.dst y := by
      intro x y hba hx hm hy hyl k w hk
      have hk' : k < sz.words := by rw [← hyl]; exact (List.getElem?_eq_some_iff.1 hk).1
      obtain ⟨r1, m1, e1, f1⟩ := solo_words a hba [] m
      obtain ⟨o, ho, hl⟩ := store_word a hba k (by rw [es]; exact hk')
      have := hfin o ho
      rw [hl, e1] at this
      rw [this]
      simp only
      rw [f1 k (by rw [es]; exact hk')]
      have hxx := holds_words hm
      rw [hx] at hxx
      rw [es, hxx, hy, List.getD_eq_getElem?_getD, hk]
      rfl
    have byts : ∀ x y, bytes a = true → x.length = sz.words → HoldsBytes m a.src (bytesOfWords x) → a.block x = y → y.length = sz.words → HoldsBytes m' a.dst (bytesOfWords y) := by
      intro x y hba hx hm hy hyl k b hk
      have hk' : k < 8 * sz.words := by rw [← hyl, ← bytesOfWords_length]; exact (List.getElem?_eq_some_iff.1 hk).1
      have hst' := hst a (List.mem_of_getElem? ha) hba
      obtain ⟨r1, m1, e1, f1⟩ := solo_bytes a hba hst' [] m
      obtain ⟨o, ho, hl⟩ := store_byte a hba hst' (k / 8) (k % 8) (by rw [es]; omega) (by omega)
      have := hfin o ho
      have ek : 8 * (k / 8) + k % 8 = k := by omega
      have h8 := bytesOfWords_getElem? y (k / 8) (k % 8) (by omega)
      have f1 := f1 (k / 8) (by rw [es]; omega) (k % 8) (by omega)
      rw [ek] at h8 f1 hl
      rw [hl, e1] at this
      rw [this]
      simp only
      rw [f1]
      have hxx := holds_bytes hm
      rw [hx] at hxx
      rw [es, hxx, hy, List.getD_eq_getElem?_getD (l := y)]
      rw [hk] at h8
      cases hyk : y[k / 8]? with
      | none => rw [hyk] at h8; cases h8
      | some w => rw [hyk] at h8; simp only [Option.map_some, Option.some.injEq] at h8; rw [h8]; rfl
    refine ⟨fun hm hs => words block _ (by simp [bytes, hm]) hb hs (by simp [CallAt.block, hm, enc]) hel,
      fun hm hs => words _ block (by simp [bytes, hm]) hel hs (by simp [CallAt.block, hm, dec]) hb,
      fun hm hs => byts block _ (by simp [bytes, hm]) hb hs (by simp [CallAt.block, hm, enc]) hel,
      fun hm hs => byts _ block (by simp [bytes, hm]) hel hs (by simp [CallAt.block, hm, dec]) hb⟩
  · intro x hx
    refine hrest _ fun a ha hw => ?_
    obtain ⟨o, ho, e⟩ := List.mem_filterMap.1 hw
    cases o with
    | load l => cases e
    | store l f =>
      simp only [Option.some.injEq] at e
      subst e
      have := mem_prog (hst a ha) ho
      split at this
      · rename_i hba
        rcases this with ⟨i, hi, h⟩ | ⟨i, hi, f', h⟩ | ⟨i, h⟩ | ⟨i, h⟩
        · cases h
        · injection h with h _
          injection h with h
          rcases hx a ha hba with h' | h' <;> omega
        · cases h
        · cases h
      · rcases this with ⟨i, hi, h⟩ | ⟨i, hi, f', h⟩ <;> cases h
  · intro x hx
    refine hrest _ fun a ha hw => ?_
    obtain ⟨o, ho, e⟩ := List.mem_filterMap.1 hw
    cases o with
    | load l => cases e
    | store l f =>
      simp only [Option.some.injEq] at e
      subst e
      have := mem_prog (hst a ha) ho
      split at this
      · rcases this with ⟨i, hi, h⟩ | ⟨i, hi, f', h⟩ | ⟨i, h⟩ | ⟨i, h⟩ <;> cases h
      · rename_i hba
        rcases this with ⟨i, hi, h⟩ | ⟨i, hi, f', h⟩
        · cases h
        · injection h with h _
          injection h with h
          rcases hx a ha (by simpa using hba) with h' | h' <;> omega

/-! ### The scratch buffers are shared -/

/-- Two calls of `Encrypt` of one cipher on different slices. -/
def raceA : CallAt := ⟨0, made 256 .s256 [0, 0, 0, 0] none, .encrypt, 64, 0⟩
def raceB : CallAt := ⟨0, made 256 .s256 [0, 0, 0, 0] none, .encrypt, 96, 32⟩

/-- The blocks to be encrypted: one of zeros, one of ones. -/
def raceMem : Memory
  | .byte i => if 32 ≤ i ∧ i < 64 then 1 else 0
  | _ => 0

/-- The first goroutine has copied its block into the scratch buffer when the second runs. -/
def raceSchedule : List Nat := List.replicate 36 0 ++ List.replicate 80 1 ++ List.replicate 44 0


/-- The block of ones. -/
def ones : List W := List.replicate 4 0x0101010101010101

/-- The ciphertext of `ones`. -/
def onesOut : List UInt8 := bytesOfWords (Threefish.encrypt Threefish.p256 [0, 0, 0, 0] 0 0 ones)

/-- Bytes in memory, as a check. -/
def holdsCheck (m : Memory) (off : Nat) (bs : List UInt8) : Bool :=
  bs.length == 32 && (List.range 32).all fun i => m (.byte (off + i)) == ofByte (bs.getD i 0)

theorem holds_of_check {m : Memory} {off : Nat} {bs : List UInt8} (h : holdsCheck m off bs = true) : HoldsBytes m off bs := by
  rw [holdsCheck, Bool.and_eq_true] at h
  intro i b hb
  have hi : i < 32 := by rw [← eq_of_beq h.1]; exact (List.getElem?_eq_some_iff.1 hb).1
  have := List.all_eq_true.1 h.2 i (List.mem_range.2 hi)
  rw [List.getD_eq_getElem?_getD, hb] at this
  exact eq_of_beq this

/-- What is to be checked of the final state. -/
def raceCheck (s : List Thread × Memory) : Bool := s.1.all (fun t => t.ops.isEmpty) && holdsCheck s.2 64 onesOut

theorem race_checked : raceCheck (run raceSchedule (start [raceA, raceB] raceMem)) = true := by decide +kernel

theorem race_end (s : List Thread × Memory) (h : raceCheck s = true) : ∃ threads m', s = (threads, m') ∧ (∀ t ∈ threads, t.ops = []) ∧ HoldsBytes m' 64 onesOut := by
  obtain ⟨threads, m'⟩ := s
  rw [raceCheck, Bool.and_eq_true] at h
  exact ⟨threads, m', rfl, fun t ht => List.isEmpty_iff.1 (List.all_eq_true.1 h.1 t ht), holds_of_check h.2⟩

/-- **C121** is false of one cipher: both goroutines have called `Encrypt` on their own slices, and the first one gets the ciphertext of the second one's block. -/
theorem C121_false : InUse true .s256 [0, 0, 0, 0] (0, 0) raceA.c ∧ raceA.c = raceB.c ∧
    HoldsBytes raceMem raceA.src (bytesOfWords [0, 0, 0, 0]) ∧ HoldsBytes raceMem raceB.src (bytesOfWords ones) ∧
    (∃ threads m', run raceSchedule (start [raceA, raceB] raceMem) = (threads, m') ∧ (∀ t ∈ threads, t.ops = []) ∧
      HoldsBytes m' raceA.dst (bytesOfWords (Threefish.encrypt Threefish.p256 [0, 0, 0, 0] 0 0 ones))) ∧
    Threefish.encrypt Threefish.p256 [0, 0, 0, 0] 0 0 ones ≠ Threefish.encrypt Threefish.p256 [0, 0, 0, 0] 0 0 [0, 0, 0, 0] := by
  refine ⟨.newSize _ (newSize_eq .s256), rfl, holds_of_check (by decide +kernel), holds_of_check (by decide +kernel), ?_, by decide +kernel⟩
  exact race_end _ race_checked

/-- Two calls that meet the hypotheses of `C121_separate_partial`: the word methods of one cipher, one of them in place. -/
def separateCalls : List CallAt :=
  [⟨0, made 256 .s256 [0, 0, 0, 0] none, .encrypt64, 0, 0⟩, ⟨0, made 256 .s256 [0, 0, 0, 0] none, .decrypt64, 8, 4⟩, raceA, ⟨1, made 256 .s256 [0, 0, 0, 0] none, .decrypt, 96, 32⟩]

/-- `Apart`, as a check. -/
def apartCheck (a b : CallAt) : Bool :=
  (bytes a != bytes b) || (clear a.dst (units a) b.dst (units b) && clear a.dst (units a) b.src (units b) && clear b.dst (units b) a.src (units a) && (!bytes a || a.id != b.id))
where clear (x n y m : Nat) : Bool := decide (x + n ≤ y) || decide (y + m ≤ x)

theorem apart_of_check {a b : CallAt} (h : apartCheck a b = true) : Apart a b := by
  intro hb
  simp only [apartCheck, apartCheck.clear, hb, bne_self_eq_false, Bool.false_or, Bool.and_eq_true, Bool.or_eq_true, decide_eq_true_eq, Bool.not_eq_true', bne_iff_ne] at h
  refine ⟨h.1.1.1, h.1.1.2, h.1.2, fun h' => h.2.resolve_left ?_⟩
  rw [← hb, h']
  decide

example : (∀ a ∈ separateCalls, ∃ sz key t, InUse (bytes a) sz key t a.c) ∧
    ∀ (i j : Nat) (a b : CallAt), separateCalls[i]? = some a → separateCalls[j]? = some b → i ≠ j → Apart a b := by
  constructor
  · intro a ha
    have : a.c = made 256 .s256 [0, 0, 0, 0] none := by
      simp only [separateCalls, List.mem_cons, List.not_mem_nil, or_false] at ha
      rcases ha with rfl | rfl | rfl | rfl <;> rfl
    rw [this]
    exact ⟨.s256, [0, 0, 0, 0], (0, 0), .newSize _ (newSize_eq .s256)⟩
  · intro i j a b ha hb hij
    have key : ((List.range 4).all fun i => (List.range 4).all fun j => i == j || match separateCalls[i]?, separateCalls[j]? with
        | some a, some b => apartCheck a b
        | _, _ => false) = true := by decide +kernel
    have h := List.all_eq_true.1 key i (List.mem_range.2 (List.getElem?_eq_some_iff.1 ha).1)
    have h := List.all_eq_true.1 h j (List.mem_range.2 (List.getElem?_eq_some_iff.1 hb).1)
    rw [ha, hb] at h
    simp only [Bool.or_eq_true, beq_iff_eq, hij, false_or] at h
    exact apart_of_check h

end Verif.Crypter.Shared
