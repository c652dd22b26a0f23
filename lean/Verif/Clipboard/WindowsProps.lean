import Verif.Clipboard.Windows
import Mathlib.Data.List.Basic
import Mathlib.Data.List.Induction
/-
What the Windows clipboard code does with the clipboard, with the memory it allocates and with the text, whatever the system calls return.
-/
namespace Verif.Clipboard.Windows

namespace Spec

/-- What a program holds: the clipboard, memory it allocated and has not given away, and locks (handle and address). -/
structure Held where
  clip : Bool
  owned : List Nat
  locked : List (Nat × Nat)
  deriving DecidableEq

/-- The rules of the system (`none`: the call breaks them). The clipboard must be open to be emptied, read, written or closed, and is opened once; memory is given to the clipboard or
freed only by its owner, once; memory given to the clipboard is not locked; a text is copied only to the address of locked memory; only locked memory is unlocked. -/
def rule (s : Held) : Call × Ret → Option Held
  | (.formatAvailable, _) => some s
  | (.openClipboard, r) => if s.clip then none else some { s with clip := decide (r.value ≠ 0) }
  | (.closeClipboard, _) => if s.clip then some { s with clip := false } else none
  | (.emptyClipboard, _) => if s.clip then some s else none
  | (.getData, _) => if s.clip then some s else none
  | (.setData h, r) =>
    if s.clip ∧ h ∈ s.owned ∧ h ∉ s.locked.map Prod.fst then some (if r.value ≠ 0 then { s with owned := s.owned.erase h } else s) else none
  | (.alloc _, r) => some (if r.value ≠ 0 then { s with owned := r.value :: s.owned } else s)
  | (.free h, _) => if h ∈ s.owned then some { s with owned := s.owned.erase h, locked := s.locked.filter fun p => p.1 ≠ h } else none
  | (.lock h, r) => if s.clip ∨ h ∈ s.owned then some (if r.value ≠ 0 then { s with locked := (h, r.value) :: s.locked } else s) else none
  | (.unlock h, _) => if h ∈ s.locked.map Prod.fst then some { s with locked := s.locked.filter fun p => p.1 ≠ h } else none
  | (.strcpy dst _, _) => if dst ∈ s.locked.map Prod.snd then some s else none

/-- What is held after some calls, if all of them keep the rules. -/
def held (t : Trace) : Option Held := t.foldl (fun s e => s.bind fun s => rule s e) (some ⟨false, [], []⟩)

/-- The text was handed to the clipboard. -/
def Given (t : Trace) : Prop := ∃ h r, (Call.setData h, r) ∈ t ∧ r.value ≠ 0

/-- The clipboard was closed successfully. -/
def Closed (t : Trace) : Prop := ∃ r, (Call.closeClipboard, r) ∈ t ∧ r.value ≠ 0

end Spec
open Spec

theorem held_call (t : Trace) (c : Call) (r : Ret) : held (call t c r) = (held t).bind fun s => rule s (c, r) := by
  unfold held call
  rw [List.foldl_append, List.foldl_cons, List.foldl_nil]

theorem held_snoc (t : Trace) (e : Call × Ret) : held (t ++ [e]) = (held t).bind fun s => rule s e := by
  unfold held
  rw [List.foldl_append, List.foldl_cons, List.foldl_nil]

/-- The calls of `waitOpen`. -/
theorem waitOpen_spec (os : Os) : ∀ (n : Nat) (e : Option Nat) (t : Trace), ∃ u : Trace, (waitOpen os n e t).2 = t ++ u ∧ (∀ x ∈ u, x.1 = .openClipboard) ∧
    (((waitOpen os n e t).1 = none ∧ (∀ x ∈ u.dropLast, x.2.value = 0) ∧ (∃ x, u.getLast? = some x ∧ x.2.value ≠ 0)) ∨
      ((waitOpen os n e t).1 ≠ none ∧ (∀ x ∈ u, x.2.value = 0)) ∨ (n = 0 ∧ e = none ∧ u = [] ∧ (waitOpen os n e t).1 = none))
  | 0, e, t => by
    refine ⟨[], by simp [waitOpen], by simp, Or.inr ?_⟩
    cases e with
    | none => exact Or.inr ⟨rfl, rfl, rfl, rfl⟩
    | some e => exact Or.inl ⟨by simp [waitOpen], by simp⟩
  | n + 1, e, t => by
    have e0 : waitOpen os (n + 1) e t = if (os t .openClipboard).value = 0 then
      waitOpen os n (some (os t .openClipboard).errno) (t ++ [(Call.openClipboard, os t .openClipboard)])
      else (none, t ++ [(Call.openClipboard, os t .openClipboard)]) := rfl
    rw [e0]
    by_cases h : (os t .openClipboard).value = 0
    case neg =>
      rw [if_neg h]
      exact ⟨_, rfl, by simp, Or.inl ⟨rfl, by simp, _, rfl, h⟩⟩
    case pos =>
      rw [if_pos h]
      obtain ⟨u, h1, h2, h3⟩ := waitOpen_spec os n (some (os t .openClipboard).errno) (t ++ [(Call.openClipboard, os t .openClipboard)])
      refine ⟨(Call.openClipboard, os t .openClipboard) :: u, by rw [h1]; simp, ?_, ?_⟩
      · intro x hx
        rcases List.mem_cons.1 hx with rfl | hx
        · rfl
        · exact h2 x hx
      · have h0 := h
        rcases h3 with ⟨h3, h4, x, h5, h6⟩ | ⟨h3, h4⟩ | ⟨-, h3, -⟩
        · left
          cases u with
          | nil => cases h5
          | cons y u =>
            refine ⟨h3, ?_, x, by simpa using h5, h6⟩
            intro z hz
            rw [List.dropLast_cons_cons] at hz
            rcases List.mem_cons.1 hz with rfl | hz
            · exact h0
            · exact h4 z hz
        · right; left
          refine ⟨h3, ?_⟩
          intro z hz
          rcases List.mem_cons.1 hz with rfl | hz
          · exact h0
          · exact h4 z hz
        · cases h3

theorem held_opens {t : Trace} {s : Held} (ht : held t = some s) (hs : s.clip = false) : ∀ (u : Trace), (∀ x ∈ u, x.1 = .openClipboard) → (∀ x ∈ u, x.2.value = 0) →
    held (t ++ u) = some s := by
  intro u
  induction u using List.reverseRecOn with
  | nil => intro _ _; simpa using ht
  | append_singleton u x ih =>
    intro h1 h2
    rw [← List.append_assoc, held_snoc, ih (fun y hy => h1 y (by simp [hy])) (fun y hy => h2 y (by simp [hy]))]
    obtain ⟨c, r⟩ := x
    have e1 := h1 (c, r) (by simp)
    have e2 := h2 (c, r) (by simp)
    simp only at e1 e2
    subst e1
    obtain ⟨a, b, c⟩ := s
    simp only at hs
    subst hs
    simp [rule, e2]

/-- After `waitOpen` the clipboard is held exactly if there is no error. -/
theorem waitOpen_held (os : Os) (n : Nat) (hn : 0 < n) (e : Option Nat) {t : Trace} {s : Held} (ht : held t = some s) (hs : s.clip = false) :
    held (waitOpen os n e t).2 = some { s with clip := (waitOpen os n e t).1.isNone } := by
  obtain ⟨u, h1, h2, h3⟩ := waitOpen_spec os n e t
  rw [h1]
  rcases h3 with ⟨h3, h4, x, h5, h6⟩ | ⟨h3, h4⟩ | ⟨h3, -⟩
  · have hu : u = u.dropLast ++ [x] := by
      have hne : u ≠ [] := by rintro rfl; cases h5
      rw [List.getLast?_eq_some_getLast hne] at h5
      injection h5 with h5
      rw [← h5, List.dropLast_concat_getLast]
    rw [hu, ← List.append_assoc, held_snoc, held_opens ht hs u.dropLast (fun y hy => h2 y (List.dropLast_subset u hy)) h4]
    obtain ⟨c, r⟩ := x
    have e1 := h2 (c, r) (by rw [hu]; simp)
    simp only at e1 h6
    subst e1
    simp [rule, hs, h6, h3]
  · rw [held_opens ht hs u h2 h4]
    cases h : (waitOpen os n e t).1 with
    | none => exact absurd h h3
    | some e => obtain ⟨a, b, c⟩ := s; simp only at hs; subst hs; rfl
  · omega

theorem waitOpen_calls (os : Os) (n : Nat) (e : Option Nat) (t : Trace) (c : Call) (r : Ret) (hc : c ≠ .openClipboard) :
    (c, r) ∈ (waitOpen os n e t).2 ↔ (c, r) ∈ t := by
  obtain ⟨u, h1, h2, -⟩ := waitOpen_spec os n e t
  rw [h1, List.mem_append]
  constructor
  · rintro (h | h)
    · exact h
    · exact absurd (h2 _ h) hc
  · exact Or.inl

/-- **C83** Whatever the system calls return: `Write` keeps the rules of the system, and when it returns (without a crash) it holds nothing: the clipboard is closed if it was opened, and
the memory was freed or handed over, exactly once. -/
theorem C83_write_releases (os : Os) (tries : Nat) (htries : 0 < tries) (text : Str) :
    ∃ res t, write os tries text = (res, t) ∧ held t = some ⟨decide (res = .panic), [], []⟩ := by
  have hw := waitOpen_held os tries htries none (t := []) (s := ⟨false, [], []⟩) rfl rfl
  unfold write
  refine ⟨_, _, rfl, ?_⟩
  generalize hwo : waitOpen os tries none [] = wo at hw
  obtain ⟨o, t⟩ := wo
  cases o with
  | some e => exact hw
  | none =>
    simp only [Option.isNone_none] at hw
    simp only [writeLocked]
    by_cases h0 : (os t .emptyClipboard).value = 0
    · simp [h0, held_call, hw, rule]
    cases hd : stringToUtf16 text with
    | none => simp [h0, held_call, hw, rule]
    | some data =>
      simp only [if_neg h0]
      generalize ht1 : call t (Call.emptyClipboard) (os t .emptyClipboard) = t1
      have hw1 : held t1 = some ⟨true, [], []⟩ := by rw [← ht1]; simp [held_call, hw, rule]
      generalize hra : os t1 (.alloc (data.length * 2)) = ra
      by_cases h1 : ra.value = 0
      · simp [h1, held_call, hw1, rule]
      simp only [if_neg h1]
      generalize ht2 : call t1 (Call.alloc (data.length * 2)) (ra) = t2
      have hw2 : held t2 = some ⟨true, [ra.value], []⟩ := by rw [← ht2]; simp [held_call, hw1, rule, h1]
      generalize hrl : os t2 (.lock ra.value) = rl
      by_cases h2 : rl.value = 0
      · simp [h1, h2, held_call, hw2, rule]
      simp only [if_neg h2]
      generalize ht3 : call t2 (Call.lock ra.value) (rl) = t3
      have hw3 : held t3 = some ⟨true, [ra.value], [(ra.value, rl.value)]⟩ := by rw [← ht3]; simp [held_call, hw2, rule, h2]
      generalize hrs : os t3 (.strcpy rl.value data) = rs
      by_cases h3 : rs.value = 0
      · simp [h1, h3, held_call, hw3, rule]
      simp only [if_neg h3]
      generalize ht4 : call t3 (Call.strcpy rl.value data) (rs) = t4
      have hw4 : held t4 = some ⟨true, [ra.value], [(ra.value, rl.value)]⟩ := by rw [← ht4]; simp [held_call, hw3, rule]
      generalize hru : os t4 (.unlock ra.value) = ru
      by_cases h4 : ru.value = 0 ∧ ru.errno ≠ 0
      · simp [h1, h4, held_call, hw4, rule]
      simp only [if_neg h4]
      generalize ht5 : call t4 (Call.unlock ra.value) (ru) = t5
      have hw5 : held t5 = some ⟨true, [ra.value], []⟩ := by rw [← ht5]; simp [held_call, hw4, rule]
      generalize hrd : os t5 (.setData ra.value) = rd
      by_cases h5 : rd.value = 0
      · simp [h1, h5, held_call, hw5, rule]
      simp only [if_neg h5]
      generalize ht6 : call t5 (Call.setData ra.value) (rd) = t6
      have hw6 : held t6 = some ⟨true, [], []⟩ := by rw [← ht6]; simp [held_call, hw5, rule, h5]
      by_cases h6 : (os t6 .closeClipboard).value = 0
      · simp [h6, held_call, hw6, rule]
      · simp [h6, held_call, hw6, rule]


theorem mem_call {t : Trace} {c : Call} {r : Ret} {x : Call × Ret} : x ∈ call t c r ↔ x ∈ t ∨ x = (c, r) := by
  unfold call
  rw [List.mem_append, List.mem_singleton]

/-- **C84** Whatever the system calls return: `Write` reports success exactly if the text was handed to the clipboard and the clipboard was closed. What is handed over is memory that was
allocated with the size of the UTF-16 text and its end mark, and into which this text was copied. -/
theorem C84_write_reports (os : Os) (tries : Nat) (text : Str) :
    ∃ res t, write os tries text = (res, t) ∧ (res = .ok () ↔ Given t ∧ Closed t) ∧
      ∀ h r, (Call.setData h, r) ∈ t → ∃ data a l c, stringToUtf16 text = some data ∧ (Call.alloc (data.length * 2), a) ∈ t ∧ a.value = h ∧
        (Call.lock h, l) ∈ t ∧ (Call.strcpy l.value data, c) ∈ t ∧ c.value ≠ 0 := by
  have hset := fun h r => waitOpen_calls os tries none [] (.setData h) r (by simp)
  have hclo := fun r => waitOpen_calls os tries none [] .closeClipboard r (by simp)
  unfold write
  refine ⟨_, _, rfl, ?_⟩
  generalize hwo : waitOpen os tries none [] = wo at hset hclo
  obtain ⟨o, t⟩ := wo
  simp only [List.not_mem_nil, iff_false] at hset hclo
  have hg0 : ¬ Given t := fun ⟨h, r, h1, _⟩ => hset h r h1
  cases o with
  | some e =>
    refine ⟨?_, ?_⟩
    · simp [hg0]
    · intro h r h1; exact absurd h1 (hset h r)
  | none =>
    simp only [writeLocked]
    have step : ∀ (t : Trace) (c : Call) (r : Ret), (∀ h r, (Call.setData h, r) ∉ t) → (∀ h, c ≠ .setData h) → ∀ h r', (Call.setData h, r') ∉ call t c r := by
      intro t c r h1 h2 h r' h3
      rcases mem_call.1 h3 with h3 | h3
      · exact h1 h r' h3
      · injection h3 with h3; exact h2 h h3.symm
    have fin : ∀ (t : Trace) (res : End Unit), (∀ h r, (Call.setData h, r) ∉ t) → res ≠ .ok () → (res = .ok () ↔ Given t ∧ Closed t) ∧
      ∀ h r, (Call.setData h, r) ∈ t → ∃ data a l c, stringToUtf16 text = some data ∧ (Call.alloc (data.length * 2), a) ∈ t ∧ a.value = h ∧
        (Call.lock h, l) ∈ t ∧ (Call.strcpy l.value data, c) ∈ t ∧ c.value ≠ 0 := by
      intro t res h1 h2
      refine ⟨⟨fun h => absurd h h2, fun ⟨⟨h, r, h3, _⟩, _⟩ => absurd h3 (h1 h r)⟩, fun h r h3 => absurd h3 (h1 h r)⟩
    by_cases h0 : (os t .emptyClipboard).value = 0
    · simp only [if_pos h0]
      exact fin _ _ (step _ _ _ (step _ _ _ hset (by simp)) (by simp)) (by simp)
    cases hd : stringToUtf16 text with
    | none =>
      simp only [if_neg h0]
      rw [← hd]
      exact fin _ _ (step _ _ _ hset (by simp)) (by simp)
    | some data =>
      rw [hd] at fin
      simp only [if_neg h0]
      generalize ht1 : call t .emptyClipboard (os t .emptyClipboard) = t1
      have hs1 : ∀ h r, (Call.setData h, r) ∉ t1 := by rw [← ht1]; exact step _ _ _ hset (by simp)
      have hc1 : ∀ r, (Call.closeClipboard, r) ∉ t1 := by rw [← ht1]; intro r h; rcases mem_call.1 h with h | h; exact hclo r h; cases h
      generalize hra : os t1 (.alloc (data.length * 2)) = ra
      by_cases h1 : ra.value = 0
      · simp only [if_pos h1]
        exact fin _ _ (step _ _ _ (step _ _ _ hs1 (by simp)) (by simp)) (by simp)
      simp only [if_neg h1]
      generalize ht2 : call t1 (.alloc (data.length * 2)) ra = t2
      have hs2 : ∀ h r, (Call.setData h, r) ∉ t2 := by rw [← ht2]; exact step _ _ _ hs1 (by simp)
      generalize hrl : os t2 (.lock ra.value) = rl
      by_cases h2 : rl.value = 0
      · simp only [if_pos h2, ne_eq, h1, not_false_eq_true, if_true]
        exact fin _ _ (step _ _ _ (step _ _ _ (step _ _ _ hs2 (by simp)) (by simp)) (by simp)) (by simp)
      simp only [if_neg h2]
      generalize ht3 : call t2 (.lock ra.value) rl = t3
      have hs3 : ∀ h r, (Call.setData h, r) ∉ t3 := by rw [← ht3]; exact step _ _ _ hs2 (by simp)
      generalize hrs : os t3 (.strcpy rl.value data) = rs
      by_cases h3 : rs.value = 0
      · simp only [if_pos h3, ne_eq, h1, not_false_eq_true, if_true]
        exact fin _ _ (step _ _ _ (step _ _ _ (step _ _ _ hs3 (by simp)) (by simp)) (by simp)) (by simp)
      simp only [if_neg h3]
      generalize ht4 : call t3 (.strcpy rl.value data) rs = t4
      have hs4 : ∀ h r, (Call.setData h, r) ∉ t4 := by rw [← ht4]; exact step _ _ _ hs3 (by simp)
      generalize hru : os t4 (.unlock ra.value) = ru
      by_cases h4 : ru.value = 0 ∧ ru.errno ≠ 0
      · simp only [if_pos h4, ne_eq, h1, not_false_eq_true, if_true]
        exact fin _ _ (step _ _ _ (step _ _ _ (step _ _ _ hs4 (by simp)) (by simp)) (by simp)) (by simp)
      simp only [if_neg h4]
      generalize ht5 : call t4 (.unlock ra.value) ru = t5
      have hs5 : ∀ h r, (Call.setData h, r) ∉ t5 := by rw [← ht5]; exact step _ _ _ hs4 (by simp)
      generalize hrd : os t5 (.setData ra.value) = rd
      have hpre : (Call.alloc (data.length * 2), ra) ∈ t5 ∧ (Call.lock ra.value, rl) ∈ t5 ∧ (Call.strcpy rl.value data, rs) ∈ t5 := by
        rw [← ht5, ← ht4, ← ht3, ← ht2]
        simp [mem_call]
      have deliver : ∀ (t' : Trace), (∀ x ∈ call t5 (.setData ra.value) rd, x ∈ t') → (∀ h r, (Call.setData h, r) ∈ t' → (Call.setData h, r) ∈ call t5 (.setData ra.value) rd) →
          ∀ h r, (Call.setData h, r) ∈ t' → ∃ data' a l c, some data = some data' ∧ (Call.alloc (data'.length * 2), a) ∈ t' ∧ a.value = h ∧
            (Call.lock h, l) ∈ t' ∧ (Call.strcpy l.value data', c) ∈ t' ∧ c.value ≠ 0 := by
        intro t' k1 k2 h r k3
        rcases mem_call.1 (k2 h r k3) with k4 | k4
        · exact absurd k4 (hs5 h r)
        · injection k4 with k4
          injection k4 with k4
          subst k4
          exact ⟨data, ra, rl, rs, rfl, k1 _ (mem_call.2 (Or.inl hpre.1)), rfl, k1 _ (mem_call.2 (Or.inl hpre.2.1)), k1 _ (mem_call.2 (Or.inl hpre.2.2)), h3⟩
      by_cases h5 : rd.value = 0
      · simp only [if_pos h5, ne_eq, h1, not_false_eq_true, if_true]
        refine ⟨⟨fun h => by simp at h, ?_⟩, ?_⟩
        · rintro ⟨⟨h, r, k1, k2⟩, -⟩
          rcases mem_call.1 k1 with k1 | k1
          · rcases mem_call.1 k1 with k1 | k1
            · rcases mem_call.1 k1 with k1 | k1
              · exact absurd k1 (hs5 h r)
              · injection k1 with _ k1; rw [k1] at k2; exact absurd h5 k2
            · cases k1
          · cases k1
        · apply deliver
          · intro x hx; exact mem_call.2 (Or.inl (mem_call.2 (Or.inl hx)))
          · intro h r hx
            rcases mem_call.1 hx with hx | hx
            · rcases mem_call.1 hx with hx | hx
              · exact hx
              · cases hx
            · cases hx
      simp only [if_neg h5]
      generalize ht6 : call t5 (.setData ra.value) rd = t6 at deliver
      have hc6 : ∀ r, (Call.closeClipboard, r) ∉ t6 := by
        rw [← ht6, ← ht5, ← ht4, ← ht3, ← ht2]
        simp [mem_call, hc1]
      have hg : Given (call t6 .closeClipboard (os t6 .closeClipboard)) := ⟨ra.value, rd, mem_call.2 (Or.inl (by rw [← ht6]; exact mem_call.2 (Or.inr rfl))), h5⟩
      by_cases h6 : (os t6 .closeClipboard).value = 0
      · simp only [if_pos h6, ne_eq, not_true_eq_false, if_false]
        refine ⟨⟨fun h => by simp at h, ?_⟩, deliver _ (fun x hx => mem_call.2 (Or.inl hx)) ?_⟩
        · rintro ⟨-, r, k1, k2⟩
          rcases mem_call.1 k1 with k1 | k1
          · exact absurd k1 (hc6 r)
          · injection k1 with _ k1; rw [k1] at k2; exact absurd h6 k2
        · intro h r hx
          rcases mem_call.1 hx with hx | hx
          · exact hx
          · cases hx
      · simp only [if_neg h6, ne_eq, not_true_eq_false, if_false]
        refine ⟨⟨fun _ => ⟨hg, _, mem_call.2 (Or.inr rfl), h6⟩, fun _ => trivial⟩, deliver _ (fun x hx => mem_call.2 (Or.inl hx)) ?_⟩
        intro h r hx
        rcases mem_call.1 hx with hx | hx
        · exact hx
        · cases hx

/-- **C85** `Write` crashes exactly if the text contains a zero byte and the clipboard could be emptied; the old content is then lost and the clipboard stays open. -/
theorem C85_write_panics (os : Os) (tries : Nat) (htries : 0 < tries) (text : Str) :
    ∃ res t, write os tries text = (res, t) ∧ (res = .panic ↔ (0 : UInt8) ∈ text ∧ ∃ r, (Call.emptyClipboard, r) ∈ t ∧ r.value ≠ 0) ∧
      (res = .panic → ∃ s, held t = some s ∧ s.clip = true) := by
  obtain ⟨res, t, e, hheld⟩ := C83_write_releases os tries htries text
  refine ⟨res, t, e, ?_, fun h => ⟨_, hheld, by simp [h]⟩⟩
  have hemp := fun r => waitOpen_calls os tries none [] .emptyClipboard r (by simp)
  unfold write at e
  generalize hwo : waitOpen os tries none [] = wo at hemp e
  obtain ⟨o, t0⟩ := wo
  simp only [List.not_mem_nil, iff_false] at hemp
  cases o with
  | some er =>
    injection e with e1 e2
    subst e1 e2
    constructor
    · intro h; cases h
    · rintro ⟨-, r, h, -⟩; exact absurd h (hemp r)
  | none =>
    by_cases h0 : (os t0 .emptyClipboard).value = 0
    · simp only [if_pos h0] at e
      injection e with e1 e2
      subst e1 e2
      constructor
      · intro h; cases h
      · rintro ⟨-, r, h, hr⟩
        rcases mem_call.1 h with h | h
        · rcases mem_call.1 h with h | h
          · exact absurd h (hemp r)
          · injection h with _ h; rw [h] at hr; exact absurd h0 hr
        · cases h
    · simp only [if_neg h0] at e
      by_cases hz : (0 : UInt8) ∈ text
      · have hs : stringToUtf16 text = none := by unfold stringToUtf16; rw [if_pos hz]
        simp only [hs] at e
        injection e with e1 e2
        subst e1 e2
        exact ⟨fun _ => ⟨hz, _, mem_call.2 (Or.inr rfl), h0⟩, fun _ => rfl⟩
      · obtain ⟨data, hs⟩ : ∃ data, stringToUtf16 text = some data := by unfold stringToUtf16; rw [if_neg hz]; exact ⟨_, rfl⟩
        simp only [hs] at e
        constructor
        · intro h
          exfalso
          split at e
          · injection e with e1 e2; rw [h] at e1; cases e1
          · injection e with e1 e2
            rw [h] at e1
            unfold writeLocked at e1
            simp only at e1
            split at e1
            · cases e1
            · split at e1
              · cases e1
              · split at e1
                · cases e1
                · split at e1
                  · cases e1
                  · split at e1 <;> cases e1
        · rintro ⟨h, -⟩; exact absurd h hz

/-- **C86** Whatever the system calls return and whatever is in memory: `Read` keeps the rules of the system, does not crash and holds nothing when it returns; if it succeeds, the text is what
stood, up to the end mark, in the memory of the clipboard while that memory was locked. -/
theorem C86_read (os : Os) (mem : Trace → Nat → List Nat) (tries : Nat) (htries : 0 < tries) :
    ∃ res t, read os mem tries = (res, t) ∧ held t = some ⟨false, [], []⟩ ∧ res ≠ .panic ∧
      ∀ text, res = .ok text → ∃ h l u v, (Call.getData, h) ∈ t ∧ h.value ≠ 0 ∧ t = u ++ [(Call.lock h.value, l)] ++ v ∧ l.value ≠ 0 ∧ (∀ r, (Call.unlock h.value, r) ∉ u) ∧
        text = utf16ToString ((mem (u ++ [(Call.lock h.value, l)]) l.value).take (2 ^ 20)) := by
  refine ⟨(read os mem tries).1, (read os mem tries).2, rfl, ?_⟩
  unfold read
  simp only
  generalize ht0 : call [] .formatAvailable (os [] .formatAvailable) = t0
  have hw0 : held t0 = some ⟨false, [], []⟩ := by rw [← ht0, held_call]; rfl
  by_cases h0 : (os [] .formatAvailable).value = 0
  · simp only [if_pos h0]
    exact ⟨hw0, by simp, by simp⟩
  simp only [if_neg h0]
  have hw := waitOpen_held os tries htries none hw0 rfl
  have hunl := fun h r => waitOpen_calls os tries none t0 (.unlock h) r (by simp)
  generalize hwo : waitOpen os tries none t0 = wo at hw hunl
  obtain ⟨o, t⟩ := wo
  cases o with
  | some e => exact ⟨hw, by simp, by simp⟩
  | none =>
    simp only [Option.isNone_none] at hw
    simp only
    generalize hrh : os t .getData = rh
    by_cases h1 : rh.value = 0
    · simp only [if_pos h1]
      exact ⟨by simp [held_call, hw, rule], by simp, by simp⟩
    simp only [if_neg h1]
    generalize ht1 : call t .getData rh = t1
    have hw1 : held t1 = some ⟨true, [], []⟩ := by rw [← ht1]; simp [held_call, hw, rule]
    generalize hrl : os t1 (.lock rh.value) = rl
    by_cases h2 : rl.value = 0
    · simp only [if_pos h2]
      exact ⟨by simp [held_call, hw1, rule, h2], by simp, by simp⟩
    simp only [if_neg h2]
    generalize ht2 : call t1 (.lock rh.value) rl = t2
    have hw2 : held t2 = some ⟨true, [], [(rh.value, rl.value)]⟩ := by rw [← ht2]; simp [held_call, hw1, rule, h2]
    generalize hru : os t2 (.unlock rh.value) = ru
    by_cases h3 : ru.value = 0
    · simp only [if_pos h3]
      exact ⟨by simp [held_call, hw2, rule], by simp, by simp⟩
    simp only [if_neg h3]
    generalize ht3 : call t2 (.unlock rh.value) ru = t3
    have hw3 : held t3 = some ⟨true, [], []⟩ := by rw [← ht3]; simp [held_call, hw2, rule]
    by_cases h4 : (os t3 .closeClipboard).value = 0
    · simp only [if_pos h4]
      exact ⟨by simp [held_call, hw3, rule], by simp, by simp⟩
    · simp only [if_neg h4]
      refine ⟨by simp [held_call, hw3, rule], by simp, ?_⟩
      intro text e
      injection e with e
      refine ⟨rh, rl, t1, [(Call.unlock rh.value, ru), (Call.closeClipboard, os t3 .closeClipboard)], ?_, h1, ?_, h2, ?_, ?_⟩
      · rw [← ht3, ← ht2, ← ht1]; simp [mem_call]
      · rw [← ht3, ← ht2]; simp [call]
      · intro r hr
        rw [← ht1] at hr
        rcases mem_call.1 hr with hr | hr
        · have := (hunl _ _).1 hr
          rw [← ht0] at this
          simp [call] at this
        · cases hr
      · rw [← e, ← ht2]; rfl

/-! ### The text -/

/-- **C86** Exactly when `Read` succeeds: the text format is there, the clipboard was opened, and getting the data, locking it, unlocking it and closing the clipboard all returned a non-zero value. -/
theorem C86_read_succeeds_iff (os : Os) (mem : Trace → Nat → List Nat) (tries : Nat) (htries : 0 < tries) :
    ∃ res t, read os mem tries = (res, t) ∧ ((∃ text, res = .ok text) ↔ (∃ r, (Call.formatAvailable, r) ∈ t ∧ r.value ≠ 0) ∧ (∃ r, (Call.openClipboard, r) ∈ t ∧ r.value ≠ 0) ∧
      (∃ h l u, (Call.getData, h) ∈ t ∧ h.value ≠ 0 ∧ (Call.lock h.value, l) ∈ t ∧ l.value ≠ 0 ∧ (Call.unlock h.value, u) ∈ t ∧ u.value ≠ 0) ∧ Closed t) := by
  refine ⟨(read os mem tries).1, (read os mem tries).2, rfl, ?_⟩
  unfold read
  simp only
  generalize ht0 : call [] .formatAvailable (os [] .formatAvailable) = t0
  have hf : ∀ x, x ∈ t0 ↔ x = (Call.formatAvailable, os [] .formatAvailable) := by intro x; rw [← ht0]; simp [call]
  by_cases h0 : (os [] .formatAvailable).value = 0
  · simp only [if_pos h0]
    refine ⟨fun ⟨_, h⟩ => (by cases h), fun ⟨⟨r, h1, h2⟩, _⟩ => ?_⟩
    rw [hf] at h1; cases h1; exact absurd h0 h2
  simp only [if_neg h0]
  obtain ⟨u, e1, e2, e3⟩ := waitOpen_spec os tries none t0
  have hcall := waitOpen_calls os tries none t0
  generalize hwo : waitOpen os tries none t0 = wo at e1 e3 hcall
  obtain ⟨o, t⟩ := wo
  simp only at e1 e3 hcall
  have hno : ∀ c r, c ≠ .openClipboard → c ≠ .formatAvailable → (c, r) ∉ t := by
    intro c r h1 h2 h3
    rw [hcall c r h1, hf] at h3
    cases h3; exact h2 rfl
  cases o with
  | some e =>
    simp only
    refine ⟨fun ⟨_, h⟩ => (by cases h), fun ⟨_, _, ⟨h, l, u, h1, _⟩, _⟩ => absurd h1 (hno _ _ (by simp) (by simp))⟩
  | none =>
    simp only
    have hfmt : (Call.formatAvailable, os [] .formatAvailable) ∈ t := by rw [e1]; exact List.mem_append_left _ ((hf _).2 rfl)
    have hopen : ∃ r, (Call.openClipboard, r) ∈ t ∧ r.value ≠ 0 := by
      rcases e3 with ⟨-, -, x, h5, h6⟩ | ⟨h3, -⟩ | ⟨h3, -⟩
      · have hx : x ∈ u := List.mem_of_getLast? h5
        obtain ⟨c, r⟩ := x
        have := e2 _ hx
        simp only at this; subst this
        exact ⟨r, by rw [e1]; exact List.mem_append_right _ hx, h6⟩
      · exact absurd rfl h3
      · omega
    obtain ⟨ro, ho1, ho2⟩ := hopen
    by_cases h1 : (os t .getData).value = 0
    · simp only [if_pos h1]
      refine ⟨fun ⟨_, h⟩ => (by cases h), fun ⟨_, _, ⟨h, l, u, k1, k2, _⟩, _⟩ => ?_⟩
      simp only [mem_call, Prod.mk.injEq, reduceCtorEq, false_and, or_false, true_and] at k1
      rcases k1 with k1 | k1
      · exact absurd k1 (hno _ _ (by simp) (by simp))
      · subst k1; exact absurd h1 k2
    simp only [if_neg h1]
    generalize hh : os t .getData = hd at *
    by_cases h2 : (os (call t .getData hd) (.lock hd.value)).value = 0
    · simp only [if_pos h2]
      refine ⟨fun ⟨_, h⟩ => (by cases h), fun ⟨_, _, ⟨h, l, u, k1, k2, k3, k4, k5, _⟩, _⟩ => ?_⟩
      simp only [mem_call, Prod.mk.injEq, reduceCtorEq, false_and, or_false, true_and] at k5
      exact absurd k5 (hno _ _ (by simp) (by simp))
    simp only [if_neg h2]
    generalize hl : os (call t .getData hd) (.lock hd.value) = l at *
    generalize hu : os (call (call t .getData hd) (.lock hd.value) l) (.unlock hd.value) = un at *
    by_cases h3 : un.value = 0
    · simp only [if_pos h3]
      refine ⟨fun ⟨_, h⟩ => (by cases h), fun ⟨_, _, ⟨h, l, u, k1, k2, k3, k4, k5, k6⟩, _⟩ => ?_⟩
      simp only [mem_call, Prod.mk.injEq, reduceCtorEq, false_and, or_false, true_and, Call.unlock.injEq] at k5
      rcases k5 with k5 | ⟨-, k5⟩
      · exact absurd k5 (hno _ _ (by simp) (by simp))
      · subst k5; exact absurd h3 k6
    simp only [if_neg h3]
    generalize hcl : os (call (call (call t .getData hd) (.lock hd.value) l) (.unlock hd.value) un) .closeClipboard = cl at *
    by_cases h4 : cl.value = 0
    · simp only [if_pos h4]
      refine ⟨fun ⟨_, h⟩ => (by cases h), fun ⟨_, _, _, r, k1, k2⟩ => ?_⟩
      simp only [mem_call, Prod.mk.injEq, reduceCtorEq, false_and, or_false, true_and] at k1
      rcases k1 with k1 | k1
      · exact absurd k1 (hno _ _ (by simp) (by simp))
      · subst k1; exact absurd h4 k2
    simp only [if_neg h4]
    refine ⟨fun _ => ⟨⟨_, ?_, h0⟩, ⟨ro, ?_, ho2⟩, ⟨hd, l, un, ?_, h1, ?_, h2, ?_, h3⟩, cl, ?_, h4⟩, fun _ => ⟨_, rfl⟩⟩
    all_goals simp [mem_call, hfmt, ho1]

/-- **C86** `GlobalUnlock` is documented to return zero, with no error, when the memory is no longer locked. On a system that does so for the clipboard's memory `Read` never succeeds. -/
theorem C86_unlock_zero (os : Os) (mem : Trace → Nat → List Nat) (tries : Nat) (hos : ∀ t h, (os t (.unlock h)).value = 0) (text : Str) : (read os mem tries).1 ≠ .ok text := by
  unfold read
  simp only
  split
  · simp
  · split
    · simp
    · split
      · simp
      · split
        · simp
        · rw [if_pos (hos _ _)]; simp

/-- **C83** Why a first try is needed: if the clock says that the second is over before the clipboard was tried once, no error is reported, and `Write` and (if there is a text) `Read` use a clipboard
they have not opened. -/
theorem C83_no_try (os : Os) (mem : Trace → Nat → List Nat) (text : Str) : held (write os 0 text).2 = none ∧
    ((os [] .formatAvailable).value ≠ 0 → held (read os mem 0).2 = none) := by
  have none_call : ∀ (t : Trace) c r, held t = none → held (call t c r) = none := by intro t c r h; rw [held_call, h]; rfl
  constructor
  · have h0 : held (call [] .emptyClipboard (os [] .emptyClipboard)) = none := rfl
    generalize ht : call [] .emptyClipboard (os [] .emptyClipboard) = t at h0
    unfold write waitOpen
    simp only [ht]
    split
    · exact none_call _ _ _ h0
    · split
      · exact h0
      · split
        · exact none_call _ _ _ (none_call _ _ _ h0)
        · have : ∀ (h : Nat) (data : List Nat) (t : Trace), held t = none → held (writeLocked os h data t).2.2 = none := by
            intro h data t h0
            unfold writeLocked
            simp only
            repeat' split
            all_goals (repeat first | exact h0 | apply none_call)
          simp only
          split
          · exact none_call _ _ _ (this _ _ _ (none_call _ _ _ h0))
          · exact this _ _ _ (none_call _ _ _ h0)
  · intro hf
    unfold read waitOpen
    simp only [if_neg hf]
    have h0 : ∀ d, held (call (call [] .formatAvailable (os [] .formatAvailable)) .getData d) = none := fun _ => rfl
    generalize call [] .formatAvailable (os [] .formatAvailable) = t1 at h0 ⊢
    repeat' split
    all_goals (repeat first | exact h0 _ | apply none_call)

/-- What `decodeRune` reads of valid UTF-8: a rune that is not a surrogate, encoded by these bytes; it is zero only for a zero byte. -/
theorem decodeRune_valid {b0 : UInt8} {rest : Str} {r w : Nat} (h : decodeRune (b0 :: rest) = (r, w)) (hv : ¬ (r = runeError ∧ w = 1)) :
    encodeRune r = (b0 :: rest).take w ∧ (r < 0xD800 ∨ 0xE000 ≤ r ∧ r ≤ 0x10FFFF) ∧ (r = 0 → b0 = 0) := by
  have ofn : ∀ {n : Nat} {b : UInt8}, n = b.toNat → UInt8.ofNat n = b := by intro n b h; subst h; simp
  have cont : ∀ {lo hi c : UInt8}, contIn lo hi c = true ↔ lo.toNat ≤ c.toNat ∧ c.toNat ≤ hi.toNat := by
    intro lo hi c; simp only [contIn, Bool.and_eq_true, decide_eq_true_eq, UInt8.le_iff_toNat_le]
  have hlt0 := b0.toNat_lt
  by_cases h0 : b0 < 0x80
  · simp only [decodeRune, if_pos h0, Prod.mk.injEq] at h
    obtain ⟨rfl, rfl⟩ := h
    have h0' : b0.toNat < 128 := by simpa [UInt8.lt_iff_toNat_lt] using h0
    refine ⟨?_, Or.inl (by omega), ?_⟩
    · rw [encodeRune, if_pos (by omega)]; simp
    · intro e; exact UInt8.toNat_inj.1 e
  · simp only [decodeRune, if_neg h0] at h
    split at h
    · rename_i h1
      rcases rest with _ | ⟨b1, rest⟩
      · simp only [Prod.mk.injEq] at h; exact absurd ⟨h.1.symm, h.2.symm⟩ hv
      · simp only at h
        split at h
        · rename_i h2
          rw [Prod.mk.injEq] at h
          obtain ⟨rfl, rfl⟩ := h
          simp only [Bool.and_eq_true, decide_eq_true_eq, UInt8.le_iff_toNat_le, cont] at h1 h2
          simp at h1 h2
          refine ⟨?_, Or.inl (by omega), by omega⟩
          rw [encodeRune, if_neg (by omega), if_pos (by omega)]
          simp only [List.take_succ_cons, List.take_zero]
          rw [ofn (b := b0) (by omega), ofn (b := b1) (by omega)]
        · simp only [Prod.mk.injEq] at h; exact absurd ⟨h.1.symm, h.2.symm⟩ hv
    · rename_i h1
      split at h
      · rename_i h2
        rcases rest with _ | ⟨b1, _ | ⟨b2, rest⟩⟩
        · simp only [Prod.mk.injEq] at h; exact absurd ⟨h.1.symm, h.2.symm⟩ hv
        · simp only [Prod.mk.injEq] at h; exact absurd ⟨h.1.symm, h.2.symm⟩ hv
        · simp only at h
          rw [ite_eq_iff] at h
          rcases h with ⟨h3, h⟩ | ⟨_, h⟩
          · rw [Prod.mk.injEq] at h
            obtain ⟨rfl, rfl⟩ := h
            simp only [Bool.and_eq_true, decide_eq_true_eq, UInt8.le_iff_toNat_le, cont] at h2 h3
            have e1 : b0.toNat = 224 → 160 ≤ b1.toNat := by
              intro e
              have : b0 = 0xE0 := UInt8.toNat_inj.1 e
              subst this
              simpa using h3.1.1
            have e2 : b0.toNat = 237 → b1.toNat ≤ 159 := by
              intro e
              have : b0 = 0xED := UInt8.toNat_inj.1 e
              subst this
              simpa using h3.1.2
            have e3 : 128 ≤ b1.toNat ∧ b1.toNat ≤ 191 := by
              obtain ⟨⟨k1, k2⟩, -⟩ := h3
              constructor
              · revert k1; split <;> simp <;> omega
              · revert k2; split <;> simp <;> omega
            obtain ⟨-, h3⟩ := h3
            simp at h2 h3
            refine ⟨?_, by omega, by omega⟩
            rw [encodeRune, if_neg (by omega), if_neg (by omega), if_neg, if_pos (by omega)]
            · simp only [List.take_succ_cons, List.take_zero]
              rw [ofn (b := b0) (by omega), ofn (b := b1) (by omega), ofn (b := b2) (by omega)]
            · simp only [Bool.or_eq_true, Bool.and_eq_true, decide_eq_true_eq]
              omega
          · simp only [Prod.mk.injEq] at h; exact absurd ⟨h.1.symm, h.2.symm⟩ hv
      · split at h
        · rename_i h2
          rcases rest with _ | ⟨b1, _ | ⟨b2, _ | ⟨b3, rest⟩⟩⟩
          · simp only [Prod.mk.injEq] at h; exact absurd ⟨h.1.symm, h.2.symm⟩ hv
          · simp only [Prod.mk.injEq] at h; exact absurd ⟨h.1.symm, h.2.symm⟩ hv
          · simp only [Prod.mk.injEq] at h; exact absurd ⟨h.1.symm, h.2.symm⟩ hv
          · simp only at h
            rw [ite_eq_iff] at h
            rcases h with ⟨h3, h⟩ | ⟨_, h⟩
            · rw [Prod.mk.injEq] at h
              obtain ⟨rfl, rfl⟩ := h
              simp only [Bool.and_eq_true, decide_eq_true_eq, UInt8.le_iff_toNat_le, cont] at h2 h3
              have e1 : b0.toNat = 240 → 144 ≤ b1.toNat := by
                intro e
                have : b0 = 0xF0 := UInt8.toNat_inj.1 e
                subst this
                simpa using h3.1.1.1
              have e2 : b0.toNat = 244 → b1.toNat ≤ 143 := by
                intro e
                have : b0 = 0xF4 := UInt8.toNat_inj.1 e
                subst this
                simpa using h3.1.1.2
              have e3 : 128 ≤ b1.toNat ∧ b1.toNat ≤ 191 := by
                obtain ⟨⟨⟨k1, k2⟩, -⟩, -⟩ := h3
                constructor
                · revert k1; split <;> simp <;> omega
                · revert k2; split <;> simp <;> omega
              obtain ⟨⟨-, h3⟩, h4⟩ := h3
              simp at h2 h3 h4
              refine ⟨?_, by omega, by omega⟩
              rw [encodeRune, if_neg (by omega), if_neg (by omega), if_neg, if_neg (by omega)]
              · simp only [List.take_succ_cons, List.take_zero]
                rw [ofn (b := b0) (by omega), ofn (b := b1) (by omega), ofn (b := b2) (by omega), ofn (b := b3) (by omega)]
              · simp only [Bool.or_eq_true, Bool.and_eq_true, decide_eq_true_eq]
                omega
            · simp only [Prod.mk.injEq] at h; exact absurd ⟨h.1.symm, h.2.symm⟩ hv
        · simp only [Prod.mk.injEq] at h; exact absurd ⟨h.1.symm, h.2.symm⟩ hv

theorem runesAux_valid : ∀ (n : Nat) (s : Str), s.length ≤ n → (∀ p ∈ runesAux n s, ¬ (p.1 = runeError ∧ p.2 = 1)) → (0 : UInt8) ∉ s →
    (runesAux n s).flatMap (fun p => encodeRune p.1) = s ∧ ∀ p ∈ runesAux n s, (p.1 < 0xD800 ∨ 0xE000 ≤ p.1 ∧ p.1 ≤ 0x10FFFF) ∧ p.1 ≠ 0
  | 0, s, hn, _, _ => by
    have : s = [] := List.length_eq_zero_iff.1 (by omega)
    subst this
    simp [runesAux]
  | n + 1, [], _, _, _ => by simp [runesAux]
  | n + 1, b :: s, hn, hv, hz => by
    rw [runesAux] at hv ⊢
    have hd := decodeRune_size (b :: s)
    cases e : decodeRune (b :: s) with
    | mk r w =>
      rw [e] at hd hv
      simp only at hd hv ⊢
      obtain ⟨h1, h2, h3⟩ := decodeRune_valid e (hv (r, w) (by simp))
      have hw := hd.2 (by simp)
      obtain ⟨i1, i2⟩ := runesAux_valid n ((b :: s).drop w) (by rw [List.length_drop]; simp only [List.length_cons] at hn ⊢; omega)
        (fun p hp => hv p (by simp [hp])) (fun h => hz (List.mem_of_mem_drop h))
      refine ⟨?_, ?_⟩
      · rw [List.flatMap_cons, i1, h1, List.take_append_drop]
      · intro p hp
        rcases List.mem_cons.1 hp with rfl | hp
        · exact ⟨h2, fun e0 => hz (by rw [h3 e0]; simp)⟩
        · exact i2 p hp

theorem utf16Decode_runes : ∀ (rs : List Nat), (∀ r ∈ rs, r < 0xD800 ∨ 0xE000 ≤ r ∧ r ≤ 0x10FFFF) → utf16Decode (rs.flatMap utf16Rune) = rs
  | [], _ => rfl
  | r :: rs, h => by
    have hr := h r (by simp)
    have ih := utf16Decode_runes rs (fun x hx => h x (by simp [hx]))
    rw [List.flatMap_cons]
    unfold utf16Rune
    split
    · rename_i h1
      have hns : (decide (0xD800 ≤ r) && decide (r < 0xE000)) = false := by
        simp only [Bool.and_eq_false_iff, decide_eq_false_iff_not]; omega
      have hns2 : ∀ v, (decide (0xD800 ≤ r) && decide (r < 0xDC00) && decide (0xDC00 ≤ v) && decide (v < 0xE000)) = false := by
        intro v
        simp only [Bool.and_eq_false_iff, decide_eq_false_iff_not]; omega
      cases hu : rs.flatMap utf16Rune with
      | nil =>
        rw [hu] at ih
        have : rs = [] := by rw [← ih]; rfl
        subst this
        simp only [List.cons_append, List.nil_append]
        unfold utf16Rune at hu
        rw [hu, utf16Decode, hns]
        simp
      | cons v us =>
        unfold utf16Rune at hu
        rw [hu, List.cons_append, List.nil_append, utf16Decode, hns2 v, hns]
        unfold utf16Rune at ih
        rw [← hu, ih]
        simp
    · rename_i h1
      rw [List.cons_append, List.cons_append, List.nil_append, utf16Decode, if_pos]
      · have e : 0x10000 + (0xD800 + (r - 0x10000) / 0x400 - 0xD800) * 0x400 + (0xDC00 + (r - 0x10000) % 0x400 - 0xDC00) = r := by omega
        unfold utf16Rune at ih
        exact congrArg₂ List.cons e ih
      · simp only [Bool.and_eq_true, decide_eq_true_eq]
        omega

/-- **C87** For every valid UTF-8 text without a zero byte whose UTF-16 form with its end mark has at most 2^20 units: the units `Write` copies, followed by anything, are read by `Read`
as the same text. -/
theorem C87_round_trip (text : Str) (hv : validUtf8 text = true) (hz : (0 : UInt8) ∉ text) :
    ∃ data, stringToUtf16 text = some data ∧ (data.length ≤ 2 ^ 20 → ∀ rest, utf16ToString ((data ++ rest).take (2 ^ 20)) = text) := by
  refine ⟨_, by unfold stringToUtf16; rw [if_neg hz], ?_⟩
  generalize (2 : Nat) ^ 20 = N
  intro hlen rest
  have hv' : ∀ p ∈ runesOf text, ¬ (p.1 = runeError ∧ p.2 = 1) := by
    intro p hp ⟨h1, h2⟩
    unfold validUtf8 at hv
    have := List.all_eq_true.1 hv p hp
    simp [h1, h2] at this
  obtain ⟨h1, h2⟩ := runesAux_valid text.length text (Nat.le_refl _) hv' hz
  have hr : ∀ r ∈ (runesOf text).map Prod.fst, (r < 0xD800 ∨ 0xE000 ≤ r ∧ r ≤ 0x10FFFF) ∧ r ≠ 0 := by
    intro r hr
    obtain ⟨p, hp, rfl⟩ := List.mem_map.1 hr
    exact h2 p hp
  have hu : (runesOf text).flatMap (fun r => utf16Rune r.1) = ((runesOf text).map Prod.fst).flatMap utf16Rune := by rw [List.flatMap_map]
  have h1' : ((runesOf text).map Prod.fst).flatMap encodeRune = text := by rw [List.flatMap_map]; exact h1
  rw [hu] at hlen ⊢
  generalize hrs : (runesOf text).map Prod.fst = rs at hr h1' hlen
  rw [List.take_append, List.take_of_length_le hlen]
  unfold utf16ToString
  have hne : ∀ u ∈ rs.flatMap utf16Rune, u ≠ 0 := by
    intro u hu
    obtain ⟨r, hr', hu⟩ := List.mem_flatMap.1 hu
    have := (hr r hr').2
    unfold utf16Rune at hu
    split at hu
    · rw [List.mem_singleton] at hu; omega
    · simp only [List.mem_cons, List.not_mem_nil, or_false] at hu; omega
  rw [List.append_assoc, List.takeWhile_append_of_pos (by intro u hu; simpa using hne u hu)]
  simp only [List.cons_append, List.nil_append]
  rw [List.takeWhile_cons_of_neg (by simp), List.append_nil, utf16Decode_runes rs (fun r h => (hr r h).1), h1']

/-- A system on which everything succeeds, one that cannot allocate memory, and a text beyond the Basic Multilingual Plane. -/
example : (write (fun t _ => ⟨t.length + 1, 0⟩) 1 (lit "s3")).1 = .ok () ∧ (write (fun t c => match c with | .alloc _ => ⟨0, 8⟩ | _ => ⟨t.length + 1, 0⟩) 1 (lit "s3")).1 = .err 8 ∧
    (write (fun t _ => ⟨t.length + 1, 0⟩) 1 [115, 0]).1 = .panic ∧ (read (fun t _ => ⟨t.length + 1, 0⟩) (fun _ _ => [115, 51, 0, 7]) 3).1 = .ok (lit "s3") ∧
    stringToUtf16 [0xF0, 0x9F, 0x94, 0x91] = some [0xD83D, 0xDD11, 0] ∧ validUtf8 [0xF0, 0x9F, 0x94, 0x91] = true := by decide

end Verif.Clipboard.Windows
