import Verif.Password.Props
/-
The distribution of the results of `Generate` for any weights of the random numbers: `Prog.expect` (Spec.lean) with a weight for each draw of a number below `m`
in place of `1/m`, in any commutative ring. Bytes.lean uses it with generating functions that count byte strings.
-/
namespace Verif.Password
open Finset

variable {R : Type} [CommRing R]

/-- Sum over all results, each with the product of the weights of its draws. -/
def Prog.wsum (w : Nat → R) {α} : Prog α → (α → R) → R
  | .ret a, φ => φ a
  | .draw m k, φ => w m * ∑ i ∈ range m, (k i).wsum w φ
  | .fail _, _ => 0
  | .stuck, _ => 0

/-- Weight of the result `x`. -/
def Prog.wprob (w : Nat → R) {α} [DecidableEq α] (p : Prog α) (x : α) : R := p.wsum w (fun a => if a = x then 1 else 0)

namespace WSum
variable (w : Nat → R)

theorem wsum_bind {α β} (p : Prog α) (f : α → Prog β) (φ : β → R) :
    (p.bind f).wsum w φ = p.wsum w (fun a => (f a).wsum w φ) := by
  induction p with
  | ret a => rfl
  | draw m k ih => simp only [Prog.bind, Prog.wsum, ih]
  | fail e => rfl
  | stuck => rfl

theorem wsum_sum {α} (p : Prog α) (n : Nat) (φ : Nat → α → R) :
    p.wsum w (fun a => ∑ i ∈ range n, φ i a) = ∑ i ∈ range n, p.wsum w (φ i) := by
  induction p with
  | ret a => rfl
  | draw m k ih =>
    simp only [Prog.wsum, ih]
    rw [Finset.sum_comm, ← Finset.mul_sum]
  | fail e => simp [Prog.wsum]
  | stuck => simp [Prog.wsum]

theorem wsum_mul {α} (p : Prog α) (c : R) (φ : α → R) :
    p.wsum w (fun a => φ a * c) = p.wsum w φ * c := by
  induction p with
  | ret a => rfl
  | draw m k ih =>
    simp only [Prog.wsum, ih]
    rw [← Finset.sum_mul]; ring
  | fail e => simp [Prog.wsum]
  | stuck => simp [Prog.wsum]

theorem wprob_zero {α} [DecidableEq α] (p : Prog α) (x : α) (h : ¬ p.Can x) : p.wprob w x = 0 := by
  unfold Prog.wprob
  induction p with
  | ret a => simp only [Prog.wsum]; rw [if_neg]; intro e; exact h e.symm
  | draw m k ih =>
    simp only [Prog.wsum]
    rw [Finset.sum_eq_zero, mul_zero]
    intro i hi
    exact ih i (fun hc => h ⟨i, Finset.mem_range.mp hi, hc⟩)
  | fail e => rfl
  | stuck => rfl

theorem sum_getD (A : Str) (h : UInt8 → R) : ∑ i ∈ range A.length, h (A.getD i 0) = (A.map h).sum := by
  induction A with
  | nil => simp
  | cons a A ih =>
    rw [List.length_cons, Finset.sum_range_succ', List.map_cons, List.sum_cons, ← ih]
    simp [add_comm]

theorem sum_split (A : Str) (rej : UInt8 → Bool) (E : R) (h : UInt8 → R) :
    (A.map (fun c => if rej c = true then E else h c)).sum =
      (A.filter rej).length * E + ((A.filter (fun c => !rej c)).map h).sum := by
  induction A with
  | nil => simp
  | cons a A ih =>
    rw [List.map_cons, List.sum_cons, ih]
    by_cases hr : rej a = true
    · simp [hr]; ring
    · simp [hr]; ring

/-- Weight a fresh character gets after at most `fuel` tries, when each draw has weight `N` and `u` characters are rejected. -/
def weight (N u : R) : Nat → R
  | 0 => 0
  | f + 1 => N * (1 + u * weight N u f)

theorem wsum_pick {A : Str} (hA : Ascii A) (noRep : Bool) (res : Str) (fuel : Nat) (φ : Str → R) :
    (pick A noRep res fuel).wsum w φ =
      weight (w A.length) (A.filter (rejects noRep res)).length fuel *
        ((A.filter (fun c => !rejects noRep res c)).map (fun c => φ [c])).sum := by
  induction fuel with
  | zero => simp [pick, Prog.wsum, weight]
  | succ f ih =>
    rw [pick, wsum_bind]
    simp only [randomElement, Prog.wsum]
    have hterm : ∀ i ∈ range A.length,
        (if (noRep && contains res (stringOfByte (A.getD i 0))) = true then pick A noRep res f
          else Prog.ret (stringOfByte (A.getD i 0))).wsum w φ =
        (fun c => if rejects noRep res c = true then (pick A noRep res f).wsum w φ else φ [c]) (A.getD i 0) := by
      intro i hi
      have hi' := Finset.mem_range.mp hi
      have hmem : A.getD i 0 ∈ A := by
        have : A.getD i 0 = A[i] := by simp [List.getD, hi']
        rw [this]; exact List.getElem_mem hi'
      rw [stringOfByte_ascii (hA _ hmem), contains_singleton]
      simp only [rejects]
      split <;> simp_all [Prog.wsum]
    rw [Finset.sum_congr rfl hterm, sum_getD A (fun c => if rejects noRep res c = true then (pick A noRep res f).wsum w φ else φ [c]),
      sum_split, ih, weight]
    ring

theorem wsum_insert (h1 : w 1 = 1) (r : Str) (c : UInt8) (φ : Str → R) :
    (randomInsert r [c]).wsum w φ = w (r.length + 1) * ∑ i ∈ range (r.length + 1), φ (r.take i ++ c :: r.drop i) := by
  unfold randomInsert
  split
  · subst_vars; simp [Prog.wsum, h1]
  · simp [Prog.wsum]

theorem sum_indicator_nodup (A : Str) (hA : A.Nodup) (d : UInt8) (x : R) :
    (A.map (fun c => if d = c then x else 0)).sum = if d ∈ A then x else 0 := by
  induction A with
  | nil => simp
  | cons a A ih =>
    rw [List.nodup_cons] at hA
    rw [List.map_cons, List.sum_cons, ih hA.2]
    by_cases h : d = a
    · subst h; simp [hA.1]
    · simp [h]

theorem list_finset_sum (A : Str) (n : Nat) (h : UInt8 → Nat → R) :
    (A.map (fun c => ∑ i ∈ range n, h c i)).sum = ∑ i ∈ range n, (A.map (fun c => h c i)).sum := by
  induction A with
  | nil => simp
  | cons a A ih => simp only [List.map_cons, List.sum_cons, ih, Finset.sum_add_distrib]

theorem wsum_step (h1 : w 1 = 1) {A : Str} (hA : Ascii A) (hnd : A.Nodup) (noRep : Bool) (fuel : Nat) (r t : Str) :
    (step A noRep fuel r).wsum w (fun x => if x = t then 1 else 0) =
      ∑ i ∈ range t.length, (if r = t.eraseIdx i then 1 else 0) *
        (if t.getD i 0 ∈ A ∧ rejects noRep (t.eraseIdx i) (t.getD i 0) = false then
          weight (w A.length) (A.filter (rejects noRep (t.eraseIdx i))).length fuel * w t.length else 0) := by
  rw [step, wsum_bind, wsum_pick w hA]
  simp only [wsum_insert w h1]
  by_cases hlen : t.length = r.length + 1
  · rw [← hlen]
    have h1 : ∀ c, (w t.length * ∑ i ∈ range t.length, if r.take i ++ c :: r.drop i = t then (1:R) else 0) =
        ∑ i ∈ range t.length, (if t.getD i 0 = c then (if r = t.eraseIdx i then w t.length else 0) else 0) := by
      intro c
      rw [Finset.mul_sum]
      apply Finset.sum_congr rfl
      intro i hi
      have hi' := Finset.mem_range.mp hi
      have := insert_eq_iff r t c i (by omega)
      by_cases ha : t.getD i 0 = c
      · by_cases hb : r = t.eraseIdx i
        · rw [if_pos (this.mpr ⟨hi', hlen, ha, hb.symm⟩), if_pos ha, if_pos hb, mul_one]
        · rw [if_neg (fun h => hb (this.mp h).2.2.2.symm), if_pos ha, if_neg hb, mul_zero]
      · rw [if_neg (fun h => ha (this.mp h).2.2.1), if_neg ha, mul_zero]
    simp only [h1]
    rw [list_finset_sum, Finset.mul_sum]
    apply Finset.sum_congr rfl
    intro i _
    rw [sum_indicator_nodup _ (hnd.filter _)]
    by_cases hb : r = t.eraseIdx i
    · rw [if_pos hb, ← hb]
      by_cases hc : t.getD i 0 ∈ A ∧ rejects noRep r (t.getD i 0) = false
      · rw [if_pos hc, if_pos (by rw [List.mem_filter]; exact ⟨hc.1, by rw [hc.2]; rfl⟩), if_pos rfl]
        ring
      · rw [if_neg hc, if_neg (by rw [List.mem_filter]; intro h; exact hc ⟨h.1, by simpa using h.2⟩)]
        simp
    · simp [hb]
  · have hz : ∀ c, (∑ i ∈ range (r.length + 1), if r.take i ++ c :: r.drop i = t then (1:R) else 0) = 0 := by
      intro c
      apply Finset.sum_eq_zero
      intro i hi
      have hi' := Finset.mem_range.mp hi
      rw [if_neg]
      intro h
      exact hlen ((insert_eq_iff r t c i (by omega)).mp h).2.1
    simp only [hz]
    rw [Finset.sum_eq_zero]
    · simp
    · intro i hi
      have hi' := Finset.mem_range.mp hi
      rw [if_neg, zero_mul]
      intro h
      apply hlen
      rw [h, List.length_eraseIdx, if_pos hi']; omega

theorem wsum_fill_last (A : Str) (noRep : Bool) (fuel n : Nat) (res : Str) (φ : Str → R) :
    (fill A noRep fuel (n + 1) res).wsum w φ =
      (fill A noRep fuel n res).wsum w (fun r => (step A noRep fuel r).wsum w φ) := by
  induction n generalizing res with
  | zero => simp only [fill, wsum_bind, Prog.wsum]
  | succ n ih =>
    rw [fill, wsum_bind]
    simp only [ih]
    rw [fill, wsum_bind]

theorem wprob_fill_succ (h1 : w 1 = 1) {A : Str} (hA : Ascii A) (hnd : A.Nodup) (noRep : Bool) (fuel n : Nat) (p0 : Prog Str) (t : Str) :
    (p0.bind (fill A noRep fuel (n + 1))).wprob w t =
      ∑ i ∈ range t.length, (p0.bind (fill A noRep fuel n)).wprob w (t.eraseIdx i) *
        (if t.getD i 0 ∈ A ∧ rejects noRep (t.eraseIdx i) (t.getD i 0) = false then
          weight (w A.length) (A.filter (rejects noRep (t.eraseIdx i))).length fuel * w t.length else 0) := by
  unfold Prog.wprob
  simp only [wsum_bind, wsum_fill_last, wsum_step w h1 hA hnd]
  simp only [wsum_sum, wsum_mul]

theorem countIn_eq_sum (A t : Str) (x : R) :
    ∑ i ∈ range t.length, (if t.getD i 0 ∈ A then x else 0) = countIn A t * x := by
  rw [sum_getD t (fun c => if c ∈ A then x else 0)]
  unfold countIn
  induction t with
  | nil => simp
  | cons a t ih =>
    rw [List.map_cons, List.sum_cons, ih, List.filter_cons]
    split <;> simp_all; ring

theorem uniform_fill (hw : w 1 = 1) {A : Str} (hA : Ascii A) (hnd : A.Nodup) (noRep : Bool) (fuel : Nat) (p0 : Prog Str)
    (L : Nat) (Rest : Str → Prop) (v : R)
    (hRest : ∀ t i, i < t.length → Rest t → t.getD i 0 ∈ A → Rest (t.eraseIdx i))
    (hbase : ∀ t, countIn A t = 0 → t.length = L → (noRep = true → t.Nodup) → Rest t → p0.wprob w t = v) (n : Nat) :
    ∃ u, ∀ t, countIn A t = n → t.length = L + n → (noRep = true → t.Nodup) → Rest t →
      (p0.bind (fill A noRep fuel n)).wprob w t = u := by
  induction n with
  | zero =>
    refine ⟨v, fun t h1 h2 h3 h4 => ?_⟩
    have : (p0.bind (fill A noRep fuel 0)).wprob w t = p0.wprob w t := by
      unfold Prog.wprob; rw [wsum_bind]; rfl
    rw [this]
    exact hbase t h1 h2 h3 h4
  | succ n ih =>
    obtain ⟨u, hu'⟩ := ih
    refine ⟨((n + 1 : ℕ) : R) * (u * (weight (w A.length) ((if noRep then n else 0 : ℕ)) fuel * w (L + (n + 1)))), fun t h1 h2 h3 h4 => ?_⟩
    rw [wprob_fill_succ w hw hA hnd]
    have hcs := countIn_eq_sum A t (u * (weight (w A.length) ((if noRep then n else 0 : ℕ)) fuel * w (L + (n + 1))))
    rw [h1] at hcs
    rw [← hcs]
    apply Finset.sum_congr rfl
    intro i hi
    have hi' := Finset.mem_range.mp hi
    by_cases hc : t.getD i 0 ∈ A
    · have hcount := countIn_eraseIdx A t i hi'
      rw [if_pos hc] at hcount
      have hndE : noRep = true → (t.eraseIdx i).Nodup := fun h => (h3 h).eraseIdx i
      have hrej : rejects noRep (t.eraseIdx i) (t.getD i 0) = false := by
        unfold rejects
        cases hr : noRep with
        | false => rfl
        | true =>
          have hg : t.getD i 0 = t[i] := by simp [List.getD, hi']
          have hp : t.Perm (t[i] :: t.eraseIdx i) := (List.getElem_cons_eraseIdx_perm hi').symm
          have := hp.nodup_iff.mp (h3 hr)
          rw [List.nodup_cons] at this
          simpa only [hg, Bool.true_and, decide_eq_false_iff_not] using this.1
      have hu : (A.filter (rejects noRep (t.eraseIdx i))).length = if noRep then n else 0 := by
        cases hr : noRep with
        | false => simp [rejects]
        | true =>
          have := filter_mem_comm A (t.eraseIdx i) hnd (hndE hr)
          have hfe : rejects true (t.eraseIdx i) = fun c => decide (c ∈ t.eraseIdx i) := by
            funext c; simp [rejects]
          simp only [hfe, if_true]
          rw [this]; omega
      rw [if_pos ⟨hc, hrej⟩, if_pos hc, hu, h2]
      rw [hu' (t.eraseIdx i) (by omega) (by rw [List.length_eraseIdx, if_pos hi']; omega) hndE (hRest t i hi' h4 hc)]
    · rw [if_neg hc, if_neg (fun h => hc h.1), mul_zero]

theorem uniform_body (hw : w 1 = 1) {g : Generator} (hg : g.AllAscii) (hs : g.Separate) (hd : g.Distinct) (fuel : Nat) (l d s : Int)
    (nu ar : Bool) : ∃ v, ∀ pw, Conforms g l d s nu ar pw → (g.body fuel l d s nu ar).wprob w pw = v := by
  have hL := letters_apart_digits hs nu
  have hLS := letters_apart_symbols hs nu
  have hDS := hs.2.2
  have hndL : (g.letters nu).Nodup := by
    unfold Generator.letters
    split
    · exact (List.nodup_append.mp hd.1).1
    · exact hd.1
  have keep : ∀ A B : Str, Apart A B → ∀ t i, i < t.length → t.getD i 0 ∈ B →
      countIn A (t.eraseIdx i) = countIn A t := by
    intro A B hAB t i hi hB
    have := countIn_eraseIdx A t i hi
    rw [if_neg (fun hA => hAB _ hA hB)] at this
    exact this
  obtain ⟨w1, h1⟩ := uniform_fill w hw (letters_ascii hg nu) hndL (!ar) fuel (.ret []) 0 (fun _ => True) 1
    (fun _ _ _ _ _ => trivial)
    (by intro t _ ht _ _; rw [List.length_eq_zero_iff.mp ht]; simp [Prog.wprob, Prog.wsum])
    (l - d - s).toNat
  obtain ⟨w2, h2⟩ := uniform_fill w hw hg.2.2.1 hd.2.1 (!ar) fuel _ (l - d - s).toNat
    (fun t => countIn (g.letters nu) t = (l - d - s).toNat) w1
    (fun t i hi hr hB => by rw [keep _ _ hL t i hi hB]; exact hr)
    (fun t _ h2 h3 h4 => h1 t h4 (by omega) h3 trivial) d.toNat
  obtain ⟨w3, h3⟩ := uniform_fill w hw hg.2.2.2 hd.2.2 (!ar) fuel _ ((l - d - s).toNat + d.toNat)
    (fun t => countIn (g.letters nu) t = (l - d - s).toNat ∧ countIn g.digits t = d.toNat) w2
    (fun t i hi hr hB => by rw [keep _ _ hLS t i hi hB, keep _ _ hDS t i hi hB]; exact hr)
    (fun t _ h2' h3' h4 => h2 t h4.2 h2' h3' h4.1) s.toNat
  refine ⟨w3, fun pw hc => ?_⟩
  have c1 := hc.len; have c2 := hc.digits; have c3 := hc.symbols; have c4 := hc.letters'
  have := h3 pw (by omega) (by omega) (fun h => hc.fresh (by simpa using h)) ⟨by omega, by omega⟩
  rw [bind_assoc, bind_assoc] at this
  exact this

/-- Whatever the weights, if only those of numbers below 1 are 1, all passwords that satisfy a request have the same weight, and other strings none. -/
theorem uniform (hw : w 1 = 1) (g : Generator) (hg : g.AllAscii) (hs : g.Separate) (hd : g.Distinct) (fuel : Nat)
    (length numDigits numSymbols : Int) (hd0 : 0 ≤ numDigits) (hs0 : 0 ≤ numSymbols) (noUpper allowRepeat : Bool) :
    ∃ v : R, (∀ pw, Conforms g length numDigits numSymbols noUpper allowRepeat pw →
        (g.generate fuel length numDigits numSymbols noUpper allowRepeat).wprob w pw = v) ∧
      (∀ pw, ¬ Conforms g length numDigits numSymbols noUpper allowRepeat pw →
        (g.generate fuel length numDigits numSymbols noUpper allowRepeat).wprob w pw = 0) := by
  obtain ⟨v, hv⟩ := uniform_body w hw hg hs hd fuel length numDigits numSymbols noUpper allowRepeat
  exact ⟨v, fun pw h => by rw [generate_accepted (conforms_accepted h)]; exact hv pw h,
    fun pw h => wprob_zero w _ _ (fun hc => h (can_conforms hg hs hd0 hs0 hc))⟩

end WSum
end Verif.Password
