import Verif.Password.Uniform
/-
Characterisation of the possible results of `Generator.generate`.
-/
namespace Verif.Password
open Finset

theorem bind_assoc {α β γ} (p : Prog α) (f : α → Prog β) (g : β → Prog γ) :
    (p.bind f).bind g = p.bind (fun a => (f a).bind g) := by
  induction p with
  | ret a => rfl
  | draw m k ih => simp only [Prog.bind, ih]
  | fail e => rfl
  | stuck => rfl

/-- The four policy checks of `Generate` in their order (used in lemmas only). -/
def Generator.accepted (g : Generator) (length numDigits numSymbols : Int) (noUpper allowRepeat : Bool) : Prop :=
  0 ≤ length - numDigits - numSymbols ∧ (allowRepeat = false →
    length - numDigits - numSymbols ≤ (g.letters noUpper).length ∧ numDigits ≤ g.digits.length ∧
    numSymbols ≤ g.symbols.length)

/-- The generation part of `Generate`. -/
def Generator.body (g : Generator) (fuel : Nat) (length numDigits numSymbols : Int) (noUpper allowRepeat : Bool) :
    Prog Str :=
  (fill (g.letters noUpper) (!allowRepeat) fuel (length - numDigits - numSymbols).toNat []).bind fun r1 =>
    (fill g.digits (!allowRepeat) fuel numDigits.toNat r1).bind fun r2 =>
    fill g.symbols (!allowRepeat) fuel numSymbols.toNat r2

theorem generate_accepted {g : Generator} {fuel : Nat} {l d s : Int} {nu ar : Bool} (h : g.accepted l d s nu ar) :
    g.generate fuel l d s nu ar = g.body fuel l d s nu ar := by
  obtain ⟨h1, h2⟩ := h
  unfold Generator.generate Generator.body
  simp only
  rw [if_neg (by omega)]
  cases ar with
  | true => simp
  | false =>
    obtain ⟨h3, h4, h5⟩ := h2 rfl
    rw [if_neg (by simpa using h3), if_neg (by simpa using h4), if_neg (by simpa using h5)]

theorem generate_cases (g : Generator) (fuel : Nat) (l d s : Int) (nu ar : Bool) :
    (g.accepted l d s nu ar ∧ g.generate fuel l d s nu ar = g.body fuel l d s nu ar) ∨
    (¬ g.accepted l d s nu ar ∧ ∃ e, g.generate fuel l d s nu ar = .fail e) := by
  by_cases h : g.accepted l d s nu ar
  · exact .inl ⟨h, generate_accepted h⟩
  · refine .inr ⟨h, ?_⟩
    unfold Generator.generate
    simp only
    split
    · exact ⟨_, rfl⟩
    · split
      · exact ⟨_, rfl⟩
      · split
        · exact ⟨_, rfl⟩
        · split
          · exact ⟨_, rfl⟩
          · rename_i h1 h2 h3 h4
            exfalso; apply h
            refine ⟨by omega, fun ha => ?_⟩
            subst ha
            simp at h2 h3 h4
            exact ⟨by omega, h3, h4⟩

theorem can_accepted {g : Generator} {fuel : Nat} {l d s : Int} {nu ar : Bool} {pw : Str}
    (h : (g.generate fuel l d s nu ar).Can pw) : g.accepted l d s nu ar ∧ (g.body fuel l d s nu ar).Can pw := by
  rcases generate_cases g fuel l d s nu ar with ⟨h1, h2⟩ | ⟨_, e, h2⟩
  · rw [h2] at h; exact ⟨h1, h⟩
  · rw [h2] at h; exact absurd h (by simp [Prog.Can])

/-- What a result of the body consists of. -/
theorem can_body {g : Generator} (hg : g.AllAscii) {fuel : Nat} {l d s : Int} {nu ar : Bool} {pw : Str}
    (h : (g.body fuel l d s nu ar).Can pw) :
    ∃ a b c : Str, a.length = (l - d - s).toNat ∧ b.length = d.toNat ∧ c.length = s.toNat ∧
      (∀ x ∈ a, x ∈ g.letters nu) ∧ (∀ x ∈ b, x ∈ g.digits) ∧ (∀ x ∈ c, x ∈ g.symbols) ∧
      pw.Perm (c ++ (b ++ a)) ∧ (ar = false → pw.Nodup) := by
  unfold Generator.body at h
  rw [can_bind] at h
  obtain ⟨r1, h1, h⟩ := h
  rw [can_bind] at h
  obtain ⟨r2, h2, h3⟩ := h
  obtain ⟨a, ha, ha', hpa, hna⟩ := can_fill (letters_ascii hg nu) _ _ _ _ _ h1
  obtain ⟨b, hb, hb', hpb, hnb⟩ := can_fill hg.2.2.1 _ _ _ _ _ h2
  obtain ⟨c, hc, hc', hpc, hnc⟩ := can_fill hg.2.2.2 _ _ _ _ _ h3
  refine ⟨a, b, c, ha, hb, hc, ha', hb', hc', ?_, ?_⟩
  · rw [List.append_nil] at hpa
    exact hpc.trans (List.Perm.append_left _ (hpb.trans (List.Perm.append_left _ hpa)))
  · intro har
    have hn : (!ar) = true := by simp [har]
    exact hnc hn (hnb hn (hna hn (by simp)))

theorem letters_apart_digits {g : Generator} (h : g.Separate) (nu : Bool) : Apart (g.letters nu) g.digits :=
  fun c hc => h.1 c (letters_sub g nu c hc)

theorem letters_apart_symbols {g : Generator} (h : g.Separate) (nu : Bool) : Apart (g.letters nu) g.symbols :=
  fun c hc => h.2.1 c (letters_sub g nu c hc)

theorem letters_spec (g : Generator) (nu : Bool) :
    g.lowerLetters ++ (if nu then [] else g.upperLetters) = g.letters nu := by
  unfold Generator.letters; cases nu <;> simp

theorem Conforms.letters' {g : Generator} {l d s : Int} {nu ar : Bool} {pw : Str} (h : Conforms g l d s nu ar pw) :
    (countIn (g.letters nu) pw : Int) = l - d - s := by
  rw [← letters_spec]; exact h.letters

theorem can_conforms {g : Generator} (hg : g.AllAscii) (hs : g.Separate) {fuel : Nat} {l d s : Int} {nu ar : Bool}
    {pw : Str} (hd0 : 0 ≤ d) (hs0 : 0 ≤ s) (h : (g.generate fuel l d s nu ar).Can pw) :
    Conforms g l d s nu ar pw := by
  obtain ⟨⟨hl, _⟩, h⟩ := can_accepted h
  obtain ⟨a, b, c, ha, hb, hc, ha', hb', hc', hp, hn⟩ := can_body hg h
  have e1 := countIn_none (letters_apart_digits hs nu) ha'
  have e2 := countIn_none (letters_apart_symbols hs nu) ha'
  have e3 := countIn_none hs.2.2 hb'
  have e4 := countIn_none' (letters_apart_digits hs nu) hb'
  have e5 := countIn_none' (letters_apart_symbols hs nu) hc'
  have e6 := countIn_none' hs.2.2 hc'
  have e7 := countIn_all ha'
  have e8 := countIn_all hb'
  have e9 := countIn_all hc'
  refine ⟨?_, ?_, ?_, ?_, hn⟩
  · rw [hp.length_eq]; simp; omega
  · rw [countIn_perm hp]; simp only [countIn_append]; omega
  · rw [countIn_perm hp]; simp only [countIn_append]; omega
  · rw [letters_spec, countIn_perm hp]; simp only [countIn_append]; omega

theorem countIn_three {A B C : Str} (h1 : Apart A B) (h2 : Apart A C) (h3 : Apart B C) (t : Str) :
    countIn A t + countIn B t + countIn C t ≤ t.length ∧
    (countIn A t + countIn B t + countIn C t = t.length → ∀ c ∈ t, c ∈ A ∨ c ∈ B ∨ c ∈ C) := by
  induction t with
  | nil => simp [countIn]
  | cons x t ih =>
    obtain ⟨i1, i2⟩ := ih
    have key : ∀ D : Str, countIn D (x :: t) = countIn D t + if x ∈ D then 1 else 0 := by
      intro D; unfold countIn; rw [List.filter_cons]; split <;> simp_all
    simp only [key, List.length_cons]
    by_cases hA : x ∈ A
    · have := h1 x hA; have := h2 x hA
      simp only [*, if_true, if_false]
      refine ⟨by omega, fun h c hc => ?_⟩
      rcases List.mem_cons.mp hc with rfl | hc
      · exact .inl hA
      · exact i2 (by omega) c hc
    · by_cases hB : x ∈ B
      · have := h3 x hB
        simp only [*, if_true, if_false]
        refine ⟨by omega, fun h c hc => ?_⟩
        rcases List.mem_cons.mp hc with rfl | hc
        · exact .inr (.inl hB)
        · exact i2 (by omega) c hc
      · by_cases hC : x ∈ C
        · simp only [*, if_true, if_false]
          refine ⟨by omega, fun h c hc => ?_⟩
          rcases List.mem_cons.mp hc with rfl | hc
          · exact .inr (.inr hC)
          · exact i2 (by omega) c hc
        · simp only [*, if_false]
          exact ⟨by omega, fun h => by omega⟩

theorem conforms_members {g : Generator} (hs : g.Separate) {l d s : Int} {nu ar : Bool} {pw : Str}
    (h : Conforms g l d s nu ar pw) : ∀ c ∈ pw, c ∈ g.letters nu ∨ c ∈ g.digits ∨ c ∈ g.symbols := by
  apply (countIn_three (letters_apart_digits hs nu) (letters_apart_symbols hs nu) hs.2.2 pw).2
  have := h.len; have := h.digits; have := h.symbols; have := h.letters'
  omega

theorem countIn_le {A t : Str} (ht : t.Nodup) : countIn A t ≤ A.length := by
  unfold countIn
  apply List.Subperm.length_le
  apply List.subperm_of_subset (ht.filter _)
  intro c hc
  simpa using (List.mem_filter.mp hc).2

theorem conforms_accepted {g : Generator} {l d s : Int} {nu ar : Bool} {pw : Str}
    (h : Conforms g l d s nu ar pw) : g.accepted l d s nu ar := by
  have h1 := h.letters'; have h2 := h.digits; have h3 := h.symbols
  refine ⟨by omega, fun har => ?_⟩
  have hn := h.fresh har
  have e1 := countIn_le (A := g.letters nu) hn
  have e2 := countIn_le (A := g.digits) hn
  have e3 := countIn_le (A := g.symbols) hn
  omega

theorem conforms_can {g : Generator} (hg : g.AllAscii) (hs : g.Separate) {fuel : Nat} (hf : 0 < fuel) {l d s : Int}
    {nu ar : Bool} {pw : Str} (h : Conforms g l d s nu ar pw) : (g.generate fuel l d s nu ar).Can pw := by
  rw [generate_accepted (conforms_accepted h)]
  unfold Generator.body
  have hmem := conforms_members hs h
  have hL := letters_apart_digits hs nu
  have hLS := letters_apart_symbols hs nu
  have hDS := hs.2.2
  have hfresh : ∀ q : UInt8 → Bool, (!ar) = true → (([] : Str) ++ pw.filter q).Nodup := by
    intro q hq
    simpa using (h.fresh (by simpa using hq)).filter q
  have p1 := fill_can (letters_ascii hg nu) (!ar) fuel hf (fun _ => false) (fun c => decide (c ∈ g.letters nu)) pw []
    (by simp) (by simp) (hfresh _)
  have p2 := fill_can hg.2.2.1 (!ar) fuel hf (fun c => decide (c ∈ g.letters nu))
    (fun c => decide (c ∈ g.letters nu) || decide (c ∈ g.digits)) pw []
    (by intro c _ hc; simp [of_decide_eq_true hc]) (by intro c _ h1 h2; simp at h1 h2; tauto) (hfresh _)
  have p3 := fill_can hg.2.2.2 (!ar) fuel hf (fun c => decide (c ∈ g.letters nu) || decide (c ∈ g.digits))
    (fun _ => true) pw [] (by simp) (by intro c hc _ h2; simp at h2; have := hmem c hc; tauto) (hfresh _)
  simp only [List.nil_append] at p1 p2 p3
  have l1 : (pw.filter (fun c => decide (c ∈ g.letters nu) && !false)).length = (l - d - s).toNat := by
    have := h.letters'; unfold countIn at this; simp only [Bool.not_false, Bool.and_true]; omega
  have l2 : (pw.filter (fun c => (decide (c ∈ g.letters nu) || decide (c ∈ g.digits)) && !decide (c ∈ g.letters nu))).length
      = d.toNat := by
    have := h.digits; unfold countIn at this
    have e : pw.filter (fun c => (decide (c ∈ g.letters nu) || decide (c ∈ g.digits)) && !decide (c ∈ g.letters nu)) =
        pw.filter (fun c => decide (c ∈ g.digits)) := by
      apply List.filter_congr
      intro c _
      by_cases h1 : c ∈ g.letters nu
      · simp [h1, hL c h1]
      · simp [h1]
    rw [e]; omega
  have l3 : (pw.filter (fun c => true && !(decide (c ∈ g.letters nu) || decide (c ∈ g.digits)))).length = s.toNat := by
    have := h.symbols; unfold countIn at this
    have e : pw.filter (fun c => true && !(decide (c ∈ g.letters nu) || decide (c ∈ g.digits))) =
        pw.filter (fun c => decide (c ∈ g.symbols)) := by
      apply List.filter_congr
      intro c hc
      by_cases h1 : c ∈ g.letters nu
      · simp [h1, hLS c h1]
      · by_cases h2 : c ∈ g.digits
        · simp [h1, h2, hDS c h2]
        · simp [h1, h2]; have := hmem c hc; tauto
    rw [e]; omega
  rw [l1] at p1; rw [l2] at p2; rw [l3] at p3
  rw [can_bind]
  refine ⟨_, by simpa using p1, ?_⟩
  rw [can_bind]
  exact ⟨_, p2, by simpa using p3⟩

theorem uniform_body {g : Generator} (hg : g.AllAscii) (hs : g.Separate) (hd : g.Distinct) (fuel : Nat) (l d s : Int)
    (nu ar : Bool) : ∃ v, ∀ pw, Conforms g l d s nu ar pw → (g.body fuel l d s nu ar).prob pw = v := by
  have hL := letters_apart_digits hs nu
  have hLS := letters_apart_symbols hs nu
  have hDS := hs.2.2
  have hndL : (g.letters nu).Nodup := by
    unfold Generator.letters
    split
    · exact (List.nodup_append.mp hd.1).1
    · exact hd.1
  have keep : ∀ A B : Str, Apart A B → ∀ t i, i < t.length → t.getD i 0 ∈ B →
      countIn A (t.eraseIdx i) = countIn A t := by
    intro A B hAB t i hi hB
    have := countIn_eraseIdx A t i hi
    rw [if_neg (fun hA => hAB _ hA hB)] at this
    exact this
  obtain ⟨w1, h1⟩ := uniform_fill (letters_ascii hg nu) hndL (!ar) fuel (.ret []) 0 (fun _ => True) 1
    (fun _ _ _ _ _ => trivial)
    (by intro t _ ht _ _; rw [List.length_eq_zero_iff.mp ht]; simp [Prog.prob, Prog.expect])
    (l - d - s).toNat
  obtain ⟨w2, h2⟩ := uniform_fill hg.2.2.1 hd.2.1 (!ar) fuel _ (l - d - s).toNat
    (fun t => countIn (g.letters nu) t = (l - d - s).toNat) w1
    (fun t i hi hr hB => by rw [keep _ _ hL t i hi hB]; exact hr)
    (fun t _ h2 h3 h4 => h1 t h4 (by omega) h3 trivial) d.toNat
  obtain ⟨w3, h3⟩ := uniform_fill hg.2.2.2 hd.2.2 (!ar) fuel _ ((l - d - s).toNat + d.toNat)
    (fun t => countIn (g.letters nu) t = (l - d - s).toNat ∧ countIn g.digits t = d.toNat) w2
    (fun t i hi hr hB => by rw [keep _ _ hLS t i hi hB, keep _ _ hDS t i hi hB]; exact hr)
    (fun t _ h2' h3' h4 => h2 t h4.2 h2' h3' h4.1) s.toNat
  refine ⟨w3, fun pw hc => ?_⟩
  have c1 := hc.len; have c2 := hc.digits; have c3 := hc.symbols; have c4 := hc.letters'
  have := h3 pw (by omega) (by omega) (fun h => hc.fresh (by simpa using h)) ⟨by omega, by omega⟩
  rw [bind_assoc, bind_assoc] at this
  exact this

theorem noFail_body {g : Generator} {fuel : Nat} {l d s : Int} {nu ar : Bool}
    (h1 : g.letters nu ≠ []) (h2 : g.digits ≠ []) (h3 : g.symbols ≠ []) : (g.body fuel l d s nu ar).NoFail :=
  noFail_bind _ _ (noFail_fill _ h1 _ _ _ _) fun _ =>
    noFail_bind _ _ (noFail_fill _ h2 _ _ _ _) fun _ => noFail_fill _ h3 _ _ _ _

theorem letters_ne {g : Generator} (h : g.lowerLetters ≠ []) (nu : Bool) : g.letters nu ≠ [] := by
  unfold Generator.letters; split <;> simp [h]

theorem run_pos_fuel {g : Generator} {l d s : Int} {nu ar : Bool} (hg : g.AllAscii) {fuel : Nat} {pw : Str}
    (h : (g.generate fuel l d s nu ar).Can pw) : 0 < fuel ∨ pw = [] := by
  obtain ⟨_, h⟩ := can_accepted h
  rcases Nat.eq_zero_or_pos fuel with h0 | h0
  · subst h0
    right
    have hz : ∀ A : Str, Ascii A → ∀ n res x, (fill A (!ar) 0 n res).Can x → x = res := by
      intro A hA n res x hc
      cases n with
      | zero => simpa [fill, Prog.Can] using hc
      | succ n =>
        rw [fill, can_bind] at hc
        obtain ⟨r, hr, _⟩ := hc
        rw [can_step hA] at hr
        omega
    unfold Generator.body at h
    rw [can_bind] at h
    obtain ⟨r1, h1, h⟩ := h
    rw [can_bind] at h
    obtain ⟨r2, h2, h3⟩ := h
    rw [hz _ hg.2.2.2 _ _ _ h3, hz _ hg.2.2.1 _ _ _ h2, hz _ (letters_ascii hg nu) _ _ _ h1]
  · exact .inl h0

theorem probDone_body {g : Generator} (hg : g.AllAscii) (hs : g.Separate) (hd : g.Distinct) {fuel : Nat} {l d s : Int}
    {nu ar : Bool} (hacc : g.accepted l d s nu ar) (hd0 : 0 ≤ d) (hs0 : 0 ≤ s) (h1 : g.letters nu ≠ []) (h2 : g.digits ≠ [])
    (h3 : g.symbols ≠ []) (ρ : ℚ) (hρ0 : 0 ≤ ρ)
    (e1 : ((g.letters nu).length - 1 : ℚ) / (g.letters nu).length ≤ ρ)
    (e2 : (g.digits.length - 1 : ℚ) / g.digits.length ≤ ρ) (e3 : (g.symbols.length - 1 : ℚ) / g.symbols.length ≤ ρ) :
    1 - l * ρ ^ fuel ≤ (g.body fuel l d s nu ar).probDone := by
  have hndL : (g.letters nu).Nodup := by
    unfold Generator.letters
    split
    · exact (List.nodup_append.mp hd.1).1
    · exact hd.1
  have hz : ∀ A : Str, countIn A [] = 0 := fun _ => rfl
  obtain ⟨ha0, hacc⟩ := hacc
  have b1 := probDone_fill (letters_ascii hg nu) h1 hndL (!ar) fuel ρ hρ0 e1 (l - d - s).toNat []
    (fun hn => ⟨List.nodup_nil, by have := hacc (by simpa using hn); rw [hz]; omega⟩)
  have h := probDone_bind (fill (g.letters nu) (!ar) fuel (l - d - s).toNat [])
    (fun r1 => (fill g.digits (!ar) fuel d.toNat r1).bind fun r2 => fill g.symbols (!ar) fuel s.toNat r2)
    (d.toNat * ρ ^ fuel + s.toNat * ρ ^ fuel) ((l - d - s).toNat * ρ ^ fuel) (by positivity) b1
    (fun r1 hr1 => by
      obtain ⟨a, ha, ha', hpa, hna⟩ := can_fill (letters_ascii hg nu) _ _ _ _ _ hr1
      rw [List.append_nil] at hpa
      have hcd : countIn g.digits r1 = 0 := by
        rw [countIn_perm hpa]; exact countIn_none (letters_apart_digits hs nu) ha'
      have hcs : countIn g.symbols r1 = 0 := by
        rw [countIn_perm hpa]; exact countIn_none (letters_apart_symbols hs nu) ha'
      apply probDone_bind
      · positivity
      · exact probDone_fill hg.2.2.1 h2 hd.2.1 (!ar) fuel ρ hρ0 e2 d.toNat r1
          (fun hn => ⟨hna hn List.nodup_nil, by have := hacc (by simpa using hn); rw [hcd]; omega⟩)
      · intro r2 hr2
        obtain ⟨b, hb, hb', hpb, hnb⟩ := can_fill hg.2.2.1 _ _ _ _ _ hr2
        have hcs2 : countIn g.symbols r2 = 0 := by
          rw [countIn_perm hpb, countIn_append, hcs]; rw [countIn_none hs.2.2 hb']
        exact probDone_fill hg.2.2.2 h3 hd.2.2 (!ar) fuel ρ hρ0 e3 s.toNat r2
          (fun hn => ⟨hnb hn (hna hn List.nodup_nil), by have := hacc (by simpa using hn); rw [hcs2]; omega⟩))
  unfold Generator.body
  have hl : (l : ℚ) = ((l - d - s).toNat : ℚ) + (d.toNat : ℚ) + (s.toNat : ℚ) := by
    have : l = ((l - d - s).toNat : Int) + (d.toNat : Int) + (s.toNat : Int) := by omega
    exact_mod_cast this
  rw [hl]
  linarith

end Verif.Password
