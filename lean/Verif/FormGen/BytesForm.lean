import Verif.Password.Bytes
import Verif.FormGen.FormUniform
/-
C153 for `generate --form`: what uniformly distributed random bytes print.
-/
namespace Verif.FormGen
open Verif.Password Finset

/-- **C153** For every form, and every number `L` of bytes, the numbers of byte strings of length `L` for which the texts are printed are proportional to the probabilities of
the texts (C107, C135): given that `L` uniformly distributed bytes suffice, exactly these are the probabilities. -/
theorem C153_form (a : GenerateCmd) (f : Str) (hf : a.form = some f) (fuel : Nat) (hfuel : 0 < fuel) (L : Nat) :
    ∃ κ : ℚ, 0 ≤ κ ∧ ∀ out, (Nat.card {s : Str // s.length = L ∧ a.run fuel s = .ok out} : ℚ) = κ * (a.prog fuel).prob out := by
  classical
  obtain ⟨v, hv, hp⟩ := form_prob a f hf fuel hfuel
  obtain ⟨N, hN, hN0⟩ := C153_bytes defaultGenerator default_ascii default_separate default_distinct fuel
    (f.count 120 + f.count 88 + f.count 110 + f.count 115 + f.count 97 : Nat) (f.count 110 + f.count 97 / 3 : Nat) (f.count 115 : Nat) (by omega) (by omega) (!a.mixed) (!a.unique) L
  refine ⟨N / v, by positivity, fun out => ?_⟩
  obtain ⟨F, hF, hpr⟩ := hp out
  set G := defaultGenerator.generate fuel (f.count 120 + f.count 88 + f.count 110 + f.count 115 + f.count 97 : Nat) (f.count 110 + f.count 97 / 3 : Nat) (f.count 115 : Nat)
    (!a.mixed) (!a.unique) with hG
  rw [hpr, show (N : ℚ) / v * (F.card * v) = F.card * N by field_simp]
  have hrun : ∀ s, a.run fuel s = .ok out ↔ ∃ pw rest, G.run s = .ok (pw, rest) ∧ fillForm f (split pw).1 (split pw).2.1 (split pw).2.2 pw = some out := by
    intro s
    rw [C107_prog]
    unfold GenerateCmd.prog
    simp only [hf, formRequest_eq]
    rw [run_bind]
    have eG : generate fuel (f.count 120 + f.count 88 + f.count 110 + f.count 115 + f.count 97 : Nat) (f.count 110 + f.count 97 / 3 : Nat) (f.count 115 : Nat)
      (!a.mixed) (!a.unique) = G := rfl
    rw [eG]
    cases h : G.run s with
    | ok x =>
      obtain ⟨pw, rest⟩ := x
      dsimp only
      cases h2 : fillForm f (split pw).1 (split pw).2.1 (split pw).2.2 pw with
      | some o =>
        constructor
        · intro h3; cases h3; exact ⟨pw, rest, rfl, h2⟩
        · rintro ⟨pw', rest', h3, h4⟩; cases h3; rw [h2] at h4; cases h4; rfl
      | none =>
        constructor
        · intro h3; cases h3
        · rintro ⟨pw', rest', h3, h4⟩; cases h3; rw [h2] at h4; cases h4
    | err e => constructor
               · intro h3; cases h3
               · rintro ⟨pw', rest', h3, h4⟩; cases h3
    | panic => constructor
               · intro h3; cases h3
               · rintro ⟨pw', rest', h3, h4⟩; cases h3
    | nofuel => constructor
                · intro h3; cases h3
                · rintro ⟨pw', rest', h3, h4⟩; cases h3
  have hsum : (Nat.card {s : Str // s.length = L ∧ a.run fuel s = .ok out} : ℚ) = ∑ pw ∈ F, cnt G L pw := by
    rw [Nat.subtype_card ((byteStrings L).filter fun s => a.run fuel s = .ok out) (fun s => by rw [Finset.mem_filter, mem_byteStrings]), ← Finset.sum_boole]
    unfold cnt
    rw [Finset.sum_comm]
    refine Finset.sum_congr rfl fun s hs => ?_
    by_cases h : a.run fuel s = .ok out
    · rw [if_pos h]
      obtain ⟨pw, rest, h1, h2⟩ := (hrun s).1 h
      have hA : Asked a f pw := by
        by_contra hn
        have h0 := hN0 pw hn
        rw [Nat.subtype_card ((byteStrings L).filter fun s => ∃ rest, G.run s = .ok (pw, rest)) (fun s => by rw [Finset.mem_filter, mem_byteStrings]),
          Finset.card_eq_zero] at h0
        have : s ∈ (byteStrings L).filter fun s => ∃ rest, G.run s = .ok (pw, rest) := Finset.mem_filter.2 ⟨hs, rest, h1⟩
        rw [h0] at this
        exact absurd this (Finset.notMem_empty _)
      rw [Finset.sum_eq_single pw]
      · rw [if_pos ⟨rest, h1⟩]
      · intro b _ hb
        rw [if_neg]
        rintro ⟨r, hr⟩
        rw [h1] at hr
        cases hr
        exact hb rfl
      · intro hn
        exact absurd ((hF pw).2 ⟨hA, h2⟩) hn
    · rw [if_neg h, Finset.sum_eq_zero]
      intro pw hpw
      rw [if_neg]
      rintro ⟨r, hr⟩
      exact h ((hrun s).2 ⟨pw, r, hr, ((hF pw).1 hpw).2⟩)
  have e : ∀ pw ∈ F, cnt G L pw = N := fun pw hpw => by
    rw [cnt_eq]
    exact_mod_cast hN pw ((hF pw).1 hpw).1
  rw [hsum, Finset.sum_congr rfl e, Finset.sum_const, nsmul_eq_mul]

/-- **C153** For a form without `a` (and not both `--mixed` and `--unique`) the same number of byte strings of length `L` print each text that the form stands for, and none
print anything else. -/
theorem C153_form_uniform (a : GenerateCmd) (f : Str) (hf : a.form = some f) (ha : (97 : UInt8) ∉ f) (hm : a.mixed = false ∨ a.unique = false) (fuel : Nat)
    (hfuel : 0 < fuel) (L : Nat) :
    ∃ N : Nat, (∀ out, Allowed a.unique f out → Nat.card {s : Str // s.length = L ∧ a.run fuel s = .ok out} = N) ∧
      ∀ out, ¬ Allowed a.unique f out → Nat.card {s : Str // s.length = L ∧ a.run fuel s = .ok out} = 0 := by
  obtain ⟨κ, hκ, h⟩ := C153_form a f hf fuel hfuel L
  obtain ⟨v, hv, h1, h0⟩ := C107_form_uniform a f hf ha hm fuel hfuel
  have hz : ∀ out, ¬ Allowed a.unique f out → Nat.card {s : Str // s.length = L ∧ a.run fuel s = .ok out} = 0 := fun out ho => by
    have := h out
    rw [h0 out ho, mul_zero] at this
    exact_mod_cast this
  by_cases hex : ∃ out, Allowed a.unique f out
  · obtain ⟨o, ho⟩ := hex
    refine ⟨Nat.card {s : Str // s.length = L ∧ a.run fuel s = .ok o}, fun out hout => ?_, hz⟩
    have e1 := h out
    have e2 := h o
    rw [h1 out hout, ← h1 o ho, ← e2] at e1
    exact_mod_cast e1
  · exact ⟨0, fun out ho => absurd ⟨out, ho⟩ hex, hz⟩

/-- A case: four bytes print `k7` for the form `xn`. -/
example : GenerateCmd.run ⟨0, 0, 0, false, false, some (lit "xn")⟩ 1 [10, 7, 0, 255] = .ok (lit "k7") := by decide +kernel

end Verif.FormGen
