import Verif.QR.RSLemmas
import Verif.QR.QRField
/-
C20-C24: the field GF(256) and the Reed-Solomon encoder (qrterminal/qrcode/gf256). A field is anything `NewField` returns; the one
used for QR codes is `qrField` (`newField_qr`).
-/
namespace Verif.QR
open Polynomial

section
variable {f : Field} {poly α : Nat}

/-- **C20** Add, Mul and Inv satisfy the field laws, for every field `NewField` returns. -/
theorem C20_field_laws (h : newField poly α = some f) :
    (∀ x y z, f.add (f.add x y) z = f.add x (f.add y z)) ∧ (∀ x y, f.add x y = f.add y x) ∧ (∀ x, f.add x 0 = x) ∧
    (∀ x, f.add x x = 0) ∧
    (∀ x y z, f.mul (f.mul x y) z = f.mul x (f.mul y z)) ∧ (∀ x y, f.mul x y = f.mul y x) ∧ (∀ x, f.mul x 1 = x) ∧
    (∀ x y z, f.mul x (f.add y z) = f.add (f.mul x y) (f.mul x z)) ∧
    (∀ x, x ≠ 0 → f.mul x (f.inv x) = 1) ∧ f.inv 0 = 0 ∧ (1 : UInt8) ≠ 0 := by
  have g := newField_good h
  refine ⟨fun x y z => UInt8.xor_assoc .., fun x y => UInt8.xor_comm .., fun x => UInt8.xor_zero, fun x => UInt8.xor_self, ?_, ?_, ?_,
    ?_, ?_, rfl, by decide⟩
  · intro x y z; apply g.val_inj; simp only [g.val_mul]; ring
  · intro x y; apply g.val_inj; simp only [g.val_mul]; ring
  · intro x; apply g.val_inj; rw [g.val_mul, val_one, mul_one]
  · intro x y z; apply g.val_inj; simp only [Field.add, g.val_mul, val_xor]; ring
  · intro x hx; apply g.val_inj; rw [g.val_mul, val_one, g.val_inv hx]

/-- A product without zero divisors. -/
theorem C20_no_zero_divisors (h : newField poly α = some f) (x y : UInt8) : f.mul x y = 0 ↔ x = 0 ∨ y = 0 := by
  have g := newField_good h
  constructor
  · intro e
    by_contra hn
    have := g.domain
    have h1 := g.val_mul x y
    rw [e, val_zero] at h1
    rcases mul_eq_zero.1 h1.symm with h2 | h2
    · exact hn (Or.inl (g.val_inj (h2.trans val_zero.symm)))
    · exact hn (Or.inr (g.val_inj (h2.trans val_zero.symm)))
  · intro e; rw [Field.mul, if_pos e]

/-- Residues as remainders: a byte with the same residue is the remainder. -/
theorem Good.toPoly_mod (g : Good f poly α) (x : UInt8) (p : (ZMod 2)[X]) (h : val poly x = AdjoinRoot.mk (toPoly poly) p) :
    toPoly x.toNat = p %ₘ toPoly poly := by
  obtain ⟨hm, hd⟩ := toPoly_monic g.lo g.hi
  have h1 : toPoly poly ∣ p - toPoly x.toNat := by
    rw [← AdjoinRoot.mk_eq_mk]; exact h.symm
  have h2 : toPoly x.toNat %ₘ toPoly poly = toPoly x.toNat := by
    apply (modByMonic_eq_self_iff hm).2
    rw [degree_eq_natDegree hm.ne_zero, hd]
    exact toPoly_degree x.toNat_lt
  rw [← h2]
  exact (modByMonic_eq_of_dvd_sub hm h1).symm

/-- **C21** `Mul` is multiplication of polynomials over GF(2) modulo the field polynomial. -/
theorem C21_mul_is_polynomial_product (h : newField poly α = some f) (x y : UInt8) :
    toPoly (f.mul x y).toNat = (toPoly x.toNat * toPoly y.toNat) %ₘ toPoly poly := by
  have g := newField_good h
  apply g.toPoly_mod
  rw [g.val_mul, map_mul]
  rfl

/-- **C21** `Exp(e)` is the `e`-th power of the generator polynomial, modulo the field polynomial. -/
theorem C21_exp_is_power (h : newField poly α = some f) (e : Nat) :
    toPoly (f.Exp e).toNat = (toPoly α ^ e) %ₘ toPoly poly := by
  have g := newField_good h
  apply g.toPoly_mod
  rw [g.val_Exp, map_pow]
  rfl

/-- **C21** Exp and Log are inverse; Exp of a negative number is 0 and Log of 0 is -1; Exp turns sums into products. -/
theorem C21_exp_log (h : newField poly α = some f) :
    (∀ x, x ≠ 0 → f.Exp (f.Log x) = x) ∧ (∀ e : Nat, f.Exp e ≠ 0 ∧ f.Log (f.Exp e) = e % 255) ∧ (∀ e : Int, e < 0 → f.Exp e = 0) ∧
    f.Log 0 = -1 ∧ (∀ x, x ≠ 0 → 0 ≤ f.Log x ∧ f.Log x < 255) ∧ (∀ a b : Nat, f.Exp (a + b : Nat) = f.mul (f.Exp a) (f.Exp b)) := by
  have g := newField_good h
  have hlog : ∀ x : UInt8, x ≠ 0 → f.Log x = ((f.log.getD x.toNat 0).toNat : Int) := fun x hx => by rw [Field.Log, if_neg hx]
  refine ⟨?_, ?_, ?_, rfl, ?_, ?_⟩
  · intro x hx
    apply g.val_inj
    rw [hlog x hx, g.val_Exp, ← g.is_pow (u8_pos hx) x.toNat_lt]
    rfl
  · intro e
    have hne : f.Exp e ≠ 0 := by
      intro e0
      have := g.val_Exp e
      rw [e0, val_zero] at this
      exact g.pow_ne e this.symm
    refine ⟨hne, ?_⟩
    have he : f.Exp (e : Int) = f.exp.getD (e % 255) 0 := by
      rw [Field.Exp, if_neg (by omega)]; simp
    have := g.log_exp (e % 255) (Nat.mod_lt _ (by decide))
    rw [hlog _ hne, he, this]
    omega
  · intro e he; rw [Field.Exp, if_pos he]
  · intro x hx
    have := g.log_lt _ (u8_pos hx) x.toNat_lt
    rw [hlog x hx]
    omega
  · intro a b
    apply g.val_inj
    rw [g.val_mul, g.val_Exp, g.val_Exp, g.val_Exp, pow_add]

/-- The field used by the QR encoder satisfies the hypothesis; a product in it, with its polynomial. -/
example : newField 0x11d 2 = some qrField ∧ qrField.mul 0x80 2 = 0x1d ∧ qrField.inv 2 = 0x8e ∧ qrField.Log 0x1d = 8 :=
  ⟨newField_qr, by decide +kernel, by decide +kernel, by decide +kernel⟩

/-! ### Reed-Solomon encoder -/

/-- `rs` came from `NewRSEncoder(f, c)` and any number of `ECC` calls were made on it since. -/
inductive Used (f : Field) (c : Nat) : RSEncoder → Prop
  | new : Used f c (newRSEncoder f c)
  | ecc {rs rs' data check check'} : Used f c rs → rs.ecc data check = some (rs', check') → Used f c rs'

theorem Used.for (g : Good f poly α) {c : Nat} {rs : RSEncoder} (h : Used f c rs) : rs.For f c := by
  induction h with
  | new => exact newRSEncoder_for f c
  | @ecc rs rs' data check check' _ e ih =>
    by_cases hl : c ≤ check.length
    · obtain ⟨rs'', rest, e', hf, _⟩ := g.ecc_spec ih data check hl
      rw [e'] at e
      cases e
      exact hf
    · unfold RSEncoder.ecc at e
      rw [ih.2.1, if_pos (by omega)] at e
      cases e

/-- **C22** `ECC` succeeds whenever `check` has room, and the data followed by the first `c` bytes of `check` is then a code word: as a
polynomial it vanishes at Exp(0), ..., Exp(c-1). No other `c` bytes have this property. -/
theorem C22_check_bytes_make_codeword (h : newField poly α = some f) {c : Nat} {rs : RSEncoder} (hrs : Used f c rs)
    (data check : List UInt8) (hc : c ≤ check.length) :
    ∃ rs' check', rs.ecc data check = some (rs', check') ∧ check'.length = check.length ∧ IsCodeword f c (data ++ check'.take c) ∧
      (c ≤ 255 → ∀ other, other.length = c → IsCodeword f c (data ++ other) → other = check'.take c) := by
  have g := newField_good h
  obtain ⟨rs', rest, e, _, hl, _⟩ := g.ecc_spec (hrs.for g) data check hc
  have ht : (checkBytes f c data ++ rest).take c = checkBytes f c data := by
    rw [List.take_append_of_le_length (by rw [checkBytes_length]), List.take_of_length_le (by rw [checkBytes_length])]
  refine ⟨rs', _, e, by rw [List.length_append, checkBytes_length]; omega, ?_, ?_⟩
  · rw [ht]; exact g.checkBytes_codeword c data
  · intro hc' other ho hcw
    rw [ht]
    exact g.checkBytes_unique c hc' data other ho hcw

/-- **C23** The check bytes do not depend on earlier calls to `ECC` on the same encoder or on what `check` held before. -/
theorem C23_ecc_history_independent (h : newField poly α = some f) {c : Nat} {rs₁ rs₂ : RSEncoder} (h₁ : Used f c rs₁)
    (h₂ : Used f c rs₂) (data check₁ check₂ : List UInt8) (hc₁ : c ≤ check₁.length) (hc₂ : c ≤ check₂.length) :
    (rs₁.ecc data check₁).map (fun r => r.2.take c) = (rs₂.ecc data check₂).map (fun r => r.2.take c) ∧
    (rs₁.ecc data check₁).isSome := by
  have g := newField_good h
  obtain ⟨r1, t1, e1, _⟩ := g.ecc_spec (h₁.for g) data check₁ hc₁
  obtain ⟨r2, t2, e2, _⟩ := g.ecc_spec (h₂.for g) data check₂ hc₂
  have ht : ∀ rest, (checkBytes f c data ++ rest).take c = checkBytes f c data := fun rest => by
    rw [List.take_append_of_le_length (by rw [checkBytes_length]), List.take_of_length_le (by rw [checkBytes_length])]
  rw [e1, e2]
  simp [ht]

/-- Beyond the first `c` bytes the previous statement fails: a reused work buffer can clear them (`check` longer than `c`). -/
theorem C23_bytes_after_check_depend_on_history : ∃ (rs : RSEncoder), Used qrField 1 rs ∧
    (rs.ecc [] [7, 7]).map (·.2) = some [0, 0] ∧ ((newRSEncoder qrField 1).ecc [] [7, 7]).map (·.2) = some [0, 7] := by
  refine ⟨(((newRSEncoder qrField 1).ecc [1, 2, 3] [0]).getD (newRSEncoder qrField 1, [])).1, ?_, by decide +kernel, by decide +kernel⟩
  apply Used.ecc (data := [1, 2, 3]) (check := [0]) (check' := (((newRSEncoder qrField 1).ecc [1, 2, 3] [0]).getD (newRSEncoder qrField 1, [])).2)
    Used.new
  have : ((newRSEncoder qrField 1).ecc [1, 2, 3] [0]).isSome := by decide +kernel
  obtain ⟨r, hr⟩ := Option.isSome_iff_exists.1 this
  rw [hr]; rfl

/-- **C24** Two different code words of the same length, at most 255, differ in more than `c` positions. -/
theorem C24_minimum_distance (h : newField poly α = some f) (c : Nat) (u v : List UInt8) (hl : u.length = v.length)
    (hn : u.length ≤ 255) (hu : IsCodeword f c u) (hv : IsCodeword f c v) (hne : u ≠ v) : c + 1 ≤ distance u v :=
  (newField_good h).min_distance c u v hl hn hu hv hne

theorem distance_triangle : ∀ (u r v : List UInt8), u.length = r.length → v.length = r.length →
    distance u v ≤ distance r u + distance r v
  | [], [], [], _, _ => by simp [distance]
  | a :: u, b :: r, c :: v, h1, h2 => by
    have ih := distance_triangle u r v (by simpa using h1) (by simpa using h2)
    simp only [distance]
    by_cases hab : b = a
    · by_cases hbc : b = c
      · simp [← hab, ← hbc]; omega
      · simp [← hab, hbc]; omega
    · by_cases hac : a = c
      · simp [hac]; omega
      · simp [hab, hac]; omega

/-- **C24** Two data blocks encoded by `ECC` (on whatever encoders) that could both be received as `r` with at most `c/2` wrong bytes
are equal: the errors are correctable. -/
theorem C24_errors_correctable (h : newField poly α = some f) {c : Nat} {rs₁ rs₂ rs₁' rs₂' : RSEncoder} (h₁ : Used f c rs₁)
    (h₂ : Used f c rs₂) (d₁ d₂ k₁ k₂ k₁' k₂' r : List UInt8) (hk₁ : k₁.length = c) (hk₂ : k₂.length = c) (hd : d₁.length = d₂.length)
    (hn : d₁.length + c ≤ 255) (e₁ : rs₁.ecc d₁ k₁ = some (rs₁', k₁')) (e₂ : rs₂.ecc d₂ k₂ = some (rs₂', k₂'))
    (hr : r.length = d₁.length + c) (w₁ : distance r (d₁ ++ k₁') ≤ c / 2) (w₂ : distance r (d₂ ++ k₂') ≤ c / 2) : d₁ = d₂ := by
  have g := newField_good h
  have key : ∀ {rs rs' : RSEncoder} {d k k' : List UInt8}, Used f c rs → k.length = c → rs.ecc d k = some (rs', k') →
      k' = checkBytes f c d := by
    intro rs rs' d k k' hu hk e
    obtain ⟨r1, t1, e1, _, _, h0⟩ := g.ecc_spec (hu.for g) d k (by omega)
    rw [e1] at e
    cases e
    rw [h0 hk.symm, List.append_nil]
  have a₁ := key h₁ hk₁ e₁
  have a₂ := key h₂ hk₂ e₂
  subst a₁ a₂
  by_contra hne
  have h1 := C24_minimum_distance h c (d₁ ++ checkBytes f c d₁) (d₂ ++ checkBytes f c d₂)
    (by simp [checkBytes_length, hd]) (by simp [checkBytes_length]; omega) (g.checkBytes_codeword c d₁) (g.checkBytes_codeword c d₂)
    (by intro e; exact hne (List.append_inj e hd).1)
  have h2 := distance_triangle (d₁ ++ checkBytes f c d₁) r (d₂ ++ checkBytes f c d₂) (by simp [checkBytes_length, hr])
    (by simp [checkBytes_length, hr, hd])
  omega

/-- Two code words with two check bytes at the guaranteed distance 3. -/
example : (newRSEncoder qrField 2).ecc [1, 5] [0, 0] ≠ none ∧
    distance [1, 5, 8, 12] [1, 4, 11, 14] = 3 ∧ ((newRSEncoder qrField 2).ecc [1, 5] [0, 0]).map (·.2) = some [8, 12] ∧
    ((newRSEncoder qrField 2).ecc [1, 4] [0, 0]).map (·.2) = some [11, 14] := by decide +kernel

/-- The data block of the QR standard's worked example (version 1-M), and its check bytes. -/
example : ((newRSEncoder qrField 10).ecc [0x10, 0x20, 0x0c, 0x56, 0x61, 0x80, 0xec, 0x11, 0xec, 0x11, 0xec, 0x11, 0xec, 0x11, 0xec, 0x11]
    (List.replicate 10 0xff)).map (·.2) = some [0xa5, 0x24, 0xd4, 0xc1, 0xed, 0x36, 0xc7, 0x87, 0x2c, 0x55] := by decide +kernel

end
end Verif.QR
