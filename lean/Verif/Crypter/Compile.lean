import Verif.Crypter.Norm
import Verif.Crypter.Spec
/-
The published cipher written as a list of register operations without moving words (`compile`), and the proof that running it
computes the published cipher.
-/
namespace Verif.Crypter
open Threefish

/-- Subkey `s` added to the words living in the registers `ρ`, starting with word `i`. -/
def injectOps (n s : Nat) : Nat → List Nat → List Op
  | _, [] => []
  | i, r :: ρ =>
    .add r (.K ((s + i) % (n + 1))) ::
      ((if Nat.beq i (n - 3) then [.add r (.T (s % 3))]
        else if Nat.beq i (n - 2) then [.add r (.T ((s + 1) % 3))]
        else if Nat.beq i (n - 1) then (if Nat.beq s 0 then [] else [.add r (.C s)]) else []) ++ injectOps n s (i + 1) ρ)

/-- MIX on the words living in the registers `ρ`. -/
def mixOps : List Nat → List Nat → List Op
  | r0 :: r1 :: ρ, q :: qs => .add r0 (.B r1) :: .rotXor r1 q r0 :: mixOps ρ qs
  | _, _ => []

/-- Rounds `d, d+1, ..., d+m-1` followed by the last subkey; `ρ` = where the words live. -/
def compileFrom (p : Params) : Nat → Nat → List Nat → List Op
  | 0, d, ρ => injectOps p.words (d / 4) 0 ρ
  | m + 1, d, ρ =>
    (if Nat.beq (d % 4) 0 then injectOps p.words (d / 4) 0 ρ else []) ++
      (mixOps ρ (p.rot.getD (d % 8) []) ++ compileFrom p m (d + 1) (p.perm.map fun i => ρ.getD i 0))

/-- Where the words live after `m` rounds. -/
def regsAfter (p : Params) : Nat → List Nat → List Nat
  | 0, ρ => ρ
  | m + 1, ρ => regsAfter p m (p.perm.map fun i => ρ.getD i 0)

variable {k t : Nat → W}

theorem execOps_append (b : Nat → W) (p q : List Op) : execOps k t b (p ++ q) = execOps k t (execOps k t b p) q := by
  simp [execOps, List.foldl_append]

/-- Operations on other registers do not change a register. -/
theorem execOps_other (p : List Op) (j : Nat) (h : ∀ o ∈ p, o.dst ≠ j) (b : Nat → W) : execOps k t b p j = b j := by
  induction p generalizing b with
  | nil => rfl
  | cons o p ih =>
    show execOps k t (o.exec k t b) p j = b j
    rw [ih (fun o ho => h o (List.mem_cons_of_mem _ ho)), Op.exec_eq, upd_ne]
    exact fun e => h o List.mem_cons_self e.symm

theorem injectOps_dst (n s : Nat) (ρ : List Nat) : ∀ i, ∀ o ∈ injectOps n s i ρ, o.dst ∈ ρ := by
  induction ρ with
  | nil => intro i o ho; simp [injectOps] at ho
  | cons r ρ ih =>
    intro i o ho
    simp only [injectOps, List.mem_cons, List.mem_append] at ho
    rcases ho with rfl | ho | ho
    · simp [Op.dst]
    · rw [List.mem_cons]; left
      split at ho
      · simp at ho; subst ho; simp [Op.dst]
      · split at ho
        · simp at ho; subst ho; simp [Op.dst]
        · split at ho
          · split at ho <;> simp at ho
            subst ho; simp [Op.dst]
          · simp at ho
    · exact List.mem_cons_of_mem _ (ih _ o ho)

theorem mixOps_dst (ρ : List Nat) (qs : List Nat) : ∀ o ∈ mixOps ρ qs, o.dst ∈ ρ := by
  fun_induction mixOps ρ qs with
  | case1 r0 r1 ρ q qs ih =>
    intro o ho
    simp only [List.mem_cons] at ho
    rcases ho with rfl | rfl | ho
    · simp [Op.dst]
    · simp [Op.dst]
    · exact List.mem_cons_of_mem _ (List.mem_cons_of_mem _ (ih o ho))
  | case2 => intro o ho; simp at ho

/-- The injected amount for word `i`. -/
def injected (n s i : Nat) (k t : Nat → W) : W :=
  k ((s + i) % (n + 1)) + (if i = n - 3 then t (s % 3) else if i = n - 2 then t ((s + 1) % 3)
    else if i = n - 1 then BitVec.ofNat 64 s else 0)

theorem injectOps_sound (n s : Nat) (ρ : List Nat) (hn : ρ.Nodup) : ∀ (i : Nat) (b : Nat → W),
    ρ.map (execOps k t b (injectOps n s i ρ)) =
      List.zipWith (· + ·) (ρ.map b) ((List.range' i ρ.length).map fun j => injected n s j k t) := by
  induction ρ with
  | nil => intro i b; simp
  | cons r ρ ih =>
    intro i b
    rw [List.nodup_cons] at hn
    have ih := ih hn.2
    -- the operations on `r`
    have hr : ∀ b : Nat → W, execOps k t b (.add r (.K ((s + i) % (n + 1))) ::
      (if Nat.beq i (n - 3) then [.add r (.T (s % 3))]
        else if Nat.beq i (n - 2) then [.add r (.T ((s + 1) % 3))]
        else if Nat.beq i (n - 1) then (if Nat.beq s 0 then [] else [.add r (.C s)]) else [])) =
        upd b r (b r + injected n s i k t) := by
      intro b
      unfold injected
      by_cases e1 : i = n - 3
      · simp [e1, execOps, Op.exec, Src.val, upd_same, upd_upd, BitVec.add_assoc]
      · by_cases e2 : i = n - 2
        · have e1' : ¬ (n - 2 = n - 3) := by omega
          simp [e2, e1', execOps, Op.exec, Src.val, upd_same, upd_upd, BitVec.add_assoc]
        · by_cases e3 : i = n - 1
          · have e1' : ¬ (n - 1 = n - 3) := by omega
            have e2' : ¬ (n - 1 = n - 2) := by omega
            by_cases e4 : s = 0
            · subst e4
              simp [e3, e1', e2', execOps, Op.exec, Src.val]
            · simp [e3, e1', e2', e4, execOps, Op.exec, Src.val, upd_same, upd_upd, BitVec.add_assoc]
          · simp [e1, e2, e3, execOps, Op.exec, Src.val]
    have e : injectOps n s i (r :: ρ) = (.add r (.K ((s + i) % (n + 1))) ::
      (if Nat.beq i (n - 3) then [.add r (.T (s % 3))]
        else if Nat.beq i (n - 2) then [.add r (.T ((s + 1) % 3))]
        else if Nat.beq i (n - 1) then (if Nat.beq s 0 then [] else [.add r (.C s)]) else [])) ++ injectOps n s (i + 1) ρ := by
      simp [injectOps]
    rw [e, execOps_append, hr]
    simp only [List.map_cons, List.length_cons, List.range'_succ, List.zipWith_cons_cons]
    congr 1
    · rw [execOps_other _ r (fun o ho => ?_), upd_same]
      intro h'
      exact hn.1 (h' ▸ injectOps_dst n s ρ (i + 1) o ho)
    · rw [ih (i + 1)]
      congr 1
      apply List.map_congr_left
      intro x hx
      apply upd_ne
      intro h'; subst h'; exact hn.1 hx

theorem rol_eq (x : W) (r : Nat) (h : r < 64) : rol x r = x.rotateLeft r := by
  rw [BitVec.rotateLeft_def, Nat.mod_eq_of_lt h]; rfl

theorem mixOps_sound (ρ qs : List Nat) (hn : ρ.Nodup) (hq : ∀ q ∈ qs, q < 64) (hl : ρ.length = 2 * qs.length) (b : Nat → W) :
    ρ.map (execOps k t b (mixOps ρ qs)) = mix (ρ.map b) qs := by
  fun_induction mixOps ρ qs generalizing b with
  | case1 r0 r1 ρ q qs ih =>
    simp only [List.nodup_cons, List.mem_cons, not_or] at hn
    obtain ⟨⟨h01, h0⟩, h1, hnd⟩ := hn
    simp only [List.map_cons, mix]
    have hhead : ∀ b : Nat → W, execOps k t b (.add r0 (.B r1) :: .rotXor r1 q r0 :: mixOps ρ qs) =
        execOps k t (upd (upd b r0 (b r0 + b r1)) r1 (rol (b r1) q ^^^ (b r0 + b r1))) (mixOps ρ qs) := by
      intro b
      show execOps k t (Op.exec k t (Op.exec k t b (.add r0 (.B r1))) (.rotXor r1 q r0)) _ = _
      simp only [Op.exec, Src.val]
      rw [upd_same, upd_ne (Ne.symm h01)]
    rw [hhead]
    have hd := mixOps_dst ρ qs
    rw [execOps_other _ r0 (fun o ho h' => h0 (h' ▸ hd o ho)), execOps_other _ r1 (fun o ho h' => h1 (h' ▸ hd o ho))]
    rw [upd_same, upd_ne h01, upd_same, rol_eq _ _ (hq q (by simp))]
    congr 2
    rw [ih hnd (fun x hx => hq x (by simp [hx])) (by simp at hl; omega)]
    congr 1
    apply List.map_congr_left
    intro x hx
    rw [upd_ne (by intro h'; subst h'; exact h1 hx), upd_ne (by intro h'; subst h'; exact h0 hx)]
  | case2 ρ qs hne =>
    match ρ, qs, hl, hne with
    | [], [], _, _ => rfl
    | [], q :: qs, hl, _ => simp at hl
    | [a], [], hl, _ => simp at hl
    | [a], q :: qs, hl, _ => simp at hl; omega
    | a :: b :: ρ, [], hl, _ => simp at hl
    | a :: b :: ρ, q :: qs, hl, hne => exact absurd rfl (hne a b ρ q qs rfl)

/-- Conditions on the parameter tables, checked by evaluation for the three sizes. -/
def Params.good (p : Params) : Bool :=
  p.perm.all (fun i => decide (i < p.words)) && decide p.perm.Nodup && decide (p.perm.length = p.words) &&
  (List.range 8).all (fun d => (p.rot.getD d []).all (fun q => decide (q < 64)) &&
    decide (p.words = 2 * (p.rot.getD d []).length))

theorem subkey_eq (p : Params) (_hw : 3 ≤ p.words) (ek et : List W) (s : Nat) :
    subkey p ek et s = (List.range' 0 p.words).map fun j =>
      injected p.words s j (fun j => ek.getD j 0) (fun j => et.getD j 0) := by
  unfold subkey
  rw [List.range_eq_range']
  apply List.map_congr_left
  intro i _
  unfold injected
  simp only
  split
  · rfl
  · split
    · rfl
    · split
      · rfl
      · simp

theorem nodup_perm {p : Params} (hp : p.perm.Nodup) (hlt : ∀ i ∈ p.perm, i < p.words) {ρ : List Nat} (hn : ρ.Nodup)
    (hl : ρ.length = p.words) : (p.perm.map fun i => ρ.getD i 0).Nodup := by
  rw [List.nodup_iff_pairwise_ne, List.pairwise_map]
  refine List.Pairwise.imp_of_mem ?_ hp
  intro a b ha hb hab he
  apply hab
  have h1 : a < ρ.length := by rw [hl]; exact hlt a ha
  have h2 : b < ρ.length := by rw [hl]; exact hlt b hb
  have e1 : ρ.getD a 0 = ρ[a] := by simp [List.getD, h1]
  have e2 : ρ.getD b 0 = ρ[b] := by simp [List.getD, h2]
  rw [e1, e2] at he
  exact (List.getElem_inj hn).mp he

/-- Running the compiled rounds computes the published rounds. -/
theorem compileFrom_sound (p : Params) (hg : Params.good p = true) (hw : 3 ≤ p.words) (ek et : List W) (m : Nat) :
    ∀ (d : Nat) (ρ : List Nat) (b : Nat → W), ρ.Nodup → ρ.length = p.words →
    (regsAfter p m ρ).map (execOps (fun j => ek.getD j 0) (fun j => et.getD j 0) b (compileFrom p m d ρ)) =
      List.zipWith (· + ·) ((List.range' d m).foldl (Threefish.round p ek et) (ρ.map b)) (subkey p ek et ((d + m) / 4)) := by
  simp only [Params.good, Bool.and_eq_true, List.all_eq_true, decide_eq_true_eq] at hg
  obtain ⟨⟨⟨g1, g2⟩, g3⟩, g4⟩ := hg
  induction m with
  | zero =>
    intro d ρ b hn hl
    simp only [regsAfter, compileFrom, List.range'_zero, List.foldl_nil, Nat.add_zero]
    rw [injectOps_sound _ _ _ hn, subkey_eq p hw, hl]
  | succ m ih =>
    intro d ρ b hn hl
    simp only [regsAfter, compileFrom]
    rw [execOps_append, execOps_append]
    rw [ih (d + 1) _ _ (nodup_perm g2 g1 hn hl) (by simp [g3])]
    rw [List.range'_succ, List.foldl_cons]
    have e : d + 1 + m = d + (m + 1) := by omega
    rw [e]
    congr 2
    have hrow := g4 (d % 8) (by simp; omega)
    have hinj : ρ.map (execOps (fun j => ek.getD j 0) (fun j => et.getD j 0) b
        (if Nat.beq (d % 4) 0 then injectOps p.words (d / 4) 0 ρ else [])) =
        if d % 4 = 0 then List.zipWith (· + ·) (ρ.map b) (subkey p ek et (d / 4)) else ρ.map b := by
      by_cases h : d % 4 = 0
      · rw [if_pos h, if_pos (by simp [h]), injectOps_sound _ _ _ hn, subkey_eq p hw, hl]
      · rw [if_neg h, if_neg (by simpa using h)]; rfl
    unfold Threefish.round
    simp only
    rw [← hinj, ← mixOps_sound (k := fun j => ek.getD j 0) (t := fun j => et.getD j 0) ρ _ hn hrow.1 (by omega)]
    rw [List.map_map]
    apply List.map_congr_left
    intro i hi
    have hi' : i < ρ.length := by rw [hl]; exact g1 i hi
    simp [List.getD, hi']

theorem compile_sound (p : Params) (hg : Params.good p = true) (hw : 3 ≤ p.words)
    (hid : regsAfter p p.rounds (List.range p.words) = List.range p.words) (key : List W) (t0 t1 : W) (block : List W)
    (hb : block.length = p.words) (b : Nat → W) (hbb : ∀ j, j < p.words → b j = block.getD j 0) :
    (List.range p.words).map (execOps (fun j => (extKey key).getD j 0) (fun j => (extTweak t0 t1).getD j 0) b
      (compileFrom p p.rounds 0 (List.range p.words))) = Threefish.encrypt p key t0 t1 block := by
  have h := compileFrom_sound p hg hw (extKey key) (extTweak t0 t1) p.rounds 0 (List.range p.words) b
    List.nodup_range (by simp)
  rw [hid] at h
  rw [h]
  unfold Threefish.encrypt
  simp only [Nat.zero_add, ← List.range_eq_range']
  have : (List.range p.words).map b = block := by
    apply List.ext_getElem
    · simp [hb]
    · intro i h1 h2
      have : i < p.words := by simpa using h1
      simp [hbb i this, List.getD, h2]
  rw [this]

end Verif.Crypter
