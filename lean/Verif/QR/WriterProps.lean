import Verif.QR.Writer
import Verif.QR.RenderProps
import Verif.QR.CapacityProps
/-
C130: a picture written to an arbitrary writer.
-/
namespace Verif.QR.Out
open Verif.QR

/-- The statement offers these pieces. -/
def Offers {σ : Type} (w : Write σ) (f : Stmt σ) (ps : List Str) : Prop := ∀ st : σ, f st = offer w ps st

theorem offer_append {σ : Type} (w : Write σ) : ∀ (ps qs : List Str) (st : σ), offer w (ps ++ qs) st = (offer w ps ;; offer w qs) st
  | [], qs, st => rfl
  | p :: ps, qs, st => by
    simp only [List.cons_append, offer, andThen]
    cases h : w st p with
    | none => rfl
    | some r =>
      have := offer_append w ps qs r.1
      simpa [andThen] using this

theorem offers_put {σ : Type} (w : Write σ) (s : Str) : Offers w (put w s) [s] := by
  intro st
  simp only [put, offer]

theorem offers_then {σ : Type} {w : Write σ} {f g : Stmt σ} {ps qs : List Str} (hf : Offers w f ps) (hg : Offers w g qs) : Offers w (f ;; g) (ps ++ qs) := by
  intro st
  rw [offer_append]
  simp only [andThen, hf st]
  cases offer w ps st with
  | none => rfl
  | some st' => exact hg st'

theorem offers_if {σ : Type} {w : Write σ} {p : Prop} [Decidable p] {f g : Stmt σ} {ps qs : List Str} (hf : Offers w f ps) (hg : Offers w g qs) :
    Offers w (if p then f else g) (if p then ps else qs) := by
  by_cases h : p
  · simpa only [h, if_true] using hf
  · simpa only [h, if_false] using hg

/-- The pieces of a loop. -/
def forPieces (step hi : Int) (body : Int → List Str) : Nat → Int → List Str
  | 0, _ => []
  | n + 1, i => if i < hi then body i ++ forPieces step hi body n (i + step) else []

theorem offers_for {σ : Type} {w : Write σ} (step hi : Int) {f : Int → Stmt σ} {ps : Int → List Str} (hf : ∀ i, Offers w (f i) (ps i)) :
    ∀ (n : Nat) (i : Int), Offers w (forDo step hi f n i) (forPieces step hi ps n i)
  | 0, i => fun st => rfl
  | n + 1, i => by
    by_cases h : i < hi
    · simp only [forDo, forPieces, h, if_true]
      exact offers_then (hf i) (offers_for step hi hf n (i + step))
    · simp only [forDo, forPieces, h, if_false]
      exact fun st => rfl

theorem forPieces_flatten (step hi : Int) (ps : Int → List Str) (body : Int → Str) (h : ∀ i, (ps i).flatten = body i) :
    ∀ (n : Nat) (i : Int), (forPieces step hi ps n i).flatten = forWrite step hi body n i
  | 0, i => rfl
  | n + 1, i => by
    unfold forPieces forWrite
    split
    · rw [List.flatten_append, h, forPieces_flatten step hi ps body h n]
    · rfl

/-- The pieces of a full-block picture. -/
def fullPieces (c : Config) (code : Code) : List Str :=
  [stringRepeat (stringRepeat c.whiteChar (code.size + c.quietZone * 2) ++ [10]) c.quietZone] ++
  (forPieces 1 (code.size + 1) (fun i =>
    [stringRepeat c.whiteChar c.quietZone] ++
    (forPieces 1 (code.size + 1) (fun j => if code.blackI j i then [c.blackChar] else [c.whiteChar]) (code.size + 1) 0 ++
    [stringRepeat c.whiteChar (c.quietZone - 1) ++ [10]])) (code.size + 1) 0 ++
  [stringRepeat (stringRepeat c.whiteChar (code.size + c.quietZone * 2) ++ [10]) (c.quietZone - 1)])

theorem offers_full {σ : Type} (w : Write σ) (c : Config) (code : Code) : Offers w (writeFullBlocks w c code) (fullPieces c code) := by
  unfold writeFullBlocks fullPieces
  refine offers_then (offers_put _ _) (offers_then (offers_for _ _ (fun i => offers_then (offers_put _ _) (offers_then (offers_for _ _ (fun j => ?_) _ _) (offers_put _ _))) _ _) (offers_put _ _))
  exact offers_if (offers_put _ _) (offers_put _ _)

theorem full_flatten (c : Config) (code : Code) : (fullPieces c code).flatten = c.writeFullBlocks code := by
  unfold fullPieces Config.writeFullBlocks
  simp only [List.flatten_append, List.append_assoc]
  congr 1
  · simp
  congr 1
  · apply forPieces_flatten
    intro i
    simp only [List.flatten_append]
    congr 1
    · simp
    congr 1
    · apply forPieces_flatten
      intro j
      split <;> simp
    · simp
  · simp

/-- The pieces of a half-block picture. -/
def halfPieces (c : Config) (code : Code) : List Str :=
  (if c.quietZone.tmod 2 ≠ 0 then
    [stringRepeat c.blackWhiteChar (code.size + c.quietZone * 2) ++ [10]] ++
    [stringRepeat (stringRepeat c.whiteChar (code.size + c.quietZone * 2) ++ [10]) (c.quietZone.tdiv 2)]
  else [stringRepeat (stringRepeat c.whiteChar (code.size + c.quietZone * 2) ++ [10]) (c.quietZone.tdiv 2)]) ++
  (forPieces 2 (code.size + 1) (fun i =>
    [stringRepeat c.whiteChar c.quietZone] ++
    (forPieces 1 (code.size + 1) (fun j =>
      let nextBlack := if i + 1 < code.size then code.blackI j (i + 1) else false
      let currBlack := code.blackI j i
      if currBlack && nextBlack then [c.blackChar]
      else if currBlack && !nextBlack then [c.blackWhiteChar]
      else if !currBlack && !nextBlack then [c.whiteChar]
      else [c.whiteBlackChar]) (code.size + 1) 0 ++
    [stringRepeat c.whiteChar (c.quietZone - 1) ++ [10]])) (code.size + 1) 0 ++
  (if c.quietZone.tmod 2 = 0 then
    [stringRepeat (stringRepeat c.whiteChar (code.size + c.quietZone * 2) ++ [10]) (c.quietZone.tdiv 2 - 1)] ++
    [stringRepeat c.whiteBlackChar (code.size + c.quietZone * 2) ++ [10]]
  else [stringRepeat (stringRepeat c.whiteChar (code.size + c.quietZone * 2) ++ [10]) (c.quietZone.tdiv 2)]))

theorem offers_half {σ : Type} (w : Write σ) (c : Config) (code : Code) : Offers w (writeHalfBlocks w c code) (halfPieces c code) := by
  unfold writeHalfBlocks halfPieces
  refine offers_then (offers_if (offers_then (offers_put _ _) (offers_put _ _)) (offers_put _ _))
    (offers_then (offers_for _ _ (fun i => offers_then (offers_put _ _) (offers_then (offers_for _ _ (fun j => ?_) _ _) (offers_put _ _))) _ _)
      (offers_if (offers_then (offers_put _ _) (offers_put _ _)) (offers_put _ _)))
  exact offers_if (offers_put _ _) (offers_if (offers_put _ _) (offers_if (offers_put _ _) (offers_put _ _)))

theorem half_flatten (c : Config) (code : Code) : (halfPieces c code).flatten = c.writeHalfBlocks code := by
  unfold halfPieces Config.writeHalfBlocks
  simp only [List.flatten_append, List.append_assoc]
  congr 1
  · split <;> simp
  congr 1
  · apply forPieces_flatten
    intro i
    simp only [List.flatten_append]
    congr 1
    · simp
    congr 1
    · apply forPieces_flatten
      intro j
      generalize (if i + 1 < (code.size : Int) then code.blackI j (i + 1) else false) = a
      cases a <;> cases code.blackI j i <;> simp
    · simp
  · split <;> simp

theorem halfPieces_ne (c : Config) (code : Code) : halfPieces c code ≠ [] := by
  unfold halfPieces
  split <;> simp

/-- **C130** Whatever writer it is given and whatever `Write` answers, `GenerateWithConfig` passes the picture to it completely, once and in
order: there is a division of the picture into pieces, the same for all writers, that are offered one after the other; only a panic of `Write`
ends this earlier. -/
theorem C130_offered (text : Str) (cfg : Config) (out : Str) (h : Verif.QR.generateWithConfig text cfg = some out) :
    ∃ ps : List Str, ps ≠ [] ∧ ps.flatten = out ∧ ∀ {σ : Type} (w : Write σ) (st : σ), generateWithConfig w text cfg st =
      match offer w ps st with
      | some st' => .returns st'
      | none => .writePanics := by
  unfold Verif.QR.generateWithConfig at h
  unfold generateWithConfig
  dsimp only at h ⊢
  generalize (if cfg.quietZone < 1 then { cfg with quietZone := 1 } else cfg) = c at h ⊢
  cases e : encode text c.level with
  | err => simp [e] at h
  | panic => simp [e] at h
  | ok code =>
    rw [e] at h
    by_cases hb : c.halfBlocks
    · simp only [hb, if_true, Option.some.injEq] at h ⊢
      refine ⟨halfPieces c code, halfPieces_ne c code, by rw [half_flatten, h], fun w st => ?_⟩
      rw [offers_half w c code st]
      cases offer w (halfPieces c code) st <;> rfl
    · simp only [hb, if_false, Option.some.injEq] at h ⊢
      refine ⟨fullPieces c code, by simp [fullPieces], by rw [full_flatten]; simpa using h, fun w st => ?_⟩
      have := offers_full w c code st
      simp only [this, Bool.false_eq_true, if_false]
      cases offer w (fullPieces c code) st <;> rfl

/-- **C130** A text without a code crashes before the writer is used, whatever it is (also if it is nil). -/
theorem C130_no_code (text : Str) (cfg : Config) (h : Verif.QR.generateWithConfig text cfg = none) {σ : Type} (w : Write σ) (st : σ) :
    generateWithConfig w text cfg st = .noCode st := by
  unfold Verif.QR.generateWithConfig at h
  unfold generateWithConfig
  dsimp only at h ⊢
  generalize (if cfg.quietZone < 1 then { cfg with quietZone := 1 } else cfg) = c at h ⊢
  cases e : encode text c.level with
  | err => rfl
  | panic => rfl
  | ok code =>
    rw [e] at h
    by_cases hb : c.halfBlocks <;> simp [hb] at h

theorem offer_sink_none : ∀ (ps : List Str) (g : Str), offer Sink.write ps ⟨g, none⟩ = some ⟨g ++ ps.flatten, none⟩
  | [], g => by simp [offer]
  | p :: ps, g => by
    simp only [offer, Sink.write]
    rw [offer_sink_none ps]; simp

theorem offer_sink_some : ∀ (ps : List Str) (g : Str) (r : Nat), offer Sink.write ps ⟨g, some r⟩ = some ⟨g ++ ps.flatten.take r, some (r - ps.flatten.length)⟩
  | [], g, r => by simp [offer]
  | p :: ps, g, r => by
    simp only [offer, Sink.write]
    rw [offer_sink_some ps]
    simp only [List.append_assoc, List.flatten_cons, List.take_append, List.length_append, Nat.sub_sub]

/-- **C130** A destination without limit gets exactly the picture of C33 and C34, after what it had. -/
theorem C130_complete (text : Str) (cfg : Config) (out : Str) (h : Verif.QR.generateWithConfig text cfg = some out) (g : Str) :
    generateWithConfig Sink.write text cfg ⟨g, none⟩ = .returns ⟨g ++ out, none⟩ := by
  obtain ⟨ps, hne, hp, ho⟩ := C130_offered text cfg out h
  rw [ho, offer_sink_none, hp]

/-- **C130** A destination with room for `r` bytes gets the first `r` bytes of the picture and nothing else. -/
theorem C130_full_disk (text : Str) (cfg : Config) (out : Str) (h : Verif.QR.generateWithConfig text cfg = some out) (g : Str) (r : Nat) :
    generateWithConfig Sink.write text cfg ⟨g, some r⟩ = .returns ⟨g ++ out.take r, some (r - out.length)⟩ := by
  obtain ⟨ps, hne, hp, ho⟩ := C130_offered text cfg out h
  rw [ho, offer_sink_some, hp]

theorem offer_lossy (bad : Nat → Bool) : ∀ (ps : List Str) (n : Nat) (g : Str),
    offer (Lossy.write bad) ps ⟨n, g⟩ = some ⟨n + ps.length, g ++ ((ps.zipIdx n).filterMap (fun p => if bad p.2 then none else some p.1)).flatten⟩
  | [], n, g => by simp [offer]
  | p :: ps, n, g => by
    simp only [offer, Lossy.write]
    by_cases hb : bad n
    · simp only [hb, if_true]
      rw [offer_lossy bad ps]
      simp [List.zipIdx_cons, hb]; omega
    · simp only [hb, if_false, Bool.false_eq_true]
      rw [offer_lossy bad ps]
      simp [List.zipIdx_cons, hb]; omega

theorem flatten_sublist {α : Type} : ∀ {l₁ l₂ : List (List α)}, l₁.Sublist l₂ → l₁.flatten.Sublist l₂.flatten
  | _, _, .slnil => .slnil
  | _, _, .cons a h => by simpa using (flatten_sublist h).trans (List.sublist_append_right _ _)
  | _, _, .cons_cons a h => by simpa using List.Sublist.append (List.Sublist.refl a) (flatten_sublist h)

theorem kept_sublist (bad : Nat → Bool) : ∀ (ps : List Str) (n : Nat), ((ps.zipIdx n).filterMap (fun p => if bad p.2 then none else some p.1)).Sublist ps
  | [], _ => by simp
  | p :: ps, n => by
    simp only [List.zipIdx_cons, List.filterMap_cons]
    by_cases hb : bad n
    · simp only [hb, if_true]; exact (kept_sublist bad ps _).cons _
    · simp only [hb, if_false, Bool.false_eq_true]; exact (kept_sublist bad ps _).cons_cons _

/-- **C130** A connection that loses some slices gets parts of the picture in order, nothing twice and nothing else. -/
theorem C130_lossy (text : Str) (cfg : Config) (out : Str) (h : Verif.QR.generateWithConfig text cfg = some out) (bad : Nat → Bool) :
    ∃ calls got, generateWithConfig (Lossy.write bad) text cfg ⟨0, []⟩ = .returns ⟨calls, got⟩ ∧ got.Sublist out := by
  obtain ⟨ps, hne, hp, ho⟩ := C130_offered text cfg out h
  refine ⟨_, _, by rw [ho, offer_lossy], ?_⟩
  rw [← hp, List.nil_append]
  exact flatten_sublist (kept_sublist bad ps 0)

theorem forPieces_single {step hi : Int} {ps : Int → List Str} (h : ∀ i, (ps i).length = 1) : ∀ (n : Nat) (i : Int), (∀ k < n, i + step * k < hi) → (forPieces step hi ps n i).length = n
  | 0, _, _ => rfl
  | n + 1, i, hk => by
    have h0 := hk 0 (by omega)
    rw [forPieces, if_pos (by simpa using h0), List.length_append, h, forPieces_single h n (i + step)]
    · omega
    · intro k hk'
      have := hk (k + 1) (by omega)
      push_cast at this
      rw [mul_add] at this
      omega

theorem filter_one : ∀ (a : List Str) (p : Str) (b : List Str) (n : Nat),
    (((a ++ p :: b).zipIdx n).filterMap (fun q => if q.2 == n + a.length then none else some q.1)) = a ++ b
  | [], p, b, n => by
    simp only [List.nil_append, List.zipIdx_cons, List.filterMap_cons, List.length_nil, Nat.add_zero, beq_self_eq_true, if_true]
    have : ∀ (b : List Str) (m : Nat), n < m → (b.zipIdx m).filterMap (fun q => if q.2 == n then none else some q.1) = b := by
      intro b
      induction b with
      | nil => simp
      | cons x b ih =>
        intro m hm
        have : (m == n) = false := by simp; omega
        simp only [List.zipIdx_cons, List.filterMap_cons, this, Bool.false_eq_true, if_false]
        rw [ih _ (by omega)]
    exact this b _ (by omega)
  | x :: a, p, b, n => by
    have h0 : (n == n + (a.length + 1)) = false := by simp
    simp only [List.cons_append, List.zipIdx_cons, List.filterMap_cons, List.length_cons, h0, Bool.false_eq_true, if_false]
    have := filter_one a p b (n + 1)
    rw [show n + 1 + a.length = n + (a.length + 1) by omega] at this
    rw [this]

theorem full_split (c : Config) (code : Code) (h : 1 ≤ code.size) : ∃ A R : List Str, fullPieces c code =
    A ++ (stringRepeat c.whiteChar (c.quietZone - 1) ++ [10]) :: stringRepeat c.whiteChar c.quietZone :: R := by
  obtain ⟨n, hn⟩ : ∃ n, code.size = n + 1 := ⟨code.size - 1, by omega⟩
  unfold fullPieces
  rw [show (code.size + 1 : Nat) = n + 1 + 1 by omega]
  have key (cells : Int → List Str) (t b l r : Str) : ∃ A R, [t] ++ (forPieces 1 ((code.size : Int) + 1) (fun i => [l] ++ (cells i ++ [r])) (n + 1 + 1) 0 ++ [b]) = A ++ r :: l :: R := by
    rw [forPieces, if_pos (by omega), forPieces, if_pos (by omega)]
    exact ⟨t :: l :: cells 0, cells (0 + 1) ++ r :: (forPieces 1 ((code.size : Int) + 1) (fun i => [l] ++ (cells i ++ [r])) n (0 + 1 + 1) ++ [b]), by simp⟩
  exact key _ _ _ _ _

/-- **C130** An error of `Write` does not end the writing and is not reported. For every text that has a code there is
one call of `Write` such that, if only this one fails, `Generate` returns as usual and what has arrived is not a beginning of the picture: the
bytes of the call are missing in the middle. -/
theorem C130_gap (text : Str) (l : Level) (out : Str) (h : Verif.QR.generate text l = some out) :
    ∃ k calls got, generate (Lossy.write (· == k)) text l ⟨0, []⟩ = .returns ⟨calls, got⟩ ∧ k < calls ∧ ¬ got <+: out := by
  unfold Verif.QR.generate Verif.QR.generateWithConfig at h
  unfold generate generateWithConfig
  dsimp only at h ⊢
  rw [if_neg (by decide)] at h ⊢
  dsimp only at h ⊢
  cases e : encode text l with
  | err => simp [e] at h
  | panic => simp [e] at h
  | ok code =>
    rw [e] at h
    simp only [Bool.false_eq_true, if_false, Option.some.injEq] at h ⊢
    generalize hc : ({ level := l, blackChar := blackEsc, whiteChar := whiteEsc, quietZone := 4 } : Config) = c at h ⊢
    obtain ⟨A, R, hp⟩ := full_split c code (by obtain ⟨v, hv, hs⟩ := encode_size e; omega)
    have ho := offers_full (Lossy.write (· == A.length)) c code ⟨0, []⟩
    rw [offer_lossy] at ho
    have hf := filter_one A (stringRepeat c.whiteChar (c.quietZone - 1) ++ [10]) (stringRepeat c.whiteChar c.quietZone :: R) 0
    rw [← hp, Nat.zero_add] at hf
    rw [hf] at ho
    refine ⟨A.length, _, _, by rw [ho], by rw [hp]; simp, ?_⟩
    rw [← h, ← full_flatten, hp]
    simp only [List.flatten_append, List.flatten_cons, List.nil_append]
    intro hpre
    have hpre := (List.prefix_append_right_inj _).1 hpre
    rw [List.prefix_iff_getElem?] at hpre
    have hl : stringRepeat c.whiteChar c.quietZone = stringRepeat whiteEsc 4 := by rw [← hc]
    have hr : stringRepeat c.whiteChar (c.quietZone - 1) ++ [10] = stringRepeat whiteEsc 3 ++ [10] := by rw [← hc]; rfl
    rw [hl, hr] at hpre
    have h44 : (stringRepeat whiteEsc 4).length = 44 := by decide
    have h34 : (stringRepeat whiteEsc 3 ++ [10]).length = 34 := by decide
    have := hpre 33 (by rw [List.length_append, h44]; omega)
    rw [List.getElem_append_left (by omega), List.getElem?_append_left (by omega)] at this
    rw [← List.getElem?_eq_getElem] at this
    exact absurd this (by decide)

/-- **C130** A nil `Writer` panics in the first call of `Write`, so `GenerateWithConfig` always panics with it. -/
theorem C130_nil (text : Str) (cfg : Config) {σ : Type} (w : Write σ) (hw : ∀ st p, w st p = none) (st : σ) (st' : σ) :
    generateWithConfig w text cfg st ≠ .returns st' := by
  cases h : Verif.QR.generateWithConfig text cfg with
  | none => rw [C130_no_code text cfg h w st]; simp
  | some out =>
    obtain ⟨ps, hne, hp, ho⟩ := C130_offered text cfg out h
    rw [ho]
    cases ps with
    | nil =>
      exact absurd rfl hne
    | cons p ps => simp [offer, hw]

/-- Every text of at most 1273 bytes meets the hypotheses above, for every configuration; the picture is not empty. -/
theorem C130_case (text : Str) (h : text.length ≤ 1273) (cfg : Config) (r : Nat) :
    ∃ out, Verif.QR.generateWithConfig text cfg = some out ∧ generateWithConfig Sink.write text cfg ⟨[], some r⟩ = .returns ⟨out.take r, some (r - out.length)⟩ := by
  obtain ⟨out, ho⟩ := C110_short_text text h cfg
  exact ⟨out, ho, by simpa using C130_full_disk text cfg out ho [] r⟩

end Verif.QR.Out
