import Verif.Crypter.SpecApi
import Verif.Crypter.Check
import Mathlib.Tactic.IntervalCases
/-
Lemmas connecting the API model with the verified bodies.
-/
namespace Verif.Crypter
open Threefish

def Size.spec (sz : Size) : List Op := compileFrom sz.params sz.params.rounds 0 (List.range sz.params.words)

theorem Size.params_words (sz : Size) : sz.params.words = sz.words := by cases sz <;> rfl

theorem loaded_b (n : Nat) (inp ek et : Nat → W) (j : Nat) (h : j < n) : (loaded n inp ek et).b j = inp j := by
  simp [loaded, h]

theorem Size.good (sz : Size) : Params.good sz.params = true := by
  cases sz
  · exact good256
  · exact good512
  · exact good1024

theorem Size.spec_ok (sz : Size) : sz.spec.all Op.ok = true := by
  cases sz
  · exact ok256
  · exact ok512
  · exact ok1024

theorem Size.enc_sound (sz : Size) (inp ek et : Nat → W) (j : Nat) (hj : j < sz.words) :
    runRaw sz.encBody inp ek et j = execOps (loaded sz.words inp ek et).k (loaded sz.words inp ek et).t
      (loaded sz.words inp ek et).b sz.spec j := by
  cases sz
  · exact checkBody_sound (List.nodup_range) (fun j h => List.mem_range.2 h) hdr_e256 chk_e256 inp ek et j hj
  · exact checkBody_sound (List.nodup_range) (fun j h => List.mem_range.2 h) hdr_e512 chk_e512 inp ek et j hj
  · exact checkBody_sound (List.nodup_range) (fun j h => List.mem_range.2 h) hdr_e1024 chk_e1024 inp ek et j hj

theorem Size.dec_sound (sz : Size) (inp ek et : Nat → W) (j : Nat) (hj : j < sz.words) :
    runRaw sz.decBody inp ek et j = execOps (loaded sz.words inp ek et).k (loaded sz.words inp ek et).t
      (loaded sz.words inp ek et).b (undo sz.spec) j := by
  cases sz
  · exact checkBody_sound (List.nodup_range) (fun j h => List.mem_range.2 h) hdr_d256 chk_d256 inp ek et j hj
  · exact checkBody_sound (by decide) (fun j h => List.mem_reverse.2 (List.mem_range.2 h))
      hdr_d512 chk_d512 inp ek et j hj
  · exact checkBody_sound (by decide) (fun j h => List.mem_reverse.2 (List.mem_range.2 h))
      hdr_d1024 chk_d1024 inp ek et j hj

set_option maxRecDepth 100000 in
theorem Size.spec_dst (sz : Size) : sz.spec.all (fun o => Nat.blt o.dst sz.words) = true := by
  cases sz <;> decide +kernel

theorem inv_dst (o : Op) : o.inv.dst = o.dst := by cases o <;> rfl

/-- Running `spec` on loaded words leaves registers beyond the block zero. -/
theorem Size.exec_high (sz : Size) (k t b : Nat → W) (j : Nat) (hj : ¬ j < sz.words) :
    execOps k t b sz.spec j = b j := by
  apply execOps_other
  intro o ho
  have := List.all_eq_true.1 sz.spec_dst o ho
  have : o.dst < sz.words := by simpa [Nat.blt_eq] using this
  omega

theorem Size.undo_high (sz : Size) (k t b : Nat → W) (j : Nat) (hj : ¬ j < sz.words) :
    execOps k t b (undo sz.spec) j = b j := by
  apply execOps_other
  intro o ho
  simp only [undo, List.mem_reverse, List.mem_map] at ho
  obtain ⟨o', h', rfl⟩ := ho
  have := List.all_eq_true.1 sz.spec_dst o' h'
  have : o'.dst < sz.words := by simpa [Nat.blt_eq] using this
  rw [inv_dst]
  omega

theorem getD_map_range (n : Nat) (f : Nat → W) (j : Nat) : ((List.range n).map f).getD j 0 = if j < n then f j else 0 := by
  by_cases h : j < n <;> simp [List.getD, h]

theorem map_range_getD (n : Nat) (l : List W) (h : l.length = n) : (List.range n).map (fun j => l.getD j 0) = l := by
  apply List.ext_getElem
  · simp [h]
  · intro i h1 h2
    simp [List.getD, h2]

theorem Internal.dec_enc (i : Internal) (block : List W) (hb : block.length = i.size.words) : i.dec (i.enc block) = block := by
  rw [← map_range_getD _ block hb]
  unfold Internal.dec Internal.enc
  apply List.map_congr_left
  intro j hj
  have hj : j < i.size.words := List.mem_range.1 hj
  rw [i.size.dec_sound _ _ _ j hj]
  have : (loaded i.size.words (fun x => ((List.range i.size.words).map (runRaw i.size.encBody
        (((List.range i.size.words).map (fun j => block.getD j 0)).getD · 0) (i.ek.getD · 0) (i.et.getD · 0))).getD x 0)
        (i.ek.getD · 0) (i.et.getD · 0)).b = execOps
        (loaded i.size.words (fun x => ((List.range i.size.words).map (fun j => block.getD j 0)).getD x 0) (i.ek.getD · 0) (i.et.getD · 0)).k
        (loaded i.size.words (fun x => ((List.range i.size.words).map (fun j => block.getD j 0)).getD x 0) (i.ek.getD · 0) (i.et.getD · 0)).t
        (loaded i.size.words (fun x => ((List.range i.size.words).map (fun j => block.getD j 0)).getD x 0) (i.ek.getD · 0) (i.et.getD · 0)).b
        i.size.spec := by
    funext x
    by_cases hx : x < i.size.words
    · rw [loaded_b _ _ _ _ _ hx, getD_map_range, if_pos hx, i.size.enc_sound _ _ _ x hx]
    · rw [i.size.exec_high _ _ _ x hx]
      simp [loaded, hx]
  rw [this]
  show execOps (loaded i.size.words _ (i.ek.getD · 0) (i.et.getD · 0)).k (loaded i.size.words _ (i.ek.getD · 0) (i.et.getD · 0)).t
    _ (undo i.size.spec) j = _
  rw [show (loaded i.size.words (fun x => ((List.range i.size.words).map (runRaw i.size.encBody
        (((List.range i.size.words).map (fun j => block.getD j 0)).getD · 0) (i.ek.getD · 0) (i.et.getD · 0))).getD x 0)
        (i.ek.getD · 0) (i.et.getD · 0)).k = (loaded i.size.words (fun x => ((List.range i.size.words).map (fun j => block.getD j 0)).getD x 0) (i.ek.getD · 0) (i.et.getD · 0)).k from rfl,
    show (loaded i.size.words (fun x => ((List.range i.size.words).map (runRaw i.size.encBody
        (((List.range i.size.words).map (fun j => block.getD j 0)).getD · 0) (i.ek.getD · 0) (i.et.getD · 0))).getD x 0)
        (i.ek.getD · 0) (i.et.getD · 0)).t = (loaded i.size.words (fun x => ((List.range i.size.words).map (fun j => block.getD j 0)).getD x 0) (i.ek.getD · 0) (i.et.getD · 0)).t from rfl]
  rw [undo_exec _ i.size.spec_ok, loaded_b _ _ _ _ _ hj, getD_map_range, if_pos hj]

/-- Registers after loading: key and tweak parts do not depend on the input. -/
theorem loaded_k (n : Nat) (inp inp' ek et : Nat → W) : (loaded n inp ek et).k = (loaded n inp' ek et).k := rfl

theorem Internal.enc_dec (i : Internal) (block : List W) (hb : block.length = i.size.words) : i.enc (i.dec block) = block := by
  rw [← map_range_getD _ block hb]
  unfold Internal.dec Internal.enc
  apply List.map_congr_left
  intro j hj
  have hj : j < i.size.words := List.mem_range.1 hj
  rw [i.size.enc_sound _ _ _ j hj]
  have key : ∀ inp inp' : Nat → W,
      (loaded i.size.words inp (i.ek.getD · 0) (i.et.getD · 0)).b = execOps
        (loaded i.size.words inp' (i.ek.getD · 0) (i.et.getD · 0)).k
        (loaded i.size.words inp' (i.ek.getD · 0) (i.et.getD · 0)).t
        (loaded i.size.words inp' (i.ek.getD · 0) (i.et.getD · 0)).b (undo i.size.spec) →
      execOps (loaded i.size.words inp (i.ek.getD · 0) (i.et.getD · 0)).k (loaded i.size.words inp (i.ek.getD · 0) (i.et.getD · 0)).t
        (loaded i.size.words inp (i.ek.getD · 0) (i.et.getD · 0)).b i.size.spec j = inp' j := by
    intro inp inp' h
    rw [h]
    show execOps (loaded i.size.words inp' (i.ek.getD · 0) (i.et.getD · 0)).k (loaded i.size.words inp' (i.ek.getD · 0) (i.et.getD · 0)).t
      _ i.size.spec j = _
    rw [exec_undo _ i.size.spec_ok, loaded_b _ _ _ _ _ hj]
  rw [key _ (fun x => ((List.range i.size.words).map (fun j => block.getD j 0)).getD x 0), getD_map_range, if_pos hj]
  funext x
  by_cases hx : x < i.size.words
  · rw [loaded_b _ _ _ _ _ hx, getD_map_range, if_pos hx, i.size.dec_sound _ _ _ x hx]
  · rw [i.size.undo_high _ _ _ x hx]
    simp [loaded, hx]

/-- The cipher as published. -/
theorem Internal.enc_spec (i : Internal) (key : List W) (t0 t1 : W) (hk : key.length = i.size.words)
    (hek : i.ek = extKey key) (het : i.et = extTweak t0 t1) (block : List W) (hb : block.length = i.size.words) :
    i.enc block = Threefish.encrypt i.size.params key t0 t1 block := by
  have hw : 3 ≤ i.size.params.words := by rw [i.size.params_words]; cases i.size <;> decide
  have hid : regsAfter i.size.params i.size.params.rounds (List.range i.size.params.words) = List.range i.size.params.words := by
    cases i.size
    · exact id256
    · exact id512
    · exact id1024
  rw [← compile_sound i.size.params i.size.good hw hid key t0 t1 block (by rw [i.size.params_words]; exact hb)
    (loaded i.size.words (block.getD · 0) (i.ek.getD · 0) (i.et.getD · 0)).b
    (fun j hj => loaded_b _ _ _ _ _ (by rw [← i.size.params_words]; exact hj))]
  unfold Internal.enc
  rw [i.size.params_words]
  apply List.map_congr_left
  intro j hj
  have hj : j < i.size.words := List.mem_range.1 hj
  rw [i.size.enc_sound _ _ _ j hj]
  have e1 : (loaded i.size.words (block.getD · 0) (i.ek.getD · 0) (i.et.getD · 0)).k = fun j => (extKey key).getD j 0 := by
    funext x
    simp only [loaded, hek]
    split
    · rfl
    · rename_i h
      have : (extKey key).length ≤ x := by simp [extKey, hk]; omega
      simp [List.getD, this]
  have e2 : (loaded i.size.words (block.getD · 0) (i.ek.getD · 0) (i.et.getD · 0)).t = fun j => (extTweak t0 t1).getD j 0 := by
    funext x
    simp only [loaded, het]
    split
    · rfl
    · rename_i h
      have : (extTweak t0 t1).length ≤ x := by simp [extTweak]; omega
      simp [List.getD, this]
  rw [e1, e2, ← i.size.params_words]
  rfl

theorem Internal.enc_length (i : Internal) (b : List W) : (i.enc b).length = i.size.words := by simp [Internal.enc]
theorem Internal.dec_length (i : Internal) (b : List W) : (i.dec b).length = i.size.words := by simp [Internal.dec]

/-! ### Key and tweak -/

theorem keyLoop_eq (n : Nat) : ∀ (key : List W) (p : W), keyLoop n key p =
    if n ≤ key.length then some (key.take n, (key.take n).foldl (· ^^^ ·) p) else none := by
  induction n with
  | zero => intro key p; simp [keyLoop]
  | succ n ih =>
    intro key p
    cases key with
    | nil => simp [keyLoop]
    | cons k ks =>
      simp only [keyLoop, ih, List.length_cons, Nat.add_le_add_iff_right]
      split <;> simp

theorem setKey_eq (n : Nat) (key : List W) : setKey n key = if n ≤ key.length then some (extKey (key.take n)) else none := by
  simp only [setKey, keyLoop_eq]
  split <;> simp [extKey, KEY_SCHEDULE_CONST, C240]

/-! ### Bytes and words -/

theorem leBytes_length (w : W) : (leBytes w).length = 8 := rfl

theorem leWord_leBytes (w : W) (r : List UInt8) : leWord (leBytes w ++ r) = w := by
  apply BitVec.eq_of_getLsbD_eq
  intro i hi
  simp only [leWord, leBytes, List.cons_append, List.getD_cons_zero, List.getD_cons_succ, BitVec.getLsbD_or,
    BitVec.getLsbD_setWidth, BitVec.getLsbD_ushiftRight, BitVec.getLsbD_shiftLeft]
  interval_cases i <;> simp

theorem leBytes_leWord (b0 b1 b2 b3 b4 b5 b6 b7 : UInt8) (r : List UInt8) :
    leBytes (leWord (b0 :: b1 :: b2 :: b3 :: b4 :: b5 :: b6 :: b7 :: r)) = [b0, b1, b2, b3, b4, b5, b6, b7] := by
  simp only [leWord, leBytes, List.getD_cons_zero, List.getD_cons_succ]
  simp only [List.cons.injEq, and_true]
  refine ⟨?_, ?_, ?_, ?_, ?_, ?_, ?_, ?_⟩ <;>
  · apply UInt8.toBitVec_inj.1
    apply BitVec.eq_of_getLsbD_eq
    intro i hi
    simp only [BitVec.getLsbD_or, BitVec.getLsbD_setWidth, BitVec.getLsbD_ushiftRight, BitVec.getLsbD_shiftLeft]
    interval_cases i <;> simp

/-- The model's byte order is little-endian. -/
theorem leBytes_eq (w : W) : leBytes w = (List.range 8).map fun i => UInt8.ofNat (w.toNat / 256 ^ i % 256) := by
  have h : ∀ n (x : BitVec 64), (⟨(x >>> n).setWidth 8⟩ : UInt8) = UInt8.ofNat (x.toNat / 2 ^ n % 256) := by
    intro n x
    apply UInt8.toNat_inj.1
    show ((x >>> n).setWidth 8).toNat = _
    simp [Nat.shiftRight_eq_div_pow]
  have h0 : (⟨w.setWidth 8⟩ : UInt8) = UInt8.ofNat (w.toNat / 2 ^ 0 % 256) := by
    have := h 0 w
    simpa using this
  simp only [leBytes, h, h0]
  rfl

theorem bytesOfWords_eq (ws : List W) : bytesOfWords ws = ws.flatMap leBytes := by
  unfold bytesOfWords
  congr 1
  funext w
  exact (leBytes_eq w).symm

theorem bytesOfWords_length (ws : List W) : (bytesOfWords ws).length = 8 * ws.length := by
  induction ws with
  | nil => rfl
  | cons w ws ih =>
    rw [bytesOfWords_eq] at *
    simp only [List.flatMap_cons, List.length_append, leBytes_length, List.length_cons, ih]
    omega

theorem bytesOfWords_surj (n : Nat) : ∀ (bs : List UInt8), bs.length = 8 * n → ∃ ws, ws.length = n ∧ bytesOfWords ws = bs := by
  induction n with
  | zero => intro bs h; exact ⟨[], rfl, by have := List.length_eq_zero_iff.1 h; simp [this, bytesOfWords]⟩
  | succ n ih =>
    intro bs h
    match bs, h with
    | b0 :: b1 :: b2 :: b3 :: b4 :: b5 :: b6 :: b7 :: r, h =>
      obtain ⟨ws, h1, h2⟩ := ih r (by simp at h; omega)
      refine ⟨leWord (b0 :: b1 :: b2 :: b3 :: b4 :: b5 :: b6 :: b7 :: r) :: ws, by simp [h1], ?_⟩
      rw [bytesOfWords_eq] at *
      rw [List.flatMap_cons, leBytes_leWord, h2]
      rfl

/-- Reading words back from the bytes of words. -/
theorem words_of_bytes (ws : List W) (r : List UInt8) :
    (List.range ws.length).map (fun i => leWord (((bytesOfWords ws ++ r).drop (i * 8)).take 8)) = ws := by
  induction ws with
  | nil => rfl
  | cons w ws ih =>
    rw [List.length_cons, List.range_succ_eq_map, List.map_cons, List.map_map]
    rw [bytesOfWords_eq] at *
    congr 1
    · rw [Nat.zero_mul, List.drop_zero, List.flatMap_cons, List.append_assoc, List.take_append_of_le_length (by simp [leBytes_length])]
      rw [List.take_of_length_le (by simp [leBytes_length])]
      have := leWord_leBytes w []
      simpa using this
    · conv_rhs => rw [← ih]
      apply List.map_congr_left
      intro i _
      simp only [Function.comp, List.flatMap_cons, List.append_assoc]
      rw [show (i + 1) * 8 = (leBytes w).length + i * 8 from by rw [leBytes_length]; omega, List.drop_append,
        List.drop_eq_nil_of_le (by omega), List.nil_append, Nat.add_sub_cancel_left]

theorem readWords_eq (h : Str) (s : Slice) (m : Nat) (ws : List W) (hm : ws.length = m) (hc : m * 8 ≤ s.cap)
    (hw : s.first h (8 * m) = bytesOfWords ws) : readWords h s m = some ws := by
  simp only [readWords, if_pos hc]
  congr 1
  have : h.drop s.off = bytesOfWords ws ++ (h.drop s.off).drop (8 * m) := by
    rw [← hw]; exact (List.take_append_drop _ _).symm
  conv_rhs => rw [← words_of_bytes ws ((h.drop s.off).drop (8 * m))]
  rw [hm]
  apply List.map_congr_left
  intro i _
  rw [← this, List.drop_drop]

theorem splice_length {α} (h : List α) (off : Nat) (ws : List α) (hl : off + ws.length ≤ h.length) :
    (splice h off ws).length = h.length := by
  simp only [splice, List.length_append, List.length_take, List.length_drop]
  omega

theorem splice_splice {α} (h : List α) (off : Nat) (a b : List α) (hl : off + (a ++ b).length ≤ h.length) :
    splice (splice h off a) (off + a.length) b = splice h off (a ++ b) := by
  have hlen : (h.take off ++ a).length = off + a.length := by
    simp only [List.length_append, List.length_take] at *
    omega
  simp only [splice]
  rw [List.take_append_of_le_length (by omega), List.take_of_length_le (by omega)]
  rw [List.drop_append, hlen, List.drop_eq_nil_of_le (by omega)]
  rw [show off + a.length + b.length - (off + a.length) = b.length from by omega, List.drop_drop]
  simp [Nat.add_assoc]

theorem splice_window {α} (h : List α) (off : Nat) (a : List α) (hl : off + a.length ≤ h.length) :
    ((splice h off a).drop off).take a.length = a := by
  simp only [splice]
  rw [List.append_assoc, List.drop_append, List.length_take, List.drop_eq_nil_of_le (by simp)]
  rw [show off - min off h.length = 0 from by omega]
  simp

/-- Writing into a window changes nothing outside it. -/
theorem splice_outside {α} (h : List α) (off : Nat) (a : List α) (hl : off + a.length ≤ h.length) (i : Nat)
    (hi : i < off ∨ off + a.length ≤ i) : (splice h off a)[i]? = h[i]? := by
  have hl' : (h.take off).length = off := by rw [List.length_take]; omega
  simp only [splice]
  rcases hi with hi | hi
  · rw [List.getElem?_append_left (by simp only [List.length_append]; omega),
      List.getElem?_append_left (by omega), List.getElem?_take_of_lt hi]
  · rw [List.getElem?_append_right (by simp only [List.length_append]; omega), List.getElem?_drop]
    congr 1
    simp only [List.length_append]; omega

theorem writeWords_eq (ws : List W) : ∀ (h : Str) (off cap : Nat), off + 8 * ws.length ≤ h.length → 8 * ws.length ≤ cap →
    writeWords h off cap ws = some (splice h off (bytesOfWords ws)) := by
  induction ws with
  | nil => intro h off cap _ _; simp [writeWords, splice, bytesOfWords]
  | cons w ws ih =>
    intro h off cap h1 h2
    simp only [List.length_cons] at h1 h2
    have hl : off + (leBytes w).length ≤ h.length := by rw [leBytes_length]; omega
    rw [writeWords, if_pos (by omega), ih _ _ _ (by rw [splice_length _ _ _ hl]; omega) (by omega)]
    congr 1
    have := splice_splice h off (leBytes w) (bytesOfWords ws)
      (by simp only [List.length_append, leBytes_length, bytesOfWords_length]; omega)
    rw [leBytes_length] at this
    rw [this, bytesOfWords_eq, bytesOfWords_eq, List.flatMap_cons]

theorem writeWords_none (ws : List W) : ∀ (h : Str) (off cap : Nat), cap < 8 * ws.length → writeWords h off cap ws = none := by
  induction ws with
  | nil => intro h off cap h2; simp at h2
  | cons w ws ih =>
    intro h off cap h2
    simp only [List.length_cons] at h2
    rw [writeWords]
    split
    · rw [ih]; omega
    · rfl

theorem bytesOfWords_inj {a b : List W} (h : bytesOfWords a = bytesOfWords b) : a = b := by
  have hl : a.length = b.length := by
    have := congrArg List.length h
    rw [bytesOfWords_length, bytesOfWords_length] at this
    omega
  rw [← words_of_bytes a [], ← words_of_bytes b [], h, hl]

/-! ### Invariant of a cipher -/

/-- The cipher holds this key and tweak. -/
structure Holds (c : Cipher) (sz : Size) (key : List W) (t0 t1 : W) : Prop where
  size : c.int.size = sz
  klen : key.length = sz.words
  ek : c.int.ek = extKey key
  et : c.int.et = extTweak t0 t1
  tmp : c.int.tmp1.length = sz.words

theorem setTweak_zero (tw : Option (List W)) (h : tweakOk tw) :
    Crypter.setTweak tw [0, 0, 0] = some (extTweak (tweak0 tw) (tweak1 tw)) := by
  match tw with
  | none => rfl
  | some [] => simp [tweakOk] at h
  | some [_] => simp [tweakOk] at h
  | some (a :: b :: _) => rfl

theorem setTweak_bad (tw : Option (List W)) (et : List W) (h : ¬ tweakOk tw) : Crypter.setTweak tw et = none := by
  match tw with
  | none => simp [tweakOk] at h
  | some [] => rfl
  | some [_] => rfl
  | some (a :: b :: _) => simp [tweakOk] at h

theorem keyWords_eq (n : Nat) (ws : List W) (h : ws.length = n) : keyWords n (bytesOfWords ws) = ws := by
  have := words_of_bytes ws []
  rw [List.append_nil, h] at this
  exact this

/-- Result of `New` on the bytes of a key of the right length. -/
theorem newInternal_eq (sz : Size) (ws : List W) (tw : Option (List W)) (h : ws.length = sz.words) (ht : tweakOk tw) :
    newInternal sz (some (bytesOfWords ws)) tw =
      some { freshInternal sz with et := extTweak (tweak0 tw) (tweak1 tw), ek := extKey ws } := by
  simp only [newInternal, show (freshInternal sz).et = [0, 0, 0] from rfl, setTweak_zero tw ht, keyWords_eq _ _ h, setKey_eq]
  rw [if_pos (by omega), List.take_of_length_le (by omega)]
  rfl

theorem newInternal64_eq (sz : Size) (ws : List W) (tw : Option (List W)) (h : ws.length = sz.words) (ht : tweakOk tw) :
    newInternal64 sz ws tw =
      some { freshInternal sz with et := extTweak (tweak0 tw) (tweak1 tw), ek := extKey ws } := by
  simp only [newInternal64, show (freshInternal sz).et = [0, 0, 0] from rfl, setTweak_zero tw ht, setKey_eq]
  rw [if_pos (by omega), List.take_of_length_le (by omega)]
  rfl

/-- The cipher a constructor makes. -/
def made (stateSize : Nat) (sz : Size) (ws : List W) (tw : Option (List W)) : Cipher :=
  ⟨stateSize, { freshInternal sz with et := extTweak (tweak0 tw) (tweak1 tw), ek := extKey ws }⟩

theorem made_holds (st : Nat) (sz : Size) (ws : List W) (tw : Option (List W)) (h : ws.length = sz.words) :
    Holds (made st sz ws tw) sz ws (tweak0 tw) (tweak1 tw) :=
  ⟨rfl, h, rfl, rfl, by simp [made, freshInternal]⟩

theorem new_eq (sz : Size) (ws : List W) (tw : Option (List W)) (h : ws.length = sz.words) (ht : tweakOk tw) :
    new (bytesOfWords ws) tw = .ok (made (64 * sz.words) sz ws tw) := by
  have hl : (bytesOfWords ws).length = 8 * sz.words := by rw [bytesOfWords_length, h]
  unfold new
  rw [hl]
  cases sz
  · rw [if_pos (by rfl), newInternal_eq _ _ _ h ht]; rfl
  · rw [if_neg (by decide), if_pos (by rfl), newInternal_eq _ _ _ h ht]; rfl
  · rw [if_neg (by decide), if_neg (by decide), if_pos (by rfl), newInternal_eq _ _ _ h ht]; rfl

theorem new64_eq (sz : Size) (ws : List W) (tw : Option (List W)) (h : ws.length = sz.words) (ht : tweakOk tw) :
    new64 ws tw = .ok (made (8 * sz.words) sz ws tw) := by
  unfold new64
  rw [h]
  cases sz
  · rw [if_pos (by rfl), newInternal64_eq _ _ _ h ht]; rfl
  · rw [if_neg (by decide), if_pos (by rfl), newInternal64_eq _ _ _ h ht]; rfl
  · rw [if_neg (by decide), if_neg (by decide), if_pos (by rfl), newInternal64_eq _ _ _ h ht]; rfl

theorem extKey_zero (n : Nat) : extKey (List.replicate n 0) = List.replicate n 0 ++ [C240] := by
  unfold extKey
  congr 2
  induction n with
  | zero => rfl
  | succ n ih => simpa [List.replicate_succ] using ih

theorem newSize_eq (sz : Size) : newSize (64 * sz.words : Nat) = .ok (made (64 * sz.words) sz (List.replicate sz.words 0) none) := by
  cases sz <;> rfl

theorem new_ok_inv {key : Str} {tw : Option (List W)} {c : Cipher} (h : new key tw = .ok c) :
    ∃ sz ws, ws.length = Size.words sz ∧ key = bytesOfWords ws ∧ tweakOk tw ∧ c = made (64 * sz.words) sz ws tw := by
  have key' : ∀ sz : Size, key.length = 8 * sz.words → ∃ sz ws, ws.length = Size.words sz ∧ key = bytesOfWords ws ∧ tweakOk tw ∧
      c = made (64 * sz.words) sz ws tw := by
    intro sz hl
    obtain ⟨ws, h1, h2⟩ := bytesOfWords_surj _ _ hl
    have ht : tweakOk tw := by
      by_contra hbad
      unfold new at h
      rw [hl] at h
      cases sz <;> simp [Size.words, newInternal, setTweak_bad tw _ hbad, NewRes.of] at h
    refine ⟨sz, ws, h1, h2.symm, ht, ?_⟩
    rw [← h2, new_eq sz ws tw h1 ht] at h
    injection h with h
    exact h.symm
  unfold new at h
  split at h
  · rename_i hl; exact key' .s256 hl
  · split at h
    · rename_i hl; exact key' .s512 hl
    · split at h
      · rename_i hl; exact key' .s1024 hl
      · cases h

/-! ### The byte methods -/

theorem Cipher.encrypt_eq {c : Cipher} {sz : Size} {key : List W} {t0 t1 : W} (hc : Holds c sz key t0 t1)
    (hs : c.stateSize = 64 * sz.words) (h : Str) (dst src : Slice) (blk : List W) (hb : blk.length = sz.words)
    (hsrc : src.first h (8 * sz.words) = bytesOfWords blk) (hsc : 8 * sz.words ≤ src.cap)
    (hdc : 8 * sz.words ≤ dst.cap) (hdo : dst.off + 8 * sz.words ≤ h.length) :
    ∃ c', c.encrypt h dst src = some (c', splice h dst.off (bytesOfWords (c.int.enc blk))) ∧
      Holds c' sz key t0 t1 ∧ c'.stateSize = c.stateSize := by
  have hm : c.stateSize / 64 = sz.words := by rw [hs]; omega
  have hr := readWords_eq h src sz.words blk hb (by omega) hsrc
  have ht : c.int.tmp1.drop sz.words = [] := List.drop_eq_nil_of_le (by rw [hc.tmp])
  have hel : (c.int.enc blk).length = sz.words := by rw [Internal.enc_length, hc.size]
  have hw := writeWords_eq (c.int.enc blk) h dst.off dst.cap (by rw [hel]; exact hdo) (by rw [hel]; exact hdc)
  refine ⟨{ c with int := { c.int with tmp1 := blk, tmp2 := c.int.enc blk } }, ?_, ⟨hc.size, hc.klen, hc.ek, hc.et, hb⟩, rfl⟩
  simp only [Cipher.encrypt, hm, hr, ht, List.append_nil, Option.bind_eq_bind, Option.bind_some,
    List.take_of_length_le (Nat.le_of_eq hel), hw]

theorem Cipher.decrypt_eq {c : Cipher} {sz : Size} {key : List W} {t0 t1 : W} (hc : Holds c sz key t0 t1)
    (hs : c.stateSize = 64 * sz.words) (h : Str) (dst src : Slice) (blk : List W) (hb : blk.length = sz.words)
    (hsrc : src.first h (8 * sz.words) = bytesOfWords blk) (hsc : 8 * sz.words ≤ src.cap)
    (hdc : 8 * sz.words ≤ dst.cap) (hdo : dst.off + 8 * sz.words ≤ h.length) :
    ∃ c', c.decrypt h dst src = some (c', splice h dst.off (bytesOfWords (c.int.dec blk))) ∧
      Holds c' sz key t0 t1 ∧ c'.stateSize = c.stateSize := by
  have hm : c.stateSize / 64 = sz.words := by rw [hs]; omega
  have hr := readWords_eq h src sz.words blk hb (by omega) hsrc
  have ht : c.int.tmp1.drop sz.words = [] := List.drop_eq_nil_of_le (by rw [hc.tmp])
  have hel : (c.int.dec blk).length = sz.words := by rw [Internal.dec_length, hc.size]
  have hw := writeWords_eq (c.int.dec blk) h dst.off dst.cap (by rw [hel]; exact hdo) (by rw [hel]; exact hdc)
  refine ⟨{ c with int := { c.int with tmp1 := blk, tmp2 := c.int.dec blk } }, ?_, ⟨hc.size, hc.klen, hc.ek, hc.et, hb⟩, rfl⟩
  simp only [Cipher.decrypt, hm, hr, ht, List.append_nil, Option.bind_eq_bind, Option.bind_some,
    List.take_of_length_le (Nat.le_of_eq hel), hw]

theorem Internal.enc_congr {i j : Internal} (h1 : i.size = j.size) (h2 : i.ek = j.ek) (h3 : i.et = j.et) (b : List W) :
    i.enc b = j.enc b := by simp [Internal.enc, h1, h2, h3]
theorem Internal.dec_congr {i j : Internal} (h1 : i.size = j.size) (h2 : i.ek = j.ek) (h3 : i.et = j.et) (b : List W) :
    i.dec b = j.dec b := by simp [Internal.dec, h1, h2, h3]

theorem readWords_length {h : Str} {s : Slice} {m : Nat} {ws : List W} (e : readWords h s m = some ws) : ws.length = m := by
  unfold readWords at e
  split at e
  · injection e with e; simp [← e]
  · cases e

/-- What the six methods do to memory depends on the cipher only through `Holds`. -/
theorem call_congr {c d : Cipher} {sz : Size} {key : List W} {t0 t1 : W} (hc : Holds c sz key t0 t1) (hd : Holds d sz key t0 t1)
    (hs : c.stateSize = d.stateSize) (hs' : c.stateSize = 64 * sz.words) (m : Mem) (x : Call) :
    (c.call m x).map (·.2) = (d.call m x).map (·.2) := by
  have h1 : c.int.size = d.int.size := by rw [hc.size, hd.size]
  have h2 : c.int.ek = d.int.ek := by rw [hc.ek, hd.ek]
  have h3 : c.int.et = d.int.et := by rw [hc.et, hd.et]
  have e1 := Internal.enc_congr h1 h2 h3
  have e2 := Internal.dec_congr h1 h2 h3
  have hm : c.stateSize / 64 = sz.words := by rw [hs']; omega
  have ht1 : c.int.tmp1.drop sz.words = [] := List.drop_eq_nil_of_le (by rw [hc.tmp])
  have ht2 : d.int.tmp1.drop sz.words = [] := List.drop_eq_nil_of_le (by rw [hd.tmp])
  cases x with
  | encrypt dst src =>
    simp only [Cipher.call, Cipher.encrypt, ← hs, hm, ht1, ht2, e1, Option.bind_eq_bind]
    cases readWords m.bytes src sz.words with
    | none => rfl
    | some ws =>
      simp only [Option.bind_some]
      cases writeWords m.bytes dst.off dst.cap (List.take sz.words (d.int.enc (ws ++ []))) <;> rfl
  | decrypt dst src =>
    simp only [Cipher.call, Cipher.decrypt, ← hs, hm, ht1, ht2, e2, Option.bind_eq_bind]
    cases readWords m.bytes src sz.words with
    | none => rfl
    | some ws =>
      simp only [Option.bind_some]
      cases writeWords m.bytes dst.off dst.cap (List.take sz.words (d.int.dec (ws ++ []))) <;> rfl
  | encrypt64 dst src =>
    simp only [Cipher.call, Cipher.encrypt64, h1, e1, Option.map_map]
    split <;> rfl
  | decrypt64 dst src =>
    simp only [Cipher.call, Cipher.decrypt64, h1, e2, Option.map_map]
    split <;> rfl
  | setKey k =>
    simp only [Cipher.call, Cipher.setKey, h1, Option.map_map, Option.bind_eq_bind]
    cases Crypter.setKey d.int.size.words k <;> rfl
  | setTweak t =>
    simp only [Cipher.call, Cipher.setTweak, h3, Option.map_map, Option.bind_eq_bind]
    cases Crypter.setTweak t d.int.et <;> rfl

/-- Key and tweak held after one call. -/
theorem call_holds {c : Cipher} {sz : Size} {key : List W} {t0 t1 : W} (hc : Holds c sz key t0 t1)
    (hs' : c.stateSize / 64 ≤ sz.words) {m : Mem} {x : Call} {c' : Cipher} {m' : Mem} (e : c.call m x = some (c', m')) :
    c'.stateSize = c.stateSize ∧
    Holds c' sz (keyAfter sz.words key x) (tweakAfter (t0, t1) x).1 (tweakAfter (t0, t1) x).2 := by
  cases x with
  | encrypt dst src =>
    simp only [Cipher.call, Cipher.encrypt, Option.bind_eq_bind] at e
    cases hr : readWords m.bytes src (c.stateSize / 64) with
    | none => simp [hr] at e
    | some ws =>
      simp only [hr, Option.bind_some] at e
      cases hw : writeWords m.bytes dst.off dst.cap (List.take (c.stateSize / 64) (c.int.enc (ws ++ c.int.tmp1.drop (c.stateSize / 64)))) with
      | none => rw [hw] at e; cases e
      | some h' =>
        simp only [hw, Option.bind_some, Option.map_some, Option.some.injEq, Prod.mk.injEq] at e
        obtain ⟨rfl, _⟩ := e
        exact ⟨rfl, hc.size, hc.klen, hc.ek, hc.et, by simp [readWords_length hr, hc.tmp]; omega⟩
  | decrypt dst src =>
    simp only [Cipher.call, Cipher.decrypt, Option.bind_eq_bind] at e
    cases hr : readWords m.bytes src (c.stateSize / 64) with
    | none => simp [hr] at e
    | some ws =>
      simp only [hr, Option.bind_some] at e
      cases hw : writeWords m.bytes dst.off dst.cap (List.take (c.stateSize / 64) (c.int.dec (ws ++ c.int.tmp1.drop (c.stateSize / 64)))) with
      | none => rw [hw] at e; cases e
      | some h' =>
        simp only [hw, Option.bind_some, Option.map_some, Option.some.injEq, Prod.mk.injEq] at e
        obtain ⟨rfl, _⟩ := e
        exact ⟨rfl, hc.size, hc.klen, hc.ek, hc.et, by simp [readWords_length hr, hc.tmp]; omega⟩
  | encrypt64 dst src =>
    simp only [Cipher.call, Cipher.encrypt64] at e
    split at e
    · simp only [Option.map_some, Option.some.injEq, Prod.mk.injEq] at e
      obtain ⟨rfl, _⟩ := e
      exact ⟨rfl, hc⟩
    · simp at e
  | decrypt64 dst src =>
    simp only [Cipher.call, Cipher.decrypt64] at e
    split at e
    · simp only [Option.map_some, Option.some.injEq, Prod.mk.injEq] at e
      obtain ⟨rfl, _⟩ := e
      exact ⟨rfl, hc⟩
    · simp at e
  | setKey k =>
    simp only [Cipher.call, Cipher.setKey, setKey_eq, hc.size, Option.bind_eq_bind] at e
    split at e
    · rename_i hl
      simp only [Option.bind_some, Option.map_some, Option.some.injEq, Prod.mk.injEq] at e
      obtain ⟨rfl, _⟩ := e
      exact ⟨rfl, rfl, by simp [keyAfter]; omega, rfl, hc.et, hc.tmp⟩
    · simp at e
  | setTweak t =>
    simp only [Cipher.call, Cipher.setTweak, Option.bind_eq_bind] at e
    match t, e with
    | none, e =>
      simp only [Crypter.setTweak, Option.bind_some, Option.map_some, Option.some.injEq, Prod.mk.injEq] at e
      obtain ⟨rfl, _⟩ := e
      exact ⟨rfl, hc.size, hc.klen, hc.ek, hc.et, hc.tmp⟩
    | some (a :: b :: _), e =>
      simp only [Crypter.setTweak, Option.bind_some, Option.map_some, Option.some.injEq, Prod.mk.injEq] at e
      obtain ⟨rfl, _⟩ := e
      exact ⟨rfl, hc.size, hc.klen, hc.ek, rfl, hc.tmp⟩
    | some [], e => simp [Crypter.setTweak] at e
    | some [_], e => simp [Crypter.setTweak] at e

theorem InUse.holds {b : Bool} {sz : Size} {key : List W} {t : W × W} {c : Cipher} (h : InUse b sz key t c) :
    Holds c sz key t.1 t.2 ∧ c.stateSize / 64 ≤ sz.words ∧ (b = true → c.stateSize = 64 * sz.words) := by
  induction h with
  | new key tw c hk hn =>
    obtain ⟨sz', ws, h1, h2, h3, h4⟩ := new_ok_inv hn
    have := bytesOfWords_inj h2
    subst this
    have hsz : sz' = sz := by
      rw [hk] at h1
      cases sz <;> cases sz' <;> first | rfl | (exact absurd h1 (by decide))
    subst hsz
    subst h4
    refine ⟨made_holds _ _ _ _ hk, ?_, fun _ => rfl⟩
    show 64 * sz'.words / 64 ≤ _
    omega
  | newSize c hn =>
    rw [newSize_eq] at hn
    injection hn with hn
    subst hn
    refine ⟨made_holds _ _ _ none (by simp), ?_, fun _ => rfl⟩
    show 64 * sz.words / 64 ≤ _
    omega
  | new64 key tw c hk hn =>
    rename_i hb
    have ht : tweakOk tw := by
      by_contra hbad
      unfold Crypter.new64 at hn
      rw [hk] at hn
      cases sz <;> simp [Size.words, newInternal64, setTweak_bad tw _ hbad, NewRes.of] at hn
    rw [new64_eq sz key tw hk ht] at hn
    injection hn with hn
    subst hn
    refine ⟨made_holds _ _ _ _ hk, ?_, fun h => absurd h (by simp [hb])⟩
    show 8 * sz.words / 64 ≤ _
    omega
  | call _ m x m' e ih =>
    obtain ⟨h1, h2⟩ := call_holds ih.1 ih.2.1 e
    exact ⟨h2, by rw [h1]; exact ih.2.1, fun hb => by rw [h1]; exact ih.2.2 hb⟩

end Verif.Crypter
