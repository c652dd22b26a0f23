import Verif.Password.LemmasGen
import Verif.Go.Utf8
/-
C131: alphabets with characters outside ASCII.
-/
namespace Verif.Password

/-- The UTF-8 encoding of the character whose code is the byte `b` (U+0000 to U+00FF): itself below 0x80, else a lead byte with the two
upper bits and a continuation byte with the six lower bits. -/
def latin1 (b : UInt8) : Str := if b < 0x80 then [b] else [UInt8.ofNat (0xC0 + b.toNat / 64), UInt8.ofNat (0x80 + b.toNat % 64)]

theorem latin1_eq : ∀ b : UInt8, stringOfByte b = latin1 b := by
  have h : ∀ n : Fin 256, stringOfByte (UInt8.ofNat n) = latin1 (UInt8.ofNat n) := by decide +kernel
  intro b
  have := h ⟨b.toNat, b.toNat_lt⟩
  simpa using this

/-- Continuation bytes of UTF-8: 0x80 to 0xBF. -/
def isCont (b : UInt8) : Bool := decide (0x80 ≤ b) && decide (b < 0xC0)

theorem can_randomElement_any {A : Str} {x : Str} (h : (randomElement A).Can x) : ∃ c ∈ A, x = latin1 c := by
  simp only [randomElement, Prog.Can] at h
  obtain ⟨i, hi, rfl⟩ := h
  have hg : A.getD i 0 = A[i] := by simp [List.getD, hi]
  exact ⟨A[i], List.getElem_mem hi, by rw [hg, latin1_eq]⟩

theorem can_pick_any {A : Str} {noRep : Bool} {res : Str} {fuel : Nat} {x : Str} (h : (pick A noRep res fuel).Can x) : ∃ c ∈ A, x = latin1 c := by
  induction fuel with
  | zero => simp [pick, Prog.Can] at h
  | succ f ih =>
    rw [pick, can_bind] at h
    obtain ⟨a, ha, hx⟩ := h
    split at hx
    · exact ih hx
    · simp only [Prog.Can] at hx
      subst hx
      exact can_randomElement_any ha

theorem perm_insert_any (v res : Str) (i : Nat) : (res.take i ++ v ++ res.drop i).Perm (v ++ res) := by
  have h := (List.perm_append_comm (l₁ := res.take i) (l₂ := v)).append_right (res.drop i)
  rwa [List.append_assoc v, List.take_append_drop] at h

theorem can_step_any {A : Str} {noRep : Bool} {fuel : Nat} {res x : Str} (h : (step A noRep fuel res).Can x) :
    ∃ c ∈ A, ∃ i, i ≤ res.length ∧ x = res.take i ++ latin1 c ++ res.drop i := by
  rw [step, can_bind] at h
  obtain ⟨a, ha, hx⟩ := h
  obtain ⟨c, hc, rfl⟩ := can_pick_any ha
  obtain ⟨i, hi, hx⟩ := (can_randomInsert _ _ _).mp hx
  exact ⟨c, hc, i, hi, hx⟩

theorem can_fill_any {A : Str} {noRep : Bool} {fuel n : Nat} {res x : Str} (h : (fill A noRep fuel n res).Can x) :
    ∃ added : Str, added.length = n ∧ (∀ c ∈ added, c ∈ A) ∧ x.Perm (added.flatMap latin1 ++ res) := by
  induction n generalizing res with
  | zero =>
    simp only [fill, Prog.Can] at h
    subst h
    exact ⟨[], rfl, by simp, List.Perm.refl _⟩
  | succ n ih =>
    rw [fill, can_bind] at h
    obtain ⟨r1, h1, h2⟩ := h
    obtain ⟨c, hc, i, hi, rfl⟩ := can_step_any h1
    obtain ⟨added, hl, hmem, hp⟩ := ih h2
    refine ⟨added ++ [c], by simp [hl], ?_, ?_⟩
    · intro d hd
      rcases List.mem_append.mp hd with h | h
      · exact hmem d h
      · rw [List.mem_singleton.mp h]; exact hc
    · refine hp.trans ?_
      rw [List.flatMap_append, List.append_assoc (added.flatMap latin1)]
      refine List.Perm.append_left _ ?_
      simpa using perm_insert_any (latin1 c) res i

/-- **C131, what holds for all alphabets:** a password consists of the bytes of `length` characters, in some order: for each of them a byte of
its alphabet was chosen, and what was inserted is the character that has this byte as its code (not the character the byte belongs to). -/
theorem C131_bytes_partial (g : Generator) (fuel : Nat) (length numDigits numSymbols : Int) (hd0 : 0 ≤ numDigits) (hs0 : 0 ≤ numSymbols) (noUpper allowRepeat : Bool)
    (r pw rest : Str) (h : (g.generate fuel length numDigits numSymbols noUpper allowRepeat).run r = .ok (pw, rest)) :
    ∃ ls ds ss : Str, (ls.length : Int) = length - numDigits - numSymbols ∧ (ds.length : Int) = numDigits ∧ (ss.length : Int) = numSymbols ∧
      (∀ c ∈ ls, c ∈ g.lowerLetters ∨ (noUpper = false ∧ c ∈ g.upperLetters)) ∧ (∀ c ∈ ds, c ∈ g.digits) ∧ (∀ c ∈ ss, c ∈ g.symbols) ∧
      pw.Perm ((ls ++ ds ++ ss).flatMap latin1) := by
  obtain ⟨⟨hl, _⟩, h⟩ := can_accepted (run_can _ h)
  unfold Generator.body at h
  rw [can_bind] at h
  obtain ⟨r1, h1, h⟩ := h
  rw [can_bind] at h
  obtain ⟨r2, h2, h3⟩ := h
  obtain ⟨a, ha, ha', hpa⟩ := can_fill_any h1
  obtain ⟨b, hb, hb', hpb⟩ := can_fill_any h2
  obtain ⟨c, hc, hc', hpc⟩ := can_fill_any h3
  refine ⟨a, b, c, by omega, by omega, by omega, ?_, hb', hc', ?_⟩
  · intro x hx
    have := ha' x hx
    unfold Generator.letters at this
    cases noUpper
    · simpa using this
    · exact .inl (by simpa using this)
  · rw [List.append_nil] at hpa
    have h4 := hpc.trans (List.Perm.append_left _ (hpb.trans (List.Perm.append_left _ hpa)))
    refine h4.trans ?_
    simp only [List.flatMap_append]
    refine (List.perm_append_comm).trans (List.Perm.append_right _ List.perm_append_comm)

theorem countP_latin1 : ∀ b : UInt8, (latin1 b).countP (fun c => !isCont c) = 1 ∧ (latin1 b).countP isCont = (if b < 0x80 then 0 else 1) ∧
    (∀ c ∈ latin1 b, c < 0x80 → c = b) := by
  have h : ∀ n : Fin 256, (latin1 (UInt8.ofNat n)).countP (fun c => !isCont c) = 1 ∧ (latin1 (UInt8.ofNat n)).countP isCont = (if UInt8.ofNat n < 0x80 then 0 else 1) ∧
    (∀ c ∈ latin1 (UInt8.ofNat n), c < 0x80 → c = UInt8.ofNat n) := by decide +kernel
  intro b
  have := h ⟨b.toNat, b.toNat_lt⟩
  simpa using this

theorem countP_flatMap (s : Str) : (s.flatMap latin1).countP (fun c => !isCont c) = s.length := by
  induction s with
  | nil => rfl
  | cons b s ih => rw [List.flatMap_cons, List.countP_append, ih, (countP_latin1 b).1, List.length_cons]; omega

theorem length_flatMap_le (s : Str) : (s.flatMap latin1).length ≤ 2 * s.length := by
  induction s with
  | nil => simp
  | cons b s ih =>
    rw [List.flatMap_cons, List.length_append, List.length_cons]
    have : (latin1 b).length ≤ 2 := by unfold latin1; split <;> simp
    omega

/-- **C131, what holds for all alphabets:** exactly `length` of the bytes are not continuation bytes, i.e. could start a
character; it has at most `2 * length` bytes; and its ASCII characters are in the alphabets, upper case letters only if asked for. -/
theorem C131_characters_partial (g : Generator) (fuel : Nat) (length numDigits numSymbols : Int) (hd0 : 0 ≤ numDigits) (hs0 : 0 ≤ numSymbols) (noUpper allowRepeat : Bool)
    (r pw rest : Str) (h : (g.generate fuel length numDigits numSymbols noUpper allowRepeat).run r = .ok (pw, rest)) :
    (pw.countP (fun c => !isCont c) : Int) = length ∧ length ≤ pw.length ∧ (pw.length : Int) ≤ 2 * length ∧
      ∀ c ∈ pw, c < 0x80 → c ∈ g.lowerLetters ∨ c ∈ g.digits ∨ c ∈ g.symbols ∨ (noUpper = false ∧ c ∈ g.upperLetters) := by
  obtain ⟨ls, ds, ss, h1, h2, h3, h4, h5, h6, hp⟩ := C131_bytes_partial g fuel length numDigits numSymbols hd0 hs0 noUpper allowRepeat r pw rest h
  have hc := hp.countP_eq (fun c => !isCont c)
  rw [countP_flatMap] at hc
  have hl := hp.length_eq
  have hle := length_flatMap_le (ls ++ ds ++ ss)
  have hlen : (ls ++ ds ++ ss).length = ls.length + ds.length + ss.length := by simp [Nat.add_assoc]
  have hcl : pw.countP (fun c => !isCont c) ≤ pw.length := List.countP_le_length
  refine ⟨by omega, by omega, by omega, ?_⟩
  intro c hc hlt
  obtain ⟨b, hb, hcb⟩ := List.mem_flatMap.1 (hp.mem_iff.1 hc)
  obtain rfl := (countP_latin1 b).2.2 c hcb hlt
  simp only [List.mem_append] at hb
  rcases hb with (hb | hb) | hb
  · rcases h4 _ hb with h | h
    · exact .inl h
    · exact .inr (.inr (.inr h))
  · exact .inr (.inl (h5 _ hb))
  · exact .inr (.inr (.inl (h6 _ hb)))

theorem can_fill_ascii {A : Str} (hA : Ascii A) {noRep : Bool} {fuel n : Nat} {res x : Str} (hr : Ascii res) (h : (fill A noRep fuel n res).Can x) : Ascii x := by
  obtain ⟨added, _, hm, hp, _⟩ := can_fill hA noRep fuel n res x h
  intro b hb
  rcases List.mem_append.1 (hp.mem_iff.1 hb) with h | h
  · exact hA _ (hm _ h)
  · exact hr _ h

/-- **C131, where it holds:** with ASCII letters and digits and a single symbol from any alphabet, the symbol is not torn apart: the password is
ASCII text, one character of code below 256, and ASCII text. -/
theorem C131_one_symbol_partial (g : Generator) (hg : Ascii g.lowerLetters ∧ Ascii g.upperLetters ∧ Ascii g.digits) (fuel : Nat) (length numDigits : Int) (noUpper allowRepeat : Bool)
    (r pw rest : Str) (h : (g.generate fuel length numDigits 1 noUpper allowRepeat).run r = .ok (pw, rest)) :
    ∃ a c b, pw = a ++ latin1 c ++ b ∧ Ascii a ∧ Ascii b ∧ c ∈ g.symbols := by
  obtain ⟨_, h⟩ := can_accepted (run_can _ h)
  unfold Generator.body at h
  rw [can_bind] at h
  obtain ⟨r1, h1, h⟩ := h
  rw [can_bind] at h
  obtain ⟨r2, h2, h3⟩ := h
  have hl : Ascii (g.letters noUpper) := by
    intro b hb
    rcases List.mem_append.1 (letters_sub g noUpper b hb) with h | h
    · exact hg.1 _ h
    · exact hg.2.1 _ h
  have a2 := can_fill_ascii hg.2.2 (can_fill_ascii hl (by intro b hb; simp at hb) h1) h2
  rw [show Int.toNat 1 = 1 from rfl, fill, can_bind] at h3
  obtain ⟨r3, h4, h5⟩ := h3
  obtain ⟨c, hc, i, hi, rfl⟩ := can_step_any h4
  simp only [fill, Prog.Can] at h5
  exact ⟨r2.take i, c, r2.drop i, h5, fun b hb => a2 b (List.mem_of_mem_take hb), fun b hb => a2 b (List.mem_of_mem_drop hb), hc⟩

/-- The generator with lower-case letters `é` and `b`, i.e. the bytes C3 A9 62, else the default alphabets. -/
def accented : Generator := newGenerator ⟨[0xC3, 0xA9, 0x62], [], [], []⟩

theorem C131_check_1 : ((accented.generate 1 2 0 0 true true).run [0, 1, 1] = .ok ([0xC3, 0xC2, 0xA9, 0x83], [])) := by decide +kernel
theorem C131_check_2 : ((accented.generate 1 1 0 0 true true).run [0] = .ok ([0xC3, 0x83], [])) := by decide +kernel
theorem C131_check_3 : ((accented.generate 1 3 0 0 true false).run [0, 1, 1, 0, 0] = .ok ([0xC3, 0x83, 0xC3, 0xC2, 0xA9, 0x83], [])) := by decide +kernel

/-- **C131, not true in the code:** with the letters `é` and `b` a password of length 1 can be `Ã`, which is not in the alphabet; one of length 2
need not be valid UTF-8; and with repeats forbidden the same letter can be put in twice. -/
theorem C131_false :
    (∃ stream rest, (accented.generate 1 1 0 0 true true).run stream = .ok ([0xC3, 0x83], rest)) ∧
    (∃ stream pw rest, (accented.generate 1 2 0 0 true true).run stream = .ok (pw, rest) ∧ validUtf8 pw = false) ∧
    ∃ stream pw rest, (accented.generate 1 3 0 0 true false).run stream = .ok (pw, rest) ∧ pw.Perm ([0xC3, 0xC3, 0xA9].flatMap latin1) := by
  refine ⟨⟨_, _, C131_check_2⟩, ⟨_, _, _, C131_check_1, by decide +kernel⟩, ⟨_, _, _, C131_check_3, by decide +kernel⟩⟩

end Verif.Password
