import Verif.Password.LemmasGen
/-
Property theorems for password/generate.go (C01-C09). A call of `Generate` on a random source delivering the bytes `r` is
`(g.generate fuel length numDigits numSymbols noUpper allowRepeat).run r`; `fuel` bounds the retries for one character, and
all theorems hold for every fuel.
-/
namespace Verif.Password

theorem default_ascii : defaultGenerator.AllAscii := by
  refine ⟨?_, ?_, ?_, ?_⟩ <;> decide
theorem default_separate : defaultGenerator.Separate := by
  refine ⟨?_, ?_, ?_⟩ <;> decide
theorem default_distinct : defaultGenerator.Distinct := by
  refine ⟨?_, ?_, ?_⟩ <;> decide

/-- C01: the password has the requested length and composition. -/
theorem C01_composition (g : Generator) (hg : g.AllAscii) (hs : g.Separate) (fuel : Nat)
    (length numDigits numSymbols : Int) (hd0 : 0 ≤ numDigits) (hs0 : 0 ≤ numSymbols) (noUpper allowRepeat : Bool)
    (r pw rest : Str) (h : (g.generate fuel length numDigits numSymbols noUpper allowRepeat).run r = .ok (pw, rest)) :
    (pw.length : Int) = length ∧ (countIn g.digits pw : Int) = numDigits ∧ (countIn g.symbols pw : Int) = numSymbols ∧
    (countIn (g.lowerLetters ++ g.upperLetters) pw : Int) = length - numDigits - numSymbols ∧
    ∀ c ∈ pw, c ∉ g.digits → c ∉ g.symbols → c ∈ g.lowerLetters ∨ c ∈ g.upperLetters := by
  have hc := can_conforms hg hs hd0 hs0 (run_can _ h)
  have hm := conforms_members hs hc
  refine ⟨hc.len, hc.digits, hc.symbols, ?_, ?_⟩
  · have h1 := hc.letters'
    have e : countIn (g.lowerLetters ++ g.upperLetters) pw = countIn (g.letters noUpper) pw := by
      unfold countIn
      congr 1
      apply List.filter_congr
      intro c hcp
      rcases hm c hcp with h2 | h2 | h2
      · have := letters_sub g noUpper c h2
        simp only [h2, this]
      · have h3 : c ∉ g.lowerLetters ++ g.upperLetters := fun h3 => hs.1 c h3 h2
        have h4 : c ∉ g.letters noUpper := fun h4 => h3 (letters_sub g noUpper c h4)
        simp only [h3, h4]
      · have h3 : c ∉ g.lowerLetters ++ g.upperLetters := fun h3 => hs.2.1 c h3 h2
        have h4 : c ∉ g.letters noUpper := fun h4 => h3 (letters_sub g noUpper c h4)
        simp only [h3, h4]
    rw [e]; exact h1
  · intro c hcp h1 h2
    rcases hm c hcp with h3 | h3 | h3
    · exact List.mem_append.mp (letters_sub g noUpper c h3)
    · exact absurd h3 h1
    · exact absurd h3 h2

/-- C02: every character is from a permitted alphabet; upper-case letters only if `noUpper` is false. -/
theorem C02_permitted (g : Generator) (hg : g.AllAscii) (fuel : Nat) (length numDigits numSymbols : Int)
    (noUpper allowRepeat : Bool) (r pw rest : Str)
    (h : (g.generate fuel length numDigits numSymbols noUpper allowRepeat).run r = .ok (pw, rest)) :
    ∀ c ∈ pw, c ∈ g.lowerLetters ∨ c ∈ g.digits ∨ c ∈ g.symbols ∨ (noUpper = false ∧ c ∈ g.upperLetters) := by
  obtain ⟨_, hb⟩ := can_accepted (run_can _ h)
  obtain ⟨a, b, c, _, _, _, ha, hb', hc, hp, _⟩ := can_body hg hb
  intro x hx
  rcases List.mem_append.mp (hp.mem_iff.mp hx) with h1 | h1
  · exact .inr (.inr (.inl (hc x h1)))
  · rcases List.mem_append.mp h1 with h2 | h2
    · exact .inr (.inl (hb' x h2))
    · have := ha x h2
      unfold Generator.letters at this
      cases noUpper with
      | true => exact .inl (by simpa using this)
      | false =>
        rcases List.mem_append.mp (by simpa using this : x ∈ g.lowerLetters ++ g.upperLetters) with h3 | h3
        · exact .inl h3
        · exact .inr (.inr (.inr ⟨rfl, h3⟩))

/-- C02, second half: with the default alphabets and `noUpper` no byte of the password is in `A`..`Z`. -/
theorem C02_noUpper_default (fuel : Nat) (length numDigits numSymbols : Int) (allowRepeat : Bool) (r pw rest : Str)
    (h : (generate fuel length numDigits numSymbols true allowRepeat).run r = .ok (pw, rest)) :
    ∀ c ∈ pw, ¬ (65 ≤ c ∧ c ≤ 90) := by
  have hall : ∀ c ∈ defaultGenerator.lowerLetters ++ defaultGenerator.digits ++ defaultGenerator.symbols,
      ¬ ((65 : UInt8) ≤ c ∧ c ≤ 90) := by decide
  intro c hc
  apply hall
  rcases C02_permitted _ default_ascii _ _ _ _ _ _ _ _ _ h c hc with h1 | h1 | h1 | h1
  · simp [h1]
  · simp [h1]
  · simp [h1]
  · simp at h1

/-- C03: repeats forbidden means no repeated character. -/
theorem C03_no_repeats (g : Generator) (hg : g.AllAscii) (fuel : Nat) (length numDigits numSymbols : Int)
    (noUpper : Bool) (r pw rest : Str)
    (h : (g.generate fuel length numDigits numSymbols noUpper false).run r = .ok (pw, rest)) : pw.Nodup := by
  obtain ⟨_, hb⟩ := can_accepted (run_can _ h)
  obtain ⟨_, _, _, _, _, _, _, _, _, _, hn⟩ := can_body hg hb
  exact hn rfl

/-- The request is rejected by policy, with the error the documentation assigns; `none` = accepted. Independent restatement
of the rules: total first, then (only if repeats are forbidden) letters, digits, symbols. -/
inductive Rejects (g : Generator) (length numDigits numSymbols : Int) (noUpper allowRepeat : Bool) : Option GErr → Prop
  | total (h : length < numDigits + numSymbols) : Rejects g length numDigits numSymbols noUpper allowRepeat (some .exceedsTotal)
  | letters (h : numDigits + numSymbols ≤ length) (ha : allowRepeat = false)
      (hl : (g.lowerLetters.length + (if noUpper then 0 else g.upperLetters.length) : Int) < length - numDigits - numSymbols) :
      Rejects g length numDigits numSymbols noUpper allowRepeat (some .lettersExceeds)
  | digits (h : numDigits + numSymbols ≤ length) (ha : allowRepeat = false)
      (hl : length - numDigits - numSymbols ≤ (g.lowerLetters.length + (if noUpper then 0 else g.upperLetters.length) : Int))
      (hd : (g.digits.length : Int) < numDigits) :
      Rejects g length numDigits numSymbols noUpper allowRepeat (some .digitsExceeds)
  | symbols (h : numDigits + numSymbols ≤ length) (ha : allowRepeat = false)
      (hl : length - numDigits - numSymbols ≤ (g.lowerLetters.length + (if noUpper then 0 else g.upperLetters.length) : Int))
      (hd : numDigits ≤ g.digits.length) (hs : (g.symbols.length : Int) < numSymbols) :
      Rejects g length numDigits numSymbols noUpper allowRepeat (some .symbolsExceeds)
  | acceptRepeat (h : numDigits + numSymbols ≤ length) (ha : allowRepeat = true) :
      Rejects g length numDigits numSymbols noUpper allowRepeat none
  | acceptFresh (h : numDigits + numSymbols ≤ length) (ha : allowRepeat = false)
      (hl : length - numDigits - numSymbols ≤ (g.lowerLetters.length + (if noUpper then 0 else g.upperLetters.length) : Int))
      (hd : numDigits ≤ g.digits.length) (hs : numSymbols ≤ g.symbols.length) :
      Rejects g length numDigits numSymbols noUpper allowRepeat none

theorem letters_length (g : Generator) (nu : Bool) :
    ((g.letters nu).length : Int) = g.lowerLetters.length + (if nu then 0 else g.upperLetters.length) := by
  unfold Generator.letters; cases nu <;> simp

/-- C04: exactly the stated requests are rejected, with the stated error and without touching the random source; every other
request gets a password, a read error, or is still retrying - never a policy error, never a panic. -/
theorem C04_rejections (g : Generator) (hne : g.lowerLetters ≠ [] ∧ g.digits ≠ [] ∧ g.symbols ≠ []) (fuel : Nat)
    (length numDigits numSymbols : Int) (noUpper allowRepeat : Bool) (v : Option GErr)
    (hv : Rejects g length numDigits numSymbols noUpper allowRepeat v) (r : Str) :
    match v with
    | some e => (g.generate fuel length numDigits numSymbols noUpper allowRepeat).run r = .err e
    | none => (∃ pw rest, (g.generate fuel length numDigits numSymbols noUpper allowRepeat).run r = .ok (pw, rest)) ∨
        (g.generate fuel length numDigits numSymbols noUpper allowRepeat).run r = .err .read ∨
        (g.generate fuel length numDigits numSymbols noUpper allowRepeat).run r = .nofuel := by
  have hL := letters_length g noUpper
  have hnf := run_noFail (g.body fuel length numDigits numSymbols noUpper allowRepeat)
    (noFail_body (letters_ne hne.1 noUpper) hne.2.1 hne.2.2) r
  cases hv with
  | total h =>
    show Prog.run _ r = _
    unfold Generator.generate
    simp only
    rw [if_pos (by omega)]; rfl
  | letters h ha hl =>
    show Prog.run _ r = _
    unfold Generator.generate
    subst ha
    simp only
    rw [if_neg (by omega), if_pos (by simp only [Bool.not_false, Bool.true_and, decide_eq_true_eq]; omega)]; rfl
  | digits h ha hl hd =>
    show Prog.run _ r = _
    unfold Generator.generate
    subst ha
    simp only
    rw [if_neg (by omega), if_neg (by simp only [Bool.not_false, Bool.true_and, decide_eq_true_eq]; omega),
      if_pos (by simp only [Bool.not_false, Bool.true_and, decide_eq_true_eq]; omega)]; rfl
  | symbols h ha hl hd hs =>
    show Prog.run _ r = _
    unfold Generator.generate
    subst ha
    simp only
    rw [if_neg (by omega), if_neg (by simp only [Bool.not_false, Bool.true_and, decide_eq_true_eq]; omega),
      if_neg (by simp only [Bool.not_false, Bool.true_and, decide_eq_true_eq]; omega),
      if_pos (by simp only [Bool.not_false, Bool.true_and, decide_eq_true_eq]; omega)]; rfl
  | acceptRepeat h ha =>
    have hacc : g.accepted length numDigits numSymbols noUpper allowRepeat :=
      ⟨by omega, fun h' => by rw [ha] at h'; exact absurd h' (by simp)⟩
    simp only [generate_accepted hacc]
    exact hnf
  | acceptFresh h ha hl hd hs =>
    have hacc : g.accepted length numDigits numSymbols noUpper allowRepeat :=
      ⟨by omega, fun _ => ⟨by omega, hd, hs⟩⟩
    simp only [generate_accepted hacc]
    exact hnf

/-- Every request falls under exactly one clause of the rules (so C04 covers every request). -/
theorem C04_rules_total (g : Generator) (length numDigits numSymbols : Int) (noUpper allowRepeat : Bool) :
    ∃! v, Rejects g length numDigits numSymbols noUpper allowRepeat v := by
  by_cases h : length < numDigits + numSymbols
  · refine ⟨_, .total h, fun w hw => ?_⟩
    cases hw <;> first | rfl | (exfalso; omega)
  · have h' : numDigits + numSymbols ≤ length := by omega
    cases ha : allowRepeat with
    | true =>
      refine ⟨_, .acceptRepeat h' rfl, fun w hw => ?_⟩
      cases hw <;> first | rfl | (exfalso; omega) | contradiction
    | false =>
      by_cases hl : (g.lowerLetters.length + (if noUpper then 0 else g.upperLetters.length) : Int) < length - numDigits - numSymbols
      · refine ⟨_, .letters h' rfl hl, fun w hw => ?_⟩
        cases hw <;> first | rfl | (exfalso; omega) | contradiction
      · by_cases hd : (g.digits.length : Int) < numDigits
        · refine ⟨_, .digits h' rfl (by omega) hd, fun w hw => ?_⟩
          cases hw <;> first | rfl | (exfalso; omega) | contradiction
        · by_cases hs : (g.symbols.length : Int) < numSymbols
          · refine ⟨_, .symbols h' rfl (by omega) (by omega) hs, fun w hw => ?_⟩
            cases hw <;> first | rfl | (exfalso; omega) | contradiction
          · refine ⟨_, .acceptFresh h' rfl (by omega) (by omega) (by omega), fun w hw => ?_⟩
            cases hw <;> first | rfl | (exfalso; omega)

/-- C04: a generator from `NewGenerator` has no empty alphabet, so C04 applies to every user configuration. -/
theorem C04_newGenerator_nonempty (input : Generator) :
    (newGenerator input).lowerLetters ≠ [] ∧ (newGenerator input).digits ≠ [] ∧ (newGenerator input).symbols ≠ [] := by
  refine ⟨?_, ?_, ?_⟩ <;> simp only [newGenerator] <;> split <;> first | assumption | decide

/-- `MustGenerate` panics exactly when `Generate` returns an error, and otherwise returns the same password. -/
theorem C04_mustGenerate (g : Generator) (fuel : Nat) (l d s : Int) (nu ar : Bool) (r : Str) :
    (∀ pw rest, mustOf ((g.generate fuel l d s nu ar).run r) = .ok (pw, rest) ↔ (g.generate fuel l d s nu ar).run r = .ok (pw, rest)) ∧
    (∀ e, mustOf ((g.generate fuel l d s nu ar).run r) ≠ .err e) ∧
    ((∃ e, (g.generate fuel l d s nu ar).run r = .err e) → mustOf ((g.generate fuel l d s nu ar).run r) = .panic) := by
  cases (g.generate fuel l d s nu ar).run r <;> simp [mustOf]

/-- C05: every password that satisfies the request is produced by some random stream. -/
theorem C05_every_password (g : Generator) (hg : g.AllAscii) (hs : g.Separate) (fuel : Nat) (hf : 0 < fuel)
    (length numDigits numSymbols : Int) (noUpper allowRepeat : Bool) (pw : Str)
    (h : Conforms g length numDigits numSymbols noUpper allowRepeat pw) :
    ∃ stream : Str, ∀ rest, (g.generate fuel length numDigits numSymbols noUpper allowRepeat).run (stream ++ rest)
      = .ok (pw, rest) :=
  can_run _ (conforms_can hg hs hf h)

/-- C06: all conforming passwords have the same, positive probability; all other strings have probability zero. -/
theorem C06_uniform (g : Generator) (hg : g.AllAscii) (hs : g.Separate) (hd : g.Distinct) (fuel : Nat) (hf : 0 < fuel)
    (length numDigits numSymbols : Int) (hd0 : 0 ≤ numDigits) (hs0 : 0 ≤ numSymbols) (noUpper allowRepeat : Bool) :
    ∃ v : ℚ, 0 < v ∧
      (∀ pw, Conforms g length numDigits numSymbols noUpper allowRepeat pw →
        (g.generate fuel length numDigits numSymbols noUpper allowRepeat).prob pw = v) ∧
      (∀ pw, ¬ Conforms g length numDigits numSymbols noUpper allowRepeat pw →
        (g.generate fuel length numDigits numSymbols noUpper allowRepeat).prob pw = 0) := by
  obtain ⟨v, hv⟩ := uniform_body hg hs hd fuel length numDigits numSymbols noUpper allowRepeat
  have hz : ∀ pw, ¬ Conforms g length numDigits numSymbols noUpper allowRepeat pw →
        (g.generate fuel length numDigits numSymbols noUpper allowRepeat).prob pw = 0 :=
    fun pw h => prob_zero _ _ (fun hc => h (can_conforms hg hs hd0 hs0 hc))
  by_cases hex : ∃ pw, Conforms g length numDigits numSymbols noUpper allowRepeat pw
  · obtain ⟨pw0, h0⟩ := hex
    have hacc := conforms_accepted h0
    refine ⟨v, ?_, fun pw h => ?_, hz⟩
    · rw [← hv pw0 h0, ← generate_accepted hacc]
      exact prob_pos _ _ (conforms_can hg hs hf h0)
    · rw [generate_accepted hacc]; exact hv pw h
  · exact ⟨1, one_pos, fun pw h => absurd ⟨pw, h⟩ hex, hz⟩

/-- C07: with `k` the block size of the sampler, every index below the bound is produced by the same positive number of
`k`-byte blocks, and no index outside the bound is ever returned. -/
theorem C07_unbiased (max : Nat) (h : 1 < max) :
    ∃ k c : Nat, 0 < k ∧ 0 < c ∧
      (∀ i, i < max →
        Nat.card {bs : Str // bs.length = k ∧ ∀ rest, randInt max (bs ++ rest) = .ok (i, rest)} = c) ∧
      (∀ bs : Str, bs.length = k →
        (∃ i, i < max ∧ ∀ rest, randInt max (bs ++ rest) = .ok (i, rest)) ∨
        (∀ rest, randInt max (bs ++ rest) = randInt max rest)) := by
  have key : ∀ bs : Str, bs.length = blockLen max →
      ofBytes (maskTop (topBits max) bs) = ofBytes bs % 2 ^ bitLen (max - 1) := by
    intro bs hl
    have hk := blockLen_pos h
    have hne : bs ≠ [] := by intro h0; subst h0; simp at hl; omega
    have := ofBytes_maskTop (topBits max) (topBits_le max) bs hne
    rwa [hl, topBits_add h] at this
  refine ⟨blockLen max, 2 ^ (8 - topBits max), blockLen_pos h, by positivity, ?_, ?_⟩
  · intro i hi
    rw [← card_blocks h hi]
    congr 1
    have : ∀ bs : Str, (bs.length = blockLen max ∧ ∀ rest, randInt max (bs ++ rest) = .ok (i, rest)) ↔
        (bs.length = blockLen max ∧ ofBytes (maskTop (topBits max) bs) = i) := by
      intro bs
      constructor
      · rintro ⟨hl, hr⟩
        refine ⟨hl, ?_⟩
        rw [key bs hl]
        have h0 := hr []
        rw [randInt_block h _ _ hl] at h0
        split at h0
        · simpa using h0
        · have : randInt max [] = .err .read := by
            have hb := bitLen_pos h
            unfold randInt
            rw [if_neg (by omega)]
            simp only [hb, dif_neg, not_false_iff]
            rw [randLoop, dif_pos]
            simp; omega
          rw [this] at h0; simp at h0
      · rintro ⟨hl, hv⟩
        refine ⟨hl, fun rest => ?_⟩
        rw [randInt_block h _ _ hl]
        rw [key bs hl] at hv
        rw [hv, if_pos hi]
    simp only [this]
  · intro bs hl
    by_cases hlt : ofBytes bs % 2 ^ bitLen (max - 1) < max
    · left; exact ⟨_, hlt, fun rest => by rw [randInt_block h _ _ hl, if_pos hlt]⟩
    · right; intro rest; rw [randInt_block h _ _ hl, if_neg hlt]

theorem C07_in_range (max : Nat) (r : Str) (i : Nat) (rest : Str) (h : randInt max r = .ok (i, rest)) : i < max :=
  randInt_lt h

/-- What the length of the password really is, for all integer arguments: negative counts are treated as zero by the loops
but still enlarge the number of letters. -/
theorem C08_actual_length (g : Generator) (hg : g.AllAscii) (fuel : Nat) (length numDigits numSymbols : Int)
    (noUpper allowRepeat : Bool) (r pw rest : Str)
    (h : (g.generate fuel length numDigits numSymbols noUpper allowRepeat).run r = .ok (pw, rest)) :
    (pw.length : Int) = length + max 0 (-numDigits) + max 0 (-numSymbols) := by
  obtain ⟨⟨h0, _⟩, hb⟩ := can_accepted (run_can _ h)
  obtain ⟨a, b, c, ha, hb', hc, _, _, _, hp, _⟩ := can_body hg hb
  rw [hp.length_eq]; simp only [List.length_append]; omega

/-- C08 is violated: a request for 5 characters with -3 digits succeeds with 8 characters. -/
theorem C08_counterexample : ∃ stream pw rest, (generate 1 5 (-3) 0 false true).run stream = .ok (pw, rest) ∧ pw.length = 8 := by
  have hc : (defaultGenerator.generate 1 5 (-3) 0 false true).Can (List.replicate 8 97) := by
    have hacc : defaultGenerator.accepted 5 (-3) 0 false true := ⟨by omega, fun h => by simp at h⟩
    rw [generate_accepted hacc]
    have p1 := fill_can (A := defaultGenerator.letters false) (letters_ascii default_ascii false) (!true) 1 (by omega) (fun _ => false)
      (fun _ => true) (List.replicate 8 97) [] (by simp)
      (by
        intro c hc _ _
        rw [(List.mem_replicate.mp hc).2]; decide) (by simp)
    unfold Generator.body
    rw [can_bind]
    refine ⟨List.replicate 8 97, p1, ?_⟩
    rw [can_bind]
    exact ⟨List.replicate 8 97, rfl, rfl⟩
  obtain ⟨bs, hb⟩ := can_run _ hc
  exact ⟨bs ++ [], _, [], hb [], by simp⟩

/-- C08, what does hold: with non-negative counts the length is the requested one (any ASCII alphabets, also overlapping).
Missing from the full statement: negative counts, which the code does not reject. -/
theorem C08_partial (g : Generator) (hg : g.AllAscii) (fuel : Nat) (length numDigits numSymbols : Int)
    (hd0 : 0 ≤ numDigits) (hs0 : 0 ≤ numSymbols)
    (noUpper allowRepeat : Bool) (r pw rest : Str)
    (h : (g.generate fuel length numDigits numSymbols noUpper allowRepeat).run r = .ok (pw, rest)) :
    (pw.length : Int) = length := by
  have := C08_actual_length g hg fuel length numDigits numSymbols noUpper allowRepeat r pw rest h
  omega

/-- C09: for an accepted request over duplicate-free, disjoint alphabets the probability of not finishing within `fuel`
tries per character is at most `length * ρ ^ fuel`, where `ρ < 1` is `1 - 1/N` for the largest alphabet size `N`; it vanishes
as `fuel` grows, i.e. `Generate` terminates with probability one. -/
theorem C09_terminates (g : Generator) (hg : g.AllAscii) (hs : g.Separate) (hd : g.Distinct)
    (hne : g.lowerLetters ≠ [] ∧ g.digits ≠ [] ∧ g.symbols ≠ []) (length numDigits numSymbols : Int)
    (hd0 : 0 ≤ numDigits) (hs0 : 0 ≤ numSymbols) (noUpper allowRepeat : Bool)
    (hacc : Rejects g length numDigits numSymbols noUpper allowRepeat none) :
    ∃ ρ : ℚ, 0 ≤ ρ ∧ ρ < 1 ∧ ∀ fuel : Nat,
      1 - length * ρ ^ fuel ≤ (g.generate fuel length numDigits numSymbols noUpper allowRepeat).probDone := by
  have hL := letters_length g noUpper
  have ha : g.accepted length numDigits numSymbols noUpper allowRepeat := by
    cases hacc with
    | acceptRepeat h ha => exact ⟨by omega, fun h' => by rw [ha] at h'; exact absurd h' (by simp)⟩
    | acceptFresh h ha hl hd hs => exact ⟨by omega, fun _ => ⟨by omega, hd, hs⟩⟩
  have frac : ∀ A : Str, A ≠ [] → (0 : ℚ) ≤ ((A.length : ℚ) - 1) / A.length ∧ ((A.length : ℚ) - 1) / A.length < 1 := by
    intro A hA
    have hp : 0 < A.length := List.length_pos_iff.mpr hA
    have h1 : (1 : ℚ) ≤ A.length := by exact_mod_cast hp
    refine ⟨div_nonneg (by linarith) (by linarith), ?_⟩
    rw [div_lt_iff₀ (by linarith)]; linarith
  obtain ⟨a1, a2⟩ := frac _ (letters_ne hne.1 noUpper)
  obtain ⟨b1, b2⟩ := frac _ hne.2.1
  obtain ⟨c1, c2⟩ := frac _ hne.2.2
  refine ⟨max (((g.letters noUpper).length - 1 : ℚ) / (g.letters noUpper).length)
    (max ((g.digits.length - 1 : ℚ) / g.digits.length) ((g.symbols.length - 1 : ℚ) / g.symbols.length)), ?_, ?_, fun fuel => ?_⟩
  · exact le_max_of_le_left a1
  · exact max_lt a2 (max_lt b2 c2)
  · rw [generate_accepted ha]
    apply probDone_body hg hs hd ha hd0 hs0 (letters_ne hne.1 noUpper) hne.2.1 hne.2.2
    · exact le_max_of_le_left a1
    · exact le_max_left _ _
    · exact le_max_of_le_right (le_max_left _ _)
    · exact le_max_of_le_right (le_max_right _ _)

/-- C09, where the hypothesis "no shared characters" matters: with overlapping alphabets an accepted request may never
finish. Letters and digits both `"a"`, two characters, one digit, no repeats: no error, and no random stream, however long,
leads to a password. -/
theorem C09_overlap_diverges (fuel : Nat) (r : Str) :
    Rejects ⟨[97], [97], [97], [33]⟩ 2 1 0 true false none ∧
    ∀ pw rest, (Generator.generate ⟨[97], [97], [97], [33]⟩ fuel 2 1 0 true false).run r ≠ .ok (pw, rest) := by
  refine ⟨.acceptFresh (by omega) rfl (by simp) (by simp) (by simp), fun pw rest h => ?_⟩
  have hg : Generator.AllAscii ⟨[97], [97], [97], [33]⟩ := by refine ⟨?_, ?_, ?_, ?_⟩ <;> decide
  obtain ⟨_, hb⟩ := can_accepted (run_can _ h)
  obtain ⟨a, b, c, ha, hb', hc, ha', hbm, _, hp, hn⟩ := can_body hg hb
  have hn := hn rfl
  rw [hp.nodup_iff] at hn
  simp at ha hb' hc
  obtain ⟨x, rfl⟩ := List.length_eq_one_iff.mp ha
  obtain ⟨y, rfl⟩ := List.length_eq_one_iff.mp hb'
  subst hc
  have h1 := ha' x (by simp)
  have h2 := hbm y (by simp)
  simp [Generator.letters] at h1 h2
  subst h1 h2
  simp at hn

/-! ### The hypotheses are met by concrete cases -/

/-- "aB3$x" satisfies the request length 5, 1 digit, 1 symbol with the default alphabets. -/
theorem example_conforms : Conforms defaultGenerator 5 1 1 false false (lit "aB3$x") := by
  refine ⟨?_, ?_, ?_, ?_, ?_⟩ <;> decide

/-- So C01-C03, C05, C06, C08 are about an actual run that delivers it. -/
example : ∃ stream, (generate 1 5 1 1 false false).run stream = .ok (lit "aB3$x", []) := by
  obtain ⟨bs, h⟩ := C05_every_password defaultGenerator default_ascii default_separate 1 (by omega) 5 1 1 false false _ example_conforms
  exact ⟨bs ++ [], h []⟩

example : Rejects defaultGenerator 5 3 4 false true (some .exceedsTotal) := .total (by omega)
example : Rejects defaultGenerator 27 0 0 true false (some .lettersExceeds) :=
  .letters (by omega) rfl (by decide)
example : Rejects defaultGenerator 12 11 0 true false (some .digitsExceeds) :=
  .digits (by omega) rfl (by decide) (by decide)
example : Rejects defaultGenerator 32 0 32 true false (some .symbolsExceeds) :=
  .symbols (by omega) rfl (by decide) (by decide) (by decide)
/-- An accepted request, as needed by C09. -/
example : Rejects defaultGenerator 26 10 10 true false none :=
  .acceptFresh (by omega) rfl (by decide) (by decide) (by decide)
example : (1 : Nat) < 52 := by omega

end Verif.Password
