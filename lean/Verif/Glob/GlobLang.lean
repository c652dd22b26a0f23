import Verif.Glob.CompileLang
import Verif.Glob.TreeLang
import Mathlib.Data.List.Forall2
/-
C57: what a compiled pattern matches.
-/
namespace Verif.Glob

theorem decodeRune_lt {b : UInt8} {t : Str} (h : (decodeRune (b :: t)).1 < 0x80) : b < 0x80 := by
  by_contra hb
  have he : runeError = 0xFFFD := rfl
  simp only [decodeRune, if_neg hb] at h
  have hc : ∀ (lo hi c : UInt8), contIn lo hi c = true → lo.toNat ≤ c.toNat := by
    intro lo hi c hc
    simp only [contIn, Bool.and_eq_true, decide_eq_true_eq] at hc
    exact UInt8.le_iff_toNat_le.1 hc.1
  generalize hE : (if b = 0xE0 then (0xA0 : UInt8) else 0x80) = lE at h
  generalize (if b = 0xED then (0x9F : UInt8) else 0xBF) = hE' at h
  generalize hF : (if b = 0xF0 then (0x90 : UInt8) else 0x80) = lF at h
  generalize (if b = 0xF4 then (0x8F : UInt8) else 0xBF) = hF' at h
  simp only [UInt8.lt_iff_toNat_lt, UInt8.le_iff_toNat_le, Bool.and_eq_true, decide_eq_true_eq] at h hb
  split at h
  · rename_i h1
    split at h
    · split at h
      · rename_i h2
        have := hc _ _ _ h2
        simp at *; omega
      · simp [he] at h
    · simp [he] at h
  · split at h
    · rename_i h1
      split at h
      · split at h
        · rename_i h2
          have g1 := hc _ _ _ h2.1
          rw [← hE] at g1
          split at g1
          · simp at *; omega
          · rename_i h3
            have : b.toNat ≠ 0xE0 := by
              intro e; apply h3; apply UInt8.toNat.inj; simpa using e
            simp at *; omega
        · simp [he] at h
      · simp [he] at h
    · split at h
      · rename_i h1
        split at h
        · split at h
          · rename_i h2
            have g1 := hc _ _ _ h2.1.1
            rw [← hF] at g1
            split at g1
            · simp at *; omega
            · rename_i h3
              have : b.toNat ≠ 0xF0 := by
                intro e; apply h3; apply UInt8.toNat.inj; simpa using e
              simp at *; omega
          · simp [he] at h
        · simp [he] at h
      · simp [he] at h

theorem runesAux_cons (n : Nat) (b : UInt8) (t : Str) : runesAux (n + 1) (b :: t) = decodeRune (b :: t) :: runesAux n ((b :: t).drop (decodeRune (b :: t)).2) := by
  rw [runesAux]

theorem runesIn_ascii {s : Str} (h : Ascii s) : runesIn s = s.map UInt8.toNat := by
  rw [runesIn, runesOf_ascii h, List.map_map]; rfl

theorem ascii_of_runes : ∀ (n : Nat) (t : Str), t.length ≤ n → (∀ r ∈ (runesAux n t).map Prod.fst, r < 0x80) → Ascii t
  | _, [], _, _ => ascii_nil
  | 0, b :: t, hl, _ => by simp at hl
  | n + 1, b :: t, hl, h => by
    rw [runesAux_cons, List.map_cons] at h
    have hb := decodeRune_lt (h _ List.mem_cons_self)
    rw [decodeRune_ascii hb] at h
    have ih := ascii_of_runes n t (by simpa using hl) fun r hr => h r (List.mem_cons_of_mem _ hr)
    intro c hc
    rcases List.mem_cons.1 hc with rfl | hc
    · exact hb
    · exact ih c hc

theorem map_toNat_inj {s t : Str} (h : s.map UInt8.toNat = t.map UInt8.toNat) : s = t :=
  List.map_injective_iff.2 (fun _ _ e => UInt8.toNat.inj e) h

/-- An ASCII string has the runes of a text iff it is the text. -/
theorem runesIn_eq {s t : Str} (ha : Ascii s) : s.map UInt8.toNat = runesIn t ↔ s = t := by
  constructor
  · intro h
    have : Ascii t := by
      refine ascii_of_runes t.length t (Nat.le_refl _) ?_
      intro r hr
      have : r ∈ runesIn t := hr
      rw [← h, List.mem_map] at this
      obtain ⟨b, hb, rfl⟩ := this
      exact toNat_lt_of_ascii (ha b hb)
    rw [runesIn_ascii this] at h
    exact map_toNat_inj h
  · rintro rfl; rw [runesIn_ascii ha]

theorem compileChildren_ok {f : Node → Res Matcher} : ∀ {cs : List Node} {ms : List Matcher}, compileChildren f cs = .ok ms →
    List.Forall₂ (fun c m => ∃ m0, f c = .ok m0 ∧ m = optimizeMatcher m0) cs ms
  | [], ms, h => by simp only [compileChildren, Res.ok.injEq] at h; subst h; exact .nil
  | c :: cs, ms, h => by
    simp only [compileChildren] at h
    split at h <;> try cases h
    rename_i m hm
    split at h <;> try cases h
    rename_i ms' hms
    exact .cons ⟨m, hm, rfl⟩ (compileChildren_ok hms)

/-- A matcher is meant to match what the node matches. -/
def Implements (seps : List Nat) (m : Matcher) (t : Node) : Prop := ∀ s, Ascii s → (MLang m s ↔ Matches seps t (s.map UInt8.toNat))

theorem Implements.optimize {seps : List Nat} {m : Matcher} {t : Node} (h : Implements seps m t) : Implements seps (optimizeMatcher m) t :=
  fun s ha => (optimize_lang m s ha).trans (h s ha)

theorem langSome_implements {seps : List Nat} {cs : List Node} {ms : List Matcher} (h : List.Forall₂ (fun c m => Implements seps m c) cs ms) {s : Str} (ha : Ascii s) :
    LangSome ms s ↔ MatchesSome seps cs (s.map UInt8.toNat) := by
  induction h with
  | nil => simp [LangSome, MatchesSome]
  | cons h1 _ ih => rw [LangSome, MatchesSome, h1 s ha, ih]

theorem langSeq_implements {seps : List Nat} {cs : List Node} {ms : List Matcher} (h : List.Forall₂ (fun c m => Implements seps m c) cs ms) :
    ∀ {s : Str}, Ascii s → (LangSeq ms s ↔ MatchesSeq seps cs (s.map UInt8.toNat)) := by
  induction h with
  | nil => intro s _; simp [LangSeq, MatchesSeq]
  | cons h1 _ ih =>
    intro s ha
    rw [LangSeq, MatchesSeq]
    constructor
    · rintro ⟨a, c, rfl, g1, g2⟩
      rw [ascii_append] at ha
      exact ⟨_, _, List.map_append, (h1 a ha.1).1 g1, (ih ha.2).1 g2⟩
    · rintro ⟨u, v, e, g1, g2⟩
      obtain ⟨a, c, rfl, rfl, rfl⟩ := List.map_eq_append_iff.1 e
      rw [ascii_append] at ha
      exact ⟨a, c, rfl, (h1 a ha.1).2 g1, (ih ha.2).2 g2⟩

/-- The compiler: the matcher of a tree is meant to match what the tree matches. -/
theorem compile_implements (seps : List Nat) : ∀ (n : Nat) (t : Node) (m : Matcher), compile seps n t = .ok m → Implements seps m t
  | 0, _, _, h => by cases h
  | n + 1, t, m, h => by
    have kids : ∀ {cs : List Node} {ms : List Matcher}, compileChildren (compile seps n) cs = .ok ms → List.Forall₂ (fun c m => Implements seps m c) cs ms := by
      intro cs ms h
      refine List.Forall₂.imp ?_ (compileChildren_ok h)
      rintro c _ ⟨m0, h1, rfl⟩
      exact (compile_implements seps n c m0 h1).optimize
    have leaf : ∀ m0, Implements seps m0 t → Res.ok (optimizeMatcher m0) = Res.ok m → Implements seps m t := by
      intro m0 h0 h1
      simp only [Res.ok.injEq] at h1
      subst h1; exact h0.optimize
    cases t with
    | nothing =>
      simp only [compile] at h
      exact leaf _ (fun s ha => by simp [MLang, Matches]) h
    | any =>
      simp only [compile] at h
      exact leaf _ (fun s ha => by simp [MLang, Matches]) h
    | super =>
      simp only [compile] at h
      exact leaf _ (fun s ha => by simp [MLang, Matches]) h
    | single =>
      simp only [compile] at h
      refine leaf _ (fun s ha => ?_) h
      rw [MLang, Matches]
      constructor
      · rintro ⟨b, rfl, hb⟩; exact ⟨b.toNat, rfl, hb⟩
      · rintro ⟨r, hr, hb⟩
        rw [List.map_eq_singleton_iff] at hr
        obtain ⟨b, rfl, rfl⟩ := hr
        exact ⟨b, rfl, hb⟩
    | list nt chars =>
      simp only [compile] at h
      refine leaf _ (fun s ha => ?_) h
      rw [MLang, Matches]
      have e : ∀ r, inList ((runesOf chars).map Prod.fst) nt r = true ↔ (r ∈ runesIn chars ↔ nt = false) := by
        intro r
        simp only [inList, beq_iff_eq, runesIn]
        rw [Bool.eq_iff_iff, List.contains_iff_mem]
        cases nt <;> simp
      simp only [e]
      constructor
      · rintro ⟨b, rfl, hb⟩; exact ⟨b.toNat, rfl, hb⟩
      · rintro ⟨r, hr, hb⟩
        rw [List.map_eq_singleton_iff] at hr
        obtain ⟨b, rfl, rfl⟩ := hr
        exact ⟨b, rfl, hb⟩
    | range nt lo hi =>
      simp only [compile] at h
      refine leaf _ (fun s ha => ?_) h
      rw [MLang, Matches]
      have e : ∀ r, inRange lo hi nt r = true ↔ ((lo ≤ r ∧ r ≤ hi) ↔ nt = false) := by
        intro r
        simp only [inRange, beq_iff_eq]
        rw [Bool.eq_iff_iff, Bool.and_eq_true, decide_eq_true_eq, decide_eq_true_eq]
        cases nt <;> simp
      simp only [e]
      constructor
      · rintro ⟨b, rfl, hb⟩; exact ⟨b.toNat, rfl, hb⟩
      · rintro ⟨r, hr, hb⟩
        rw [List.map_eq_singleton_iff] at hr
        obtain ⟨b, rfl, rfl⟩ := hr
        exact ⟨b, rfl, hb⟩
    | text t =>
      simp only [compile] at h
      exact leaf _ (fun s ha => by rw [MLang, Matches, runesIn_eq ha]) h
    | anyOf cs =>
      simp only [compile] at h
      obtain ⟨o, e1, e2⟩ := minimizeTree_ok seps cs
      rw [e1] at h
      cases o with
      | some t' =>
        intro s ha
        rw [← e2 t' rfl]
        exact compile_implements seps n t' m h s ha
      | none =>
        simp only at h
        split at h <;> try cases h
        rename_i ms hms
        intro s ha
        rw [MLang, Matches, langSome_implements (kids hms) ha]
    | pattern cs =>
      simp only [compile] at h
      split at h
      · rename_i he
        simp only [Res.ok.injEq] at h
        have : cs = [] := List.length_eq_zero_iff.1 he
        subst this h
        intro s ha
        simp [MLang, Matches, MatchesSeq]
      · split at h <;> try cases h
        rename_i ms hms
        split at h <;> try cases h
        rename_i ms' hms'
        split at h
        · rename_i m0 hm0
          simp only [Res.ok.injEq] at h
          subst h
          intro s ha
          rw [optimize_lang _ s ha, compileMatchers_lang _ _ _ hm0 s ha, minimizeMatchers_lang _ _ _ hms' s ha, langSeq_implements (kids hms) ha, Matches]
        · rename_i hno; exact absurd h (hno m)

end Verif.Glob
