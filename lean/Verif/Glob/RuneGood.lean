import Verif.Glob.RuneLang
import Verif.Glob.GoodProps
/-
Which matchers decide their language on all valid UTF-8 strings: a check of the matcher, weaker matchers excluded because they confuse bytes with runes
(`Row` in particular). The properties of the check are in `Verif.Glob.RuneProps`.
-/
namespace Verif.Glob

/-- The text is valid UTF-8. -/
def validText (t : Str) : Bool := enc (runesIn t) == t

/-- All are Unicode scalar values. -/
def scalars (rs : List Nat) : Bool := rs.all validRune

mutual
/-- Matches ASCII strings only, and is right on strings of any bytes. -/
def asciiM : Matcher → Bool
  | .text t => !t.isEmpty && t.all fun b => decide (b < 0x80)
  | .list rs not => !not && rs.all fun r => decide (r < 0x80)
  | .range _ hi not => !not && decide (hi < 0x80)
  | .anyOf ms => asciiMs ms
  | .row l ms => asciiMs ms && decide (1 ≤ l) && lenGood (.row l ms) && (lens ms).all posLen
  | _ => false
/-- `asciiM` of matchers. -/
def asciiMs : List Matcher → Bool
  | [] => true
  | m :: ms => asciiM m && asciiMs ms
end

/-- Matches one rune of which it accepts all that are not ASCII. -/
def lastM : Matcher → Bool
  | .single seps => seps.all fun r => decide (r < 0x80)
  | .list rs not => not && rs.all fun r => decide (r < 0x80)
  | .range _ hi not => not && decide (hi < 0x80)
  | _ => false

/-- A row of matchers of ASCII strings and one of those at the end: `Match` gives the last one only the first byte of a rune, but it makes no difference. -/
def rowLast (l : Nat) (ms : List Matcher) : Bool := asciiMs ms.dropLast && ms.getLast?.any lastM && lenGood (.row l ms) && (lens ms).all posLen

mutual
/-- `Index` finds the first occurrence in a string of any bytes. -/
def idxAny : Matcher → Bool
  | .text t => validText t && !t.isEmpty
  | .list rs not => scalars rs && !inList rs not runeError
  | .range lo hi not => !inRange lo hi not runeError
  | .row l ms => asciiM (.row l ms)
  | .anyOf ms => idxAnys ms
  | _ => false
/-- `idxAny` of matchers. -/
def idxAnys : List Matcher → Bool
  | [] => true
  | m :: ms => idxAny m && idxAnys ms
end

mutual
/-- `Index` finds the first occurrence in a valid string. -/
def idxFirst : Matcher → Bool
  | .text t => validText t && !t.isEmpty
  | .single seps => scalars seps
  | .list rs _ => scalars rs
  | .range _ _ _ => true
  | .row l ms => asciiM (.row l ms)
  | .anyOf ms => idxFirsts ms
  | _ => false
/-- `idxFirst` of matchers. -/
def idxFirsts : List Matcher → Bool
  | [] => true
  | m :: ms => idxFirst m && idxFirsts ms
end

/-- A text, and if it is a set of runes not to occur, of one rune. -/
def needleW (needle : Str) (not : Bool) : Bool := validText needle && (!not || (runesIn needle).length == 1)

/-- The matchers of which `EveryOf.Index` is right: their index is always 0. -/
def idxZero : Matcher → Bool
  | .min n => decide (1 ≤ n)
  | .max _ => true
  | .contains needle not => needleW needle not
  | _ => false

mutual
/-- `Index` finds all matches at the start of a valid string. -/
def idxStart : Matcher → Bool
  | .nothing => true
  | .text t => validText t
  | .any seps => scalars seps && decide (seps.length ≤ 1)
  | .super => true
  | .single seps => scalars seps
  | .list rs _ => scalars rs
  | .range _ _ _ => true
  | .min n => decide (1 ≤ n)
  | .max _ => true
  | .contains needle not => needleW needle not
  | .prefix p => validText p
  | .prefixAny p seps => validText p && scalars seps && decide (seps.length ≤ 1)
  | .row l ms => asciiM (.row l ms)
  | .anyOf ms => idxStarts ms
  | .everyOf ms => ms.all idxZero && !ms.isEmpty
  | _ => false
/-- `idxStart` of matchers. -/
def idxStarts : List Matcher → Bool
  | [] => true
  | m :: ms => idxStart m && idxStarts ms
end

mutual
/-- `Match` is right on the valid strings that are not empty. -/
def goodW : Matcher → Bool
  | .text t => validText t
  | .any seps => scalars seps
  | .single seps => scalars seps
  | .list rs _ => scalars rs
  | .min n => decide (1 ≤ n)
  | .contains needle not => needleW needle not
  | .prefix p => validText p
  | .suffix q => validText q
  | .prefixSuffix p q => validText p && validText q && noOverlap p q
  | .prefixAny p seps => validText p && scalars seps
  | .suffixAny q seps => validText q && scalars seps
  | .anyOf ms => goodWs ms
  | .everyOf ms => goodWs ms
  | .row l ms => asciiM (.row l ms) || rowLast l ms
  | .btree v l r ll rl len =>
    lenGood (.btree v l r ll rl len) && (ll.isNone || (ll == lenOpt l && lenGoodOpt l)) && (rl.isNone || (rl == lenOpt r && lenGoodOpt r)) &&
      goodWOpt l && goodEOpt l && goodWOpt r && goodEOpt r &&
      (idxAny v || (idxFirst v && ll.getD 0 == 0 && rl.getD 0 == 0) || (idxStart v && l.isNone && rl.isNone))
  | _ => true
/-- `goodW` of matchers. -/
def goodWs : List Matcher → Bool
  | [] => true
  | m :: ms => goodW m && goodWs ms
/-- `goodW` of a side. -/
def goodWOpt : Option Matcher → Bool
  | none => true
  | some m => goodW m
end

/-- The check. -/
def wellBehavedU (m : Matcher) : Bool := goodW m && goodE m

theorem asciiMs_iff {ms : List Matcher} : asciiMs ms = true ↔ ∀ m ∈ ms, asciiM m = true := by
  induction ms with
  | nil => simp [asciiMs]
  | cons m ms ih => simp [asciiMs, ih]
theorem idxAnys_iff {ms : List Matcher} : idxAnys ms = true ↔ ∀ m ∈ ms, idxAny m = true := by
  induction ms with
  | nil => simp [idxAnys]
  | cons m ms ih => simp [idxAnys, ih]
theorem idxFirsts_iff {ms : List Matcher} : idxFirsts ms = true ↔ ∀ m ∈ ms, idxFirst m = true := by
  induction ms with
  | nil => simp [idxFirsts]
  | cons m ms ih => simp [idxFirsts, ih]
theorem idxStarts_iff {ms : List Matcher} : idxStarts ms = true ↔ ∀ m ∈ ms, idxStart m = true := by
  induction ms with
  | nil => simp [idxStarts]
  | cons m ms ih => simp [idxStarts, ih]
theorem goodWs_iff {ms : List Matcher} : goodWs ms = true ↔ ∀ m ∈ ms, goodW m = true := by
  induction ms with
  | nil => simp [goodWs]
  | cons m ms ih => simp [goodWs, ih]

theorem validText_eq {t : Str} (h : validText t = true) : t = enc (runesIn t) := (beq_iff_eq.1 h).symm

theorem scalars_iff {rs : List Nat} : scalars rs = true ↔ Scalars rs := by simp [scalars, Scalars]

/-! ### Lengths -/

/-- All words of a language have the length, if it is known. -/
def LenW (l : Option Nat) (L : List Nat → Prop) : Prop := ∀ k, l = some k → ∀ w, L w → w.length = k

theorem rSeq_len : ∀ (ms : List Matcher) (k : Nat), sumLens (lens ms) = some k → (∀ m ∈ ms, LenW m.len (RLang m)) →
    ∀ s, RSeq ms s → s.length = k
  | [], k, h, _, s, hs => by
    simp only [lens, sumLens, Option.some.injEq] at h
    simp only [RSeq] at hs
    subst hs h; rfl
  | m :: ms, k, h, hm, s, hs => by
    rw [lens] at h
    obtain ⟨a, b, h1, h2, rfl⟩ := sumLens_cons h
    simp only [RSeq] at hs
    obtain ⟨u, v, rfl, hu, hv⟩ := hs
    have e1 := hm m List.mem_cons_self a h1 u hu
    have e2 := rSeq_len ms b h2 (fun m' hm' => hm m' (List.mem_cons_of_mem _ hm')) v hv
    rw [List.length_append]; omega

theorem lenGood_rok (m : Matcher) : lenGood m = true → LenW m.len (RLang m) := by
  induction m using Matcher.ind with
  | h m ih =>
  intro hg k hk s hs
  cases m with
  | nothing => simp only [Matcher.len, Option.some.injEq] at hk; simp only [RLang] at hs; subst hs hk; rfl
  | text t =>
    simp only [Matcher.len, Option.some.injEq] at hk
    simp only [RLang] at hs
    subst hs hk
    simp [runesIn]
  | any seps => simp [Matcher.len] at hk
  | super => simp [Matcher.len] at hk
  | single seps =>
    simp only [Matcher.len, Option.some.injEq] at hk
    simp only [RLang] at hs
    obtain ⟨b, rfl, _⟩ := hs; subst hk; rfl
  | list rs n =>
    simp only [Matcher.len, Option.some.injEq] at hk
    simp only [RLang] at hs
    obtain ⟨b, rfl, _⟩ := hs; subst hk; rfl
  | range lo hi n =>
    simp only [Matcher.len, Option.some.injEq] at hk
    simp only [RLang] at hs
    obtain ⟨b, rfl, _⟩ := hs; subst hk; rfl
  | min n => simp [Matcher.len] at hk
  | max n => simp [Matcher.len] at hk
  | contains n b => simp [Matcher.len] at hk
  | «prefix» p => simp [Matcher.len] at hk
  | suffix p => simp [Matcher.len] at hk
  | prefixSuffix p q => simp [Matcher.len] at hk
  | prefixAny p q => simp [Matcher.len] at hk
  | suffixAny p q => simp [Matcher.len] at hk
  | anyOf ms =>
    rw [Matcher.len] at hk
    rw [lenGood, hk] at hg
    simp only [Option.isNone_some, Bool.false_or, Bool.and_eq_true] at hg
    rw [RLang, rSome_iff] at hs
    obtain ⟨m, hm, hs⟩ := hs
    have hl := anyOfLen_all hk (by rw [hk]; exact hg.2) m.len (by rw [lens_eq]; exact List.mem_map_of_mem hm)
    exact ih m hm (lenGoods_iff.1 hg.1 m hm) k hl s hs
  | everyOf ms =>
    rw [lenGood] at hg
    rw [Matcher.len] at hk
    cases hm : ms.isEmpty <;> rw [hm] at hg hk <;> simp at hg hk
  | row l ms =>
    rw [lenGood, Bool.and_eq_true, beq_iff_eq] at hg
    rw [Matcher.len] at hk
    cases hk
    rw [RLang] at hs
    exact rSeq_len ms k hg.2 (fun m hm => ih m hm (lenGoods_iff.1 hg.1 m hm)) s hs
  | btree v l r ll rl len =>
    rw [Matcher.len] at hk
    subst hk
    rw [lenGood] at hg
    simp only [Option.isNone_some, Bool.false_or, Bool.and_eq_true, beq_iff_eq] at hg
    obtain ⟨⟨⟨g1, g2⟩, g3⟩, g4⟩ := hg
    obtain ⟨x, y', h1, h2', e1⟩ := sumLens_cons g4
    obtain ⟨y, z', h2, h3', e2⟩ := sumLens_cons h2'
    obtain ⟨z, u, h3, h4, e3⟩ := sumLens_cons h3'
    simp only [sumLens, Option.some.injEq] at h4
    subst h4
    clear h2' h3'
    rw [RLang] at hs
    obtain ⟨a, b, c, rfl, ha', hb, hc⟩ := hs
    have e2 := ih v (by simp [Matcher.children]) g1 y h2 b hb
    have e1 : a.length = x := by
      cases l with
      | none => rw [ROpt] at ha'; rw [lenOpt] at h1; cases h1; subst ha'; rfl
      | some l => rw [ROpt] at ha'; rw [lenOpt] at h1; exact ih l (by simp [Matcher.children]) g2 x h1 a ha'
    have e3 : c.length = z := by
      cases r with
      | none => rw [ROpt] at hc; rw [lenOpt] at h3; cases h3; subst hc; rfl
      | some r => rw [ROpt] at hc; rw [lenOpt] at h3; exact ih r (by simp [Matcher.children]) g3 z h3 c hc
    simp only [List.length_append]; omega

theorem lenGoodOpt_rok {o : Option Matcher} (h : lenGoodOpt o = true) : LenW (lenOpt o) (ROpt o) := by
  cases o with
  | none => intro k hk s hs; rw [ROpt] at hs; rw [lenOpt] at hk; cases hk; subst hs; rfl
  | some m =>
    intro k hk s hs
    rw [ROpt] at hs
    exact lenGood_rok m h k hk s hs


/-! ### The empty string -/

theorem runesIn_eq_nil {t : Str} : runesIn t = [] ↔ t = [] := by
  constructor
  · intro h
    by_contra hc
    rw [runesIn_cons hc] at h
    cases h
  · rintro rfl; rfl

theorem rlang_nil (m : Matcher) : RLang m [] ↔ MLang m [] := by
  induction m using Matcher.ind with
  | h m ih =>
  cases m with
  | nothing => simp [RLang, MLang]
  | text t => simp [RLang, MLang, eq_comm (a := ([] : List Nat)), eq_comm (a := ([] : Str)), runesIn_eq_nil]
  | any seps => simp [RLang, MLang]
  | super => simp [RLang, MLang]
  | single seps => simp [RLang, MLang]
  | list rs n => simp [RLang, MLang]
  | range lo hi n => simp [RLang, MLang]
  | min n => simp [RLang, MLang]
  | max n => simp [RLang, MLang]
  | contains n b => cases b <;> simp [RLang, MLang, eq_comm (a := ([] : List Nat)), eq_comm (a := ([] : Str)), runesIn_eq_nil]
  | «prefix» p => simp [RLang, MLang, eq_comm (a := ([] : List Nat)), eq_comm (a := ([] : Str)), runesIn_eq_nil]
  | suffix p => simp [RLang, MLang, eq_comm (a := ([] : List Nat)), eq_comm (a := ([] : Str)), runesIn_eq_nil]
  | prefixSuffix p q => simp [RLang, MLang, eq_comm (a := ([] : List Nat)), eq_comm (a := ([] : Str)), runesIn_eq_nil]
  | prefixAny p q => simp [RLang, MLang, eq_comm (a := ([] : List Nat)), eq_comm (a := ([] : Str)), runesIn_eq_nil]
  | suffixAny p q => simp [RLang, MLang, eq_comm (a := ([] : List Nat)), eq_comm (a := ([] : Str)), runesIn_eq_nil]
  | anyOf ms =>
    rw [RLang, MLang, rSome_iff, langSome_iff]
    exact exists_congr fun m => and_congr_right fun hm => ih m hm
  | everyOf ms =>
    rw [RLang, MLang, rAll_iff, langAll_iff]
    exact forall_congr' fun m => imp_congr_right fun hm => ih m hm
  | row l ms =>
    rw [RLang, MLang]
    simp only [Matcher.children] at ih
    clear l
    induction ms with
    | nil => simp [RSeq, LangSeq]
    | cons m ms ih' =>
      rw [RSeq, LangSeq]
      have h1 := ih m (by simp)
      have h2 := ih' fun c hc => ih c (by simp [hc])
      constructor
      · rintro ⟨a, c, e, ha, hc⟩
        obtain ⟨rfl, rfl⟩ := List.append_eq_nil_iff.1 e.symm
        exact ⟨[], [], rfl, h1.1 ha, h2.1 hc⟩
      · rintro ⟨a, c, e, ha, hc⟩
        obtain ⟨rfl, rfl⟩ := List.append_eq_nil_iff.1 e.symm
        exact ⟨[], [], rfl, h1.2 ha, h2.2 hc⟩
  | btree v l r ll rl len =>
    rw [RLang, MLang]
    have hv := ih v (by simp [Matcher.children])
    have hl : ROpt l [] ↔ LangOpt l [] := by
      cases l with
      | none => simp [ROpt, LangOpt]
      | some l => rw [ROpt, LangOpt]; exact ih l (by simp [Matcher.children])
    have hr : ROpt r [] ↔ LangOpt r [] := by
      cases r with
      | none => simp [ROpt, LangOpt]
      | some r => rw [ROpt, LangOpt]; exact ih r (by simp [Matcher.children])
    constructor
    · rintro ⟨a, b, c, e, ha, hb, hc⟩
      obtain ⟨e', rfl⟩ := List.append_eq_nil_iff.1 e.symm
      obtain ⟨rfl, rfl⟩ := List.append_eq_nil_iff.1 e'
      exact ⟨[], [], [], rfl, hl.1 ha, hv.1 hb, hr.1 hc⟩
    · rintro ⟨a, b, c, e, ha, hb, hc⟩
      obtain ⟨e', rfl⟩ := List.append_eq_nil_iff.1 e.symm
      obtain ⟨rfl, rfl⟩ := List.append_eq_nil_iff.1 e'
      exact ⟨[], [], [], rfl, hl.2 ha, hv.2 hb, hr.2 hc⟩

end Verif.Glob
