import Verif.Glob.Split
import Verif.Glob.FlatProps
import Verif.Glob.DocLang
/-
Patterns of texts and stars: `Match` decides their documented language for strings of any bytes.
-/
namespace Verif.Glob

/-- Characters, `*` and `**`. -/
def plainTerm : Term → Bool
  | .chars _ => true
  | .any => true
  | .super => true
  | _ => false

/-- No star is next to a star. -/
def noTwoStars : List Term → Bool
  | a :: b :: ts => !(isStar a && isStar b) && noTwoStars (b :: ts)
  | _ => true

/-- A part of such a pattern. -/
inductive Item where
  | text (t : Str)
  | star (seps : List Nat)

/-- The matcher of a part. -/
def Item.matcher : Item → Matcher
  | .text t => .text t
  | .star seps => if seps.isEmpty then .super else .any seps

/-- What a part matches. -/
def Item.Lang : Item → Str → Prop
  | .text t, s => s = t
  | .star seps, s => ∀ r ∈ runesIn s, r ∉ seps

/-- What the parts match one after the other. -/
def ItemsLang : List Item → Str → Prop
  | [], s => s = []
  | i :: is, s => ∃ a c, s = a ++ c ∧ i.Lang a ∧ ItemsLang is c

def Item.isStar : Item → Bool
  | .star _ => true
  | .text _ => false

def Item.Ok : Item → Prop
  | .star _ => True
  | .text t => GoodText t

/-- Texts and stars alternate. -/
def Alt (is : List Item) : Prop := (∀ i ∈ is, i.Ok) ∧ is.IsChain fun a b => a.isStar ≠ b.isStar

theorem itemsLang_append {is js : List Item} {s : Str} : ItemsLang (is ++ js) s ↔ ∃ a c, s = a ++ c ∧ ItemsLang is a ∧ ItemsLang js c := by
  induction is generalizing s with
  | nil =>
    simp only [List.nil_append, ItemsLang]
    constructor
    · intro h; exact ⟨[], s, rfl, rfl, h⟩
    · rintro ⟨a, c, rfl, rfl, h⟩; exact h
  | cons m ms ih =>
    simp only [List.cons_append, ItemsLang]
    constructor
    · rintro ⟨a, c, rfl, h1, h2⟩
      obtain ⟨a', c', rfl, h3, h4⟩ := ih.1 h2
      exact ⟨a ++ a', c', by simp, ⟨a, a', rfl, h1, h3⟩, h4⟩
    · rintro ⟨a, c, rfl, ⟨a', c', rfl, h1, h2⟩, h3⟩
      exact ⟨a', c' ++ c, by simp, h1, ih.2 ⟨c', c, rfl, h2, h3⟩⟩

theorem itemsLang_singleton {i : Item} {s : Str} : ItemsLang [i] s ↔ i.Lang s := by
  simp only [ItemsLang]
  constructor
  · rintro ⟨a, c, rfl, h, rfl⟩; simpa using h
  · intro h; exact ⟨s, [], by simp, h, rfl⟩

theorem Alt.part {as ss cs : List Item} (h : Alt (as ++ ss ++ cs)) : Alt ss := by
  refine ⟨fun i hi => h.1 i (by simp [hi]), ?_⟩
  have := h.2
  rw [List.isChain_append, List.isChain_append] at this
  exact this.1.2.1

/-! ### Matchers -/

/-- The matcher decides the language on all strings. -/
def Decides (f : Str → Option Bool) (L : Str → Prop) : Prop := ∀ s, ∃ b, f s = some b ∧ (b = true ↔ L s)

theorem decides_text (t : Str) : Decides (Matcher.text t).match fun s => s = t := by
  intro s; exact ⟨_, rfl, by simp [eq_comm]⟩

theorem decides_super : Decides Matcher.super.match fun _ => True := fun s => ⟨true, rfl, by simp⟩

theorem decides_any (seps : List Nat) : Decides (Matcher.any seps).match fun s => ∀ r ∈ runesIn s, r ∉ seps :=
  fun s => ⟨_, rfl, indexAnyRunes_isNone s seps⟩

theorem Item.decides (i : Item) : Decides i.matcher.match i.Lang := by
  cases i with
  | text t => exact decides_text t
  | star seps =>
    show Decides (if seps.isEmpty then Matcher.super else Matcher.any seps).match _
    by_cases h : seps = []
    · subst h; intro s; obtain ⟨b, e, hb⟩ := decides_super s; exact ⟨b, e, hb.trans (by simp [Item.Lang])⟩
    · rw [if_neg (by simpa using h)]; exact decides_any seps

/-- The next occurrence of the text is not inside the first rune of this one. -/
theorem occurrence_apart {t a c a' c' : Str} (ht : GoodText t) (e : a ++ t ++ c = a' ++ t ++ c') (hl : a.length < a'.length) :
    a.length + (decodeRune (t ++ c)).2 ≤ a'.length := by
  -- the runes before the later occurrence
  have hle : a.length ≤ a'.length := by omega
  obtain ⟨x, rfl⟩ : ∃ x, a' = a ++ x := by
    have := congrArg (List.take a.length) e
    rw [List.append_assoc, List.take_left, List.append_assoc, List.take_append_of_le_length hle] at this
    refine ⟨a'.drop a.length, ?_⟩
    conv => lhs; rw [← List.take_append_drop a.length a']
    rw [← this]
  rw [List.append_assoc, List.append_assoc, List.append_assoc, List.append_cancel_left_eq] at e
  have hx : x ≠ [] := by rintro rfl; simp at hl
  rw [e, decodeRune_append hx (ht.start c')]
  have := (decodeRune_size x).1
  rw [List.length_append]; omega

theorem btreeLoop_text {t : Str} (ht : GoodText t) {left right : Str → Option Bool} {LL LR : Str → Prop} (hl : Decides left LL) (hr : Decides right LR) (s : Str) :
    ∀ (n offset : Nat), s.length - offset < n → ∃ b, btreeLoop (Matcher.text t).index left right s s.length n offset = some b ∧
      (b = true ↔ ∃ a c, s = a ++ t ++ c ∧ offset ≤ a.length ∧ LL a ∧ LR c)
  | 0, _, h => by omega
  | n + 1, offset, hn => by
    have ht0 : 1 ≤ t.length := List.length_pos_iff.2 ht.1
    rw [btreeLoop]
    by_cases ho : offset < s.length
    · rw [if_pos ho]
      simp only [List.take_length, Matcher.index]
      cases hi : strIndex t (s.drop offset) with
      | none =>
        simp only [Option.map_none]
        refine ⟨false, rfl, ?_⟩
        simp only [Bool.false_eq_true, false_iff, not_exists, not_and]
        intro a c e h1
        exfalso
        refine strIndex_none hi (a.drop offset) c ?_
        rw [e, List.append_assoc, List.drop_append_of_le_length h1, List.append_assoc]
      | some i =>
        obtain ⟨⟨c, hc⟩, hle, hmin⟩ := strIndex_some hi
        simp only [Option.map_some]
        rw [List.length_drop] at hle
        have hs : s = s.take (offset + i) ++ t ++ c := by
          have : s.take (offset + i) = s.take offset ++ (s.drop offset).take i := by rw [List.take_add]
          rw [this, List.append_assoc, List.append_assoc, ← List.append_assoc _ t c, ← hc, List.take_append_drop]
        have hlen : (s.take (offset + i)).length = offset + i := List.length_take_of_le (by omega)
        have hdrop : s.drop (offset + i) = t ++ c := by
          conv => lhs; rw [hs]
          rw [List.append_assoc, List.drop_left' hlen]
        obtain ⟨bl, el, hbl⟩ := hl (s.take (offset + i))
        have hrest : (if s.length ≤ offset + i + t.length then ([] : Str) else s.drop (offset + i + t.length)) = c := by
          have h2 : s.drop (offset + i + t.length) = c := by
            rw [← List.drop_drop, hdrop, List.drop_left]
          split
          · rename_i h3; rw [← h2, List.drop_eq_nil_of_le h3]
          · exact h2
        obtain ⟨br, er, hbr⟩ := hr c
        have hstep := (decodeRune_size (t ++ c)).2 (by have := ht.1; simp [this])
        obtain ⟨b, eb, hb⟩ := btreeLoop_text ht hl hr s n (offset + (i + (decodeRune (s.drop (offset + i))).2)) (by rw [hdrop]; omega)
        have later : (∃ a c, s = a ++ t ++ c ∧ offset ≤ a.length ∧ LL a ∧ LR c) ↔
            (LL (s.take (offset + i)) ∧ LR c) ∨ ∃ a c, s = a ++ t ++ c ∧ offset + (i + (decodeRune (s.drop (offset + i))).2) ≤ a.length ∧ LL a ∧ LR c := by
          constructor
          · rintro ⟨a, d, e, h1, h2, h3⟩
            have h4 : offset + i ≤ a.length := by
              have := hmin (a.drop offset) d (by rw [e, List.append_assoc, List.drop_append_of_le_length h1, List.append_assoc])
              rw [List.length_drop] at this; omega
            by_cases h5 : a.length = offset + i
            · left
              have : a = s.take (offset + i) := by
                rw [e, List.append_assoc, ← h5, List.take_left]
              subst this
              have : d = c := by
                have := hs.symm.trans e
                rw [List.append_cancel_left_eq] at this
                exact this.symm
              subst this
              exact ⟨h2, h3⟩
            · right
              refine ⟨a, d, e, ?_, h2, h3⟩
              have := occurrence_apart ht (hs.symm.trans e) (by omega)
              rw [hdrop]; omega
          · rintro (⟨h1, h2⟩ | ⟨a, d, e, h1, h2, h3⟩)
            · exact ⟨_, c, hs, by omega, h1, h2⟩
            · exact ⟨a, d, e, by omega, h2, h3⟩
        rw [el]
        simp only [List.reverse_cons, List.reverse_nil, List.nil_append, btreeSegments, hrest, er]
        rw [later]
        cases bl with
        | true =>
          simp only
          cases br with
          | true => exact ⟨true, rfl, by simp [hbl.1 rfl, hbr.1 rfl]⟩
          | false =>
            simp only
            have : ¬ LR c := fun h => by have := hbr.2 h; cases this
            exact ⟨b, eb, by rw [hb]; simp [this]⟩
        | false =>
          simp only
          have : ¬ LL (s.take (offset + i)) := fun h => by have := hbl.2 h; cases this
          exact ⟨b, eb, by rw [hb]; simp [this]⟩
    · rw [if_neg ho]
      refine ⟨false, rfl, ?_⟩
      simp only [Bool.false_eq_true, false_iff, not_exists, not_and]
      intro a c e h1
      exfalso
      rw [e] at ho
      simp only [List.length_append] at ho
      omega

theorem decides_btree {t : Str} (ht : GoodText t) {l r : Option Matcher} {ll rl : Option Nat} {LL LR : Str → Prop} (hl : Decides (matchOpt l) LL) (hr : Decides (matchOpt r) LR)
    (h1 : ll.getD 0 = 0) (h2 : rl.getD 0 = 0) : Decides (Matcher.btree (.text t) l r ll rl none).match fun s => ∃ a c, s = a ++ t ++ c ∧ LL a ∧ LR c := by
  intro s
  rw [Matcher.match]
  obtain ⟨b, e, hb⟩ := btreeLoop_text ht hl hr s (s.length + 1) 0 (by omega)
  refine ⟨b, ?_, hb.trans (by simp)⟩
  unfold btreeMatch
  cases rl with
  | none => simpa [h1] using e
  | some r => simp only [Option.getD_some] at h2; subst h2; simpa [h1] using e

theorem decides_none : Decides (matchOpt none) fun s => s = [] := fun s => ⟨_, rfl, by simp⟩

theorem Decides.congr {f : Str → Option Bool} {L M : Str → Prop} (h : Decides f L) (e : ∀ s, L s ↔ M s) : Decides f M := fun s => by
  obtain ⟨b, h1, h2⟩ := h s
  exact ⟨b, h1, h2.trans (e s)⟩

/-! ### Compiling -/

theorem Item.opt (i : Item) : optimizeMatcher i.matcher = i.matcher := by
  cases i with
  | text t => rfl
  | star seps =>
    by_cases h : seps = []
    · subst h; rfl
    · have : (Item.star seps).matcher = .any seps := if_neg (by simpa using h)
      rw [this, optimizeMatcher, if_neg (by simpa using h)]

theorem Item.len (i : Item) : i.matcher.len = none ↔ i.isStar = true := by
  cases i with
  | text t => simp [Item.matcher, Matcher.len, Item.isStar]
  | star seps =>
    simp only [Item.matcher, Item.isStar, iff_true]
    split <;> simp [Matcher.len]

theorem Item.eq_super {i : Item} (h : i.matcher = .super) : i = .star [] := by
  cases i with
  | text t => cases h
  | star seps =>
    by_cases e : seps = []
    · rw [e]
    · have : (Item.star seps).matcher = .any seps := if_neg (by simpa using e)
      rw [this] at h; cases h

theorem Item.eq_any {i : Item} {s : List Nat} (h : i.matcher = .any s) : i = .star s := by
  cases i with
  | text t => cases h
  | star seps =>
    by_cases e : seps = []
    · subst e; cases h
    · have : (Item.star seps).matcher = .any seps := if_neg (by simpa using e)
      rw [this] at h; cases h; rfl

theorem Item.not_suffix {i : Item} {s : Str} : i.matcher ≠ .suffix s ∧ i.matcher ≠ .prefix s := by
  cases i with
  | text t => exact ⟨nofun, nofun⟩
  | star seps => simp only [Item.matcher]; split <;> exact ⟨nofun, nofun⟩

theorem glue_alt : ∀ {is : List Item}, is.IsChain (fun a b => a.isStar ≠ b.isStar) → glueMatchers (is.map Item.matcher) = none
  | [], _ => rfl
  | [i], _ => by rw [List.map_singleton]; simp [glueMatchers, glueMatchersAsEvery, glueMatchersAsRow]
  | i :: j :: is, h => by
    have hij := (List.isChain_cons_cons.1 h).1
    have hrow : glueMatchersAsRow ((i :: j :: is).map Item.matcher) = none := by
      unfold glueMatchersAsRow
      rw [if_neg (by simp)]
      simp only [List.map_cons, lens, Option.map_eq_none_iff, sumLens]
      cases i with
      | text t =>
        have : j.matcher.len = none := (Item.len j).2 (by simpa [Item.isStar] using hij)
        rw [this]
        split
        · rename_i h1 h2; split at h2 <;> simp_all
        · rfl
      | star s =>
        have : (Item.star s).matcher.len = none := (Item.len _).2 rfl
        rw [this]
    have hev : glueMatchersAsEvery ((i :: j :: is).map Item.matcher) = none := by
      simp only [List.map_cons]
      unfold glueMatchersAsEvery
      simp only
      split
      · rfl
      · rename_i sep k hk
        have : glueLoop sep (i.matcher :: j.matcher :: is.map Item.matcher) (false, false, false, 0) = none := by
          cases i with
          | text t => simp [Item.matcher, gluable] at hk
          | star s =>
            cases j with
            | star s' => simp [Item.isStar] at hij
            | text t =>
              rw [glueLoop, hk]
              simp only
              split
              · rw [glueLoop]; rfl
              · rfl
        rw [this]
    rw [glueMatchers, hev, hrow]

theorem Alt.noGlue {is : List Item} (h : is.IsChain (fun a b => a.isStar ≠ b.isStar)) : NoGlue (is.map Item.matcher) := by
  intro as ss cs e
  rw [List.map_eq_append_iff] at e
  obtain ⟨x, c', rfl, e, rfl⟩ := e
  rw [List.map_eq_append_iff] at e
  obtain ⟨a', s', rfl, rfl, rfl⟩ := e
  rw [List.isChain_append, List.isChain_append] at h
  exact glue_alt h.1.2.1

theorem minimize_alt {is : List Item} (h : is.IsChain (fun a b => a.isStar ≠ b.isStar)) {n : Nat} {ns : List Matcher}
    (hm : minimizeMatchers n (is.map Item.matcher) = some ns) : ns = is.map Item.matcher := by
  cases n with
  | zero => cases hm
  | succ n =>
    unfold minimizeMatchers at hm
    split at hm
    · simpa using hm.symm
    · rename_i d hd
      obtain ⟨h1, h2, h3⟩ := minimizeLoops_glued hd
      have := Alt.noGlue h ((is.map Item.matcher).take d.left) (((is.map Item.matcher).take d.right).drop d.left) ((is.map Item.matcher).drop d.right) (by
        have e : (is.map Item.matcher).take d.left = ((is.map Item.matcher).take d.right).take d.left := by
          rw [List.take_take]; congr 1; omega
        rw [e, List.take_append_drop, List.take_append_drop])
      rw [this] at h1; cases h1

/-- The result of compiling two or more parts. -/
structure Starred (is : List Item) (m : Matcher) : Prop where
  len : m.len = none
  ok : Decides (optimizeMatcher m).match (ItemsLang is) ∨ ∃ p q, is = [.text p, .star [], .text q] ∧ optimizeMatcher m = .prefixSuffix p q
  suf : ∀ s, optimizeMatcher m = .suffix s → is = [.star [], .text s]
  pre : ∀ p, optimizeMatcher m = .prefix p → is = [.text p, .star []]
  sup : optimizeMatcher m ≠ .super
  any : ∀ s, optimizeMatcher m ≠ .any s

/-- What is known of a side of a tree. -/
def SideS (part : List Item) (o : Option Matcher) : Prop :=
  (part = [] ∧ o = none) ∨ ∃ l, o = some l ∧ part ≠ [] ∧ l.len = none ∧ Decides (optimizeMatcher l).match (ItemsLang part) ∧
    (∀ s, optimizeMatcher l = .suffix s → part = [.star [], .text s]) ∧ (∀ p, optimizeMatcher l = .prefix p → part = [.text p, .star []]) ∧
    (optimizeMatcher l = .super → part = [.star []]) ∧ (∀ s, optimizeMatcher l = .any s → part = [.star s])

theorem SideS.decides {part : List Item} {o : Option Matcher} (h : SideS part o) : Decides (matchOpt (optimizeOpt o)) (ItemsLang part) ∧ (lenOpt o).getD 0 = 0 := by
  rcases h with ⟨rfl, rfl⟩ | ⟨l, rfl, _, h1, h2, _⟩
  · exact ⟨decides_none, rfl⟩
  · exact ⟨h2, by simp [lenOpt, h1]⟩

theorem star_true {s : Str} : (Item.star []).Lang s := by simp [Item.Lang]

theorem stars_compile : ∀ (n : Nat) (is : List Item) (m : Matcher), compileMatchers n (is.map Item.matcher) = .ok m → Alt is →
    (∃ i, is = [i] ∧ m = i.matcher) ∨ (2 ≤ is.length ∧ Starred is m)
  | 0, is, m, h, _ => by cases h
  | n + 1, is, m, h, ha => by
    unfold compileMatchers at h
    split at h
    · cases h
    · rename_i m' he
      simp only [Res.ok.injEq] at h
      subst h
      rw [List.map_eq_singleton_iff] at he
      obtain ⟨i, e1, e2⟩ := he
      exact Or.inl ⟨i, e1, e2.symm⟩
    · rename_i m0 rest hne he
      right
      have hlen2 : 2 ≤ is.length := by
        rw [← List.length_map (f := Item.matcher), he]
        cases rest with
        | nil => exact absurd rfl hne
        | cons a b => simp
      rw [glue_alt ha.2] at h
      simp only at h
      refine ⟨hlen2, ?_⟩
      split at h
      · -- no matcher has a length: impossible
        rename_i hcv
        have hopen := (chooseValue_none _ _ _ hcv).2
        exfalso
        rcases is with _ | ⟨i, _ | ⟨j, is⟩⟩
        · simp at hlen2
        · simp at hlen2
        · have h1 := (Item.len i).1 (hopen _ (by simp))
          have h2 := (Item.len j).1 (hopen _ (by simp))
          exact (List.isChain_cons_cons.1 ha.2).1 (h1.trans h2.symm)
      · rename_i idx len hidx
        obtain ⟨val', _, hval', hlen⟩ := (chooseValue_len _ _ _ _ _ hidx).resolve_left (by simp)
        rw [Nat.sub_zero] at hval'
        rw [hval'] at h
        simp only at h
        rw [List.getElem?_map] at hval'
        obtain ⟨v, hv, rfl⟩ := Option.map_eq_some_iff.1 hval'
        obtain ⟨t, rfl⟩ : ∃ t, v = .text t := by
          cases v with
          | text t => exact ⟨t, rfl⟩
          | star s => rw [(Item.len (.star s)).2 rfl] at hlen; cases hlen
        have hsplit : is = is.take idx ++ [.text t] ++ is.drop (idx + 1) := by
          have hlt : idx < is.length := by
            by_contra hc
            rw [List.getElem?_eq_none (by omega)] at hv; cases hv
          rw [List.getElem?_eq_getElem hlt, Option.some.injEq] at hv
          rw [← hv, List.append_assoc, List.singleton_append, List.getElem_cons_drop, List.take_append_drop]
        rw [← List.map_take, ← List.map_drop] at h
        generalize hL : is.take idx = L at *
        generalize hR : is.drop (idx + 1) = R at *
        clear hidx hval' hL hR hv he
        subst hsplit
        have ht : GoodText t := ha.1 (.text t) (by simp)
        have side : ∀ (part : List Item) (o : Option Matcher), (if (part.map Item.matcher).isEmpty then Res.ok none else match compileMatchers n (part.map Item.matcher) with
              | .ok l => .ok (some l)
              | .err e => .err e
              | .panic => .panic
              | .steps => .steps) = Res.ok o → Alt part →
              (∀ z, part.head? = some z → z.isStar = true) ∨ (∀ z, part.getLast? = some z → z.isStar = true) → SideS part o := by
          intro part o ho p1 p4
          split at ho
          · rename_i he
            rw [List.isEmpty_iff, List.map_eq_nil_iff] at he
            simp only [Res.ok.injEq] at ho
            exact Or.inl ⟨he, ho.symm⟩
          · rename_i he
            rw [List.isEmpty_iff, List.map_eq_nil_iff] at he
            split at ho <;> simp only [Res.ok.injEq, reduceCtorEq] at ho
            rename_i l' hl'
            refine Or.inr ⟨l', ho.symm, he, ?_⟩
            rcases stars_compile n part l' hl' p1 with ⟨i, rfl, rfl⟩ | ⟨_, c⟩
            · have hs : i.isStar = true := by rcases p4 with p4 | p4 <;> exact p4 i rfl
              rw [Item.opt]
              refine ⟨(Item.len i).2 hs, (Item.decides i).congr fun s => itemsLang_singleton.symm, ?_, ?_, ?_, ?_⟩
              · intro s e; exact absurd e Item.not_suffix.1
              · intro s e; exact absurd e Item.not_suffix.2
              · intro e; rw [Item.eq_super e]
              · intro s e; rw [Item.eq_any e]
            · rcases c.ok with c1 | ⟨p, q, rfl, _⟩
              · exact ⟨c.len, c1, c.suf, c.pre, fun e => absurd e c.sup, fun s e => absurd e (c.any s)⟩
              · rcases p4 with p4 | p4
                · have := p4 (.text p) rfl; simp [Item.isStar] at this
                · have := p4 (.text q) rfl; simp [Item.isStar] at this
        split at h <;> try cases h
        rename_i lo hlo
        split at h <;> try cases h
        rename_i ro hro
        have hch := ha.2
        rw [List.isChain_append, List.isChain_append] at hch
        have adjL : ∀ z, L.getLast? = some z → z.isStar = true := by
          intro z hz
          have := hch.1.2.2 z hz (.text t) (by simp)
          simpa [Item.isStar] using this
        have adjR : ∀ z, R.head? = some z → z.isStar = true := by
          intro z hz
          have := hch.2.2 (.text t) (by simp) z hz
          simpa [Item.isStar] using this
        have sL := side L lo hlo ⟨fun i hi => ha.1 i (by simp [hi]), hch.1.1⟩ (Or.inr adjL)
        have sR := side R ro hro ⟨fun i hi => ha.1 i (by simp [hi]), hch.2.1⟩ (Or.inl adjR)
        have hopenside : lenOpt lo = none ∨ lenOpt ro = none := by
          rcases sL with ⟨rfl, rfl⟩ | ⟨l, rfl, _, h1, _⟩
          · rcases sR with ⟨rfl, rfl⟩ | ⟨l, rfl, _, h1, _⟩
            · simp at hlen2
            · exact Or.inr h1
          · exact Or.inl h1
        rw [newBTree_eq hopenside]
        have hlang : ∀ s, ItemsLang (L ++ [.text t] ++ R) s ↔ ∃ a c, s = a ++ t ++ c ∧ ItemsLang L a ∧ ItemsLang R c := by
          intro s
          rw [itemsLang_append]
          constructor
          · rintro ⟨x, c, rfl, h1, h2⟩
            obtain ⟨a, y, rfl, h3, h4⟩ := itemsLang_append.1 h1
            rw [itemsLang_singleton] at h4
            exact ⟨a, c, by rw [show y = t from h4], h3, h2⟩
          · rintro ⟨a, c, rfl, h1, h2⟩
            exact ⟨a ++ t, c, rfl, itemsLang_append.2 ⟨a, t, rfl, h1, itemsLang_singleton.2 rfl⟩, h2⟩
        have hdef : Decides (Matcher.btree (.text t) (optimizeOpt lo) (optimizeOpt ro) (lenOpt lo) (lenOpt ro) none).match (ItemsLang (L ++ [.text t] ++ R)) :=
          (decides_btree ht sL.decides.1 sR.decides.1 sL.decides.2 sR.decides.2).congr fun s => (hlang s).symm
        have hopt : optimizeMatcher (.btree (.text t) lo ro (lenOpt lo) (lenOpt ro) none) = optimizeBTree (.text t) (optimizeOpt lo) (optimizeOpt ro) (lenOpt lo) (lenOpt ro) none := by
          rw [optimizeMatcher]
        have noneL : optimizeOpt lo = none → L = [] := by
          intro h
          rcases sL with ⟨e, _⟩ | ⟨l, rfl, _⟩
          · exact e
          · cases h
        have noneR : optimizeOpt ro = none → R = [] := by
          intro h
          rcases sR with ⟨e, _⟩ | ⟨l, rfl, _⟩
          · exact e
          · cases h
        have shape : ∀ (P : List Item) (o : Option Matcher), SideS P o → ∀ x, optimizeOpt o = some x → (∀ s, x = .suffix s → P = [.star [], .text s]) ∧
            (∀ p, x = .prefix p → P = [.text p, .star []]) ∧ (x = .super → P = [.star []]) ∧ (∀ s, x = .any s → P = [.star s]) := by
          intro P o sP x hx
          rcases sP with ⟨_, rfl⟩ | ⟨l', rfl, _, _, _, q⟩
          · cases hx
          · simp only [optimizeOpt, Option.some.injEq] at hx
            subst hx; exact q
        have L3 := shape L lo sL
        have R3 := shape R ro sR
        have fin : ∀ m', m' = optimizeBTree (.text t) (optimizeOpt lo) (optimizeOpt ro) (lenOpt lo) (lenOpt ro) none →
            (Decides m'.match (ItemsLang (L ++ [.text t] ++ R)) ∨ ∃ p q, L ++ [.text t] ++ R = [.text p, .star [], .text q] ∧ m' = .prefixSuffix p q) ∧
            (∀ s, m' = .suffix s → L ++ [.text t] ++ R = [.star [], .text s]) ∧ (∀ p, m' = .prefix p → L ++ [.text t] ++ R = [.text p, .star []]) ∧ m' ≠ .super ∧
            ∀ s, m' ≠ .any s := by
          intro m' e
          generalize optimizeOpt lo = lo' at *
          generalize optimizeOpt ro = ro' at *
          unfold optimizeBTree at e
          simp only at e
          split at e
          · rw [noneL rfl, noneR rfl] at hlen2; simp at hlen2
          · subst e
            refine ⟨Or.inl ?_, nofun, nofun, nofun, nofun⟩
            rw [(L3 _ rfl).2.2.1 rfl, (R3 _ rfl).2.2.1 rfl] at hlang ⊢
            intro s
            refine ⟨_, rfl, ?_⟩
            rw [hlang]
            simp only [bne_iff_ne, ne_eq, Bool.not_eq_false, itemsLang_singleton, star_true, and_self, and_true]
            exact containsStr_iff
          · subst e
            have e1 := (L3 _ rfl).2.2.1 rfl
            have e2 := noneR rfl
            subst e1 e2
            refine ⟨Or.inl ?_, ?_, nofun, nofun, nofun⟩
            · intro s
              refine ⟨_, rfl, ?_⟩
              rw [hlang, hasSuffix_iff]
              simp [itemsLang_singleton, star_true, ItemsLang]
            · intro s e; cases e; rfl
          · subst e
            have e1 := (R3 _ rfl).2.2.1 rfl
            have e2 := noneL rfl
            subst e1 e2
            refine ⟨Or.inl ?_, nofun, ?_, nofun, nofun⟩
            · intro s
              refine ⟨_, rfl, ?_⟩
              rw [hlang, hasPrefix_iff]
              simp [itemsLang_singleton, star_true, ItemsLang]
            · intro s e; cases e; rfl
          · subst e
            refine ⟨Or.inr ⟨_, _, ?_, rfl⟩, nofun, nofun, nofun, nofun⟩
            rw [(R3 _ rfl).1 _ rfl, noneL rfl]; rfl
          · subst e
            refine ⟨Or.inr ⟨_, _, ?_, rfl⟩, nofun, nofun, nofun, nofun⟩
            rw [(L3 _ rfl).2.1 _ rfl, noneR rfl]; rfl
          · subst e
            rename_i seps
            have e1 := (L3 _ rfl).2.2.2 _ rfl
            have e2 := noneR rfl
            subst e1 e2
            refine ⟨Or.inl ?_, nofun, nofun, nofun, nofun⟩
            intro s
            refine ⟨_, rfl, ?_⟩
            rw [hlang]
            simp only [itemsLang_singleton, suffixAnyMatch]
            constructor
            · intro h
              split at h
              · cases h
              · rename_i h1
                simp only [Bool.not_eq_true', Bool.not_eq_false] at h1
                obtain ⟨a, rfl⟩ := hasSuffix_iff.1 h1
                refine ⟨a, [], by simp, ?_, rfl⟩
                rw [List.length_append, Nat.add_sub_cancel, List.take_left] at h
                exact (indexAnyRunes_isNone a seps).1 h
            · rintro ⟨a, c, rfl, h1, rfl⟩
              rw [List.append_nil, if_neg (by simpa using hasSuffix_iff.2 ⟨a, rfl⟩), List.length_append, Nat.add_sub_cancel, List.take_left]
              exact (indexAnyRunes_isNone a seps).2 h1
          · subst e
            rename_i seps
            have e1 := (R3 _ rfl).2.2.2 _ rfl
            have e2 := noneL rfl
            subst e1 e2
            refine ⟨Or.inl ?_, nofun, nofun, nofun, nofun⟩
            intro s
            refine ⟨_, rfl, ?_⟩
            rw [hlang]
            simp only [itemsLang_singleton, prefixAnyMatch]
            constructor
            · intro h
              split at h
              · cases h
              · rename_i h1
                simp only [Bool.not_eq_true', Bool.not_eq_false] at h1
                obtain ⟨a, rfl⟩ := hasPrefix_iff.1 h1
                refine ⟨[], a, by simp, rfl, ?_⟩
                rw [List.drop_left] at h
                exact (indexAnyRunes_isNone a seps).1 h
            · rintro ⟨a, c, rfl, rfl, h1⟩
              rw [List.nil_append, if_neg (by simpa using hasPrefix_iff.2 ⟨c, rfl⟩), List.drop_left]
              exact (indexAnyRunes_isNone c seps).2 h1
          · subst e; exact ⟨Or.inl hdef, nofun, nofun, nofun, nofun⟩
        obtain ⟨f1, f2, f3, f4, f5⟩ := fin _ rfl
        rw [← hopt] at f1 f2 f3 f4 f5
        exact ⟨rfl, f1, f2, f3, f4, f5⟩

/-! ### Terms -/

/-- The part of a term that is a literal or a star. -/
def itemOf (seps : List Nat) : Term → Item
  | .chars cs => .text (textOf cs)
  | .any => .star seps
  | _ => .star []

theorem isStar_item {seps : List Nat} {t : Term} (h : plainTerm t = true) : (itemOf seps t).isStar = isStar t := by
  cases t <;> simp only [plainTerm, Bool.false_eq_true] at h <;> rfl

theorem item_ok {seps : List Nat} {t : Term} (h : t.ok false = true) : (itemOf seps t).Ok := by
  cases t <;> try trivial
  rename_i cs
  simp only [Term.ok] at h
  have h2 := h
  simp only [Bool.and_eq_true] at h2
  refine ⟨textOf_ne h, cs.map Ch.rune, ?_, rfl⟩
  intro r hr
  obtain ⟨c, hc, rfl⟩ := List.mem_map.1 hr
  exact Ch.ok_good (List.all_eq_true.1 h2.2 c hc)

theorem item_lang {seps : List Nat} {t : Term} (hp : plainTerm t = true) (h : t.ok false = true) (a : Str) : t.Lang seps (runesIn a) ↔ (itemOf seps t).Lang a := by
  cases t <;> simp only [plainTerm, Bool.false_eq_true] at hp
  · rename_i cs
    have hg : GoodText (textOf cs) := item_ok (seps := seps) h
    simp only [Term.ok, Bool.and_eq_true] at h
    simp only [Term.Lang, itemOf, Item.Lang]
    constructor
    · intro e
      refine hg.of_runes ?_
      rw [runesIn_textOf h.2]; exact e
    · rintro rfl; exact runesIn_textOf h.2
  · rfl
  · simp [Term.Lang, itemOf, Item.Lang]

theorem alternating_cons {t u : Term} {ts : List Term} : noTwoStars (t :: u :: ts) = (!(isStar t && isStar u) && noTwoStars (u :: ts)) := rfl

theorem plain_literal {t : Term} (hp : plainTerm t = true) (hs : isStar t = false) : ∃ cs, t = .chars cs := by
  cases t <;> simp_all [plainTerm, isStar]

theorem lang_items {seps : List Nat} : ∀ {ts : List Term}, okTerms false ts = true → ts.all plainTerm = true → noTwoStars ts = true → ∀ s,
    TermsLang seps ts (runesIn s) ↔ ItemsLang (ts.map (itemOf seps)) s
  | [], _, _, _, s => by
    simp only [TermsLang, List.map_nil, ItemsLang]
    constructor
    · intro h
      by_contra hs
      rw [runesIn_cons hs] at h; cases h
    · rintro rfl; rfl
  | t :: ts, hok, hp, hn, s => by
    simp only [okTerms, Bool.and_eq_true] at hok
    simp only [List.all_cons, Bool.and_eq_true] at hp
    have hn' : noTwoStars ts = true := by
      cases ts with
      | nil => rfl
      | cons u ts => rw [alternating_cons, Bool.and_eq_true] at hn; exact hn.2
    have ih := lang_items (seps := seps) hok.2 hp.2 hn'
    simp only [TermsLang, List.map_cons, ItemsLang]
    constructor
    · rintro ⟨u, v, e, h1, h2⟩
      obtain ⟨a, c, rfl, rfl, rfl⟩ := runesIn_split u s v e
      exact ⟨a, c, rfl, (item_lang hp.1 hok.1.1 a).1 h1, (ih c).1 h2⟩
    · rintro ⟨a, c, rfl, h1, h2⟩
      refine ⟨runesIn a, runesIn c, ?_, (item_lang hp.1 hok.1.1 a).2 h1, (ih c).2 h2⟩
      by_cases hs : isStar t = true
      · refine runesIn_append a.length a c (Nat.le_refl _) ?_
        cases ts with
        | nil =>
          have : c = [] := h2
          subst this; intro b hb; cases hb
        | cons u ts =>
          rw [alternating_cons, Bool.and_eq_true, hs] at hn
          simp only [Bool.true_and, Bool.not_eq_true'] at hn
          simp only [okTerms, Bool.and_eq_true] at hok
          simp only [List.all_cons, Bool.and_eq_true] at hp
          have hu := item_ok (seps := seps) hok.2.1.1
          obtain ⟨x, y, rfl, h3, _⟩ := h2
          obtain ⟨cs, rfl⟩ := plain_literal hp.2.1 hn.1
          have : x = textOf cs := h3
          subst this
          exact GoodText.start hu y
      · obtain ⟨cs, rfl⟩ := plain_literal hp.1 (by simpa using hs)
        have hg : GoodText (textOf cs) := item_ok (seps := seps) hok.1.1
        have : a = textOf cs := h1
        subst this
        have := hg.runes [] c
        rw [show runesIn ([] : Str) = [] from rfl] at this
        simpa using this

theorem matcherOf_item {seps : List Nat} {t : Term} (h : plainTerm t = true) : matcherOf seps t = (itemOf seps t).matcher := by
  cases t <;> simp only [plainTerm, Bool.false_eq_true] at h
  · rfl
  · simp [matcherOf, itemOf, Item.matcher]
  · simp [matcherOf, itemOf, Item.matcher]

theorem plain_flat {t : Term} (h : plainTerm t = true) : flatTerm t = true := by cases t <;> simp_all [plainTerm, flatTerm]

theorem chain_items {seps : List Nat} : ∀ {ts : List Term}, okTerms false ts = true → ts.all plainTerm = true → noTwoStars ts = true →
    (ts.map (itemOf seps)).IsChain fun a b => a.isStar ≠ b.isStar
  | [], _, _, _ => .nil
  | [t], _, _, _ => .singleton _
  | t :: u :: ts, hok, hp, hn => by
    have hok' : okTerms false (u :: ts) = true := by rw [okTerms, Bool.and_eq_true] at hok; exact hok.2
    have hp' : (u :: ts).all plainTerm = true := by rw [List.all_cons, Bool.and_eq_true] at hp; exact hp.2
    have hpt : plainTerm t = true := by rw [List.all_cons, Bool.and_eq_true] at hp; exact hp.1
    have hpu : plainTerm u = true := by rw [List.all_cons, Bool.and_eq_true] at hp'; exact hp'.1
    rw [alternating_cons, Bool.and_eq_true] at hn
    rw [List.map_cons, List.map_cons, List.isChain_cons_cons]
    refine ⟨?_, by simpa using chain_items hok' hp' hn.2⟩
    rw [isStar_item hpt, isStar_item hpu]
    simp only [okTerms, Bool.and_eq_true] at hok
    cases t <;> cases u <;> simp_all [isStar, apart, plainTerm]

/-- C91: a pattern of characters, `*` and `**` in which no star is next to a star. For all separators and for strings of any bytes, `Match` decides the documented
language, unless the pattern is a text, a star that excludes nothing, and a text that starts with an end of the first. -/
theorem C91_literals_and_stars (seps : List Nat) (ts : List Term) (hok : okTerms false ts = true) (hp : ts.all plainTerm = true) (hn : noTwoStars ts = true)
    (hends : endsApart seps ts = true) :
    ∃ m, globCompile (writeTerms ts) seps = .ok m ∧ ∀ s, ∃ b, m.match s = some b ∧ (b = true ↔ TermsLang seps ts (runesIn s)) := by
  obtain ⟨m, hm⟩ := compile_total seps _ (.pattern (nodes ts)) (Nat.le_refl _)
  refine ⟨m, by rw [globCompile, C75_parse_documented ts hok]; exact hm, ?_⟩
  have hterm : ∀ t ∈ ts, t.ok false = true ∧ plainTerm t = true := fun t ht => ⟨okTerms_mem hok t ht, List.all_eq_true.1 hp t ht⟩
  have halt : Alt (ts.map (itemOf seps)) := by
    refine ⟨?_, chain_items hok hp hn⟩
    intro i hi
    obtain ⟨t, ht, rfl⟩ := List.mem_map.1 hi
    exact item_ok (hterm t ht).1
  suffices h : Decides m.match (ItemsLang (ts.map (itemOf seps))) from fun s => by
    obtain ⟨b, h1, h2⟩ := h s
    exact ⟨b, h1, h2.trans (lang_items hok hp hn s).symm⟩
  have hpos := Node.size_pos (.pattern (nodes ts))
  obtain ⟨n, hn'⟩ : ∃ n, (Node.pattern (nodes ts)).size = n + 1 := ⟨_, (Nat.succ_pred_eq_of_pos hpos).symm⟩
  rw [hn'] at hm
  simp only [compile] at hm
  split at hm
  · rename_i h0
    simp only [Res.ok.injEq] at hm
    subst hm
    have : ts = [] := by cases ts with
      | nil => rfl
      | cons t ts => simp [nodes] at h0
    subst this
    intro s
    exact ⟨_, rfl, by simp [ItemsLang]⟩
  · split at hm <;> try cases hm
    rename_i ms hms
    rw [nodes_eq] at hms
    have := compileChildren_map (k := matcherOf seps) (fun x hx m hm => compile_term (hterm x hx).1 (plain_flat (hterm x hx).2) hm) hms
    subst this
    have he : ts.map (matcherOf seps) = (ts.map (itemOf seps)).map Item.matcher := by
      rw [List.map_map]
      exact List.map_congr_left fun t ht => matcherOf_item (hterm t ht).2
    rw [he] at hm
    split at hm <;> try cases hm
    rename_i ns hns
    have := minimize_alt halt.2 hns
    subst this
    split at hm
    · rename_i m' hm'
      simp only [Res.ok.injEq] at hm
      subst hm
      rcases stars_compile _ _ _ hm' halt with ⟨i, e, rfl⟩ | ⟨_, c⟩
      · rw [e, Item.opt]
        exact (Item.decides i).congr fun s => itemsLang_singleton.symm
      · rcases c.ok with h | ⟨p, q, e, eo⟩
        · exact h
        · rw [eo, e]
          have hno : noOverlap p q = true := by
            rw [List.map_eq_cons_iff] at e
            obtain ⟨t1, r1, rfl, e1, e⟩ := e
            rw [List.map_eq_cons_iff] at e
            obtain ⟨t2, r2, rfl, e2, e⟩ := e
            rw [List.map_eq_cons_iff] at e
            obtain ⟨t3, r3, rfl, e3, e⟩ := e
            rw [List.map_eq_nil_iff] at e
            subst e
            cases t1 <;> simp only [itemOf, reduceCtorEq, Item.text.injEq] at e1
            cases t3 <;> simp only [itemOf, reduceCtorEq, Item.text.injEq] at e3
            subst e1 e3
            have hp2 := (hterm t2 (by simp)).2
            cases t2 <;> simp only [plainTerm, Bool.false_eq_true] at hp2 <;> simp only [itemOf, reduceCtorEq, Item.star.injEq] at e2
            · subst e2
              simpa [endsApart, theText, isStar, excludes] using hends
            · simpa [endsApart, theText, isStar, excludes] using hends
          intro s
          refine ⟨_, rfl, ?_⟩
          simp only [Bool.and_eq_true, hasPrefix_iff, hasSuffix_iff]
          constructor
          · rintro ⟨⟨c, h1⟩, ⟨a, h2⟩⟩
            obtain ⟨b, rfl⟩ := noOverlap_spec hno h1 h2
            exact ⟨p, b ++ q, by simp, rfl, b, q, rfl, star_true, itemsLang_singleton.2 rfl⟩
          · rintro ⟨a, c, rfl, rfl, b, d, rfl, _, h4⟩
            rw [itemsLang_singleton] at h4
            have : d = q := h4
            subst this
            exact ⟨⟨_, rfl⟩, a ++ b, by simp⟩
    · rename_i hno; exact absurd hm (hno m)

/-- The hypotheses are met: `/vault/*/note-*.txt` with the separator `/`, and `é**é*` with two separators. -/
example : okTerms false [.chars [.plain 47, .plain 97, .plain 47], .any, .chars [.plain 45], .any, .chars [.plain 46, .plain 116]] = true ∧
    [Term.chars [.plain 47, .plain 97, .plain 47], .any, .chars [.plain 45], .any, .chars [.plain 46, .plain 116]].all plainTerm = true ∧
    noTwoStars [.chars [.plain 47, .plain 97, .plain 47], .any, .chars [.plain 45], .any, .chars [.plain 46, .plain 116]] = true ∧
    endsApart [47] [.chars [.plain 47, .plain 97, .plain 47], .any, .chars [.plain 45], .any, .chars [.plain 46, .plain 116]] = true := by decide

example : okTerms false [.chars [.plain 233], .super, .chars [.plain 233], .any] = true ∧ [Term.chars [.plain 233], .super, .chars [.plain 233], .any].all plainTerm = true ∧
    noTwoStars [.chars [.plain 233], .super, .chars [.plain 233], .any] = true ∧ endsApart [47, 46] [.chars [.plain 233], .super, .chars [.plain 233], .any] = true := by decide

/-! ### A text, a star that excludes nothing, and a text -/

theorem prefix_suffix_compile {n : Nat} {p q : Str} {m : Matcher} (h : compileMatchers n [.text p, .super, .text q] = .ok m) : optimizeMatcher m = .prefixSuffix p q := by
  have hg : glueMatchers [.text p, .super, .text q] = none := glue_alt (is := [.text p, .star [], .text q]) (by simp [Item.isStar])
  have hg1 : glueMatchers [.text p, .super] = none := glue_alt (is := [.text p, .star []]) (by simp [Item.isStar])
  have hg2 : glueMatchers [.super, .text q] = none := glue_alt (is := [.star [], .text q]) (by simp [Item.isStar])
  obtain ⟨n, rfl⟩ : ∃ k, n = k + 1 := by cases n with
    | zero => cases h
    | succ k => exact ⟨k, rfl⟩
  have small : ∀ (a : Str), optimizeMatcher (newBTree (.text a) none (some .super)) = .prefix a ∧ optimizeMatcher (newBTree (.text a) (some .super) none) = .suffix a ∧
      (newBTree (.text a) none (some .super)).len = none ∧ (newBTree (.text a) (some .super) none).len = none := by
    intro a; rw [newBTree_eq (Or.inr rfl), newBTree_eq (Or.inl rfl)]; exact ⟨rfl, rfl, rfl, rfl⟩
  have c1 : ∀ r, compileMatchers n [.text p, .super] = .ok r → r = newBTree (.text p) none (some .super) := by
    intro r hr
    cases n with
    | zero => cases hr
    | succ n =>
      rw [compileMatchers, hg1] at hr
      simp [chooseValue, Matcher.len] at hr
      cases n with
      | zero => simp [compileMatchers] at hr
      | succ n => simp [compileMatchers] at hr; exact hr.symm
      all_goals simp
  have c2 : ∀ r, compileMatchers n [.super, .text q] = .ok r → r = newBTree (.text q) (some .super) none := by
    intro r hr
    cases n with
    | zero => cases hr
    | succ n =>
      rw [compileMatchers, hg2] at hr
      simp [chooseValue, Matcher.len] at hr
      cases n with
      | zero => simp [compileMatchers] at hr
      | succ n => simp [compileMatchers] at hr; exact hr.symm
      all_goals simp
  rw [compileMatchers, hg] at h
  · simp only [chooseValue, Matcher.len] at h
    by_cases hl : (runesOf p).length ≤ (runesOf q).length
    · simp only [ge_iff_le, hl, if_true] at h
      simp at h
      split at h <;> try cases h
      rename_i lo hlo
      split at hlo <;> try cases hlo
      rename_i l hl'
      have := c1 _ hl'
      subst this
      rw [newBTree_eq (Or.inl (by simpa [lenOpt] using (small p).2.2.1)), optimizeMatcher]
      simp [optimizeOpt, (small p).1, optimizeBTree]
    · simp only [ge_iff_le, hl, if_false] at h
      simp at h
      split at h <;> try cases h
      rename_i lo hlo
      split at hlo <;> try cases hlo
      rename_i l hl'
      have := c2 _ hl'
      subst this
      rw [newBTree_eq (Or.inr (by simpa [lenOpt] using (small q).2.2.2)), optimizeMatcher]
      simp [optimizeOpt, (small q).2.1, optimizeBTree]
  · simp

/-- C91, the exception: `p**q` matches every string that starts with `p` and ends with `q`, even if they overlap in it. -/
theorem C91_text_star_text (seps : List Nat) (cs ds : List Ch) (t : Term) (ht : t = .super ∨ (t = .any ∧ seps = [])) (hok : okTerms false [.chars cs, t, .chars ds] = true) :
    ∃ m, globCompile (writeTerms [.chars cs, t, .chars ds]) seps = .ok m ∧
      ∀ s, ∃ b, m.match s = some b ∧ (b = true ↔ (∃ c, s = textOf cs ++ c) ∧ ∃ a, s = a ++ textOf ds) := by
  obtain ⟨m, hm⟩ := compile_total seps _ (.pattern (nodes [.chars cs, t, .chars ds])) (Nat.le_refl _)
  refine ⟨m, by rw [globCompile, C75_parse_documented _ hok]; exact hm, ?_⟩
  have hi : itemOf seps t = .star [] := by rcases ht with rfl | ⟨rfl, rfl⟩ <;> rfl
  have hpt : plainTerm t = true := by rcases ht with rfl | ⟨rfl, rfl⟩ <;> rfl
  have hterm : ∀ x ∈ [Term.chars cs, t, .chars ds], x.ok false = true ∧ plainTerm x = true := fun x hx => ⟨okTerms_mem hok x hx, by
    simp only [List.mem_cons, List.not_mem_nil, or_false] at hx
    rcases hx with rfl | rfl | rfl
    · rfl
    · exact hpt
    · rfl⟩
  suffices h : m = .prefixSuffix (textOf cs) (textOf ds) by
    subst h
    intro s
    exact ⟨_, rfl, by simp only [Bool.and_eq_true, hasPrefix_iff, hasSuffix_iff]⟩
  have hpos := Node.size_pos (.pattern (nodes [.chars cs, t, .chars ds]))
  obtain ⟨n, hn'⟩ : ∃ n, (Node.pattern (nodes [.chars cs, t, .chars ds])).size = n + 1 := ⟨_, (Nat.succ_pred_eq_of_pos hpos).symm⟩
  rw [hn'] at hm
  simp only [compile] at hm
  split at hm
  · rename_i h0; simp [nodes] at h0
  · split at hm <;> try cases hm
    rename_i ms hms
    rw [nodes_eq] at hms
    have := compileChildren_map (k := matcherOf seps) (fun x hx m hm => compile_term (hterm x hx).1 (plain_flat (hterm x hx).2) hm) hms
    subst this
    have he : [Term.chars cs, t, .chars ds].map (matcherOf seps) = ([.text (textOf cs), .star [], .text (textOf ds)] : List Item).map Item.matcher := by
      simp only [List.map_cons, List.map_nil, matcherOf_item hpt, hi]; rfl
    rw [he] at hm
    split at hm <;> try cases hm
    rename_i ns hns
    have := minimize_alt (by simp [Item.isStar]) hns
    subst this
    split at hm
    · rename_i m' hm'
      simp only [Res.ok.injEq] at hm
      subst hm
      exact prefix_suffix_compile hm'
    · rename_i hno; exact absurd hm (hno m)

/-- `ab**ba` matches `aba`. -/
example : okTerms false [.chars [.plain 97, .plain 98], .super, .chars [.plain 98, .plain 97]] = true := by decide

end Verif.Glob
