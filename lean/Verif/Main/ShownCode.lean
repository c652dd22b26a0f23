import Verif.Main.StreamsProps
import Verif.Cmds.TrimProps
import Verif.QR.AnyGlyphs
/-
C161: for which values `show --qrcode` draws the code of the value.
-/
namespace Verif.Main
open Repo Repo.Spec Closest Cmds Cmds.Spec
open Glob (runesIn)

/-! ## Specification -/

/-- The value has no colon and does not start or end with white space. -/
def Drawable (v : Str) : Prop := 58 ∉ v ∧ (∀ r, (runesIn v).head? = some r → r ∉ whiteSpace) ∧ ∀ r, (runesIn v).getLast? = some r → r ∉ whiteSpace

/-! ## Proofs -/

theorem chunksAux_runes : ∀ (n : Nat) (s : Str), (chunksAux n s).map Prod.snd = (runesAux n s).map Prod.fst
  | 0, s => by cases s <;> rfl
  | n + 1, [] => rfl
  | n + 1, b :: s => by rw [chunksAux, runesAux, List.map_cons, List.map_cons, chunksAux_runes n]

theorem chunks_runes (s : Str) : (chunks s).map Prod.snd = runesIn s := chunksAux_runes _ s

theorem chunks_ne : ∀ (n : Nat) (s : Str), ∀ c ∈ chunksAux n s, c.1 ≠ []
  | 0, s, c, h => by cases s <;> cases h
  | n + 1, [], c, h => by cases h
  | n + 1, b :: s, c, h => by
    rw [chunksAux] at h
    rcases List.mem_cons.1 h with rfl | h
    · have := (decodeRune_size (b :: s)).2 (by simp)
      obtain ⟨k, hk⟩ : ∃ k, (decodeRune (b :: s)).2 = k + 1 := ⟨(decodeRune (b :: s)).2 - 1, by omega⟩
      simp [hk]
    · exact chunks_ne n _ c h

/-- The chunks that remain. -/
def kept (cs : List (Str × Nat)) : List (Str × Nat) := ((cs.dropWhile fun c => isSpace c.2).reverse.dropWhile fun c => isSpace c.2).reverse

theorem kept_sublist (cs : List (Str × Nat)) : List.Sublist (kept cs) cs := by
  unfold kept
  have h := (List.dropWhile_sublist (fun c : Str × Nat => isSpace c.2) (l := (cs.dropWhile fun c => isSpace c.2).reverse)).reverse
  rw [List.reverse_reverse] at h
  exact h.trans (List.dropWhile_sublist _)

theorem trim_kept (s : Str) : trimSpace s = (kept (chunks s)).flatMap Prod.fst := rfl

theorem kept_self (cs : List (Str × Nat)) : kept cs = cs ↔ (∀ c, cs.head? = some c → isSpace c.2 = false) ∧ ∀ c, cs.getLast? = some c → isSpace c.2 = false := by
  constructor
  · intro h
    have h1 : cs.dropWhile (fun c => isSpace c.2) = cs := by
      apply List.Sublist.eq_of_length (List.dropWhile_sublist _)
      have a := (List.dropWhile_sublist (fun c : Str × Nat => isSpace c.2) (l := cs)).length_le
      have b := (List.dropWhile_sublist (fun c : Str × Nat => isSpace c.2) (l := (cs.dropWhile fun c => isSpace c.2).reverse)).length_le
      have e := congrArg List.length h
      unfold kept at e
      simp only [List.length_reverse] at e b
      omega
    constructor
    · intro c hc
      cases cs with
      | nil => cases hc
      | cons x cs =>
        cases hc
        cases hx : isSpace c.2 with
        | false => rfl
        | true =>
          rw [List.dropWhile_cons, hx, if_pos rfl] at h1
          have a := (List.dropWhile_sublist (fun c : Str × Nat => isSpace c.2) (l := cs)).length_le
          rw [h1] at a
          simp at a
    · intro c hc
      unfold kept at h
      rw [h1] at h
      have h2 : cs.reverse.dropWhile (fun c => isSpace c.2) = cs.reverse := by
        have := congrArg List.reverse h
        rwa [List.reverse_reverse] at this
      rw [← List.head?_reverse] at hc
      cases hr : cs.reverse with
      | nil => rw [hr] at hc; cases hc
      | cons x xs =>
        rw [hr] at hc h2
        cases hc
        cases hx : isSpace c.2 with
        | false => rfl
        | true =>
          rw [List.dropWhile_cons, hx, if_pos rfl] at h2
          have a := (List.dropWhile_sublist (fun c : Str × Nat => isSpace c.2) (l := xs)).length_le
          rw [h2] at a
          simp at a
  · rintro ⟨h1, h2⟩
    have a := dropWhile_left (fun c : Str × Nat => isSpace c.2) [] cs (by simp) h1
    have b := dropWhile_left (fun c : Str × Nat => isSpace c.2) [] cs.reverse (by simp) (by intro x hx; rw [List.head?_reverse] at hx; exact h2 x hx)
    unfold kept
    rw [List.nil_append] at a b
    rw [a, b, List.reverse_reverse]

theorem flatMap_sublist {α β : Type} (f : α → List β) : ∀ {xs ys : List α}, List.Sublist xs ys → List.Sublist (xs.flatMap f) (ys.flatMap f) := by
  intro xs ys h
  induction h with
  | slnil => exact List.Sublist.refl _
  | cons a _ ih => rw [List.flatMap_cons]; exact ih.trans (List.sublist_append_right _ _)
  | cons_cons a _ ih => rw [List.flatMap_cons, List.flatMap_cons]; exact (List.Sublist.refl _).append ih

theorem flatMap_short {xs ys : List (Str × Nat)} (h : List.Sublist xs ys) (hne : ∀ c ∈ ys, c.1 ≠ []) (e : (xs.flatMap Prod.fst).length = (ys.flatMap Prod.fst).length) : xs = ys := by
  induction h with
  | slnil => rfl
  | @cons xs ys a h ih =>
    have hl := (flatMap_sublist Prod.fst h).length_le
    have ha := List.length_pos_iff.2 (hne a (by simp))
    rw [List.flatMap_cons, List.length_append] at e
    omega
  | @cons_cons xs ys a h ih =>
    rw [List.flatMap_cons, List.flatMap_cons, List.length_append, List.length_append] at e
    rw [ih (fun c hc => hne c (by simp [hc])) (by omega)]

theorem trim_self (v : Str) : trimSpace v = v ↔ (∀ r, (runesIn v).head? = some r → r ∉ whiteSpace) ∧ ∀ r, (runesIn v).getLast? = some r → r ∉ whiteSpace := by
  have hk : trimSpace v = v ↔ kept (chunks v) = chunks v := by
    constructor
    · intro h
      apply flatMap_short (kept_sublist (chunks v)) (chunks_ne _ _)
      rw [← trim_kept, h, chunks_flatten]
    · intro h; rw [trim_kept, h, chunks_flatten]
  rw [hk, kept_self, ← chunks_runes, List.head?_map, List.getLast?_map]
  have ns : ∀ r, isSpace r = false ↔ r ∉ whiteSpace := by
    intro r; rw [← isSpace_iff]; simp
  refine and_congr ?_ ?_
  · cases (chunks v).head? with
    | none => simp
    | some c => simp [ns]
  · cases (chunks v).getLast? with
    | none => simp
    | some c => simp [ns]

theorem trim_sublist (v : Str) : List.Sublist (trimSpace v) v := by
  have := flatMap_sublist Prod.fst (kept_sublist (chunks v))
  rwa [chunks_flatten, ← trim_kept] at this

theorem afterFirst_length {c : UInt8} {s : Str} (h : c ∈ s) : (afterFirst c s).length < s.length := by
  unfold afterFirst
  rw [if_pos h, List.length_drop]
  have := (List.dropWhile_sublist (fun b : UInt8 => b ≠ c) (l := s)).length_le
  have hp := List.length_pos_iff.2 (List.ne_nil_of_mem h)
  omega

/-- What is drawn of a value is the value. -/
theorem drawn_self (v : Str) : afterFirst 58 (trimSpace v) = v ↔ Drawable v := by
  unfold Drawable
  rw [← trim_self]
  constructor
  · intro h
    have hl := (trim_sublist v).length_le
    have hc : 58 ∉ trimSpace v := by
      intro hc
      have := afterFirst_length hc
      rw [h] at this
      omega
    unfold afterFirst at h
    rw [if_neg hc] at h
    exact ⟨h ▸ hc, h⟩
  · rintro ⟨h1, h2⟩
    rw [h2, afterFirst, if_neg h1]

/-! ## The theorems -/

/-- **C161** `show --qrcode`, where the selected line is the field name (which may be empty) and a value: the command ends well with the code of this value exactly if the value fits into a
code, has no colon and no white space at its ends. -/
theorem C161_value (other expand : Str → Str) (w : World) (root : Str) (es : List (Str × Node)) (hs : IsStore w (expand root) es) (a : ShowArgs)
    (hp : a.passName ≠ []) (hq : a.qrCode = true) (o : Obs) (h : ShowObs other expand w root a o) (hm : ¬ NoMatch other es a.passName) :
    ∃ f text, Entry es f text ∧ BestMatch other es a.passName f ∧ ∀ ts b v, Reads text ts b → selected a.line a.field ts = a.field ++ v → a.field ++ v ≠ [] →
      ((o.ends = .ok ∧ ∃ picture, QR.generate v .L = some picture ∧ o.stdout = shown a f ts b ++ picture) ↔ Drawable v ∧ v.length ≤ QR.longest v .L) := by
  rcases C125_show other expand w root es hs a hp o h with ⟨_, _, hn⟩ | ⟨f, text, he, hb, H⟩
  · exact absurd hn hm
  · refine ⟨f, text, he, hb, fun ts b v hr hsel hne => ?_⟩
    obtain ⟨-, -, H3⟩ := H ts b hr
    have hts : ¬ Main.Spec.tooShort a ts := by
      rintro ⟨_, _, hlt⟩
      rw [hsel, List.length_append] at hlt
      omega
    have hw : Main.Spec.wanted a ts = some (afterFirst 58 (trimSpace v)) := by
      unfold Main.Spec.wanted
      rw [if_pos hq, hsel, if_neg hne, List.drop_left]
    obtain ⟨H4, H5⟩ := H3 _ hts hw
    constructor
    · rintro ⟨hok, picture, hg, hout⟩
      have hfit : (afterFirst 58 (trimSpace v)).length ≤ QR.longest (afterFirst 58 (trimSpace v)) .L := by
        by_contra hc
        have := (H4 (by omega)).2
        rw [hok] at this
        cases this
      obtain ⟨p, hp1, hp2, _⟩ := H5 hfit
      rw [hout] at hp2
      obtain rfl := List.append_cancel_left hp2
      have := (QR.C157_determines _ (QR.C157_case .L).1 v (afterFirst 58 (trimSpace v)) .L .L picture hg hp1).1
      refine ⟨(drawn_self v).1 this.symm, ?_⟩
      by_contra hc
      have hn : QR.generate v .L = none := (QR.C110_crash_iff v _).2 (by dsimp only; omega)
      rw [hn] at hg
      cases hg
    · rintro ⟨hd, hfit⟩
      rw [(drawn_self v).2 hd] at H5
      obtain ⟨p, hp1, hp2, hp3⟩ := H5 hfit
      exact ⟨hp3, p, hp1, hp2⟩

/-- **C161** The line with the number `n`, if no field is given. -/
theorem C161_number (n : Nat) (ts : List Str) (l : Str) (h : ts[n]? = some l) : selected ((n : Int) + 1) [] ts = l := by
  have key : ∀ (ts : List Str) (k n : Nat), ts[n]? = some l →
      ((ts.zipIdx k).map fun p => (p.2 + 1, p.1)).filter (fun m : Nat × Str => ((m.1 : Int) = ((k + n : Nat) : Int) + 1 || (!([] : Str).isEmpty && ([] : Str).isPrefixOf m.2))) = [(k + n + 1, l)] := by
    intro ts
    induction ts with
    | nil => intro k n h; simp at h
    | cons t ts ih =>
      intro k n h
      rw [List.zipIdx_cons, List.map_cons, List.filter_cons]
      cases n with
      | zero =>
        simp only [List.getElem?_cons_zero, Option.some.injEq] at h
        subst h
        have : ((ts.zipIdx (k + 1)).map fun p => (p.2 + 1, p.1)).filter (fun m : Nat × Str => ((m.1 : Int) = ((k + 0 : Nat) : Int) + 1 || (!([] : Str).isEmpty && ([] : Str).isPrefixOf m.2))) = [] := by
          rw [List.filter_eq_nil_iff]
          intro m hm
          obtain ⟨p, hp, rfl⟩ := List.mem_map.1 hm
          have := List.le_snd_of_mem_zipIdx hp
          simp; omega
        rw [this]
        simp
      | succ n =>
        rw [List.getElem?_cons_succ] at h
        have := ih (k + 1) n h
        rw [show k + 1 + n = k + (n + 1) by omega] at this
        rw [if_neg (by simp; omega), this]
  unfold selected numbered
  have := key ts 0 n h
  rw [Nat.zero_add] at this
  rw [this]; rfl

/-- **C161** With `--field name`, and the line `name: value`, the code is never the one of the value: it starts with the blank. -/
theorem C161_field_false (other expand : Str → Str) (w : World) (root : Str) (es : List (Str × Node)) (hs : IsStore w (expand root) es) (a : ShowArgs)
    (hp : a.passName ≠ []) (hq : a.qrCode = true) (o : Obs) (h : ShowObs other expand w root a o) (hm : ¬ NoMatch other es a.passName) :
    ∃ f text, Entry es f text ∧ BestMatch other es a.passName f ∧ ∀ ts b v r, Reads text ts b → selected a.line a.field ts = a.field ++ lit ": " ++ v →
      (runesIn v).head? = some r → r ∉ whiteSpace → o.ends = .ok →
      ∃ v' picture, QR.generate (32 :: v') .L = some picture ∧ o.stdout = shown a f ts b ++ picture ∧ QR.generate v .L ≠ some picture := by
  rcases C125_show other expand w root es hs a hp o h with ⟨_, _, hn⟩ | ⟨f, text, he, hb, H⟩
  · exact absurd hn hm
  · refine ⟨f, text, he, hb, fun ts b v r hr hsel hhead hns hok => ?_⟩
    obtain ⟨-, -, H3⟩ := H ts b hr
    have hts : ¬ Main.Spec.tooShort a ts := by
      rintro ⟨_, _, hlt⟩
      rw [hsel, List.length_append, List.length_append] at hlt
      omega
    have hw : Main.Spec.wanted a ts = some (afterFirst 58 (trimSpace (58 :: 32 :: v))) := by
      unfold Main.Spec.wanted
      rw [if_pos hq, hsel, if_neg (by simp [lit]), List.append_assoc, List.drop_left]
      rfl
    have hv : ∃ v', afterFirst 58 (trimSpace (58 :: 32 :: v)) = 32 :: v' := by
      have hc : chunks (58 :: 32 :: v) = ([58], 58) :: ([32], 32) :: chunks v := by
        unfold chunks
        rfl
      have hk : ∃ x, kept (chunks (58 :: 32 :: v)) = ([58], 58) :: ([32], 32) :: x := by
        rw [hc]
        rw [← chunks_runes, List.head?_map] at hhead
        cases hcv : chunks v with
        | nil => rw [hcv] at hhead; cases hhead
        | cons c ys =>
          rw [hcv] at hhead
          simp only [List.head?_cons, Option.map_some, Option.some.injEq] at hhead
          have hsp : isSpace c.2 = false := by
            rw [hhead]
            cases hx : isSpace r with
            | false => rfl
            | true => exact absurd ((isSpace_iff r).1 hx) hns
          unfold kept
          rw [List.dropWhile_cons, if_neg (by decide)]
          simp only [List.reverse_cons, List.append_assoc, List.cons_append, List.nil_append]
          rw [List.dropWhile_append]
          split
          · rw [List.dropWhile_cons, if_neg (by simp [hsp])]
            exact ⟨_, rfl⟩
          · refine ⟨c :: (ys.reverse.dropWhile fun c => isSpace c.2).reverse, ?_⟩
            simp
      obtain ⟨x, hx⟩ := hk
      rw [trim_kept, hx]
      refine ⟨x.flatMap Prod.fst, ?_⟩
      simp [afterFirst]
    obtain ⟨v', hv'⟩ := hv
    rw [hv'] at hw
    obtain ⟨H4, H5⟩ := H3 _ hts hw
    have hfit : (32 :: v' : Str).length ≤ QR.longest (32 :: v') .L := by
      by_contra hc
      have := (H4 (by omega)).2
      rw [hok] at this
      cases this
    obtain ⟨p, hp1, hp2, _⟩ := H5 hfit
    refine ⟨v', p, hp1, hp2, fun hg => ?_⟩
    have := (QR.C157_determines _ (QR.C157_case .L).1 v (32 :: v') .L .L p hg hp1).1
    rw [this] at hhead
    have h32 : (runesIn (32 :: v')).head? = some 32 := rfl
    rw [h32] at hhead
    cases hhead
    exact hns (by decide)

/-- Values: `s3cret` is drawn, `a:b` and `x ` are not; the number selects the line. -/
theorem C161_case : Drawable (lit "s3cret") ∧ ¬ Drawable (lit "a:b") ∧ ¬ Drawable (lit "x ") ∧ selected 1 [] [lit "s3cret", lit "user: me"] = lit "s3cret" ∧
    selected 0 (lit "user") [lit "s3cret", lit "user: me"] = lit "user" ++ lit ": " ++ lit "me" := by
  refine ⟨?_, ?_, ?_, by decide, by decide⟩
  · rw [← drawn_self]; decide
  · rw [← drawn_self]; decide
  · rw [← drawn_self]; decide

end Verif.Main
