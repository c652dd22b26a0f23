import Verif.Closest.HistoryProps
import Mathlib.SetTheory.Cardinal.Finite
/-
C156: two searches for the same query, for the same or different numbers of results.
-/
namespace Verif.Closest
open Spec

theorem ranking_perm {x : Idx} {sizes : List Nat} {q : Str} {all all' : List Str} (n1 : all.Nodup) (m1 : ∀ k, k ∈ all ↔ x.Found sizes q k) (n2 : all'.Nodup)
    (m2 : ∀ k, k ∈ all' ↔ x.Found sizes q k) : all.Perm all' := (List.perm_ext_iff_of_nodup n1 n2).2 fun k => by rw [m1, m2]

theorem ranking_scores {x : Idx} {sizes : List Nat} {q : Str} {all all' : List Str} (n1 : all.Nodup) (m1 : ∀ k, k ∈ all ↔ x.Found sizes q k)
    (s1 : all.Pairwise fun a b => x.score sizes q b ≤ x.score sizes q a) (n2 : all'.Nodup) (m2 : ∀ k, k ∈ all' ↔ x.Found sizes q k)
    (s2 : all'.Pairwise fun a b => x.score sizes q b ≤ x.score sizes q a) : all.map (x.score sizes q) = all'.map (x.score sizes q) := by
  refine List.Perm.eq_of_pairwise (le := fun a b => b ≤ a) (fun a b _ _ h1 h2 => Nat.le_antisymm h2 h1) ?_ ?_ ((ranking_perm n1 m1 n2 m2).map _)
  · rwa [List.pairwise_map]
  · rwa [List.pairwise_map]

/-- **C156** Who asks for `n` results gets the first `n` of what he may get when he asks for more, and every such start; what `Closest` returns is the first result of such a list, or the empty
string if it is empty. This holds after any calls of `New` and `Add`. -/
theorem C156_more (other : Str → Str) (sizes : List Nat) (words : List Str) (more : List (List Str)) (cm : CM)
    (hcm : ((new other words (sizes.map Int.ofNat)).bind fun cm => more.foldlM (CM.add other) cm) = some cm) (q : Str) :
    (∀ n m : Nat, n ≤ m → m ≤ 2 ^ 44 → ∀ out, ClosestN cm q n out ↔ ∃ out', ClosestN cm q m out' ∧ out = out'.take n) ∧
    ∀ m : Nat, 1 ≤ m → m ≤ 2 ^ 44 → ∀ out, Closest cm q out ↔ ∃ out', ClosestN cm q m out' ∧ out = out'.headD [] := by
  obtain ⟨c, e, h⟩ := C94_search other sizes words more
  rw [hcm] at e
  obtain rfl : cm = c := by simpa using e
  obtain ⟨-, -, h3, h4, h5⟩ := h q
  refine ⟨fun n m hnm hm out => ?_, fun m hm1 hm out => ?_⟩
  · rw [h4]
    constructor
    · rintro ⟨-, hf, all, hall, rfl⟩
      refine ⟨all.take m, (h4 _ _).2 ⟨⟨by omega, by omega⟩, hf, all, hall, by simp⟩, ?_⟩
      rw [List.take_take, Nat.min_eq_left hnm]; simp
    · rintro ⟨out', ho, rfl⟩
      obtain ⟨-, hf, all, hall, rfl⟩ := (h4 _ _).1 ho
      refine ⟨⟨by omega, by omega⟩, hf, all, hall, ?_⟩
      simp only [Int.toNat_natCast]
      rw [List.take_take, Nat.min_eq_left hnm]
  · have hd : ∀ all : List Str, (all.take m).headD [] = all.headD [] := by
      intro all
      obtain ⟨m', rfl⟩ := Nat.exists_eq_add_of_le' hm1
      cases all <;> rfl
    constructor
    · intro hc
      obtain ⟨hf, hb⟩ := (h3 out).1 hc
      obtain ⟨m0, pl, hM, hR, rfl⟩ := hc
      have : ClosestN cm q m ((pl.map Prod.fst).take m) := ⟨⟨by omega, by omega⟩, m0, pl, hM, hR, by rw [takeLoop_eq]; simp⟩
      exact ⟨_, this, (hd _).symm⟩
    · rintro ⟨out', ⟨-, m0, pl, hM, hR, rfl⟩, rfl⟩
      refine ⟨m0, pl, hM, hR, ?_⟩
      rw [takeLoop_eq]
      simp only [Int.ofNat_zero, Int.sub_zero, Int.toNat_natCast, Nat.cast_zero]
      exact hd _

/-- **C156** Two calls for the same query and number give lists of the same length, with the same scores at the same places, whatever the orders of the maps and goroutines; only words of equal
score may be exchanged: if no two words found have the same score, the lists are equal. There are as many results as were asked for, or all the words found. -/
theorem C156_same_scores (other : Str → Str) (sizes : List Nat) (words : List Str) (more : List (List Str)) (cm : CM)
    (hcm : ((new other words (sizes.map Int.ofNat)).bind fun cm => more.foldlM (CM.add other) cm) = some cm) (q : Str) (n : Nat) (out out' : List Str)
    (h : ClosestN cm q n out) (h' : ClosestN cm q n out') :
    let x := history other sizes (words :: more)
    out.length = min n (Nat.card {k // x.Found sizes q k}) ∧ out.map (x.score sizes q) = out'.map (x.score sizes q) ∧
    ((∀ k k', x.Found sizes q k → x.Found sizes q k' → x.score sizes q k = x.score sizes q k' → k = k') → out = out') := by
  intro x
  obtain ⟨c, e, hs⟩ := C94_search other sizes words more
  rw [hcm] at e
  obtain rfl : cm = c := by simpa using e
  obtain ⟨-, -, -, h4, -⟩ := hs q
  obtain ⟨-, -, all, ⟨n1, m1, s1⟩, rfl⟩ := (h4 _ _).1 h
  obtain ⟨-, -, all', ⟨n2, m2, s2⟩, rfl⟩ := (h4 _ _).1 h'
  have e1 : all.map (x.score sizes q) = all'.map (x.score sizes q) := ranking_scores n1 m1 s1 n2 m2 s2
  refine ⟨?_, ?_, fun hinj => ?_⟩
  · rw [List.length_take, Int.toNat_natCast, Nat.subtype_card all.toFinset (fun k => by rw [List.mem_toFinset, m1]), List.toFinset_card_of_nodup n1]
  · rw [List.map_take, List.map_take, e1]
  · congr 1
    have hlen : all.length = all'.length := by simpa using congrArg List.length e1
    apply List.ext_getElem hlen
    intro i i1 i2
    apply hinj _ _ ((m1 _).1 (List.getElem_mem i1)) ((m2 _).1 (List.getElem_mem i2))
    have := congrArg (fun l => l[i]?) e1
    simpa [i1, i2] using this

/-- A case: for the query "mail" in "mail", "mailbox", "abc" two words are found and their scores differ, so that all calls for two or more results give the same two. -/
theorem C156_case : let x := history id [2] [[lit "mail", lit "mailbox", lit "abc"]]
    x.Found [2] (lit "mail") (lit "mail") ∧ x.Found [2] (lit "mail") (lit "mailbox") ∧ x.score [2] (lit "mail") (lit "mailbox") < x.score [2] (lit "mail") (lit "mail") ∧
    ∀ k, x.Found [2] (lit "mail") k → k = lit "mail" ∨ k = lit "mailbox" := by
  refine ⟨?_, ?_, ?_, ?_⟩
  · unfold Idx.Found; decide +kernel
  · unfold Idx.Found; decide +kernel
  · decide +kernel
  · rintro k ⟨f, hf, i, hi, rfl⟩
    revert f i
    decide +kernel

end Verif.Closest
