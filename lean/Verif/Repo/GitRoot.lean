import Verif.Repo.RootProps
/-
C44, C43: a root directory that is itself named `.git`; what `baseName` in the hypotheses of C43, C44, C81 means.
-/
namespace Verif.Repo

namespace Spec

/-- The last element of a path is this name; slashes may follow. -/
def LastElement (path name : Str) : Prop :=
  ∃ pre k, path = pre ++ name ++ List.replicate k slash ∧ (pre = [] ∨ ∃ pre', pre = pre' ++ [slash])

end Spec
open Spec

theorem dropWhile_slashes (k : Nat) (s : Str) (h : s.head? ≠ some slash) : (List.replicate k slash ++ s).dropWhile (· = slash) = s := by
  induction k with
  | zero =>
    cases s with
    | nil => rfl
    | cons c s => simp only [List.head?_cons, ne_eq, Option.some.injEq] at h; simp [List.dropWhile, h]
  | succ k ih => rw [List.replicate_succ, List.cons_append, List.dropWhile_cons_of_pos (by simp)]; exact ih

theorem slashes_dropWhile (s : Str) : ∃ k, s = List.replicate k slash ++ s.dropWhile (· = slash) := by
  induction s with
  | nil => exact ⟨0, rfl⟩
  | cons c s ih =>
    by_cases h : c = slash
    · obtain ⟨k, hk⟩ := ih
      refine ⟨k + 1, ?_⟩
      rw [List.dropWhile_cons_of_pos (by simp [h]), List.replicate_succ, List.cons_append, ← hk, h]
    · exact ⟨0, by rw [List.dropWhile_cons_of_neg (by simp [h])]; rfl⟩

theorem takeWhile_noslash (n r : Str) (hn : slash ∉ n) (hr : r = [] ∨ ∃ r', r = slash :: r') : (n ++ r).takeWhile (· ≠ slash) = n := by
  induction n with
  | nil =>
    rcases hr with rfl | ⟨r', rfl⟩
    · rfl
    · simp
  | cons c n ih =>
    have h1 : c ≠ slash := fun h => hn (by simp [h])
    rw [List.cons_append, List.takeWhile_cons_of_pos (by simp [h1]), ih (fun h => hn (by simp [h]))]

/-- What the name of the root is. -/
theorem baseName_iff (p name : Str) (hne : name ≠ []) (hs : slash ∉ name) : baseName p = name ↔ LastElement p name := by
  have hlast : name.reverse.head? ≠ some slash := by
    intro h
    exact hs (by simpa using List.mem_of_mem_head? (l := name.reverse) h)
  constructor
  · intro h
    unfold baseName at h
    simp only at h
    split at h
    · split at h
      · exact absurd h.symm hne
      · exact absurd (h ▸ List.mem_singleton.2 rfl : slash ∈ name) hs
    · obtain ⟨k, hk⟩ := slashes_dropWhile p.reverse
      generalize hq : p.reverse.dropWhile (· = slash) = q at *
      rw [List.reverse_reverse] at h
      have e := List.takeWhile_append_dropWhile (p := (· ≠ slash)) (l := q)
      have hd : q.dropWhile (· ≠ slash) = [] ∨ ∃ r', q.dropWhile (· ≠ slash) = slash :: r' := by
        cases hdd : q.dropWhile (· ≠ slash) with
        | nil => exact Or.inl rfl
        | cons c r' =>
          have : c = slash := by
            have := List.head?_dropWhile_not (fun x => decide (x ≠ slash)) q
            rw [hdd] at this
            simpa using this
          exact Or.inr ⟨r', by rw [this]⟩
      refine ⟨(q.dropWhile (· ≠ slash)).reverse, k, ?_, ?_⟩
      · rw [← h, ← List.reverse_append, e, ← List.reverse_reverse p, hk, List.reverse_append, List.reverse_replicate]
      · rcases hd with hd | ⟨r', hd⟩ <;> rw [hd]
        · exact Or.inl rfl
        · exact Or.inr ⟨r'.reverse, by simp⟩
  · rintro ⟨pre, k, rfl, hpre⟩
    have e : ((pre ++ name ++ List.replicate k slash).reverse.dropWhile (· = slash)) = name.reverse ++ pre.reverse := by
      rw [List.reverse_append, List.reverse_replicate, List.reverse_append]
      refine dropWhile_slashes k _ ?_
      cases hr : name.reverse with
      | nil => exact absurd (List.reverse_eq_nil_iff.1 hr) hne
      | cons c r => rw [hr] at hlast; simpa using hlast
    unfold baseName
    simp only [e, List.reverse_reverse]
    rw [if_neg (by
      intro h
      have := List.reverse_eq_nil_iff.1 h
      exact hne (List.reverse_eq_nil_iff.1 (List.append_eq_nil_iff.1 this).1))]
    rw [takeWhile_noslash name.reverse pre.reverse (by simpa using hs) (by
      rcases hpre with rfl | ⟨pre', rfl⟩
      · exact Or.inl rfl
      · exact Or.inr ⟨pre'.reverse, by simp⟩), List.reverse_reverse]

/-- The condition on the root in C43, C44 and C81, in words: the last element of the path is not `.git`. -/
theorem C44_root_name (root : Str) : baseName root ≠ lit ".git" ↔ ¬ LastElement root (lit ".git") :=
  not_congr (baseName_iff root (lit ".git") (by decide) (by decide))

/-- **C44** A root whose last element is `.git` is skipped as well: nothing is listed, whatever is in it. -/
theorem C44_git_root (w : World) (root : Str) (es : List (Str × Node)) (hat : w.at root = .node (.dir es)) (hg : LastElement root (lit ".git")) :
    scan w root = .ok fun _ => [] := by
  unfold scan
  rw [hat]
  simp only
  rw [walk, if_pos ((baseName_iff root (lit ".git") (by decide) (by decide)).2 hg), addFiles]

/-- `/v/.git//` is such a root. -/
example : LastElement (lit "/v/.git//") (lit ".git") ∧
    (⟨.dir [(lit "v", .dir [(lit ".git", .dir [(lit "email", .dir [(lit "a", .file [])])])])], []⟩ : World).at (lit "/v/.git//") = .node (.dir [(lit "email", .dir [(lit "a", .file [])])]) :=
  ⟨⟨lit "/v/", 2, by decide, Or.inr ⟨lit "/v", by decide⟩⟩, by rfl⟩

end Verif.Repo
