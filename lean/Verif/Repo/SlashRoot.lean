import Verif.Repo.RootProps
/-
C45: when a slash at the end of the root makes no difference to `Scan`.
-/
namespace Verif.Repo
open Spec

/-- **C45** `Scan` of a root with a slash at its end finds the same entries as without it exactly if the entries of each category directory are the files in
the directories whose names have one more byte in front, and no directory with a name of one byte and a dot has a category directory with files. -/
theorem C45_same_iff_partial (w : World) (r : Str) (es : List (Str × Node)) (hr : CleanDir r) (hat : w.at r = .node (.dir es)) (hwf : (Node.dir es).WF)
    (hgit : baseName r ≠ lit ".git") :
    ∃ f g, scan w r = .ok f ∧ scan w (r ++ [slash]) = .ok g ∧
      ((∀ d p, p ∈ f d ↔ p ∈ g d) ↔ ∀ d ∈ [lit "people", lit "email", lit "phone", lit "sites", lit "devices", lit "bank"], ∀ n, n ≠ lit ".DS_Store" →
        (Spec.IsEntry (.dir es) d n ↔ ∃ b, Reached es [b :: d, n]) ∧ ∀ b, ¬ Reached es [b :: lit ".", d, n]) := by
  obtain ⟨f, hf, hf2, -⟩ := C43_scan_lists_entries w r es hr hat hwf hgit
  obtain ⟨g, hg, hg2⟩ := C82_trailing_slash w r es hr hat hwf hgit
  refine ⟨f, g, hf, hg, ?_⟩
  have hcat : ∀ d, d ∈ categories ↔ d ∈ [lit "people", lit "email", lit "phone", lit "sites", lit "devices", lit "bank"] := fun d => Iff.rfl
  have ha : ∀ d n n' : Str, d ++ lit "/" ++ n = d ++ slash :: n' → n = n' := by
    intro d n n' h
    rw [List.append_assoc] at h
    have := List.append_cancel_left h
    have e : lit "/" = [slash] := by decide
    rw [e, List.singleton_append] at this
    injection this
  have hb : ∀ d ∈ categories, ∀ n d' n' : Str, d ++ lit "/" ++ n ≠ lit "./" ++ d' ++ slash :: n' := by
    intro d hd n d' n' h
    have h0 := congrArg List.head? h
    have e : (lit "./" ++ d' ++ slash :: n').head? = some 46 := by
      have : lit "./" = [46, 47] := by decide
      rw [this]; rfl
    rw [e] at h0
    have : ∀ d ∈ categories, d.head? ≠ some 46 ∧ d ≠ [] := by decide
    obtain ⟨h1, h2⟩ := this d hd
    obtain ⟨x, t, rfl⟩ := List.exists_cons_of_ne_nil h2
    exact h1 (by simpa using h0)
  constructor
  · intro h d hd n hn
    refine ⟨⟨fun he => ?_, ?_⟩, ?_⟩
    · obtain ⟨-, b, n', h1, ⟨h3, h4⟩ | ⟨h3, h4⟩⟩ := (hg2 d _).1 ((h d _).1 ((hf2 d (d ++ lit "/" ++ n)).2 ⟨hd, n, he, rfl⟩))
      · rw [ha _ _ _ h4]; exact ⟨b, h3⟩
      · exact absurd h4 (hb d hd _ _ _)
    · rintro ⟨b, h1⟩
      obtain ⟨-, n', h2, h3⟩ := (hf2 d _).1 ((h d _).2 ((hg2 d (d ++ slash :: n)).2 ⟨hd, b, n, hn, Or.inl ⟨h1, rfl⟩⟩))
      rw [← ha _ _ _ h3.symm]; exact h2
    · intro b h1
      obtain ⟨-, n', h2, h3⟩ := (hf2 d _).1 ((h d _).2 ((hg2 d (lit "./" ++ d ++ slash :: n)).2 ⟨hd, b, n, hn, Or.inr ⟨h1, rfl⟩⟩))
      exact hb d hd _ _ _ h3.symm
  · intro h d p
    rw [hf2, hg2]
    constructor
    · rintro ⟨hd, n, h1, rfl⟩
      obtain ⟨b, h2⟩ := (h d hd n h1.2).1.1 h1
      have e : lit "/" = [slash] := by decide
      exact ⟨hd, b, n, h1.2, Or.inl ⟨h2, by rw [e, List.append_assoc, List.singleton_append]⟩⟩
    · rintro ⟨hd, b, n, hn, ⟨h1, rfl⟩ | ⟨h1, rfl⟩⟩
      · have e : lit "/" = [slash] := by decide
        exact ⟨hd, n, (h d hd n hn).1.2 ⟨b, h1⟩, by rw [e, List.append_assoc, List.singleton_append]⟩
      · exact absurd h1 ((h d hd n hn).2 b)

/-- A store for which it makes no difference, with an entry, and one of the stores for which it does. -/
example : Spec.IsEntry (.dir [(lit "email", .dir [(lit "me", .file [])]), (lit "xemail", .dir [(lit "me", .file [])])]) (lit "email") (lit "me") ∧
    Reached [(lit "email", .dir [(lit "me", .file [])]), (lit "xemail", .dir [(lit "me", .file [])])] [lit "xemail", lit "me"] ∧
    ¬ ∃ b, Reached [(lit "email", .dir [(lit "me", .file [])])] [b :: lit "email", lit "me"] := by
  refine ⟨⟨⟨[], rfl⟩, by decide⟩, ⟨⟨[], rfl⟩, by decide⟩, ?_⟩
  rintro ⟨b, ⟨c, h⟩, -⟩
  have : entry [(lit "email", Node.dir [(lit "me", .file [])])] (b :: lit "email") = none := by simp [entry, lit]
  rw [lookupAt.eq_def] at h
  simp only [this] at h
  cases h

end Verif.Repo
