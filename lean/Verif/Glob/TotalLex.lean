import Verif.Glob.LexProps
import Verif.Glob.GlobLang
import Verif.Glob.TotalTree
/-
What the parser builds for a pattern without braces.
-/
namespace Verif.Glob
namespace Lex

/-- A text token is not empty, and an opening brace stands in the pattern. -/
def GoodTok (d : Str) (t : Tok) : Prop := t ≠ .text [] ∧ (t = .termsOpen → 123 ∈ d)

theorem read_tokens (l : Lex) : l.read.2.tokens = l.tokens := by
  unfold read
  split
  · rfl
  · simp only; rw [peek_snd]

theorem unread_tokens (l : Lex) : l.unread.tokens = l.tokens := by unfold unread; split <;> rfl

theorem peek_tokens (l : Lex) : l.peek.2.tokens = l.tokens := by rw [peek_snd]

theorem fetchTextLoop_tokens (breakers : List Nat) : ∀ (n : Nat) (l : Lex) (data : List Nat) (escaped : Bool) (d' : List Nat) (l' : Lex),
    fetchTextLoop breakers n l data escaped = some (d', l') → l'.tokens = l.tokens
  | 0, _, _, _, _, _, h => by cases h
  | n + 1, l, data, escaped, d', l', h => by
    simp only [fetchTextLoop] at h
    split at h
    · cases h; exact read_tokens l
    · split at h
      · rw [fetchTextLoop_tokens breakers n _ _ _ _ _ h, read_tokens]
      · split at h
        · cases h; rw [unread_tokens, read_tokens]
        · rw [fetchTextLoop_tokens breakers n _ _ _ _ _ h, read_tokens]

theorem fetchText_good {d : Str} {l l' : Lex} {breakers : List Nat} (h : l.fetchText breakers = some l') (ht : ∀ t ∈ l.tokens, GoodTok d t) : ∀ t ∈ l'.tokens, GoodTok d t := by
  unfold fetchText at h
  split at h
  · cases h
  · rename_i data l1 e
    have := fetchTextLoop_tokens _ _ _ _ _ _ _ e
    cases h
    split
    · rename_i hpos
      intro t hm
      simp only [push, List.mem_append, List.mem_singleton] at hm
      rcases hm with hm | rfl
      · exact ht t (this ▸ hm)
      · refine ⟨?_, nofun⟩
        intro e
        injection e with e
        cases data with
        | nil => simp at hpos
        | cons r rs =>
          rw [List.flatMap_cons] at e
          have h1 := encodeRune_pos r
          have h2 := congrArg List.length e
          rw [List.length_append, List.length_nil] at h2
          omega
    · exact fun t hm => ht t (this ▸ hm)

theorem push_good {d : Str} {l : Lex} {t : Tok} (ht : ∀ t ∈ l.tokens, GoodTok d t) (h : GoodTok d t) : ∀ x ∈ (l.push t).tokens, GoodTok d x := by
  intro x hx
  simp only [push, List.mem_append, List.mem_singleton] at hx
  rcases hx with hx | rfl
  · exact ht x hx
  · exact h

theorem fetchRangeLoop_good {d : Str} : ∀ (n : Nat) (l : Lex) (a b c : Bool) (l' : Lex), fetchRangeLoop n l a b c = some l' → (∀ t ∈ l.tokens, GoodTok d t) →
    ∀ t ∈ l'.tokens, GoodTok d t
  | 0, _, _, _, _, _, h, _ => by cases h
  | n + 1, l, a, b, c, l', h, ht => by
    have hr : ∀ t ∈ l.read.2.tokens, GoodTok d t := by rw [read_tokens]; exact ht
    have hp : ∀ t ∈ l.read.2.peek.2.tokens, GoodTok d t := by rw [peek_tokens]; exact hr
    simp only [fetchRangeLoop] at h
    split at h
    · cases h; exact hr
    · split at h
      · split at h
        · cases h; exact hr
        · cases h; exact push_good hr ⟨nofun, nofun⟩
      · split at h
        · exact fetchRangeLoop_good n _ _ _ _ _ h (push_good hr ⟨nofun, nofun⟩)
        · split at h
          · exact fetchRangeLoop_good n _ _ _ _ _ h (push_good hr ⟨nofun, nofun⟩)
          · split at h
            · refine fetchRangeLoop_good n _ _ _ _ _ h (push_good (push_good ?_ ⟨nofun, nofun⟩) ⟨nofun, nofun⟩)
              exact hp
            · split at h
              · cases h
              · rename_i l1 e
                refine fetchRangeLoop_good n _ _ _ _ _ h (fetchText_good e ?_)
                rw [unread_tokens]; exact hp

theorem peek_brace {l : Lex} (h : l.peek.1.1 = 123) : 123 ∈ l.data := by
  rw [peek_eq] at h
  split at h
  · cases h
  · split at h
    · cases h
    · cases e : l.data.drop l.pos with
      | nil => rw [e] at h; cases h
      | cons b t =>
        rw [e] at h
        have hb := decodeRune_lt (b := b) (t := t) (by rw [h]; decide)
        rw [decodeRune_ascii hb] at h
        have : b = 123 := by
          apply UInt8.toNat_inj.1
          exact h
        subst this
        exact List.mem_of_mem_drop (i := l.pos) (by rw [e]; exact List.mem_cons_self)

theorem fetchItem_good {l l' : Lex} (hi : l.Inv) (h : l.fetchItem = some l') (ht : ∀ t ∈ l.tokens, GoodTok l.data t) : ∀ t ∈ l'.tokens, GoodTok l.data t := by
  have hr : ∀ t ∈ l.read.2.tokens, GoodTok l.data t := by rw [read_tokens]; exact ht
  unfold fetchItem at h
  simp only at h
  split at h
  · cases h; exact push_good hr ⟨nofun, nofun⟩
  · split at h
    · rename_i hb
      cases h
      refine push_good (l := { l.read.2 with termsLevel := l.read.2.termsLevel + 1 }) hr ⟨nofun, fun _ => ?_⟩
      rw [(read_spec hi).1] at hb
      exact peek_brace hb
    · split at h
      · cases h; exact push_good hr ⟨nofun, nofun⟩
      · split at h
        · cases h; exact push_good hr ⟨nofun, nofun⟩
        · split at h
          · exact fetchRangeLoop_good _ _ _ _ _ _ h (push_good hr ⟨nofun, nofun⟩)
          · split at h
            · cases h; exact push_good hr ⟨nofun, nofun⟩
            · split at h
              · split at h
                · cases h
                  exact push_good (by rw [read_tokens]; exact hr) ⟨nofun, nofun⟩
                · cases h
                  exact push_good (by rw [unread_tokens, read_tokens]; exact hr) ⟨nofun, nofun⟩
              · exact fetchText_good h (by rw [unread_tokens]; exact hr)

/-- The state of a lexer of the pattern `d`. -/
structure Good (d : Str) (l : Lex) : Prop where
  inv : l.Inv
  data : l.data = d
  toks : ∀ t ∈ l.tokens, GoodTok d t

theorem next_good {d : Str} : ∀ (n : Nat) (l l' : Lex) (t : Tok), l.Good d → l.next n = some (.ok t, l') → GoodTok d t ∧ l'.Good d
  | 0, _, _, _, _, h => by cases h
  | n + 1, l, l', t, hg, h => by
    rw [next] at h
    split at h
    · cases h
    · split at h
      · rename_i t' ts e
        cases h
        refine ⟨hg.toks t (by rw [e]; exact List.mem_cons_self), ⟨hg.inv.same rfl rfl rfl rfl rfl, hg.data, fun x hx => hg.toks x (by rw [e]; exact List.mem_cons_of_mem _ hx)⟩⟩
      · rename_i e
        split at h
        · cases h
        · rename_i l1 e1
          obtain ⟨l2, e2, h1, h2, _⟩ := fetchItem_spec hg.inv e
          rw [e1] at e2
          cases e2
          have hd := hg.data
          subst hd
          exact next_good n l1 l' t ⟨h1, h2, fetchItem_good hg.inv e1 hg.toks⟩ h

end Lex

theorem parseRange_good {d : Str} (depth : Nat) : ∀ (n : Nat) (l : Lex) (not : Bool) (lo hi : Nat) (chars : Str) (node : Node) (l' : Lex), l.Good d →
    parseRange depth n l not lo hi chars = .ok (node, l') → l'.Good d ∧ ((∃ n lo hi, node = .range n lo hi) ∨ ∃ n cs, node = .list n cs)
  | 0, _, _, _, _, _, _, _, _, h => by cases h
  | n + 1, l, not, lo, hi, chars, node, l', hg, h => by
    rw [parseRange] at h
    split at h
    · cases h
    · cases h
    · rename_i t l1 e
      obtain ⟨_, g⟩ := Lex.next_good _ _ _ _ hg e
      split at h
      · cases h
      · exact parseRange_good depth n _ _ _ _ _ _ _ g h
      · simp only at h
        split at h
        · cases h
        · exact parseRange_good depth n _ _ _ _ _ _ _ g h
      · simp only at h
        split at h
        · cases h
        · split at h
          · cases h
          · exact parseRange_good depth n _ _ _ _ _ _ _ g h
      · exact parseRange_good depth n _ _ _ _ _ _ _ g h
      · simp only at h
        split at h
        · cases h
        · split at h
          · cases h; exact ⟨g, Or.inl ⟨_, _, _, rfl⟩⟩
          · cases h; exact ⟨g, Or.inr ⟨_, _, rfl⟩⟩
      · exact parseRange_good depth n _ _ _ _ _ _ _ g h

/-- A node without children that is not empty. -/
def FlatNode (c : Node) : Prop := Plain c ∧ (∀ as, c ≠ .anyOf as) ∧ ∀ as, c ≠ .pattern as

theorem parseMain_flat {d : Str} (hb : 123 ∉ d) (depth : Nat) : ∀ (n : Nat) (l : Lex) (cur : List Node) (t : Node), l.Good d → (∀ c ∈ cur, FlatNode c) →
    parseMain depth n l [] cur = .ok t → ∃ cs, t = .pattern cs ∧ ∀ c ∈ cs, FlatNode c
  | 0, _, _, _, _, _, h => by cases h
  | n + 1, l, cur, t, hg, hc, h => by
    rw [parseMain] at h
    have app : ∀ x, FlatNode x → ∀ c ∈ cur ++ [x], FlatNode c := by
      intro x hx c hc'
      rw [List.mem_append, List.mem_singleton] at hc'
      rcases hc' with h | rfl
      · exact hc c h
      · exact hx
    split at h
    · cases h
    · cases h
    · rename_i tk l1 e
      obtain ⟨gt, g⟩ := Lex.next_good _ _ _ _ hg e
      split at h
      · cases h; exact ⟨cur, rfl, hc⟩
      · rename_i raw
        exact parseMain_flat hb depth n l1 _ t g (app _ ⟨.text fun e => gt.1 (by rw [e]), nofun, nofun⟩) h
      · exact parseMain_flat hb depth n l1 _ t g (app _ ⟨.any, nofun, nofun⟩) h
      · exact parseMain_flat hb depth n l1 _ t g (app _ ⟨.super, nofun, nofun⟩) h
      · exact parseMain_flat hb depth n l1 _ t g (app _ ⟨.single, nofun, nofun⟩) h
      · split at h
        · rename_i node l2 e2
          obtain ⟨g2, hn⟩ := parseRange_good depth _ _ _ _ _ _ _ _ g e2
          refine parseMain_flat hb depth n l2 _ t g2 (app _ ?_) h
          rcases hn with ⟨_, _, _, rfl⟩ | ⟨_, _, rfl⟩
          · exact ⟨.range, nofun, nofun⟩
          · exact ⟨.list, nofun, nofun⟩
        all_goals cases h
      · exact absurd (gt.2 rfl) hb
      · cases h
      · cases h
      · cases h

theorem parse_flat {p : Str} {t : Node} (hb : (123 : UInt8) ∉ p) (h : parse p = .ok t) : ∃ cs, t = .pattern cs ∧ ∀ c ∈ cs, FlatNode c := by
  refine parseMain_flat hb _ _ _ [] t ⟨⟨by simp [newLexer], by simp [newLexer]⟩, rfl, by simp [newLexer]⟩ (by simp) h

end Verif.Glob
