import Verif.Main.Model
import Verif.Main.Spec
/-
os.ExpandEnv replaces variables as specified.
-/
namespace Verif.Main
open Spec

theorem isAlphaNum_iff : ∀ c : UInt8, isAlphaNum c = true ↔ NameChar c := by
  have : ∀ c : UInt8, isAlphaNum c = decide (c ∈ lit "abcdefghijklmnopqrstuvwxyzABCDEFGHIJKLMNOPQRSTUVWXYZ0123456789_") := by
    have h : ∀ i : Fin 256, isAlphaNum (UInt8.ofNat i) = decide ((UInt8.ofNat i) ∈ lit "abcdefghijklmnopqrstuvwxyzABCDEFGHIJKLMNOPQRSTUVWXYZ0123456789_") := by decide +kernel
    intro c
    have := h ⟨c.toNat, c.toNat_lt⟩
    simpa using this
  intro c
  rw [this, decide_eq_true_iff]; rfl

theorem isSpecial_iff (c : UInt8) : isShellSpecialVar c = true ↔ Special c := by
  unfold isShellSpecialVar Special
  rw [decide_eq_true_iff]

theorem scanBrace_unclosed {s : Str} (h : 125 ∉ s) : getShellName.scanBrace s = ([], 1) := by
  unfold getShellName.scanBrace; rw [if_neg h]

theorem takeWhile_brace {n s : Str} (h : 125 ∉ n) : (n ++ 125 :: s).takeWhile (· ≠ 125) = n := by
  induction n with
  | nil => simp
  | cons b n ih =>
    rw [List.mem_cons, not_or] at h
    have := ih h.2
    simp only [ne_eq, decide_not] at this
    simp [this, Ne.symm h.1]

theorem scanBrace_closed {n s : Str} (h : 125 ∉ n) : getShellName.scanBrace (n ++ 125 :: s) = if n = [] then ([], 2) else (n, n.length + 2) := by
  unfold getShellName.scanBrace
  rw [if_pos (by simp)]
  simp only [takeWhile_brace h]

theorem getShellName_unclosed {s : Str} (h : 125 ∉ s) : getShellName (123 :: s) = ([], 1) := by
  unfold getShellName; dsimp only
  rw [if_pos rfl]
  split
  · simp at h
  · exact scanBrace_unclosed h

theorem getShellName_closed {n s : Str} (h : 125 ∉ n) : getShellName (123 :: (n ++ 125 :: s)) = if n = [] then ([], 2) else (n, n.length + 2) := by
  unfold getShellName; dsimp only
  rw [if_pos rfl]
  split
  · rename_i d s' e
    split
    · rename_i hd
      cases n with
      | nil =>
        simp only [List.nil_append, List.cons.injEq] at e
        rw [← e.1] at hd
        exact absurd hd (by decide)
      | cons a n =>
        cases n with
        | nil =>
          simp only [List.cons_append, List.nil_append, List.cons.injEq] at e
          rw [e.1]; rfl
        | cons a' n =>
          simp only [List.cons_append, List.cons.injEq] at e
          rw [e.2.1] at h
          simp at h
    · exact scanBrace_closed h
  · exact scanBrace_closed h

theorem getShellName_special {c : UInt8} {s : Str} (h : Special c) : getShellName (c :: s) = ([c], 1) := by
  unfold getShellName; dsimp only
  rw [if_neg (by rintro rfl; exact absurd h (by unfold Special; decide)), if_pos ((isSpecial_iff c).2 h)]

theorem takeWhile_name {n s : Str} (hc : ∀ c ∈ n, NameChar c) (hm : ∀ c, s.head? = some c → ¬ NameChar c) : (n ++ s).takeWhile isAlphaNum = n := by
  induction n with
  | nil =>
    cases s with
    | nil => rfl
    | cons c s =>
      have := hm c rfl
      rw [← isAlphaNum_iff] at this
      simp [this]
  | cons a n ih =>
    rw [List.cons_append, List.takeWhile_cons, if_pos ((isAlphaNum_iff a).2 (hc a (by simp))), ih (fun c h => hc c (by simp [h]))]

theorem not_brace_name : ¬ NameChar 123 := by unfold NameChar; decide

theorem getShellName_name {c : UInt8} {s n : Str} (hb : c ≠ 123) (hs : ¬ Special c) (h : (c :: s).takeWhile isAlphaNum = n) : getShellName (c :: s) = (n, n.length) := by
  unfold getShellName; dsimp only
  rw [if_neg hb, if_neg (by rwa [isSpecial_iff])]
  simp only [h]

theorem expandWith_nil (m : Str → Str) : expandWith m [] = [] := by rw [expandWith]

theorem expandWith_char (m : Str → Str) {b : UInt8} {s : Str} (h : b ≠ 36) : expandWith m (b :: s) = b :: expandWith m s := by
  rw [expandWith, if_neg (fun h' => h h'.1)]

theorem expandWith_last (m : Str → Str) : expandWith m [36] = [36] := by
  rw [expandWith, if_neg (fun h' => h'.2 rfl), expandWith_nil]

theorem expandWith_dollar (m : Str → Str) {s : Str} (h : s ≠ []) : expandWith m (36 :: s) =
    if (getShellName s).1 = [] then if (getShellName s).2 > 0 then expandWith m (s.drop (getShellName s).2) else 36 :: expandWith m (s.drop (getShellName s).2)
    else m (getShellName s).1 ++ expandWith m (s.drop (getShellName s).2) := by
  rw [expandWith, if_pos ⟨rfl, h⟩]

theorem expandWith_of {m : Str → Str} {s t : Str} (h : Expands m s t) : expandWith m s = t := by
  induction h with
  | nil => exact expandWith_nil m
  | char hb _ ih => rw [expandWith_char m hb, ih]
  | last => exact expandWith_last m
  | @lone b s t h1 h2 h3 _ ih =>
    rw [expandWith_dollar m (by simp), getShellName_name (n := []) h3 h2 (by
      rw [List.takeWhile_cons, if_neg (by rwa [isAlphaNum_iff])])]
    simp [ih]
  | @special c s t hc _ ih =>
    rw [expandWith_dollar m (by simp), getShellName_special hc]
    simp [ih]
  | @name n s t hn hc hs hm _ ih =>
    cases n with
    | nil => exact absurd rfl hn
    | cons a n =>
      have hb : a ≠ 123 := by rintro rfl; exact not_brace_name (hc 123 (by simp))
      have e : getShellName (a :: n ++ s) = (a :: n, (a :: n).length) := getShellName_name hb (hs a rfl) (takeWhile_name hc hm)
      rw [List.cons_append, expandWith_dollar m (by simp), e]
      simp only [hn, if_false]
      rw [List.drop_left, ih]
  | @brace n s t hn hc _ ih =>
    rw [show lit "${" ++ n ++ lit "}" ++ s = 36 :: 123 :: (n ++ 125 :: s) by rw [show lit "${" = [36, 123] from rfl, show lit "}" = [125] from rfl]; simp]
    rw [expandWith_dollar m (by simp), getShellName_closed hc, if_neg hn]
    simp only [hn, if_false]
    rw [show 123 :: (n ++ 125 :: s) = ((123 :: n) ++ [125]) ++ s by simp, List.drop_left' (by simp), ih]
  | @empty s t _ ih =>
    rw [show lit "${}" ++ s = 36 :: 123 :: ([] ++ 125 :: s) by rw [show lit "${}" = [36, 123, 125] from rfl]; simp]
    rw [expandWith_dollar m (by simp), getShellName_closed (by simp), if_pos rfl]
    simp [ih]
  | @unclosed s t hc _ ih =>
    rw [show lit "${" ++ s = 36 :: 123 :: s from rfl]
    rw [expandWith_dollar m (by simp), getShellName_unclosed hc]
    simp [ih]

theorem split_at_brace : ∀ {s : Str}, 125 ∈ s → ∃ n r, 125 ∉ n ∧ s = n ++ 125 :: r
  | [], h => by simp at h
  | b :: s, h => by
    by_cases hb : b = 125
    · exact ⟨[], s, by simp, by rw [hb]; rfl⟩
    · obtain ⟨n, r, h1, h2⟩ := split_at_brace (by simpa [Ne.symm hb] using h : 125 ∈ s)
      exact ⟨b :: n, r, by simp [h1, Ne.symm hb], by rw [h2]; rfl⟩

theorem expands_total (m : Str → Str) : ∀ (k : Nat) (s : Str), s.length ≤ k → ∃ t, Expands m s t
  | _, [], _ => ⟨[], .nil⟩
  | 0, _ :: _, h => by simp at h
  | k + 1, b :: s, h => by
    have hk : s.length ≤ k := by simpa using h
    have rest : ∀ r : Str, r.length ≤ s.length → ∃ t, Expands m r t := fun r hr => expands_total m k r (by omega)
    by_cases hb : b = 36
    · subst hb
      cases s with
      | nil => exact ⟨_, .last⟩
      | cons c s =>
        by_cases h1 : c = 123
        · subst h1
          by_cases h2 : 125 ∈ s
          · obtain ⟨n, r, h3, rfl⟩ := split_at_brace h2
            obtain ⟨t, ht⟩ := rest r (by simp; omega)
            by_cases hn : n = []
            · subst hn; exact ⟨_, .empty ht⟩
            · have := Expands.brace hn h3 ht
              rw [show lit "${" ++ n ++ lit "}" ++ r = 36 :: 123 :: (n ++ 125 :: r) by
                rw [show lit "${" = [36, 123] from rfl, show lit "}" = [125] from rfl]; simp] at this
              exact ⟨_, this⟩
          · obtain ⟨t, ht⟩ := rest s (by simp)
            exact ⟨_, .unclosed h2 ht⟩
        · by_cases h2 : Special c
          · obtain ⟨t, ht⟩ := rest s (by simp)
            exact ⟨_, .special h2 ht⟩
          · by_cases h3 : NameChar c
            · have e : (c :: s) = (c :: s.takeWhile isAlphaNum) ++ s.dropWhile isAlphaNum := by simp
              obtain ⟨t, ht⟩ := rest (s.dropWhile isAlphaNum) (by
                have := (List.dropWhile_suffix isAlphaNum (l := s)).length_le
                simp; omega)
              refine ⟨m (c :: s.takeWhile isAlphaNum) ++ t, ?_⟩
              · rw [e]
                refine Expands.name (by simp) ?_ ?_ ?_ ht
                · intro x hx
                  rcases List.mem_cons.1 hx with rfl | hx
                  · exact h3
                  · exact (isAlphaNum_iff x).1 (List.mem_takeWhile_imp hx)
                · intro x hx; simp at hx; rw [← hx]; exact h2
                · intro x hx
                  rw [← isAlphaNum_iff]
                  have := List.head?_dropWhile_not isAlphaNum s
                  rw [hx] at this
                  simpa using this
            · obtain ⟨t, ht⟩ := rest (c :: s) le_rfl
              exact ⟨_, .lone h3 h2 h1 ht⟩
    · obtain ⟨t, ht⟩ := rest s le_rfl
      exact ⟨_, .char hb ht⟩

/-- `os.ExpandEnv` replaces the variables of every string as specified. -/
theorem expandEnv_iff (env : Cmds.Env) (s t : Str) : expandEnv env s = t ↔ Expands (value env) s t := by
  constructor
  · rintro rfl
    obtain ⟨t, ht⟩ := expands_total (value env) s.length s le_rfl
    have : expandEnv env s = t := expandWith_of ht
    rw [this]; exact ht
  · exact fun h => expandWith_of h

end Verif.Main
