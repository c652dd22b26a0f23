import Verif.Cmds.ExactProps
import Verif.Main.Model
/-
What replacing variables means, and what the commands should do on a store.
-/
namespace Verif.Main.Spec
open Repo Repo.Spec Cmds Cmds.Spec

/-- A character of a name: a letter, a digit or `_`. -/
def NameChar (c : UInt8) : Prop := c ∈ lit "abcdefghijklmnopqrstuvwxyzABCDEFGHIJKLMNOPQRSTUVWXYZ0123456789_"

/-- The names of one character that are special for a shell. -/
def Special (c : UInt8) : Prop := c ∈ lit "*#$@!?-0123456789"

/-- `t` is `s` with its variables replaced by their values: `$NAME` (as long as possible), `${NAME}`, and `$c` for a special character `c`. A `$` followed by anything else, or
at the end, stays; `${}` and a `${` that is never closed are removed. -/
inductive Expands (val : Str → Str) : Str → Str → Prop
  | nil : Expands val [] []
  | char {b s t} (hb : b ≠ 36) (h : Expands val s t) : Expands val (b :: s) (b :: t)
  | last : Expands val [36] [36]
  | lone {b s t} (h1 : ¬ NameChar b) (h2 : ¬ Special b) (h3 : b ≠ 123) (h : Expands val (b :: s) t) : Expands val (36 :: b :: s) (36 :: t)
  | special {c s t} (hc : Special c) (h : Expands val s t) : Expands val (36 :: c :: s) (val [c] ++ t)
  | name {n s t} (hn : n ≠ []) (hc : ∀ c ∈ n, NameChar c) (hs : ∀ c, n.head? = some c → ¬ Special c) (hm : ∀ c, s.head? = some c → ¬ NameChar c) (h : Expands val s t) :
      Expands val (36 :: n ++ s) (val n ++ t)
  | brace {n s t} (hn : n ≠ []) (hc : 125 ∉ n) (h : Expands val s t) : Expands val (lit "${" ++ n ++ lit "}" ++ s) (val n ++ t)
  | empty {s t} (h : Expands val s t) : Expands val (lit "${}" ++ s) t
  | unclosed {s t} (hc : 125 ∉ s) (h : Expands val s t) : Expands val (lit "${" ++ s) t

/-- The value of a variable; one that is not set counts as empty. -/
def value (env : Cmds.Env) (n : Str) : Str := (env n).getD []

/-- The place of the store on linux and darwin. -/
def vault (home : Str) : Str := home ++ lit "/Documents/Vault"

/-- `f` is a best match for `q` among the names in `ws`. -/
def Best (other : Str → Str) (ws : List Str) (q f : Str) : Prop :=
  Closest.Spec.Shares other [2] ws q f ∧ ∀ k, Closest.Spec.Shares other [2] ws q k → Closest.Spec.score other [2] ws q k ≤ Closest.Spec.score other [2] ws q f

/-- What the commands other than `insert` should do on a store with the entries `es`. -/
def Does (other otherUp : Str → Str) (es : List (Str × Node)) (c : Cmd) (res : Res) : Prop :=
  match c with
  | .init s => res = .ok (lit "Folder: " ++ s ++ lit "\n") none
  -- all entries, or those of a category that is a best match
  | .list sub =>
    (sub = [] → ∃ ws, AllEntries es ws ∧ res = .ok (ws.flatMap fun f => f ++ lit "\n") none) ∧
    (sub ≠ [] → ∃ cats : List Str, cats.Nodup ∧ (∀ d, d ∈ cats ↔ d ∈ categories ∧ ∃ n, IsEntry (.dir es) d n) ∧
      ((res = .ok [] none ∧ ∀ d, ¬ Closest.Spec.Shares other [2] cats sub d) ∨
        ∃ (d : Str) (l : List Str), Best other cats sub d ∧
          l.Pairwise (fun a b => strLt a b = true) ∧ (∀ f, f ∈ l ↔ ∃ n, IsEntry (.dir es) d n ∧ f = d ++ lit "/" ++ n) ∧
          res = .ok (l.flatMap fun f => f ++ lit "\n") none))
  -- the exports of the selected entries up to the first binary one, printed if there is none
  | .setEnv n => ∀ lines binary, ReadsAll es lines binary → ∃ ws, AllEntries es ws ∧ let sel := ws.filter fun f => decide (n = [] ∨ f = n)
      res = if sel.any binary then .err
        else .ok (sel.flatMap fun f => (exports otherUp (lines f)).flatMap fun kv => kv.1 ++ lit "=" ++ kv.2 ++ lit "\n") none
  | .insert none _ => res = .ok (lit "site: ") none
  | .insert (some _) _ => False
  -- the lines of an entry that is a best match
  | .show a =>
    (a.passName = [] ∧ res = .ok [] none) ∨ (a.passName ≠ [] ∧ res = .ok [] none ∧ NoMatch other es a.passName) ∨
    (a.passName ≠ [] ∧ ∃ f text, Entry es f text ∧ BestMatch other es a.passName f ∧ ∀ ts b, Reads text ts b →
      let line := selected a.line a.field ts
      res = if a.qrCode = false then .ok (shown a f ts b) none
        else if line = [] then .ok (shown a f ts b) (if ts = [] then none else some (ts.flatMap fun t => lit " / " ++ t))
        else if line.length < a.field.length then .panic
        else .ok (shown a f ts b) (some (afterFirst 58 (trimSpace (line.drop a.field.length)))))
  -- the first entries of the matching ones, best first
  | .search k s t =>
    if s = [] then res = .ok [] none
    else if k < 0 ∨ 2 ^ 44 < k then res = .panic
    else ∀ lines binary, ReadsAll es lines binary → ∃ (ws all : List Str), AllEntries es ws ∧ all.Nodup ∧ (∀ f, f ∈ all ↔ Closest.Spec.Shares other [2] ws s f) ∧
      all.Pairwise (fun a b => Closest.Spec.score other [2] ws s b ≤ Closest.Spec.score other [2] ws s a) ∧
      res = .ok ((all.take k.toNat).flatMap fun f =>
        if t = [] then f ++ lit "\n" else matchLines f ((numbered (lines f)).filter fun m => containsStr t m.2)) none
  -- the matching lines of all entries
  | .grep g p =>
    if g = [] then res = .ok [] none
    else match p with
      | none => res = .err
      | some p => ∀ lines binary, ReadsAll es lines binary → ∃ ws, AllEntries es ws ∧
        res = .ok (ws.flatMap fun f => matchLines f ((numbered (lines f)).filter fun m => p m.2)) none
  -- a password (C01 to C11)
  | .generate a stream => ∃ fuel, match a.run fuel stream with
    | .ok pw => res = .ok (pw ++ lit "\n") none
    | .err _ => res = .err
    | .panic => res = .panic
    | .nofuel => False
  -- these commands only print their arguments
  | .remove r f n => res = .ok (lit "Recursive: " ++ showBool r ++ lit "\nForce: " ++ showBool f ++ lit "\nPass name: " ++ n ++ lit "\n") none
  | .rename f o n => res = .ok (lit "Force: " ++ showBool f ++ lit "\nOld path: " ++ o ++ lit "\nNew path: " ++ n ++ lit "\n") none
  | .copy f o n => res = .ok (lit "Force: " ++ showBool f ++ lit "\nOld path: " ++ o ++ lit "\nNew path: " ++ n ++ lit "\n") none

/-- The command is `insert` with a file. -/
def inserts : Cmd → Bool
  | .insert (some _) _ => true
  | _ => false

end Verif.Main.Spec
