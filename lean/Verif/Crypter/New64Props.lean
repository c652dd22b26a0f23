import Verif.Crypter.Props
/-
C109: what the byte methods of a cipher made by `New64` do.
-/
namespace Verif.Crypter
open Threefish

/-- The cipher `c` was made by `New64` and then used by any sequence of calls that returned; `key` and `t` are the key and tweak last set. -/
inductive InUse64 (sz : Size) : List W → W × W → Cipher → Prop
  | new64 (key : List W) (tw : Option (List W)) (c : Cipher) : key.length = sz.words → new64 key tw = .ok c → InUse64 sz key (tweak0 tw, tweak1 tw) c
  | call {key : List W} {t : W × W} {c c' : Cipher} : InUse64 sz key t c → ∀ (m : Mem) (x : Call) (m' : Mem),
      c.call m x = some (c', m') → InUse64 sz (keyAfter sz.words key x) (tweakAfter t x) c'

theorem InUse64.inUse {sz : Size} {key : List W} {t : W × W} {c : Cipher} (h : InUse64 sz key t c) : InUse false sz key t c := by
  induction h with
  | new64 key tw c hk hn => exact .new64 key tw c hk hn rfl
  | call _ m x m' e ih => exact .call ih m x m' e

/-- The scratch words behind those that the byte methods fill stay zero. -/
theorem call_tail {c : Cipher} {m : Mem} {x : Call} {c' : Cipher} {m' : Mem} (e : c.call m x = some (c', m')) :
    c'.stateSize = c.stateSize ∧ c'.int.tmp1.drop (c.stateSize / 64) = c.int.tmp1.drop (c.stateSize / 64) := by
  cases x with
  | encrypt dst src =>
    simp only [Cipher.call, Cipher.encrypt, Option.bind_eq_bind] at e
    cases hr : readWords m.bytes src (c.stateSize / 64) with
    | none => simp [hr] at e
    | some ws =>
      simp only [hr, Option.bind_some] at e
      cases hw : writeWords m.bytes dst.off dst.cap (List.take (c.stateSize / 64) (c.int.enc (ws ++ c.int.tmp1.drop (c.stateSize / 64)))) with
      | none => rw [hw] at e; cases e
      | some h' =>
        simp only [hw, Option.bind_some, Option.map_some, Option.some.injEq, Prod.mk.injEq] at e
        obtain ⟨rfl, _⟩ := e
        exact ⟨rfl, by
          show (ws ++ c.int.tmp1.drop (c.stateSize / 64)).drop (c.stateSize / 64) = _
          rw [List.drop_left' (readWords_length hr)]⟩
  | decrypt dst src =>
    simp only [Cipher.call, Cipher.decrypt, Option.bind_eq_bind] at e
    cases hr : readWords m.bytes src (c.stateSize / 64) with
    | none => simp [hr] at e
    | some ws =>
      simp only [hr, Option.bind_some] at e
      cases hw : writeWords m.bytes dst.off dst.cap (List.take (c.stateSize / 64) (c.int.dec (ws ++ c.int.tmp1.drop (c.stateSize / 64)))) with
      | none => rw [hw] at e; cases e
      | some h' =>
        simp only [hw, Option.bind_some, Option.map_some, Option.some.injEq, Prod.mk.injEq] at e
        obtain ⟨rfl, _⟩ := e
        exact ⟨rfl, by
          show (ws ++ c.int.tmp1.drop (c.stateSize / 64)).drop (c.stateSize / 64) = _
          rw [List.drop_left' (readWords_length hr)]⟩
  | encrypt64 dst src =>
    simp only [Cipher.call, Cipher.encrypt64] at e
    split at e
    · simp only [Option.map_some, Option.some.injEq, Prod.mk.injEq] at e
      obtain ⟨rfl, _⟩ := e
      exact ⟨rfl, rfl⟩
    · simp at e
  | decrypt64 dst src =>
    simp only [Cipher.call, Cipher.decrypt64] at e
    split at e
    · simp only [Option.map_some, Option.some.injEq, Prod.mk.injEq] at e
      obtain ⟨rfl, _⟩ := e
      exact ⟨rfl, rfl⟩
    · simp at e
  | setKey k =>
    simp only [Cipher.call, Cipher.setKey, setKey_eq, Option.bind_eq_bind] at e
    split at e
    · simp only [Option.bind_some, Option.map_some, Option.some.injEq, Prod.mk.injEq] at e
      obtain ⟨rfl, _⟩ := e
      exact ⟨rfl, rfl⟩
    · simp at e
  | setTweak t =>
    simp only [Cipher.call, Cipher.setTweak, Option.bind_eq_bind] at e
    cases ht : Crypter.setTweak t c.int.et with
    | none => simp [ht] at e
    | some et =>
      simp only [ht, Option.bind_some, Option.map_some, Option.some.injEq, Prod.mk.injEq] at e
      obtain ⟨rfl, _⟩ := e
      exact ⟨rfl, rfl⟩

theorem InUse64.tail {sz : Size} {key : List W} {t : W × W} {c : Cipher} (h : InUse64 sz key t c) :
    c.stateSize = 8 * sz.words ∧ c.int.tmp1.drop (sz.words / 8) = List.replicate (sz.words - sz.words / 8) 0 := by
  induction h with
  | new64 key tw c hk hn =>
    have ht : tweakOk tw := by
      by_contra hbad
      unfold Crypter.new64 at hn
      rw [hk] at hn
      cases sz <;> simp [Size.words, newInternal64, setTweak_bad tw _ hbad, NewRes.of] at hn
    rw [new64_eq sz key tw hk ht] at hn
    injection hn with hn
    subst hn
    exact ⟨rfl, by simp [made, freshInternal]⟩
  | @call key t c c' _ m x m' e ih =>
    obtain ⟨h1, h2⟩ := call_tail e
    have hd : c.stateSize / 64 = sz.words / 8 := by rw [ih.1]; omega
    rw [hd] at h2
    exact ⟨h1.trans ih.1, h2.trans ih.2⟩

/-- **C109** Byte `Encrypt` of a cipher made by `New64` with a key of n words: it reads the first n/8 words of `src` (none, one or two for n = 4, 8, 16), encrypts
the block of these words followed by zero words, and writes the first n/8 words of the result to `dst`; nothing else changes, whatever was done before. -/
theorem C109_new64_encrypt {sz : Size} {key : List W} {t : W × W} {c : Cipher} (hc : InUse64 sz key t c) (h : Str) (dst src : Slice)
    (hd : Holdsblock h dst (8 * (sz.words / 8))) (hs : Holdsblock h src (8 * (sz.words / 8))) (part : List W) (hp : part.length = sz.words / 8)
    (hsrc : src.first h (8 * (sz.words / 8)) = bytesOfWords part) :
    (c.encrypt h dst src).map (·.2) = some (splice h dst.off (bytesOfWords
      ((Threefish.encrypt sz.params key t.1 t.2 (part ++ List.replicate (sz.words - sz.words / 8) 0)).take (sz.words / 8)))) := by
  obtain ⟨hh, _, _⟩ := hc.inUse.holds
  obtain ⟨h1, h2⟩ := hc.tail
  have es := hh.size
  have hm : c.stateSize / 64 = sz.words / 8 := by rw [h1]; omega
  have hr := readWords_eq h src (sz.words / 8) part hp (by have := hs.bounds.1; omega) hsrc
  have hl : (part ++ List.replicate (sz.words - sz.words / 8) (0 : W)).length = sz.words := by simp [hp]; omega
  have henc := Internal.enc_spec c.int key t.1 t.2 (by rw [es]; exact hh.klen) hh.ek hh.et _ (by rw [es]; exact hl)
  have hel : (c.int.enc (part ++ List.replicate (sz.words - sz.words / 8) 0)).length = sz.words := by rw [Internal.enc_length, hh.size]
  have hw := writeWords_eq ((c.int.enc (part ++ List.replicate (sz.words - sz.words / 8) 0)).take (sz.words / 8)) h dst.off dst.cap
    (by rw [List.length_take, hel]; have := hd.bounds.2; omega) (by rw [List.length_take, hel]; have := hd.bounds.1; omega)
  simp only [Cipher.encrypt, hm, hr, h2, Option.bind_eq_bind, Option.bind_some, hw, Option.map_some]
  rw [henc, es]

/-- **C109** Byte `Decrypt` of such a cipher: it decrypts the block of the first n/8 words of `src` followed by zero words, and writes the first n/8 words of the result. -/
theorem C109_new64_decrypt {sz : Size} {key : List W} {t : W × W} {c : Cipher} (hc : InUse64 sz key t c) (h : Str) (dst src : Slice)
    (hd : Holdsblock h dst (8 * (sz.words / 8))) (hs : Holdsblock h src (8 * (sz.words / 8))) (part : List W) (hp : part.length = sz.words / 8)
    (hsrc : src.first h (8 * (sz.words / 8)) = bytesOfWords part) :
    ∃ block, block.length = sz.words ∧ Threefish.encrypt sz.params key t.1 t.2 block = part ++ List.replicate (sz.words - sz.words / 8) 0 ∧
      (c.decrypt h dst src).map (·.2) = some (splice h dst.off (bytesOfWords (block.take (sz.words / 8)))) := by
  obtain ⟨hh, _, _⟩ := hc.inUse.holds
  obtain ⟨h1, h2⟩ := hc.tail
  have es := hh.size
  have hm : c.stateSize / 64 = sz.words / 8 := by rw [h1]; omega
  have hr := readWords_eq h src (sz.words / 8) part hp (by have := hs.bounds.1; omega) hsrc
  have hl : (part ++ List.replicate (sz.words - sz.words / 8) (0 : W)).length = sz.words := by simp [hp]; omega
  have hel : (c.int.dec (part ++ List.replicate (sz.words - sz.words / 8) 0)).length = sz.words := by rw [Internal.dec_length, hh.size]
  have hw := writeWords_eq ((c.int.dec (part ++ List.replicate (sz.words - sz.words / 8) 0)).take (sz.words / 8)) h dst.off dst.cap
    (by rw [List.length_take, hel]; have := hd.bounds.2; omega) (by rw [List.length_take, hel]; have := hd.bounds.1; omega)
  refine ⟨c.int.dec (part ++ List.replicate (sz.words - sz.words / 8) 0), hel, ?_, ?_⟩
  · have henc := Internal.enc_spec c.int key t.1 t.2 (by rw [es]; exact hh.klen) hh.ek hh.et (c.int.dec (part ++ List.replicate (sz.words - sz.words / 8) 0)) (by rw [es]; exact hel)
    rw [es] at henc
    rw [← henc, Internal.enc_dec _ _ (by rw [es]; exact hl)]
  · simp only [Cipher.decrypt, hm, hr, h2, Option.bind_eq_bind, Option.bind_some, hw, Option.map_some]

/-- The sizes: no word, one word, two words. -/
example : Size.words .s256 / 8 = 0 ∧ Size.words .s512 / 8 = 1 ∧ Size.words .s1024 / 8 = 2 := by decide

/-- A cipher made by `New64` with 8 words, used once. -/
example : ∃ c : Cipher, InUse64 .s512 (List.replicate 8 0) (5, 6) c := by
  have h0 := InUse64.new64 (sz := .s512) (List.replicate 8 0) (some [5, 6]) _ (by decide) (new64_eq .s512 (List.replicate 8 0) (some [5, 6]) (by decide) (by simp [tweakOk]))
  exact ⟨_, h0⟩

/-- What it then writes for a zero source: the first word of the published test vector for the zero block. -/
example (h : Str) (dst src : Slice) (hd : Holdsblock h dst 8) (hs : Holdsblock h src 8) (hz : src.first h 8 = List.replicate 8 0) (c : Cipher)
    (hc : InUse64 .s512 (List.replicate 8 0) (0, 0) c) :
    (c.encrypt h dst src).map (·.2) = some (splice h dst.off (bytesOfWords [0xBC2560EFC6BBA2B1])) := by
  have := C109_new64_encrypt hc h dst src hd hs [0] rfl (by rw [show 8 * (Size.words .s512 / 8) = 8 by decide, hz]; decide +kernel)
  rw [this, show (Threefish.encrypt Size.s512.params (List.replicate 8 0) 0 0 ([0] ++ List.replicate (Size.words .s512 - Size.words .s512 / 8) 0)).take (Size.words .s512 / 8) = [0xBC2560EFC6BBA2B1] by
    decide +kernel]

end Verif.Crypter
