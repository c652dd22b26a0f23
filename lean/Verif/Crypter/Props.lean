import Verif.Crypter.Lemmas
/-
C12-C19, C63: the block cipher (crypter/) and the Cryptor command (crypter/cmd).
`InUse byteApi sz key t c` (SpecApi) reads: `c` came from an exported constructor, any sequence of calls has been made on it
since, and `key`, `t` are the key and tweak last set.
-/
namespace Verif.Crypter
open Threefish

/-- A slice of a heap that can hold a block of `n` elements. -/
structure Holdsblock {α} (h : List α) (s : Slice) (n : Nat) : Prop where
  fits : n ≤ s.len
  valid : s.Valid h

theorem Holdsblock.bounds {α} {h : List α} {s : Slice} {n : Nat} (hs : Holdsblock h s n) :
    n ≤ s.cap ∧ s.off + n ≤ h.length := by
  have h1 := hs.fits
  have h2 := hs.valid.1
  have h3 := hs.valid.2
  omega

theorem first_length {α} {h : List α} {s : Slice} {n : Nat} (hs : Holdsblock h s n) : (s.first h n).length = n := by
  have := hs.bounds
  simp [Slice.first]
  omega

/-- **C13** Encrypt64 is Threefish as published, for every key, tweak and block, whatever was done with the cipher before; the
result is written to the first words of `dst` and nothing else changes. -/
theorem C13_encrypt64_is_threefish {b : Bool} {sz : Size} {key : List W} {t : W × W} {c : Cipher} (hc : InUse b sz key t c)
    (h : List W) (dst src : Slice) (hd : Holdsblock h dst sz.words) (hs : Holdsblock h src sz.words) :
    c.encrypt64 h dst src = some (splice h dst.off (Threefish.encrypt sz.params key t.1 t.2 (src.first h sz.words))) := by
  obtain ⟨hh, _, _⟩ := hc.holds
  have e := hh.size
  simp only [Cipher.encrypt64, e]
  rw [if_pos ⟨hs.fits, hd.fits⟩]
  congr 2
  have := Internal.enc_spec c.int key t.1 t.2 (by rw [e]; exact hh.klen) hh.ek hh.et (src.first h sz.words)
    (by rw [e]; exact first_length hs)
  rw [this, e]

/-- **C13** The byte method: Threefish on the little-endian words of the first block of `src`. -/
theorem C13_encrypt_is_threefish {sz : Size} {key : List W} {t : W × W} {c : Cipher} (hc : InUse true sz key t c)
    (h : Str) (dst src : Slice) (hd : Holdsblock h dst (8 * sz.words)) (hs : Holdsblock h src (8 * sz.words))
    (block : List W) (hb : block.length = sz.words) (hsrc : src.first h (8 * sz.words) = bytesOfWords block) :
    (c.encrypt h dst src).map (·.2) =
      some (splice h dst.off (bytesOfWords (Threefish.encrypt sz.params key t.1 t.2 block))) := by
  obtain ⟨hh, _, h3⟩ := hc.holds
  obtain ⟨c', e, _⟩ := Cipher.encrypt_eq hh (h3 rfl) h dst src block hb hsrc hs.bounds.1 hd.bounds.1 hd.bounds.2
  rw [e, Option.map_some]
  have es := hh.size
  have := Internal.enc_spec c.int key t.1 t.2 (by rw [es]; exact hh.klen) hh.ek hh.et block (by rw [es]; exact hb)
  rw [this, es]

/-- Published test vector (Threefish-256, zero key, tweak and block). -/
example : Threefish.encrypt p256 [0, 0, 0, 0] 0 0 [0, 0, 0, 0] =
    [0x94EEEA8B1F2ADA84, 0xADF103313EAE6670, 0x952419A1F4B16D53, 0xD83F13E63C9F6B11] := by decide +kernel

/-- Published test vector (Threefish-512, zero key, tweak and block). -/
example : (Threefish.encrypt p512 (List.replicate 8 0) 0 0 (List.replicate 8 0)).take 2 =
    [0xBC2560EFC6BBA2B1, 0xE3361F162238EB40] := by decide +kernel

example : ∃ c, InUse true .s256 (List.replicate 4 0) (0, 0) c ∧
    c.encrypt64 (List.replicate 4 0) ⟨0, 4, 4⟩ ⟨0, 4, 4⟩ =
      some [0x94EEEA8B1F2ADA84, 0xADF103313EAE6670, 0x952419A1F4B16D53, 0xD83F13E63C9F6B11] := by
  refine ⟨_, .newSize _ (newSize_eq .s256), ?_⟩
  rw [C13_encrypt64_is_threefish (b := true) (.newSize _ (newSize_eq .s256)) _ _ _ ⟨by decide, by decide, by decide⟩ ⟨by decide, by decide, by decide⟩]
  decide +kernel

/-- **C12** Decrypt64 after Encrypt64 restores the block, wherever the output goes (same memory or not). -/
theorem C12_decrypt64_encrypt64 {b : Bool} {sz : Size} {key : List W} {t : W × W} {c : Cipher} (hc : InUse b sz key t c)
    (h : List W) (dst src out : Slice) (hd : Holdsblock h dst sz.words) (hs : Holdsblock h src sz.words)
    (ho : Holdsblock h out sz.words) :
    ∃ h1 h2, c.encrypt64 h dst src = some h1 ∧ c.decrypt64 h1 out dst = some h2 ∧
      out.first h2 sz.words = src.first h sz.words := by
  obtain ⟨hh, _, _⟩ := hc.holds
  have e := hh.size
  have hl : (c.int.enc (src.first h sz.words)).length = sz.words := by rw [Internal.enc_length, e]
  have hl2 : (c.int.dec (c.int.enc (src.first h sz.words))).length = sz.words := by rw [Internal.dec_length, e]
  have hw : dst.first (splice h dst.off (c.int.enc (src.first h sz.words))) sz.words = c.int.enc (src.first h sz.words) := by
    have := splice_window h dst.off (c.int.enc (src.first h sz.words)) (by rw [hl]; exact hd.bounds.2)
    rw [hl] at this
    exact this
  refine ⟨splice h dst.off (c.int.enc (src.first h sz.words)),
    splice (splice h dst.off (c.int.enc (src.first h sz.words))) out.off (c.int.dec (c.int.enc (src.first h sz.words))), ?_, ?_, ?_⟩
  · simp only [Cipher.encrypt64, e]
    rw [if_pos ⟨hs.fits, hd.fits⟩]
  · simp only [Cipher.decrypt64, e]
    rw [if_pos ⟨hd.fits, ho.fits⟩, hw]
  · have := splice_window (splice h dst.off (c.int.enc (src.first h sz.words))) out.off
      (c.int.dec (c.int.enc (src.first h sz.words)))
      (by rw [splice_length _ _ _ (by rw [hl]; exact hd.bounds.2), hl2]; exact ho.bounds.2)
    rw [hl2] at this
    rw [Slice.first, this]
    exact Internal.dec_enc _ _ (by rw [e]; exact first_length hs)

/-- **C12** Encrypt64 after Decrypt64 restores the ciphertext. -/
theorem C12_encrypt64_decrypt64 {b : Bool} {sz : Size} {key : List W} {t : W × W} {c : Cipher} (hc : InUse b sz key t c)
    (h : List W) (dst src out : Slice) (hd : Holdsblock h dst sz.words) (hs : Holdsblock h src sz.words)
    (ho : Holdsblock h out sz.words) :
    ∃ h1 h2, c.decrypt64 h dst src = some h1 ∧ c.encrypt64 h1 out dst = some h2 ∧
      out.first h2 sz.words = src.first h sz.words := by
  obtain ⟨hh, _, _⟩ := hc.holds
  have e := hh.size
  have hl : (c.int.dec (src.first h sz.words)).length = sz.words := by rw [Internal.dec_length, e]
  have hl2 : (c.int.enc (c.int.dec (src.first h sz.words))).length = sz.words := by rw [Internal.enc_length, e]
  have hw : dst.first (splice h dst.off (c.int.dec (src.first h sz.words))) sz.words = c.int.dec (src.first h sz.words) := by
    have := splice_window h dst.off (c.int.dec (src.first h sz.words)) (by rw [hl]; exact hd.bounds.2)
    rw [hl] at this
    exact this
  refine ⟨splice h dst.off (c.int.dec (src.first h sz.words)),
    splice (splice h dst.off (c.int.dec (src.first h sz.words))) out.off (c.int.enc (c.int.dec (src.first h sz.words))), ?_, ?_, ?_⟩
  · simp only [Cipher.decrypt64, e]
    rw [if_pos ⟨hs.fits, hd.fits⟩]
  · simp only [Cipher.encrypt64, e]
    rw [if_pos ⟨hd.fits, ho.fits⟩, hw]
  · have := splice_window (splice h dst.off (c.int.dec (src.first h sz.words))) out.off
      (c.int.enc (c.int.dec (src.first h sz.words)))
      (by rw [splice_length _ _ _ (by rw [hl]; exact hd.bounds.2), hl2]; exact ho.bounds.2)
    rw [hl2] at this
    rw [Slice.first, this]
    exact Internal.enc_dec _ _ (by rw [e]; exact first_length hs)

example : ∃ c, InUse false .s1024 (List.range' 1 16 |>.map (BitVec.ofNat 64)) (7, 8) c :=
  ⟨_, .new64 _ (some [7, 8]) _ rfl (new64_eq .s1024 _ (some [7, 8]) rfl (by simp [tweakOk])) rfl⟩

/-- **C14** Byte round trip: encrypting `src` into `dst` and decrypting `dst` into `out` puts the original block of `src` into
`out`; `dst`, `src` and `out` may be the same memory, overlap, or be disjoint. Nothing outside `dst` is changed by Encrypt. -/
theorem C14_byte_round_trip {sz : Size} {key : List W} {t : W × W} {c : Cipher} (hc : InUse true sz key t c)
    (h : Str) (dst src out : Slice) (hd : Holdsblock h dst c.blockSize) (hs : Holdsblock h src c.blockSize)
    (ho : Holdsblock h out c.blockSize) :
    c.blockSize = 8 * sz.words ∧
    ∃ c1 h1 c2 h2, c.encrypt h dst src = some (c1, h1) ∧ c1.decrypt h1 out dst = some (c2, h2) ∧
      out.first h2 c.blockSize = src.first h c.blockSize ∧
      (∀ i, i < dst.off ∨ dst.off + c.blockSize ≤ i → h1[i]? = h[i]?) ∧ h1.length = h.length := by
  obtain ⟨hh, _, h3⟩ := hc.holds
  have h3 := h3 rfl
  have hbs : c.blockSize = 8 * sz.words := by rw [Cipher.blockSize, h3]; omega
  rw [hbs] at hd hs ho ⊢
  have e := hh.size
  obtain ⟨blk, hb, hblk⟩ := bytesOfWords_surj sz.words (src.first h (8 * sz.words)) (first_length hs)
  obtain ⟨c1, e1, hh1, hst⟩ := Cipher.encrypt_eq hh h3 h dst src blk hb hblk.symm hs.bounds.1 hd.bounds.1 hd.bounds.2
  have hl : (c.int.enc blk).length = sz.words := by rw [Internal.enc_length, e]
  have hlb : (bytesOfWords (c.int.enc blk)).length = 8 * sz.words := by rw [bytesOfWords_length, hl]
  have hle : dst.off + (bytesOfWords (c.int.enc blk)).length ≤ h.length := by rw [hlb]; exact hd.bounds.2
  have hsl := splice_length h dst.off _ hle
  have hwin := splice_window h dst.off _ hle
  rw [hlb] at hwin
  obtain ⟨c2, e2, _, _⟩ := Cipher.decrypt_eq hh1 (by rw [hst, h3]) _ out dst (c.int.enc blk) hl hwin hd.bounds.1 ho.bounds.1
    (by rw [hsl]; exact ho.bounds.2)
  refine ⟨rfl, c1, _, c2, _, e1, e2, ?_, ?_, hsl⟩
  · have hcong : c1.int.dec (c.int.enc blk) = c.int.dec (c.int.enc blk) :=
      Internal.dec_congr (by rw [hh1.size, e]) (by rw [hh1.ek, hh.ek]) (by rw [hh1.et, hh.et]) _
    rw [hcong, Internal.dec_enc _ _ (by rw [e]; exact hb), hblk]
    have hlen := first_length hs
    have := splice_window (splice h dst.off (bytesOfWords (c.int.enc blk))) out.off (src.first h (8 * sz.words))
      (by rw [hsl, hlen]; exact ho.bounds.2)
    rw [hlen] at this
    exact this
  · intro i hi
    exact splice_outside h dst.off _ hle i (by rw [hlb]; exact hi)

/-- A concrete cipher with a non-zero key and tweak and an in-place slice meets the hypotheses. -/
example : ∃ c : Cipher, InUse true .s256 [1, 2, 3, 4] (5, 6) c ∧
    Holdsblock (List.replicate 40 (9 : UInt8)) ⟨3, 32, 37⟩ c.blockSize :=
  ⟨_, .new [1, 2, 3, 4] (some [5, 6]) _ rfl (new_eq .s256 _ _ rfl (by simp [tweakOk])), by decide, by decide, by decide⟩

/-- **C15** After any history of calls the next call, whatever it is and whatever the memory contains, does to memory (or
panics) exactly as on a fresh cipher made from the key and tweak last set. -/
theorem C15_history_independent {sz : Size} {key : List W} {t : W × W} {c : Cipher} (hc : InUse true sz key t c) :
    ∃ fresh, new (bytesOfWords key) (some [t.1, t.2]) = .ok fresh ∧
      ∀ (m : Mem) (x : Call), (c.call m x).map (·.2) = (fresh.call m x).map (·.2) := by
  obtain ⟨hh, _, h3⟩ := hc.holds
  refine ⟨_, new_eq sz key (some [t.1, t.2]) hh.klen (by simp [tweakOk]), fun m x => ?_⟩
  exact call_congr hh (made_holds _ _ _ (some [t.1, t.2]) hh.klen) (by rw [h3 rfl]; rfl) (h3 rfl) m x

/-- A history that changes key and tweak and uses the scratch buffers. -/
example : ∃ c : Cipher, InUse true .s256 [1, 2, 3, 4] (5, 6) c := by
  have h0 : InUse true .s256 (List.replicate 4 0) (0, 0) (made 256 .s256 (List.replicate 4 0) none) := .newSize _ (newSize_eq .s256)
  obtain ⟨h1, _, h3⟩ := h0.holds
  obtain ⟨c1, e1, _⟩ := Cipher.encrypt_eq h1 (h3 rfl) (bytesOfWords [9, 8, 7, 6]) ⟨0, 32, 32⟩ ⟨0, 32, 32⟩ [9, 8, 7, 6] rfl
    (by decide) (by decide) (by decide) (by decide)
  have s1 := h0.call ⟨bytesOfWords [9, 8, 7, 6], []⟩ (.encrypt ⟨0, 32, 32⟩ ⟨0, 32, 32⟩) _ (by simp only [Cipher.call]; rw [e1]; rfl)
  have hz := s1.holds.1.size
  have s2 := s1.call ⟨[], []⟩ (.setTweak (some [5, 6])) _ rfl
  have s3 := s2.call ⟨[], []⟩ (.setKey [1, 2, 3, 4]) _ (by
    simp only [Cipher.call, Cipher.setKey, setKey_eq]
    rw [show c1.int.size.words = 4 from by have h := hz; simp only at h; rw [h]; rfl]
    rfl)
  exact ⟨_, s3⟩

/-- **C17** New: exactly the key lengths 32, 64, 128; the error carries the length. (The tweak must be nil or have two words;
a shorter one is an index panic.) -/
theorem C17_new (key : Str) (tw : Option (List W)) (ht : tweakOk tw) :
    ((∃ c, new key tw = .ok c) ↔ key.length = 32 ∨ key.length = 64 ∨ key.length = 128) ∧
    (¬ (key.length = 32 ∨ key.length = 64 ∨ key.length = 128) → new key tw = .keySize key.length) := by
  constructor
  · constructor
    · rintro ⟨c, h⟩
      obtain ⟨sz, ws, h1, rfl, _⟩ := new_ok_inv h
      rw [bytesOfWords_length, h1]
      cases sz <;> simp [Size.words]
    · intro h
      have : ∃ sz : Size, key.length = 8 * sz.words := by
        rcases h with h | h | h
        · exact ⟨.s256, h⟩
        · exact ⟨.s512, h⟩
        · exact ⟨.s1024, h⟩
      obtain ⟨sz, hsz⟩ := this
      obtain ⟨ws, h1, h2⟩ := bytesOfWords_surj _ _ hsz
      exact ⟨_, h2 ▸ new_eq sz ws tw h1 ht⟩
  · intro h
    simp only [not_or] at h
    simp [new, h]

/-- **C17** New64: exactly 4, 8, 16 words. -/
theorem C17_new64 (key : List W) (tw : Option (List W)) (ht : tweakOk tw) :
    ((∃ c, new64 key tw = .ok c) ↔ key.length = 4 ∨ key.length = 8 ∨ key.length = 16) ∧
    (¬ (key.length = 4 ∨ key.length = 8 ∨ key.length = 16) → new64 key tw = .keySize key.length) := by
  constructor
  · constructor
    · rintro ⟨c, h⟩
      unfold new64 at h
      by_contra hn
      simp only [not_or] at hn
      simp [hn] at h
    · intro h
      have : ∃ sz : Size, key.length = sz.words := by
        rcases h with h | h | h
        · exact ⟨.s256, h⟩
        · exact ⟨.s512, h⟩
        · exact ⟨.s1024, h⟩
      obtain ⟨sz, hsz⟩ := this
      exact ⟨_, new64_eq sz key tw hsz ht⟩
  · intro h
    simp only [not_or] at h
    simp [new64, h]

/-- **C17** NewSize: exactly 256, 512, 1024, and it is New with an all-zero key and no (or a zero) tweak. -/
theorem C17_newSize (n : Int) :
    ((∃ c, newSize n = .ok c) ↔ n = 256 ∨ n = 512 ∨ n = 1024) ∧
    (¬ (n = 256 ∨ n = 512 ∨ n = 1024) → newSize n = .keySize n) ∧
    (∀ c, newSize n = .ok c → new (List.replicate (n.toNat / 8) 0) none = .ok c ∧
      new (List.replicate (n.toNat / 8) 0) (some [0, 0]) = .ok c) := by
  refine ⟨⟨?_, ?_⟩, ?_, ?_⟩
  · rintro ⟨c, h⟩
    by_contra hn
    simp only [not_or] at hn
    simp [newSize, hn] at h
  · rintro (rfl | rfl | rfl)
    · exact ⟨_, newSize_eq .s256⟩
    · exact ⟨_, newSize_eq .s512⟩
    · exact ⟨_, newSize_eq .s1024⟩
  · intro h
    simp only [not_or] at h
    simp [newSize, h]
  · intro c h
    have hz : ∀ m : Nat, List.replicate (8 * m) (0 : UInt8) = bytesOfWords (List.replicate m 0) := by
      intro m
      induction m with
      | zero => rfl
      | succ m ih =>
        rw [List.replicate_succ, bytesOfWords_eq, List.flatMap_cons, ← bytesOfWords_eq, ← ih]
        rw [show 8 * (m + 1) = 8 + 8 * m from by omega, ← List.replicate_append_replicate]
        rfl
    have main : ∀ sz : Size, newSize (64 * sz.words : Nat) = .ok c →
        new (List.replicate (8 * sz.words) 0) none = .ok c ∧ new (List.replicate (8 * sz.words) 0) (some [0, 0]) = .ok c := by
      intro sz h
      rw [hz, new_eq sz _ none (by simp) trivial, new_eq sz _ (some [0, 0]) (by simp) (by simp [tweakOk]), ← h, newSize_eq]
      exact ⟨rfl, rfl⟩
    by_cases h1 : n = 256
    · subst h1; exact main .s256 h
    by_cases h2 : n = 512
    · subst h2; exact main .s512 h
    by_cases h3 : n = 1024
    · subst h3; exact main .s1024 h
    simp [newSize, h1, h2, h3] at h

example : newSize 384 = .keySize 384 := rfl

/-- **C18** Encryption with a fixed key and tweak is a permutation of the blocks: injective and onto. -/
theorem C18_permutation {b : Bool} {sz : Size} {key : List W} {t : W × W} {c : Cipher} (hc : InUse b sz key t c) :
    (∀ b1 b2 : List W, b1.length = sz.words → b2.length = sz.words →
      c.encrypt64 b1 ⟨0, sz.words, sz.words⟩ ⟨0, sz.words, sz.words⟩ = c.encrypt64 b2 ⟨0, sz.words, sz.words⟩ ⟨0, sz.words, sz.words⟩ →
      b1 = b2) ∧
    (∀ b2 : List W, b2.length = sz.words → ∃ b1 : List W, b1.length = sz.words ∧
      c.encrypt64 b1 ⟨0, sz.words, sz.words⟩ ⟨0, sz.words, sz.words⟩ = some b2) := by
  obtain ⟨hh, _, _⟩ := hc.holds
  have e := hh.size
  have key : ∀ b1 : List W, b1.length = sz.words →
      c.encrypt64 b1 ⟨0, sz.words, sz.words⟩ ⟨0, sz.words, sz.words⟩ = some (c.int.enc b1) := by
    intro b1 h1
    simp only [Cipher.encrypt64, e]
    rw [if_pos ⟨Nat.le_refl _, Nat.le_refl _⟩]
    have : (c.int.enc b1).length = b1.length := by rw [Internal.enc_length, e, h1]
    simp [splice, Slice.first, List.take_of_length_le (Nat.le_of_eq h1), this]
  constructor
  · intro b1 b2 h1 h2 h
    rw [key b1 h1, key b2 h2] at h
    injection h with h
    rw [← Internal.dec_enc c.int b1 (by rw [e]; exact h1), h, Internal.dec_enc c.int b2 (by rw [e]; exact h2)]
  · intro b2 h2
    have hl : (c.int.dec b2).length = sz.words := by rw [Internal.dec_length, e]
    exact ⟨c.int.dec b2, hl, by rw [key _ hl, Internal.enc_dec _ _ (by rw [e]; exact h2)]⟩

/-! ### C16: New64 -/

/-- **C16** (partial) The word methods of a cipher made by New64 behave as for New with the same key. Missing: the byte methods
and BlockSize, for which the claim is false (next two theorems). -/
theorem C16_new64_words_partial (sz : Size) (key : List W) (tw : Option (List W)) (hk : key.length = sz.words) (ht : tweakOk tw) :
    ∃ c d, new64 key tw = .ok c ∧ new (bytesOfWords key) tw = .ok d ∧
      ∀ (h : List W) (dst src : Slice), c.encrypt64 h dst src = d.encrypt64 h dst src ∧ c.decrypt64 h dst src = d.decrypt64 h dst src :=
  ⟨_, _, new64_eq sz key tw hk ht, new_eq sz key tw hk ht, fun _ _ _ => ⟨rfl, rfl⟩⟩

/-- **C16** is false: a cipher made by New64 reports an eighth of the block size of its key. -/
theorem C16_new64_blockSize (sz : Size) (key : List W) (tw : Option (List W)) (hk : key.length = sz.words) (ht : tweakOk tw) :
    ∃ c, new64 key tw = .ok c ∧ c.blockSize = sz.words ∧ c.blockSize ≠ 8 * sz.words :=
  ⟨_, new64_eq sz key tw hk ht, by simp [Cipher.blockSize, made], by
    simp only [Cipher.blockSize, made]
    cases sz <;> decide⟩

/-- **C16** is false: with a 4-word key, byte Encrypt of a New64 cipher writes nothing at all: the destination keeps its content
(and an in-place "ciphertext" is the plaintext). -/
theorem C16_new64_encrypt_does_nothing (key : List W) (tw : Option (List W)) (hk : key.length = 4) (ht : tweakOk tw)
    (h : Str) (dst src : Slice) :
    ∃ c, new64 key tw = .ok c ∧ (c.encrypt h dst src).map (·.2) = some h ∧ (c.decrypt h dst src).map (·.2) = some h := by
  refine ⟨_, new64_eq .s256 key tw hk ht, ?_, ?_⟩ <;>
  · simp [Cipher.encrypt, Cipher.decrypt, made, Size.words, readWords, writeWords]

/-! ### C19, C63: the Cryptor -/

theorem b64Val_char (n : Nat) (h : n < 64) : b64Val (b64Char n) = some n := by
  have : ∀ m : Fin 64, b64Val (b64Char m.val) = some m.val := by decide +kernel
  exact this ⟨n, h⟩

/-- When `make([]byte, bits/8)` panics. -/
theorem tdiv_neg (bits : Int) : Int.tdiv bits 8 < 0 ∨ 2 ^ 48 < Int.tdiv bits 8 ↔ bits ≤ -8 ∨ 2 ^ 51 + 8 ≤ bits := by
  by_cases h : 0 ≤ bits
  · rw [Int.tdiv_eq_ediv_of_nonneg h]; omega
  · obtain ⟨n, rfl⟩ : ∃ n : Int, bits = -n := ⟨-bits, by omega⟩
    rw [Int.neg_tdiv, Int.tdiv_eq_ediv_of_nonneg (by omega)]; omega

theorem b64Val_pad : b64Val 61 = none := by decide

theorem u8_of (a : UInt8) (n : Nat) (h : n = a.toNat) : UInt8.ofNat n = a := by
  subst h; simp

/-- base64 round trip, quantum by quantum. -/
theorem b64_quanta : ∀ s : Str, b64Quanta (b64Encode s) = s
  | [] => rfl
  | [a] => by
    have ha := a.toNat_lt
    simp only [b64Encode, b64Quanta]
    rw [b64Val_char _ (by omega), b64Val_char _ (by omega), b64Val_pad]
    simp only [and_self, if_true, List.cons.injEq, and_true]
    exact u8_of _ _ (by omega)
  | [a, b] => by
    have ha := a.toNat_lt
    have hb := b.toNat_lt
    simp only [b64Encode, b64Quanta]
    rw [b64Val_char _ (by omega), b64Val_char _ (by omega), b64Val_char _ (by omega), b64Val_pad]
    simp only [if_true, List.cons.injEq, and_true]
    exact ⟨u8_of _ _ (by omega), u8_of _ _ (by omega)⟩
  | a :: b :: c :: r => by
    have ha := a.toNat_lt
    have hb := b.toNat_lt
    have hc := c.toNat_lt
    simp only [b64Encode, b64Quanta]
    rw [b64Val_char _ (by omega), b64Val_char _ (by omega), b64Val_char _ (by omega), b64Val_char _ (by omega)]
    simp only [b64_quanta r, List.cons.injEq, and_true]
    exact ⟨u8_of _ _ (by omega), u8_of _ _ (by omega), u8_of _ _ (by omega)⟩

theorem b64Char_visible (n : Nat) (h : n < 64) : (b64Char n ≠ 10 && b64Char n ≠ 13) = true := by
  have : ∀ m : Fin 64, (b64Char m.val ≠ 10 && b64Char m.val ≠ 13) = true := by decide +kernel
  exact this ⟨n, h⟩

/-- The encoder writes no line feeds. -/
theorem b64_one_line : ∀ s : Str, (b64Encode s).filter (fun c => c ≠ 10 && c ≠ 13) = b64Encode s
  | [] => rfl
  | [a] => by
    have ha := a.toNat_lt
    rw [List.filter_eq_self]
    intro x hx
    simp only [b64Encode, List.mem_cons, List.not_mem_nil, or_false] at hx
    rcases hx with rfl | rfl | rfl | rfl
    · exact b64Char_visible _ (by omega)
    · exact b64Char_visible _ (by omega)
    · decide
    · decide
  | [a, b] => by
    have ha := a.toNat_lt
    have hb := b.toNat_lt
    rw [List.filter_eq_self]
    intro x hx
    simp only [b64Encode, List.mem_cons, List.not_mem_nil, or_false] at hx
    rcases hx with rfl | rfl | rfl | rfl
    · exact b64Char_visible _ (by omega)
    · exact b64Char_visible _ (by omega)
    · exact b64Char_visible _ (by omega)
    · decide
  | a :: b :: c :: r => by
    have ha := a.toNat_lt
    have hb := b.toNat_lt
    have hc := c.toNat_lt
    rw [b64Encode]
    simp only [List.filter_cons, b64Char_visible _ (show a.toNat / 4 < 64 by omega), b64Char_visible _ (show a.toNat % 4 * 16 + b.toNat / 16 < 64 by omega),
      b64Char_visible _ (show b.toNat % 16 * 4 + c.toNat / 64 < 64 by omega), b64Char_visible _ (show c.toNat % 64 < 64 by omega), if_true, b64_one_line r]

/-- base64 round trip. -/
theorem b64_roundtrip (s : Str) : b64Decode (b64Encode s) = s := by rw [b64Decode, b64_one_line, b64_quanta]

/-- What `Cryptor.Encrypt` returns for a text of exactly one block. -/
theorem cryptorEncrypt_eq {sz : Size} {key : List W} {t : W × W} {c : Cipher} (hc : InUse true sz key t c) (extra : Nat)
    (block : List W) (hb : block.length = sz.words) :
    ∃ c', InUse true sz key t c' ∧ cryptorEncrypt (some c) extra (bytesOfWords block) =
      some (some c', b64Encode (bytesOfWords (c.int.enc block))) := by
  obtain ⟨hh, _, h3⟩ := hc.holds
  have e := hh.size
  have hl : (bytesOfWords block).length = 8 * sz.words := by rw [bytesOfWords_length, hb]
  have hle : (c.int.enc block).length = sz.words := by rw [Internal.enc_length, e]
  have hlb : (bytesOfWords (c.int.enc block)).length = 8 * sz.words := by rw [bytesOfWords_length, hle]
  obtain ⟨c', e1, hh1, hst⟩ := Cipher.encrypt_eq hh (h3 rfl)
    (bytesOfWords block ++ List.replicate extra 0 ++ List.replicate (8 * sz.words) 0)
    ⟨8 * sz.words + extra, 8 * sz.words, 8 * sz.words⟩ ⟨0, 8 * sz.words, 8 * sz.words + extra⟩ block hb
    (by simp only [Slice.first, List.drop_zero, List.append_assoc]
        rw [List.take_append_of_le_length (by omega), List.take_of_length_le (by omega)])
    (by simp only []; omega) (by simp only []; omega) (by simp [hl]; omega)
  refine ⟨c', ?_, ?_⟩
  · exact hc.call ⟨_, []⟩ (.encrypt ⟨8 * sz.words + extra, 8 * sz.words, 8 * sz.words⟩ ⟨0, 8 * sz.words, 8 * sz.words + extra⟩) _
      (by simp only [Cipher.call]; rw [e1]; rfl)
  · simp only [cryptorEncrypt, Option.bind_eq_bind, Option.bind_some, hl]
    rw [e1]
    simp only [Option.bind_some]
    congr 3
    simp only [splice]
    rw [List.take_append_of_le_length (by simp [hl]), List.take_of_length_le (by simp [hl]), hlb, List.append_assoc, List.drop_append]
    rw [List.drop_eq_nil_of_le (by simp [hl])]
    simp [hl]
    omega

/-- **C63** The text a Cryptor returns is recoverable: base64-decoding it and decrypting with the byte method of the same
cipher gives the text back (block-length texts). -/
theorem C63_ciphertext_recoverable (keyText : Str) (bits : Int) (extra : Nat) (text : Str)
    (hbits : -8 < bits ∧ bits < 2 ^ 51 + 8) (hk : keyText.length = 32 ∨ keyText.length = 64 ∨ keyText.length = 128) (ht : text.length = keyText.length) :
    ∃ c c' out c'' , newCryptor keyText bits = some (some c) ∧ cryptorEncrypt (some c) extra text = some (some c', out) ∧
      (b64Decode out).length = text.length ∧
      c'.decrypt (b64Decode out) ⟨0, text.length, text.length⟩ ⟨0, text.length, text.length⟩ = some (c'', text) := by
  obtain ⟨⟨_, hiff⟩, _⟩ := C17_new keyText (some [0x0706050403020100, 0x0F0E0D0C0B0A0908]) (by simp [tweakOk])
  obtain ⟨c, hc⟩ := hiff hk
  obtain ⟨sz, ws, h1, h2, h3, h4⟩ := new_ok_inv hc
  rw [h2] at hc
  have hin : InUse true sz ws (_, _) c := .new ws _ c h1 hc
  have hkl : keyText.length = 8 * sz.words := by rw [h2, bytesOfWords_length, h1]
  obtain ⟨blk, hb, hblk⟩ := bytesOfWords_surj sz.words text (by omega)
  obtain ⟨c', hin', e1⟩ := cryptorEncrypt_eq hin extra blk hb
  obtain ⟨hh, _, hst⟩ := hin'.holds
  have hle : (c.int.enc blk).length = sz.words := by rw [Internal.enc_length, hin.holds.1.size]
  have hlb : (bytesOfWords (c.int.enc blk)).length = text.length := by rw [bytesOfWords_length, hle]; omega
  have htl : text.length = 8 * sz.words := by omega
  obtain ⟨c'', e2, _⟩ := Cipher.decrypt_eq hh (hst rfl) (bytesOfWords (c.int.enc blk)) ⟨0, text.length, text.length⟩
    ⟨0, text.length, text.length⟩ (c.int.enc blk) hle
    (by simp only [Slice.first, List.drop_zero]; rw [List.take_of_length_le (by omega)])
    (by simp only []; omega) (by simp only []; omega) (by simp only []; omega)
  refine ⟨c, c', _, c'', ?_, hblk ▸ e1, ?_, ?_⟩
  · rw [newCryptor, if_neg (by rw [tdiv_neg]; omega), h2]; simp only [hc]
  · rw [b64_roundtrip, hlb]
  · rw [b64_roundtrip, e2]
    have hcong : c'.int.dec (c.int.enc blk) = c.int.dec (c.int.enc blk) :=
      Internal.dec_congr (by rw [hh.size, hin.holds.1.size]) (by rw [hh.ek, hin.holds.1.ek]) (by rw [hh.et, hin.holds.1.et]) _
    rw [hcong, Internal.dec_enc _ _ (by rw [hin.holds.1.size]; exact hb), hblk]
    simp only [splice, List.take_zero, List.nil_append, Nat.zero_add]
    rw [List.drop_eq_nil_of_le (by omega), List.append_nil]

/-- **C19** is false: `Cryptor.Decrypt` passes source and destination in the wrong order and returns its untouched buffer, so
for every key and every block-length text, decrypting what was encrypted yields zero bytes. (Partial result: the round trip
holds exactly for the all-zero text.) -/
theorem C19_decrypt_iff_zero_partial (keyText : Str) (bits : Int) (extra extra' : Nat) (text : Str)
    (hbits : -8 < bits ∧ bits < 2 ^ 51 + 8) (hk : keyText.length = 32 ∨ keyText.length = 64 ∨ keyText.length = 128) (ht : text.length = keyText.length) :
    ∃ c c' out c'' back, newCryptor keyText bits = some (some c) ∧ cryptorEncrypt (some c) extra text = some (some c', out) ∧
      cryptorDecrypt (some c') extra' out = some (some c'', back) ∧
      back = List.replicate text.length 0 ∧ (back = text ↔ ∀ x ∈ text, x = 0) := by
  obtain ⟨⟨_, hiff⟩, _⟩ := C17_new keyText (some [0x0706050403020100, 0x0F0E0D0C0B0A0908]) (by simp [tweakOk])
  obtain ⟨c, hc⟩ := hiff hk
  obtain ⟨sz, ws, h1, h2, h3, h4⟩ := new_ok_inv hc
  rw [h2] at hc
  have hin : InUse true sz ws (_, _) c := .new ws _ c h1 hc
  have hkl : keyText.length = 8 * sz.words := by rw [h2, bytesOfWords_length, h1]
  obtain ⟨blk, hb, hblk⟩ := bytesOfWords_surj sz.words text (by omega)
  obtain ⟨c', hin', e1⟩ := cryptorEncrypt_eq hin extra blk hb
  obtain ⟨hh, _, hst⟩ := hin'.holds
  have hle : (c.int.enc blk).length = sz.words := by rw [Internal.enc_length, hin.holds.1.size]
  have hlb : (bytesOfWords (c.int.enc blk)).length = 8 * sz.words := by rw [bytesOfWords_length, hle]
  have htl : text.length = 8 * sz.words := by omega
  obtain ⟨zs, hz1, hz2⟩ := bytesOfWords_surj sz.words (List.replicate (8 * sz.words) 0) (by simp)
  obtain ⟨c'', e2, _⟩ := Cipher.decrypt_eq hh (hst rfl)
    (bytesOfWords (c.int.enc blk) ++ List.replicate extra' 0 ++ List.replicate (8 * sz.words) 0)
    ⟨0, 8 * sz.words, 8 * sz.words + extra'⟩ ⟨8 * sz.words + extra', 8 * sz.words, 8 * sz.words⟩ zs hz1
    (by rw [hz2]
        simp only [Slice.first]
        rw [List.drop_append, List.drop_eq_nil_of_le (by simp [hlb])]
        simp [hlb])
    (by simp only []; omega) (by simp only []; omega) (by simp only [List.length_append, List.length_replicate, hlb]; omega)
  have hdl : (bytesOfWords (c'.int.dec zs)).length = 8 * sz.words := by
    rw [bytesOfWords_length, Internal.dec_length, hh.size]
  refine ⟨c, c', _, c'', List.replicate text.length 0, ?_, hblk ▸ e1, ?_, rfl, ?_⟩
  · rw [newCryptor, if_neg (by rw [tdiv_neg]; omega), h2]; simp only [hc]
  · simp only [cryptorDecrypt, Option.bind_eq_bind, Option.bind_some, b64_roundtrip, hlb]
    rw [e2]
    simp only [Option.bind_some, splice, List.take_zero, List.nil_append, Nat.zero_add, hdl]
    congr 2
    have h0 : (bytesOfWords (c.int.enc blk) ++ List.replicate extra' 0 ++ List.replicate (8 * sz.words) 0).drop (8 * sz.words) =
        List.replicate extra' 0 ++ List.replicate (8 * sz.words) 0 := by
      rw [List.append_assoc, ← hlb, List.drop_left]
    rw [h0, ← List.append_assoc]
    have hlen : (bytesOfWords (c'.int.dec zs) ++ List.replicate extra' (0 : UInt8)).length = 8 * sz.words + extra' := by
      rw [List.length_append, hdl, List.length_replicate]
    rw [← hlen, List.drop_left, htl]
  · constructor
    · intro h x hx
      rw [← h] at hx
      exact List.eq_of_mem_replicate hx
    · intro h
      exact (List.eq_replicate_iff.2 ⟨rfl, h⟩).symm

/-- **C19** counterexample: a 32-byte key and the text `"aaa...a"` (32 bytes). -/
theorem C19_false : ¬ ∀ (keyText text : Str) (c c' c'' : Cipher) (out back : Str), text.length = keyText.length →
    newCryptor keyText 256 = some (some c) → cryptorEncrypt (some c) 0 text = some (some c', out) →
    cryptorDecrypt (some c') 0 out = some (some c'', back) → back = text := by
  intro h
  obtain ⟨c, c', out, c'', back, h1, h2, h3, h4, h5⟩ := C19_decrypt_iff_zero_partial (List.replicate 32 107) 256 0 0
    (List.replicate 32 97) (by omega) (Or.inl (by simp)) (by simp)
  have := h5.1 (h _ _ _ _ _ _ _ (by simp) h1 h2 h3) 97 (by simp)
  exact absurd this (by decide)

end Verif.Crypter
