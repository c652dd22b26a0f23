import Verif.Crypter.Props
/-
C112: exactly what a `Cryptor` does (crypter/cmd/crypt.go), for every key, every text and after any use.
-/
namespace Verif.Crypter
open Threefish

/-! ### Specification -/

/-- RFC 4648, table 2: the character for a number below 64. -/
def urlChar (n : Nat) : UInt8 :=
  if n < 26 then UInt8.ofNat (65 + n) else if n < 52 then UInt8.ofNat (97 + (n - 26)) else if n < 62 then UInt8.ofNat (48 + (n - 52)) else if n = 62 then 45 else 95

/-- RFC 4648, section 5: three bytes are a number of 24 bits, written as four digits of 6 bits; one or two bytes at the end are completed with zero bits, and the
missing digits are written `=`. -/
def base64url : Str → Str
  | [] => []
  | [a] => let n := a.toNat * 65536; [urlChar (n / 262144), urlChar (n / 4096 % 64), 61, 61]
  | [a, b] => let n := a.toNat * 65536 + b.toNat * 256; [urlChar (n / 262144), urlChar (n / 4096 % 64), urlChar (n / 64 % 64), 61]
  | a :: b :: c :: r =>
    let n := a.toNat * 65536 + b.toNat * 256 + c.toNat
    [urlChar (n / 262144), urlChar (n / 4096 % 64), urlChar (n / 64 % 64), urlChar (n % 64)] ++ base64url r

/-- The state of a Cryptor made by `New` with this key text, after any calls of its methods that returned. -/
inductive CryptorUse (keyText : Str) : Option Cipher → Prop
  | new (bits : Int) (c : Option Cipher) : newCryptor keyText bits = some c → CryptorUse keyText c
  | encrypt {c : Option Cipher} : CryptorUse keyText c → ∀ (extra : Nat) (text : Str) (c' : Option Cipher) (out : Str),
      cryptorEncrypt c extra text = some (c', out) → CryptorUse keyText c'
  | decrypt {c : Option Cipher} : CryptorUse keyText c → ∀ (extra : Nat) (text : Str) (c' : Option Cipher) (out : Str),
      cryptorDecrypt c extra text = some (c', out) → CryptorUse keyText c'

/-- The fixed tweak of a Cryptor. -/
def cryptorTweak : W × W := (0x0706050403020100, 0x0F0E0D0C0B0A0908)

/-! ### Proofs -/

theorem b64Char_eq (n : Nat) (h : n < 64) : b64Char n = urlChar n := by
  have : ∀ m : Fin 64, b64Char m.val = urlChar m.val := by decide +kernel
  exact this ⟨n, h⟩

theorem b64Encode_eq : ∀ s : Str, b64Encode s = base64url s
  | [] => rfl
  | [a] => by
    have ha := a.toNat_lt
    simp only [b64Encode, base64url, List.cons.injEq, and_true]
    rw [b64Char_eq _ (by omega), b64Char_eq _ (by omega)]
    exact ⟨congrArg _ (by omega), congrArg _ (by omega)⟩
  | [a, b] => by
    have ha := a.toNat_lt
    have hb := b.toNat_lt
    simp only [b64Encode, base64url, List.cons.injEq, and_true]
    rw [b64Char_eq _ (by omega), b64Char_eq _ (by omega), b64Char_eq _ (by omega)]
    exact ⟨congrArg _ (by omega), congrArg _ (by omega), congrArg _ (by omega)⟩
  | a :: b :: c :: r => by
    have ha := a.toNat_lt
    have hb := b.toNat_lt
    have hc := c.toNat_lt
    simp only [b64Encode, base64url, List.cons.injEq, List.cons_append, List.nil_append]
    rw [b64Char_eq _ (by omega), b64Char_eq _ (by omega), b64Char_eq _ (by omega), b64Char_eq _ (by omega)]
    exact ⟨congrArg _ (by omega), congrArg _ (by omega), congrArg _ (by omega), congrArg _ (by omega), b64Encode_eq r⟩

/-- **C112** `New` of crypter/cmd crashes exactly for `bits <= -8` and `bits >= 2^51 + 8`; else it returns, with a usable cipher exactly for key texts of 32, 64 or 128 bytes. -/
theorem C112_new (keyText : Str) (bits : Int) :
    (newCryptor keyText bits = none ↔ bits ≤ -8 ∨ 2 ^ 51 + 8 ≤ bits) ∧
    (-8 < bits ∧ bits < 2 ^ 51 + 8 → ((∃ c, newCryptor keyText bits = some (some c)) ↔ keyText.length = 32 ∨ keyText.length = 64 ∨ keyText.length = 128) ∧
      (newCryptor keyText bits = some none ↔ ¬ (keyText.length = 32 ∨ keyText.length = 64 ∨ keyText.length = 128))) := by
  obtain ⟨h1, h2⟩ := C17_new keyText (some [0x0706050403020100, 0x0F0E0D0C0B0A0908]) (by simp [tweakOk])
  rw [← h1]
  unfold newCryptor
  constructor
  · rw [← tdiv_neg]
    by_cases hd : Int.tdiv bits 8 < 0 ∨ 2 ^ 48 < Int.tdiv bits 8
    · rw [if_pos hd]; exact ⟨fun _ => hd, fun _ => rfl⟩
    · rw [if_neg hd]
      refine ⟨fun h => ?_, fun h => absurd h hd⟩
      split at h <;> cases h
  · intro hb
    rw [if_neg (by rw [tdiv_neg]; omega)]
    cases h : new keyText (some [0x0706050403020100, 0x0F0E0D0C0B0A0908]) with
    | ok c => simp
    | _ => simp

theorem CryptorUse.inUse {sz : Size} {ws : List W} (hw : ws.length = sz.words) {c : Option Cipher} (h : CryptorUse (bytesOfWords ws) c) :
    ∃ ci, c = some ci ∧ InUse true sz ws cryptorTweak ci := by
  have hl : (bytesOfWords ws).length = 8 * sz.words := by rw [bytesOfWords_length, hw]
  induction h with
  | new bits c e =>
    unfold newCryptor at e
    obtain ⟨ci, hci⟩ := (C17_new (bytesOfWords ws) (some [0x0706050403020100, 0x0F0E0D0C0B0A0908]) (by simp [tweakOk])).1.2
      (by rw [hl]; cases sz <;> simp [Size.words])
    rw [hci] at e
    split at e
    · cases e
    · injection e with e
      exact ⟨ci, e.symm, .new ws _ ci hw hci⟩
  | @encrypt c _ extra text c' out e ih =>
    obtain ⟨ci, rfl, hi⟩ := ih
    simp only [cryptorEncrypt, Option.bind_eq_bind, Option.bind_some] at e
    cases he : ci.encrypt (text ++ List.replicate extra 0 ++ List.replicate text.length 0) ⟨text.length + extra, text.length, text.length⟩ ⟨0, text.length, text.length + extra⟩ with
    | none => rw [he] at e; cases e
    | some r =>
      rw [he] at e
      simp only [Option.bind_some, Option.some.injEq, Prod.mk.injEq] at e
      exact ⟨r.1, e.1.symm, hi.call ⟨_, []⟩ (.encrypt _ _) ⟨r.2, []⟩ (by simp only [Cipher.call]; rw [he]; rfl)⟩
  | @decrypt c _ extra text c' out e ih =>
    obtain ⟨ci, rfl, hi⟩ := ih
    simp only [cryptorDecrypt, Option.bind_eq_bind, Option.bind_some] at e
    cases he : ci.decrypt (b64Decode text ++ List.replicate extra 0 ++ List.replicate (b64Decode text).length 0) ⟨0, (b64Decode text).length, (b64Decode text).length + extra⟩
        ⟨(b64Decode text).length + extra, (b64Decode text).length, (b64Decode text).length⟩ with
    | none => rw [he] at e; cases e
    | some r =>
      rw [he] at e
      simp only [Option.bind_some, Option.some.injEq, Prod.mk.injEq] at e
      exact ⟨r.1, e.1.symm, hi.call ⟨_, []⟩ (.decrypt _ _) ⟨r.2, []⟩ (by simp only [Cipher.call]; rw [he]; rfl)⟩

/-- **C112** `Encrypt` of a Cryptor with a key of 32, 64 or 128 bytes: it crashes if the text is shorter than the key. Otherwise it returns, in base64, the
encryption of as many bytes of the text as the key has (under the fixed tweak), and a zero byte for every further byte of the text: these are lost. -/
theorem C112_encrypt {sz : Size} {ws : List W} (hw : ws.length = sz.words) {c : Option Cipher} (h : CryptorUse (bytesOfWords ws) c) (extra : Nat) :
    (∀ text, text.length < 8 * sz.words → cryptorEncrypt c extra text = none) ∧
    (∀ block rest, block.length = sz.words → (cryptorEncrypt c extra (bytesOfWords block ++ rest)).map (·.2) =
      some (base64url (bytesOfWords (Threefish.encrypt sz.params ws cryptorTweak.1 cryptorTweak.2 block) ++ List.replicate rest.length 0))) := by
  obtain ⟨ci, rfl, hi⟩ := h.inUse hw
  obtain ⟨hh, _, h3⟩ := hi.holds
  have hs := h3 rfl
  have es := hh.size
  constructor
  · intro text ht
    simp only [cryptorEncrypt, Option.bind_eq_bind, Option.bind_some, Cipher.encrypt]
    have hm : ci.stateSize / 64 = sz.words := by rw [hs]; omega
    rw [hm]
    cases hr : readWords (text ++ List.replicate extra 0 ++ List.replicate text.length 0) ⟨0, text.length, text.length + extra⟩ sz.words with
    | none => rfl
    | some v =>
      simp only [Option.bind_some]
      rw [writeWords_none]
      · rfl
      · rw [List.length_take, Internal.enc_length, es]; show text.length < _; omega
  · intro block rest hb
    have hlk : (bytesOfWords block).length = 8 * sz.words := by rw [bytesOfWords_length, hb]
    have hn : (bytesOfWords block ++ rest).length = 8 * sz.words + rest.length := by rw [List.length_append, hlk]
    simp only [cryptorEncrypt, Option.bind_eq_bind, Option.bind_some]
    obtain ⟨c', e1, _⟩ := Cipher.encrypt_eq hh hs (bytesOfWords block ++ rest ++ List.replicate extra 0 ++ List.replicate (bytesOfWords block ++ rest).length 0)
      ⟨(bytesOfWords block ++ rest).length + extra, (bytesOfWords block ++ rest).length, (bytesOfWords block ++ rest).length⟩
      ⟨0, (bytesOfWords block ++ rest).length, (bytesOfWords block ++ rest).length + extra⟩ block hb
      (by simp only [Slice.first, List.drop_zero, List.append_assoc]
          rw [List.take_append_of_le_length (by omega), List.take_of_length_le (by omega)])
      (by simp only [hn]; omega) (by simp only [hn]; omega) (by simp [hlk]; omega)
    rw [e1]
    simp only [Option.bind_some, Option.map_some, Option.some.injEq]
    have henc := Internal.enc_spec ci.int ws cryptorTweak.1 cryptorTweak.2 (by rw [es]; exact hh.klen) hh.ek hh.et block (by rw [es]; exact hb)
    rw [es] at henc
    rw [← henc, b64Encode_eq]
    congr 1
    have hle : (bytesOfWords (ci.int.enc block)).length = 8 * sz.words := by rw [bytesOfWords_length, Internal.enc_length, es]
    have hp : (bytesOfWords block ++ rest ++ List.replicate extra (0 : UInt8)).length = (bytesOfWords block ++ rest).length + extra := by simp only [List.length_append, List.length_replicate]
    rw [splice, List.take_left' hp, List.append_assoc, List.drop_left' hp, hle, List.drop_append, List.drop_eq_nil_of_le (by rw [hp, hn]; omega), List.nil_append, hp,
      List.drop_replicate, hn]
    congr 2
    omega

/-- **C112** `Decrypt` of such a Cryptor: it crashes if the text decodes to fewer bytes than the key has; otherwise it returns as many zero bytes as were decoded,
whatever they are. -/
theorem C112_decrypt {sz : Size} {ws : List W} (hw : ws.length = sz.words) {c : Option Cipher} (h : CryptorUse (bytesOfWords ws) c) (extra : Nat) (encoded bytes : Str)
    (he : encoded.filter (fun x => x ≠ 10 && x ≠ 13) = base64url bytes) :
    (bytes.length < 8 * sz.words → cryptorDecrypt c extra encoded = none) ∧
    (8 * sz.words ≤ bytes.length → (cryptorDecrypt c extra encoded).map (·.2) = some (List.replicate bytes.length 0)) := by
  obtain ⟨ci, rfl, hi⟩ := h.inUse hw
  obtain ⟨hh, _, h3⟩ := hi.holds
  have hs := h3 rfl
  have es := hh.size
  have hm : ci.stateSize / 64 = sz.words := by rw [hs]; omega
  have hdec : b64Decode encoded = bytes := by rw [b64Decode, he, ← b64Encode_eq, b64_quanta]
  constructor
  · intro ht
    simp only [cryptorDecrypt, Option.bind_eq_bind, Option.bind_some, Cipher.decrypt, hdec, hm, readWords]
    rw [if_neg (by omega)]
    rfl
  · intro ht
    simp only [cryptorDecrypt, Option.bind_eq_bind, Option.bind_some, hdec]
    obtain ⟨zs, hz1, hz2⟩ := bytesOfWords_surj sz.words (List.replicate (8 * sz.words) 0) (by simp)
    have hp : (bytes ++ List.replicate extra (0 : UInt8)).length = bytes.length + extra := by simp
    obtain ⟨c', e1, _⟩ := Cipher.decrypt_eq hh hs (bytes ++ List.replicate extra 0 ++ List.replicate bytes.length 0)
      ⟨0, bytes.length, bytes.length + extra⟩ ⟨bytes.length + extra, bytes.length, bytes.length⟩ zs hz1
      (by rw [hz2]
          simp only [Slice.first]
          rw [List.drop_left' hp, List.take_replicate]
          congr 1; omega)
      (by simp only []; omega) (by simp only []; omega) (by simp; omega)
    rw [e1]
    simp only [Option.bind_some, Option.map_some, Option.some.injEq]
    have hdl : (bytesOfWords (ci.int.dec zs)).length = 8 * sz.words := by rw [bytesOfWords_length, Internal.dec_length, es]
    rw [splice, List.take_zero, List.nil_append, hdl, Nat.zero_add, List.drop_append, hdl, List.drop_eq_nil_of_le (by rw [hdl]; omega), List.nil_append,
      List.drop_drop, List.drop_append, List.drop_eq_nil_of_le (by rw [hp]; omega), List.nil_append, hp, List.drop_replicate]
    congr 1; omega

/-- **C112** With a key of any other length every call crashes. -/
theorem C112_unusable {keyText : Str} (hk : ¬ (keyText.length = 32 ∨ keyText.length = 64 ∨ keyText.length = 128)) {c : Option Cipher} (h : CryptorUse keyText c)
    (extra : Nat) (text : Str) : cryptorEncrypt c extra text = none ∧ cryptorDecrypt c extra text = none := by
  have hn : c = none := by
    induction h with
    | new bits c e =>
      by_cases hb : -8 < bits ∧ bits < 2 ^ 51 + 8
      · have := ((C112_new keyText bits).2 hb).2.2 hk
        exact Option.some.inj (e.symm.trans this)
      · have := (C112_new keyText bits).1.2 (by omega)
        rw [this] at e; cases e
    | encrypt _ extra text c' out e ih => rw [ih] at e; cases e
    | decrypt _ extra text c' out e ih => rw [ih] at e; cases e
  subst hn
  exact ⟨rfl, rfl⟩

/-- A Cryptor with a key of 32 bytes that has encrypted a text of 40 bytes. -/
example : ∃ c c' out, newCryptor (List.replicate 32 107) 256 = some c ∧ cryptorEncrypt c 8 (List.replicate 40 97) = some (c', out) ∧ CryptorUse (List.replicate 32 107) c' := by
  obtain ⟨c, hc⟩ := (((C112_new (List.replicate 32 107) 256).2 (by omega)).1.2 (Or.inl (by simp)))
  obtain ⟨ws, h1, h2⟩ := bytesOfWords_surj (Size.words .s256) (List.replicate 32 107) (by decide)
  obtain ⟨bs, h3, h4⟩ := bytesOfWords_surj (Size.words .s256) (List.replicate 32 97) (by decide)
  have hu : CryptorUse (bytesOfWords ws) (some c) := .new 256 _ (by rw [h2]; exact hc)
  have := (C112_encrypt (sz := .s256) h1 hu 8).2 bs (List.replicate 8 97) h3
  rw [h4, show List.replicate 32 (97 : UInt8) ++ List.replicate 8 97 = List.replicate 40 97 by decide] at this
  cases he : cryptorEncrypt (some c) 8 (List.replicate 40 97) with
  | none => rw [he] at this; cases this
  | some r => exact ⟨some c, r.1, r.2, hc, by rw [he], .encrypt (.new 256 _ hc) 8 _ _ _ he⟩

example : base64url (lit "Man") = lit "TWFu" ∧ base64url (lit "Ma") = lit "TWE=" ∧ base64url [255, 255, 254] = lit "___-" := by decide

end Verif.Crypter
