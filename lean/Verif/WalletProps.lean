import Verif.Wallet
import Verif.AddressProps
import Verif.MbtSound
/-!
C36 (signatures), C37 (key stores), C87 (public keys), C88 (encrypted messages), C89 (passwords of the relay).
-/
namespace Verif.Wallet
open Verif Verif.Mbt

theorem bind_ok {x : R α} {f : α → R β} {b : β} : x.bind f = .ok b ↔ ∃ a, x = .ok a ∧ f a = .ok b := by
  cases x <;> simp [R.bind]

theorem ok_bind (a : α) (f : α → R β) : (R.ok a).bind f = f a := rfl
theorem err_bind (f : α → R β) : (R.err : R α).bind f = .err := rfl
theorem panic_bind (f : α → R β) : (R.panic : R α).bind f = .panic := rfl

theorem parse33 {b : Bytes} (h : b.length = 33) : parsePublicKey b = .ok b := by simp [parsePublicKey, h]
theorem parse65 {b : Bytes} (h : b.length = 65) : parsePublicKey b = .ok (compress b) := by simp [parsePublicKey, h]

/-! ### C36 -/

/-- **C36** for [R|S|V]: every 65-byte signature is parsed and serialised back to itself, to its first 64 bytes, and to V
followed by them. -/
theorem C36_rsv (b : Bytes) (h : b.length = 65) :
    ∃ s, parseSignature b = .ok s ∧ serializeRSV s = .ok b ∧ serializeRS s = .ok (b.take 64) ∧
      serializeVRS s = .ok (b.drop 64 ++ b.take 64) := by
  refine ⟨⟨b, true⟩, by simp [parseSignature, h], rfl, by simp [serializeRS, h], ?_⟩
  have e1 : b.drop 64 = [b.getD 64 0] := by
    apply List.ext_getElem
    · simp [h]
    · intro i h1 h2
      simp only [List.length_singleton] at h2
      have : i = 0 := by omega
      subst this
      simp [List.getD_eq_getElem?_getD, h]
  have e2 : b.take 64 = b.take 32 ++ (b.drop 32).take 32 := by
    rw [show (64 : Nat) = 32 + 32 from rfl, List.take_add]
  simp [serializeVRS, h, e1, e2]

/-- 64 bytes: [R|S] comes back, the forms with V are refused. -/
theorem C36_rs (b : Bytes) (h : b.length = 64) :
    ∃ s, parseSignature b = .ok s ∧ serializeRS s = .ok b ∧ serializeRSV s = .err ∧ serializeVRS s = .err := by
  refine ⟨⟨b ++ [0], false⟩, by simp [parseSignature, h], ?_, rfl, rfl⟩
  simp [serializeRS, h]

/-- Every other length is an error. -/
theorem C36_lengths (b : Bytes) : (∃ s, parseSignature b = .ok s) ↔ b.length = 64 ∨ b.length = 65 := by
  unfold parseSignature
  constructor
  · rintro ⟨s, h⟩
    split at h
    · cases h
    · split at h
      · omega
      · split at h
        · omega
        · cases h
  · rintro (h | h) <;> simp [h]

/-- **C36** is false for [V|R|S]: parsing panics on every 65-byte string, and is an error on every other. No signature is ever
parsed from this form, not even the one just serialised. -/
theorem C36_vrs_panics (b : Bytes) : parseSignatureVRS b = if b.length = 65 then .panic else .err := by
  unfold parseSignatureVRS setIndex
  by_cases h : b.length = 65
  · simp [h, R.bind]
  · simp [h]

/-- What a wallet signs: hashes of 1 to 32 bytes, and the 65 bytes of the library unchanged. -/
theorem C36_wallet_sign (lib : Lib) (sk hash : Bytes) (hs : ∀ h k, (lib.sign h k).length = 65) :
    walletSign lib sk hash = if hash.length = 0 ∨ hash.length > 32 then .err else .ok (lib.sign hash sk) := by
  unfold walletSign newSignature
  by_cases h : hash.length = 0 ∨ hash.length > 32
  · rw [if_pos h, if_pos h]; rfl
  · rw [if_neg h, if_neg h]
    simp [parseSignature, hs, R.bind, serializeRSV]

/-! ### C87 -/

theorem or_one (x : UInt8) : (x &&& 1 = 1) ∨ (x &&& 1 = 0) := by
  have : ∀ n : Fin 256, (UInt8.ofNat n.val &&& 1 = 1) ∨ (UInt8.ofNat n.val &&& 1 = 0) := by decide +kernel
  have h := this ⟨x.toNat, x.toNat_lt⟩
  simpa using h

/-- **C87**: the key kept for a 65-byte string is the parity of its last byte and its x part: two strings are one key if and only
if they agree in these. -/
theorem C87_uncompressed (u v : Bytes) (hu : u.length = 65) (hv : v.length = 65) :
    parsePublicKey u = parsePublicKey v ↔
      (u.getD 64 0 &&& 1 = v.getD 64 0 &&& 1 ∧ (u.drop 1).take 32 = (v.drop 1).take 32) := by
  rw [parse65 hu, parse65 hv]
  simp only [compress, R.ok.injEq, List.cons.injEq]
  generalize (u.drop 1).take 32 = a
  generalize (v.drop 1).take 32 = b
  rcases or_one (u.getD 64 0) with h1 | h1 <;> rcases or_one (v.getD 64 0) with h2 | h2 <;> rw [h1, h2] <;> simp
  · intro h; exact absurd h (by decide)
  · intro h; exact absurd h (by decide)

/-- The compressed and the uncompressed form of a point are one key: `0x02`/`0x03` by the parity of y, then x. -/
theorem C87_same_key (x y : Bytes) (hx : x.length = 32) (hy : y.length = 32) :
    parsePublicKey ((4 : UInt8) :: (x ++ y)) =
      parsePublicKey ((if y.getD 31 0 &&& 1 = 1 then (3 : UInt8) else 2) :: x) := by
  have e : ((4 : UInt8) :: (x ++ y)).getD 64 0 = y.getD 31 0 := by
    simp [List.getD_eq_getElem?_getD, List.getElem?_append, hx]
  have e2 : (((4 : UInt8) :: (x ++ y)).drop 1).take 32 = x := by
    simp only [List.drop_succ_cons, List.drop_zero]
    rw [← hx]; exact List.take_left
  have e3 : (2 : UInt8) ||| 1 = 3 := by decide
  simp only [parsePublicKey, compress, e, e2, e3]
  simp [hx, hy]

/-- Parsing accepts exactly by length. -/
theorem C87_lengths (b : Bytes) : (∃ k, parsePublicKey b = .ok k) ↔ b.length = 33 ∨ b.length = 65 := by
  unfold parsePublicKey
  constructor
  · rintro ⟨s, h⟩
    split at h
    · cases h
    · split at h
      · omega
      · split at h
        · omega
        · cases h
  · rintro (h | h) <;> simp [h]

/-- **C87**, where it fails: nothing checks the leading byte or the point. Strings that differ in the leading byte, or in all of y
but its parity, are accepted as the same key. -/
theorem C87_not_a_point (x y y' : Bytes) (f : UInt8) (hx : x.length = 32) (hy : y.length = 32) (hy' : y'.length = 32)
    (hp : y.getD 31 0 &&& 1 = y'.getD 31 0 &&& 1) :
    parsePublicKey (f :: (x ++ y)) = parsePublicKey ((4 : UInt8) :: (x ++ y')) := by
  rw [C87_uncompressed _ _ (by simp [hx, hy]) (by simp [hx, hy'])]
  have g : ∀ (f : UInt8) (y : Bytes), (f :: (x ++ y)).getD 64 0 = y.getD 31 0 := by
    intro f y; simp [List.getD_eq_getElem?_getD, List.getElem?_append, hx]
  refine ⟨by rw [g, g]; exact hp, ?_⟩
  simp only [List.drop_succ_cons, List.drop_zero]
  rw [← hx, List.take_left, List.take_left]

/-! ### C37 -/

theorem xorFrom_twice (ks : Nat → UInt8) : ∀ (b : Bytes) (i : Nat), xorFrom ks i (xorFrom ks i b) = b
  | [], _ => rfl
  | x :: t, i => by
    simp only [xorFrom]
    rw [xorFrom_twice ks t (i + 1), UInt8.xor_assoc, UInt8.xor_self, UInt8.xor_zero]

theorem xorFrom_length (ks : Nat → UInt8) : ∀ (b : Bytes) (i : Nat), (xorFrom ks i b).length = b.length
  | [], _ => rfl
  | x :: t, i => by simp [xorFrom, xorFrom_length ks t (i + 1)]

theorem ctr_twice {lib : Lib} {k iv b c : Bytes} (h : ctr lib k iv b = .ok c) : ctr lib k iv c = .ok b := by
  unfold ctr at h ⊢
  split at h
  · cases h
  · rename_i hl
    rw [if_neg hl]
    cases h
    rw [xorFrom_twice]

theorem fromPublicKey_ok (sha3 : Bytes → Bytes) (pk : Bytes) : ∃ a, Address.fromPublicKey sha3 pk = .ok a := by
  unfold Address.fromPublicKey Address.setTypeAndID
  exact ⟨_, rfl⟩

theorem addressOf_wf {lib : Lib} {pk a : Bytes} (h : addressOf lib pk = .ok a) : Address.WF a := by
  unfold addressOf at h
  cases hu : lib.uncompress pk with
  | none => rw [hu] at h; cases h
  | some u =>
    rw [hu] at h
    obtain ⟨a', e⟩ := fromPublicKey_ok lib.sha3 u
    dsimp only at h
    rw [e] at h
    cases h
    exact Address.setTypeAndID_wf Address.zero (by decide) _ _ _ (by unfold Address.fromPublicKey at e; exact e)

/-- The address that belongs to a private key. -/
def keyAddress (lib : Lib) (sk : Bytes) : R Bytes := (publicKey lib sk).bind (addressOf lib)

/-- What encryption yields. -/
theorem encrypt_spec {lib : Lib} {salt iv sk pw : Bytes} {ks : KeyStore} (h : encryptKey lib salt iv sk pw = .ok ks) :
    ∃ key k1 k2 ct a, lib.scrypt (initParams salt) pw = some key ∧ slice key 0 16 = .ok k1 ∧ slice key 16 32 = .ok k2 ∧
      ctr lib k1 iv sk = .ok ct ∧ keyAddress lib sk = .ok a ∧ Address.WF a ∧
      ks = ⟨a, .icx, 3, true, some iv, ct, true, some (initParams salt), lib.keccak (k2 ++ ct)⟩ := by
  unfold encryptKey at h
  cases hk : lib.scrypt (initParams salt) pw with
  | none => rw [hk] at h; cases h
  | some key =>
    rw [hk] at h
    dsimp only at h
    obtain ⟨k1, h1, h⟩ := bind_ok.1 h
    obtain ⟨ct, h2, h⟩ := bind_ok.1 h
    obtain ⟨k2, h3, h⟩ := bind_ok.1 h
    obtain ⟨pk, h4, h⟩ := bind_ok.1 h
    obtain ⟨a, h5, h⟩ := bind_ok.1 h
    have hw := addressOf_wf h5
    rw [Address.C27_bytes_roundtrip Address.zero a (by decide) hw] at h
    cases h
    exact ⟨key, k1, k2, ct, a, rfl, h1, h3, h2, bind_ok.2 ⟨pk, h4, h5⟩, hw, rfl⟩

/-- **C37**: decrypting with the same password returns the key, whatever the random bytes. -/
theorem C37_roundtrip (lib : Lib) (salt iv sk pw : Bytes) (hsk : sk.length = 32) (ks : KeyStore)
    (h : encryptKey lib salt iv sk pw = .ok ks) : decryptIcon lib ks pw = .ok sk := by
  obtain ⟨key, k1, k2, ct, a, hkey, h1, h2, hct, ha, hw, rfl⟩ := encrypt_spec h
  obtain ⟨pk, hpk, hadr⟩ := bind_ok.1 ha
  unfold decryptIcon
  have hp : parsePrivateKey sk = .ok sk := by simp [parsePrivateKey, hsk]
  simp only [hkey, h2, h1, ok_bind, ctr_twice hct, hp, hpk, hadr]
  simp [Address.equal]

/-- And the wallet that the relay gets from it is the software wallet of the key. -/
theorem C37_wallet (lib : Lib) (evmDecrypt : KeyStore → Bytes → Option Bytes) (salt iv sk pw : Bytes) (hsk : sk.length = 32)
    (ks : KeyStore) (h : encryptKey lib salt iv sk pw = .ok ks) :
    ∃ pk, publicKey lib sk = .ok pk ∧ decryptKeyStore lib evmDecrypt ks pw = .ok (.soft sk pk) := by
  have hd := C37_roundtrip lib salt iv sk pw hsk ks h
  obtain ⟨_, _, _, _, a, _, _, _, _, ha, _, rfl⟩ := encrypt_spec h
  obtain ⟨pk, hpk, _⟩ := bind_ok.1 ha
  exact ⟨pk, hpk, by unfold decryptKeyStore; simp only [hd, R.bind, hpk]⟩

/-- **C37**: the address recorded is that of the key. -/
theorem C37_address (lib : Lib) (salt iv sk pw : Bytes) (ks : KeyStore) (h : encryptKey lib salt iv sk pw = .ok ks) :
    keyAddress lib sk = .ok ks.address ∧ ks.coin = .icx := by
  obtain ⟨_, _, _, _, a, _, _, _, _, ha, _, rfl⟩ := encrypt_spec h
  exact ⟨ha, rfl⟩

/-- Encryption succeeds whenever the libraries do: derived key of 32 bytes, valid private key. -/
theorem C37_encrypts (lib : Lib) (salt iv sk pw key u : Bytes) (hiv : iv.length = 16)
    (hkey : lib.scrypt (initParams salt) pw = some key) (hl : 32 ≤ key.length) (pk : Bytes) (hpk : publicKey lib sk = .ok pk)
    (hu : lib.uncompress pk = some u) : ∃ ks, encryptKey lib salt iv sk pw = .ok ks := by
  obtain ⟨a, ha⟩ := fromPublicKey_ok lib.sha3 u
  have hadr : addressOf lib pk = .ok a := by unfold addressOf; rw [hu]; dsimp only; rw [ha]
  have s1 : slice key 0 16 = .ok ((key.take 16).drop 0) := by unfold slice; rw [if_pos (by omega)]
  have s2 : slice key 16 32 = .ok ((key.take 32).drop 16) := by unfold slice; rw [if_pos (by omega)]
  have hc : ctr lib ((key.take 16).drop 0) iv sk = .ok (xorFrom (lib.stream ((key.take 16).drop 0) iv) 0 sk) := by
    unfold ctr; rw [if_neg (by simp [hiv])]
  unfold encryptKey
  simp only [hkey, s1, s2, ok_bind, hc, hpk, hadr]
  rw [Address.C27_bytes_roundtrip Address.zero a (by decide) (addressOf_wf hadr)]
  exact ⟨_, rfl⟩

/-- **C37**: a password whose derived MAC differs is an error. -/
theorem C37_wrong_mac (lib : Lib) (ks : KeyStore) (p : ScryptParams) (pw key : Bytes) (hp : ks.kdfParams = some p)
    (hkey : lib.scrypt p pw = some key) (hl : 32 ≤ key.length)
    (hm : lib.keccak ((key.take 32).drop 16 ++ ks.cipherText) ≠ ks.mac) : decryptIcon lib ks pw = .err := by
  unfold decryptIcon
  split
  · rfl
  · cases ks.iv with
    | none => rfl
    | some iv =>
      dsimp only
      split
      · rfl
      · rw [hp]; dsimp only; rw [hkey]; dsimp only
        simp only [slice, hl, if_true, R.bind]
        rw [if_pos hm]

/-- **C37**, soundness for every key store text and password: an accepted key has 32 bytes, is the decrypted cipher text, its
MAC is the recorded one, and its address is the recorded one. -/
theorem C37_sound (lib : Lib) (ks : KeyStore) (pw sk : Bytes) (h : decryptIcon lib ks pw = .ok sk) :
    sk.length = 32 ∧ keyAddress lib sk = .ok ks.address ∧
    ∃ p iv key, ks.kdfParams = some p ∧ ks.iv = some iv ∧ iv.length = 16 ∧ lib.scrypt p pw = some key ∧
      lib.keccak ((key.take 32).drop 16 ++ ks.cipherText) = ks.mac ∧
      sk = xorFrom (lib.stream (key.take 16) iv) 0 ks.cipherText := by
  unfold decryptIcon at h
  split at h
  · cases h
  · cases hiv : ks.iv with
    | none => rw [hiv] at h; cases h
    | some iv =>
      rw [hiv] at h; dsimp only at h
      split at h
      · cases h
      · cases hp : ks.kdfParams with
        | none => rw [hp] at h; cases h
        | some p =>
          rw [hp] at h; dsimp only at h
          cases hk : lib.scrypt p pw with
          | none => rw [hk] at h; cases h
          | some key =>
            rw [hk] at h; dsimp only at h
            obtain ⟨k2, h2, h⟩ := bind_ok.1 h
            split at h
            · cases h
            · rename_i hm
              obtain ⟨k1, h1, h⟩ := bind_ok.1 h
              obtain ⟨sec, h3, h⟩ := bind_ok.1 h
              obtain ⟨sk', h4, h⟩ := bind_ok.1 h
              obtain ⟨pk, h5, h⟩ := bind_ok.1 h
              obtain ⟨a, h6, h⟩ := bind_ok.1 h
              split at h
              · rename_i he
                cases h
                have ea : a = ks.address := by
                  have := (Address.C27_equal _ _).1 he
                  simpa using this
                subst ea
                unfold parsePrivateKey at h4
                split at h4
                · cases h4
                · rename_i hlen
                  cases h4
                  unfold slice at h1 h2
                  split at h1
                  · split at h2
                    · cases h1; cases h2
                      unfold ctr at h3
                      split at h3
                      · cases h3
                      · rename_i hiv16
                        cases h3
                        exact ⟨by simpa using hlen, bind_ok.2 ⟨pk, h5, h6⟩, p, iv, key, rfl, rfl, by simpa using hiv16, hk,
                          by simpa using hm, by simp⟩
                    · cases h2
                  · cases h1
              · cases h

/-- **C37**: a password accepted for a key store made with another one has the same MAC half of the derived key, or a Keccak
collision is at hand; and even then what it returns is a key of the recorded address. -/
theorem C37_other_password (lib : Lib) (salt iv sk pw pw' sk' key : Bytes) (ks : KeyStore)
    (h : encryptKey lib salt iv sk pw = .ok ks) (hkey : lib.scrypt (initParams salt) pw = some key)
    (h' : decryptIcon lib ks pw' = .ok sk') :
    keyAddress lib sk' = keyAddress lib sk ∧
    ∃ key', lib.scrypt (initParams salt) pw' = some key' ∧
      ((key'.take 32).drop 16 = (key.take 32).drop 16 ∨
        Collision lib.keccak [(key'.take 32).drop 16 ++ ks.cipherText] [(key.take 32).drop 16 ++ ks.cipherText]) := by
  obtain ⟨key0, k1, k2, ct, a, hk0, h1, h2, hct, ha, hw, rfl⟩ := encrypt_spec h
  rw [hkey] at hk0; cases hk0
  obtain ⟨_, hadr, p, iv', key', hp, _, _, hk', hmac, _⟩ := C37_sound lib _ _ _ h'
  cases hp
  refine ⟨hadr.trans ha.symm, key', hk', ?_⟩
  unfold slice at h2
  split at h2
  · cases h2
    dsimp only at hmac ⊢
    by_cases e : (key'.take 32).drop 16 = (key.take 32).drop 16
    · exact Or.inl e
    · refine Or.inr ⟨_, List.mem_singleton.2 rfl, _, List.mem_singleton.2 rfl, ?_, by simpa using hmac⟩
      intro e'
      exact e (List.append_cancel_right e')
  · cases h2

/-- **C37**, where it fails: the MAC does not cover the initial vector, and one of the wrong length is not an error: a correct
password crashes the relay. -/
theorem C37_bad_iv_panics (lib : Lib) (salt iv iv' sk pw : Bytes) (ks : KeyStore) (h : encryptKey lib salt iv sk pw = .ok ks)
    (hl : iv'.length ≠ 16) : decryptIcon lib { ks with iv := some iv' } pw = .panic := by
  obtain ⟨key, k1, k2, ct, a, hkey, h1, h2, hct, ha, hw, rfl⟩ := encrypt_spec h
  unfold decryptIcon
  have hc : ctr lib k1 iv' ct = .panic := by unfold ctr; rw [if_pos hl]
  simp only [hkey, h2, h1, ok_bind, hc, panic_bind]
  simp

/-- An initial vector changed to another one of the right length never yields another address. -/
theorem C37_changed_iv (lib : Lib) (salt iv iv' sk pw sk' : Bytes) (ks : KeyStore) (h : encryptKey lib salt iv sk pw = .ok ks)
    (h' : decryptIcon lib { ks with iv := some iv' } pw = .ok sk') : keyAddress lib sk' = keyAddress lib sk := by
  rw [(C37_sound lib _ _ _ h').2.1, (C37_address lib salt iv sk pw ks h).1]

/-! ### C88 -/

/-- **C88**, the provable part: with compressed public keys and a symmetric key agreement, the recipient decrypts what the sender
encrypted for them. -/
theorem C88_roundtrip_partial (lib : Lib) (evmPub : Bytes → Bytes) (sk pk sk' pk' salt b : Bytes) (hpk : pk.length = 33)
    (hpk' : pk'.length = 33) (hs : salt.length = 4) (sym : lib.ecdh pk' sk = lib.ecdh pk sk') (e : Encrypted)
    (h : newEncrypted lib evmPub (.soft sk pk) pk' salt b = .ok e) : e.decrypt lib (.soft sk' pk') = .ok b := by
  unfold newEncrypted at h
  obtain ⟨ct, hct, h⟩ := bind_ok.1 h
  simp only [walletPub] at h
  have e1 : pk.take pk'.length ++ pk'.drop pk.length = pk := by
    rw [hpk', ← hpk, List.take_length, List.drop_eq_nil_of_le (by omega), List.append_nil]
  rw [e1] at h
  cases h
  have d4 : ∀ x : Bytes, (salt ++ x).drop 4 = x := fun x => by rw [← hs]; exact List.drop_left
  have t4 : ∀ x : Bytes, (salt ++ x).take 4 = salt := fun x => by rw [← hs]; exact List.take_left
  have nl : ∀ x : Bytes, ¬ (salt ++ x).length < 4 := fun x => by rw [List.length_append]; omega
  unfold Encrypted.decrypt
  unfold cryptWith at hct ⊢
  simp only [nl, if_false, d4, t4, walletEcdh, parse33 hpk, parse33 hpk', ok_bind] at hct ⊢
  rw [sym] at hct
  cases hk : slice (lib.hkdf (lib.ecdh pk sk') salt) 0 16 with
  | ok k =>
    rw [hk] at hct
    simp only [ok_bind] at hct ⊢
    exact ctr_twice hct
  | err => rw [hk] at hct; cases hct
  | panic => rw [hk] at hct; cases hct

/-- **C88**, where it fails: for a recipient whose key is given in the 65-byte form, the recipient derives the secret from the
sender's x with the parity of their own y instead of the sender's. -/
theorem C88_uncompressed_recipient (lib : Lib) (evmPub : Bytes → Bytes) (sk f x sk' pk' u salt b ct : Bytes)
    (hf : f.length = 1) (hx : x.length = 32) (hu : u.length = 65) (hs : salt.length = 4) (e : Encrypted)
    (h : newEncrypted lib evmPub (.soft sk (f ++ x)) u salt b = .ok e) :
    cryptWith lib (.soft sk' pk') e.param ct =
      (slice (lib.hkdf (lib.ecdh ((if u.getD 64 0 &&& 1 = 1 then (3 : UInt8) else 2) :: x) sk') salt) 0 16).bind fun k =>
        ctr lib k ((lib.hkdf (lib.ecdh ((if u.getD 64 0 &&& 1 = 1 then (3 : UInt8) else 2) :: x) sk') salt).drop 16) ct := by
  unfold newEncrypted at h
  obtain ⟨ct', hct, h⟩ := bind_ok.1 h
  simp only [walletPub] at h
  cases h
  have d4 : ∀ y : Bytes, (salt ++ y).drop 4 = y := fun y => by rw [← hs]; exact List.drop_left
  have t4 : ∀ y : Bytes, (salt ++ y).take 4 = salt := fun y => by rw [← hs]; exact List.take_left
  have nl : ∀ y : Bytes, ¬ (salt ++ y).length < 4 := fun y => by rw [List.length_append]; omega
  have hfx : (f ++ x).length = 33 := by simp [hf, hx]
  have e1 : (f ++ x).take u.length = f ++ x := List.take_of_length_le (by rw [hfx, hu]; omega)
  have hlen : (f ++ x ++ u.drop 33).length = 65 := by simp [hf, hx, hu]
  have ec : compress (f ++ x ++ u.drop 33) = (if u.getD 64 0 &&& 1 = 1 then (3 : UInt8) else 2) :: x := by
    unfold compress
    have g : (f ++ x ++ u.drop 33).getD 64 0 = u.getD 64 0 := by
      simp [List.getD_eq_getElem?_getD, List.getElem?_append, hf, hx]
    have dx : ((f ++ x ++ u.drop 33).drop 1).take 32 = x := by
      rw [List.append_assoc, ← hf, List.drop_left, ← hx, List.take_left]
    have e3 : (2 : UInt8) ||| 1 = 3 := by decide
    rw [g, dx, e3]
  unfold cryptWith
  dsimp only
  rw [e1, hfx]
  simp only [nl, if_false, d4, t4, walletEcdh, parse65 hlen, ok_bind, ec]

/-- **C88**, where it fails: a message encrypted by an EVM wallet is readable by everyone. The key comes from the public salt alone,
so any EVM wallet decrypts it, whoever it was meant for. -/
theorem C88_evm_no_secret (lib : Lib) (evmPub : Bytes → Bytes) (sk anyone pub salt b : Bytes) (hs : salt.length = 4)
    (e : Encrypted) (h : newEncrypted lib evmPub (.evm sk) pub salt b = .ok e) : e.decrypt lib (.evm anyone) = .ok b := by
  unfold newEncrypted at h
  obtain ⟨ct, hct, h⟩ := bind_ok.1 h
  cases h
  have t4 : ∀ x : Bytes, (salt ++ x).take 4 = salt := fun x => by rw [← hs]; exact List.take_left
  have nl : ∀ x : Bytes, ¬ (salt ++ x).length < 4 := fun x => by rw [List.length_append]; omega
  unfold Encrypted.decrypt
  unfold cryptWith at hct ⊢
  simp only [nl, if_false, t4, walletEcdh, ok_bind] at hct ⊢
  cases hk : slice (lib.hkdf [] salt) 0 16 with
  | ok k =>
    rw [hk] at hct
    simp only [ok_bind] at hct ⊢
    exact ctr_twice hct
  | err => rw [hk] at hct; cases hct
  | panic => rw [hk] at hct; cases hct

/-! ### C89 -/

/-- **C89** is false: an unreadable secret file of the source is not noticed. If no key store is configured, a new key is stored
encrypted with the empty password: everyone with the file opens it. -/
theorem C89_src_secret_ignored (lib : Lib) (evmDecrypt : KeyStore → Bytes → Option Bytes) (read : Bytes → Option Bytes)
    (src dst : KeyCfg) (rnd : (Bytes × Bytes × Bytes) × (Bytes × Bytes × Bytes)) (hsec : src.secret ≠ [])
    (hread : read src.secret = none) (hnone : src.store = none) (hk : rnd.1.1.length = 32) (s d : KeyCfg)
    (h : ensureWallet lib evmDecrypt read src dst rnd = .ok (s, d)) :
    ∃ ks, s.store = some ks ∧ decryptIcon lib ks [] = .ok rnd.1.1 := by
  have hp : resolvePassword read src.secret src.pass = ([], true) := by simp [resolvePassword, hsec, hread]
  unfold ensureWallet at h
  rw [hp] at h
  dsimp only at h
  generalize resolvePassword read dst.secret dst.pass = pd at h
  obtain ⟨pd, er⟩ := pd
  cases er with
  | true => cases h
  | false =>
    dsimp only at h
    rw [if_neg (by simp)] at h
    obtain ⟨s', h1, h⟩ := bind_ok.1 h
    obtain ⟨d', h2, h⟩ := bind_ok.1 h
    cases h
    unfold ensureOne at h1
    rw [hnone] at h1
    obtain ⟨ks, h3, h1⟩ := bind_ok.1 h1
    cases h1
    exact ⟨ks, rfl, C37_roundtrip lib _ _ _ _ hk ks h3⟩

/-- The password of a configuration: the contents of the secret file if one is named, else the password given; none if the
file is unreadable. -/
def passwordOf (read : Bytes → Option Bytes) (c : KeyCfg) : Option Bytes := if c.secret = [] then some c.pass else read c.secret

theorem resolve_eq (read : Bytes → Option Bytes) (c : KeyCfg) (pw : Bytes) (h : passwordOf read c = some pw) :
    (resolvePassword read c.secret c.pass).1 = pw := by
  unfold passwordOf at h
  unfold resolvePassword
  by_cases e : c.secret = []
  · rw [if_pos e] at h; cases h; simp [e]
  · rw [if_neg e] at h; simp [e, h]

theorem ensureWallet_opens (lib : Lib) (evmDecrypt : KeyStore → Bytes → Option Bytes) (read : Bytes → Option Bytes)
    (src dst : KeyCfg) (rnd : (Bytes × Bytes × Bytes) × (Bytes × Bytes × Bytes)) :
    ((dst.secret ≠ [] ∧ read dst.secret = none) → ensureWallet lib evmDecrypt read src dst rnd = .err) ∧
    (∀ s d, rnd.1.1.length = 32 → rnd.2.1.length = 32 → ensureWallet lib evmDecrypt read src dst rnd = .ok (s, d) →
      (∃ ks w, s.store = some ks ∧ decryptKeyStore lib evmDecrypt ks (resolvePassword read src.secret src.pass).1 = .ok w) ∧
      (∃ ks w, d.store = some ks ∧ decryptKeyStore lib evmDecrypt ks (resolvePassword read dst.secret dst.pass).1 = .ok w)) := by
  have one : ∀ (c : KeyCfg) (pw sk salt iv : Bytes) (c' : KeyCfg), sk.length = 32 →
      ensureOne lib evmDecrypt c pw sk salt iv = .ok c' →
      ∃ ks w, c'.store = some ks ∧ decryptKeyStore lib evmDecrypt ks pw = .ok w := by
    intro c pw sk salt iv c' hl h
    unfold ensureOne at h
    cases hc : c.store with
    | none =>
      rw [hc] at h
      obtain ⟨ks, h1, h⟩ := bind_ok.1 h
      cases h
      obtain ⟨pk, _, h2⟩ := C37_wallet lib evmDecrypt salt iv sk pw hl ks h1
      exact ⟨ks, _, rfl, h2⟩
    | some ks =>
      rw [hc] at h
      obtain ⟨w, h1, h⟩ := bind_ok.1 h
      cases h
      exact ⟨ks, w, hc, h1⟩
  constructor
  · rintro ⟨h1, h2⟩
    unfold ensureWallet
    simp [resolvePassword, h1, h2]
  · intro s d hl1 hl2 h
    unfold ensureWallet at h
    dsimp only at h
    split at h
    · cases h
    · obtain ⟨s', h1, h⟩ := bind_ok.1 h
      obtain ⟨d', h2, h⟩ := bind_ok.1 h
      cases h
      exact ⟨one _ _ _ _ _ _ hl1 h1, one _ _ _ _ _ _ hl2 h2⟩

/-- **C89**, the provable part: an unreadable secret file of the destination stops the command, and with readable files each
key store in the result opens with the configured password. -/
theorem C89_partial (lib : Lib) (evmDecrypt : KeyStore → Bytes → Option Bytes) (read : Bytes → Option Bytes)
    (src dst : KeyCfg) (rnd : (Bytes × Bytes × Bytes) × (Bytes × Bytes × Bytes)) :
    (passwordOf read dst = none → ensureWallet lib evmDecrypt read src dst rnd = .err) ∧
    (∀ ps pd s d, passwordOf read src = some ps → passwordOf read dst = some pd → rnd.1.1.length = 32 → rnd.2.1.length = 32 →
      ensureWallet lib evmDecrypt read src dst rnd = .ok (s, d) →
      (∃ ks w, s.store = some ks ∧ decryptKeyStore lib evmDecrypt ks ps = .ok w) ∧
      (∃ ks w, d.store = some ks ∧ decryptKeyStore lib evmDecrypt ks pd = .ok w)) := by
  obtain ⟨h1, h2⟩ := ensureWallet_opens lib evmDecrypt read src dst rnd
  constructor
  · intro h
    unfold passwordOf at h
    by_cases e : dst.secret = []
    · rw [if_pos e] at h; cases h
    · rw [if_neg e] at h; exact h1 ⟨e, h⟩
  · intro ps pd s d hs hd l1 l2 h
    rw [← resolve_eq read src ps hs, ← resolve_eq read dst pd hd]
    exact h2 s d l1 l2 h

/-- Generated key stores are always ICON key stores, whatever the chain: the wallet is a software wallet, which the EVM sender
(sender.go:186) cannot use. -/
theorem C89_generated_is_icon (lib : Lib) (evmDecrypt : KeyStore → Bytes → Option Bytes) (c c' : KeyCfg) (pw sk salt iv : Bytes)
    (hn : c.store = none) (hl : sk.length = 32) (h : ensureOne lib evmDecrypt c pw sk salt iv = .ok c') :
    ∃ ks pk, c'.store = some ks ∧ decryptKeyStore lib evmDecrypt ks pw = .ok (.soft sk pk) := by
  unfold ensureOne at h
  rw [hn] at h
  obtain ⟨ks, h1, h⟩ := bind_ok.1 h
  cases h
  obtain ⟨pk, _, h2⟩ := C37_wallet lib evmDecrypt salt iv sk pw hl ks h1
  exact ⟨ks, pk, rfl, h2⟩

/-! ### Examples -/

/-- A library to run the model on. -/
def toy : Lib where
  scrypt p pw := some ((p.salt ++ pw ++ List.replicate 40 7).take 32)
  stream k iv i := (k ++ iv).getD (i % 32) 3 + UInt8.ofNat i
  keccak b := [b.foldl (fun x y => x * 3 + y) 1]
  sha3 b := (b ++ List.replicate 32 0).take 32
  pub sk := some ((2 + (sk.getD 0 0 &&& 1)) :: sk)
  uncompress pk := some ((4 : UInt8) :: (pk.drop 1 ++ pk.drop 1))
  sign h sk := (h ++ sk ++ List.replicate 65 0).take 65
  ecdh pk sk := ((pk.getD 0 0 &&& 1) ^^^ (sk.getD 0 0 &&& 1)) :: (pk.drop 1).zipWith (· + ·) sk
  hkdf s salt := (s ++ salt ++ List.replicate 32 9).take 32

def toyKey : Bytes := List.replicate 32 5
def toyIv : Bytes := List.replicate 16 1

example : ∃ ks, encryptKey toy [1, 2] toyIv toyKey [9, 9] = .ok ks ∧ decryptIcon toy ks [9, 9] = .ok toyKey :=
  ⟨_, rfl, by decide +kernel⟩

/-- A wrong password is refused, a wrong iv crashes. -/
example : ∃ ks, encryptKey toy [] toyIv toyKey (List.replicate 20 9) = .ok ks ∧
    decryptIcon toy ks (List.replicate 20 8) = .err ∧
    decryptIcon toy { ks with iv := some [] } (List.replicate 20 9) = .panic := ⟨_, rfl, by decide +kernel⟩

/-- Messages: round trip between software wallets; the same with the recipient's key in the 65-byte form fails; an EVM wallet
hides nothing. -/
example :
    let a : Wallet := .soft (List.replicate 32 5) ((3 : UInt8) :: List.replicate 32 5)
    let c : Wallet := .soft (List.replicate 32 8) ((2 : UInt8) :: List.replicate 32 8)
    (∃ e, newEncrypted toy id a ((2 : UInt8) :: List.replicate 32 8) [1, 2, 3, 4] [40, 41] = .ok e ∧
      e.decrypt toy c = .ok [40, 41]) ∧
    (∃ e, newEncrypted toy id a ((4 : UInt8) :: (List.replicate 32 8 ++ List.replicate 32 6)) [1, 2, 3, 4] [40, 41] = .ok e ∧
      e.decrypt toy c ≠ .ok [40, 41]) ∧
    (∃ e, newEncrypted toy id (.evm [1]) (List.replicate 65 8) [1, 2, 3, 4] [40, 41] = .ok e ∧
      e.decrypt toy (.evm [2]) = .ok [40, 41]) :=
  ⟨⟨_, rfl, by decide +kernel⟩, ⟨_, rfl, by decide +kernel⟩, ⟨_, rfl, by decide +kernel⟩⟩

/-- `EnsureWallet` with an unreadable source secret file. -/
example : ∃ s d, ensureWallet toy (fun _ _ => none) (fun _ => none) ⟨[1], [], none⟩ ⟨[], [3], none⟩
    ((toyKey, [1], toyIv), (toyKey, [2], toyIv)) = .ok (s, d) ∧
    (∃ ks, s.store = some ks ∧ decryptIcon toy ks [] = .ok toyKey) := ⟨_, _, rfl, _, rfl, by decide +kernel⟩

example : parseSignatureVRS (List.replicate 65 1) = .panic ∧ parseSignatureVRS (List.replicate 64 1) = .err ∧
    walletSign toy toyKey (List.replicate 33 1) = .err ∧
    (∃ b, walletSign toy toyKey (List.replicate 32 1) = .ok b ∧ b.length = 65) :=
  ⟨by decide +kernel, by decide +kernel, by decide +kernel, _, rfl, by decide +kernel⟩

example : parsePublicKey ((4 : UInt8) :: (List.replicate 32 5 ++ List.replicate 32 7)) = .ok ((3 : UInt8) :: List.replicate 32 5) ∧
    parsePublicKey ((9 : UInt8) :: (List.replicate 32 5 ++ List.replicate 32 9)) = .ok ((3 : UInt8) :: List.replicate 32 5) := by
  decide +kernel

end Verif.Wallet
