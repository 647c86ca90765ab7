import Verif.Address
/-!
Model of /repo/common/crypto/{signature,key}.go, /repo/common/wallet/{wallet,wallet_evm,keystore,keystore_evm,encrypted}.go and the
password handling of /repo/cmd/relay/main.go:63-116.

The cryptographic libraries are parameters (`Lib`): nothing is assumed about them except where a theorem says so. JSON text is not
modelled: a key store is the record that `json.Unmarshal` yields, with `none` for parameters that do not parse. Random bytes are
arguments. Slices are values (the sharing of slices the comments of signature.go warn about is not modelled).
-/
namespace Verif.Wallet
open Verif

/-- A Go call: value, error or panic. -/
inductive R (α : Type) where
  | ok (a : α)
  | err
  | panic
deriving DecidableEq

def R.bind (x : R α) (f : α → R β) : R β :=
  match x with
  | .ok a => f a
  | .err => .err
  | .panic => .panic

/-! ### signature.go -/

/-- signature.go:22-25 `Signature`. -/
structure Sig where
  bytes : Bytes
  hasV : Bool
deriving DecidableEq

/-- signature.go:45-61 `ParseSignature`. -/
def parseSignature (sig : Bytes) : R Sig :=
  if sig.length = 0 then .err
  else if sig.length = 65 then .ok ⟨sig, true⟩
  else if sig.length = 64 then .ok ⟨sig ++ [0], false⟩
  else .err

/-- Go `s[i] = v`. -/
def setIndex (s : Bytes) (i : Nat) (v : UInt8) : R Bytes := if i < s.length then .ok (s.set i v) else .panic

/-- signature.go:66-76 `ParseSignatureVRS`; `hasV` stays false. -/
def parseSignatureVRS (sig : Bytes) : R Sig :=
  if sig.length ≠ 65 then .err
  else
    (setIndex ((sig.drop 1).take 32 ++ sig.drop 33) 64 (sig.getD 0 0)).bind fun b => .ok ⟨b, false⟩

/-- signature.go:86-91 `SerializeRS`. -/
def serializeRS (s : Sig) : R Bytes := if s.bytes.length < 64 then .err else .ok (s.bytes.take 64)

/-- signature.go:98-108 `SerializeVRS`. -/
def serializeVRS (s : Sig) : R Bytes :=
  if s.hasV = false then .err
  else if s.bytes.length < 65 then .panic
  else .ok (s.bytes.getD 64 0 :: (s.bytes.take 32 ++ (s.bytes.drop 32).take 32))

/-- signature.go:115-121 `SerializeRSV`. -/
def serializeRSV (s : Sig) : R Bytes := if s.hasV = false then .err else .ok s.bytes

/-! ### key.go -/

/-- key.go:86-96 `uncompToCompPublicKey`. -/
def compress (u : Bytes) : Bytes :=
  (if u.getD 64 0 &&& 1 = 1 then (2 : UInt8) ||| 1 else 2) :: (u.drop 1).take 32

/-- key.go:71-82 `ParsePublicKey`: the 33 bytes kept. -/
def parsePublicKey (b : Bytes) : R Bytes :=
  if b.length = 0 then .err
  else if b.length = 33 then .ok b
  else if b.length = 65 then .ok (compress b)
  else .err

/-- key.go:132-139 `ParsePrivateKey`. -/
def parsePrivateKey (b : Bytes) : R Bytes := if b.length ≠ 32 then .err else .ok b

/-- keystore.go:32-38 `ScryptParams`. -/
structure ScryptParams where
  dkLen : Int
  n : Int
  r : Int
  p : Int
  salt : Bytes
deriving DecidableEq

/-- The libraries. `scrypt` is the derived key with its spare capacity (Go slices `key[16:32]` up to the capacity), `none` an
error; `stream key iv` is the key stream of AES-CTR; `pub` is `secp256k1.PubkeyFromSeckey`, `none` nil; `uncompress` is
`secp256k1.UncompressPubkey`; `ecdh pub sec`; `hkdf secret salt` with the fixed info and length. -/
structure Lib where
  scrypt : ScryptParams → Bytes → Option Bytes
  stream : Bytes → Bytes → Nat → UInt8
  keccak : Bytes → Bytes
  sha3 : Bytes → Bytes
  pub : Bytes → Option Bytes
  uncompress : Bytes → Option Bytes
  sign : Bytes → Bytes → Bytes
  ecdh : Bytes → Bytes → Bytes
  hkdf : Bytes → Bytes → Bytes

/-- key.go:29-36 `PrivateKey.PublicKey`: panics if the library's answer does not parse. -/
def publicKey (lib : Lib) (sk : Bytes) : R Bytes :=
  match lib.pub sk with
  | none => .panic
  | some b => match parsePublicKey b with | .ok k => .ok k | _ => .panic

/-- common/address.go:139-148 `NewAccountAddressFromPublicKey`. -/
def addressOf (lib : Lib) (pk : Bytes) : R Bytes :=
  match lib.uncompress pk with
  | none => .panic
  | some u => match Address.fromPublicKey lib.sha3 u with | .ok a => .ok a | _ => .panic

/-- signature.go:30-38 `NewSignature` and wallet.go:24-30 `Sign`. -/
def newSignature (lib : Lib) (hash sk : Bytes) : R Sig :=
  if hash.length = 0 ∨ hash.length > 32 then .err else parseSignature (lib.sign hash sk)

def walletSign (lib : Lib) (sk hash : Bytes) : R Bytes := (newSignature lib hash sk).bind serializeRSV

/-! ### keystore.go -/

/-- `cipher.NewCTR(block, iv).XORKeyStream`: panics on an iv that is not one block long. -/
def xorFrom (ks : Nat → UInt8) : Nat → Bytes → Bytes
  | _, [] => []
  | i, b :: t => (b ^^^ ks i) :: xorFrom ks (i + 1) t

def ctr (lib : Lib) (key iv b : Bytes) : R Bytes :=
  if iv.length ≠ 16 then .panic else .ok (xorFrom (lib.stream key iv) 0 b)

inductive Coin where
  | icx | evm | empty | other
deriving DecidableEq

/-- keystore.go:57-72 `KeyStoreData` with `CryptoData`. The cipher and kdf names are "is it the supported one". -/
structure KeyStore where
  address : Bytes
  coin : Coin
  version : Int
  cipherOk : Bool
  iv : Option Bytes
  cipherText : Bytes
  kdfOk : Bool
  kdfParams : Option ScryptParams
  mac : Bytes
deriving DecidableEq

/-- keystore.go:40-51 `ScryptParams.Init`. -/
def initParams (salt : Bytes) : ScryptParams := ⟨32, 2 ^ 16, 8, 1, salt⟩

/-- `key[0:16]`, `key[16:32]`. -/
def slice (b : Bytes) (i j : Nat) : R Bytes := if j ≤ b.length then .ok ((b.take j).drop i) else .panic

/-- keystore.go:82-133 `EncryptKeyAsKeyStore`; `salt` and `iv` are the random bytes read. -/
def encryptKey (lib : Lib) (salt iv sk pw : Bytes) : R KeyStore :=
  match lib.scrypt (initParams salt) pw with
  | none => .err
  | some key =>
    (slice key 0 16).bind fun k1 =>
    (ctr lib k1 iv sk).bind fun ct =>
    (slice key 16 32).bind fun k2 =>
    (publicKey lib sk).bind fun pk =>
    (addressOf lib pk).bind fun a =>
    match Address.setBytes Address.zero (some a) with
    | .ok a' => .ok ⟨a', .icx, 3, true, some iv, ct, true, some (initParams salt), lib.keccak (k2 ++ ct)⟩
    | .err => .err
    | .panic => .panic

/-- keystore.go:179-233 `DecryptICONKeyStore`. -/
def decryptIcon (lib : Lib) (ks : KeyStore) (pw : Bytes) : R Bytes :=
  if ks.cipherOk = false then .err
  else match ks.iv with
  | none => .err
  | some iv =>
    if ks.kdfOk = false then .err
    else match ks.kdfParams with
    | none => .err
    | some p =>
      match lib.scrypt p pw with
      | none => .err
      | some key =>
        (slice key 16 32).bind fun k2 =>
        if lib.keccak (k2 ++ ks.cipherText) ≠ ks.mac then .err
        else
          (slice key 0 16).bind fun k1 =>
          (ctr lib k1 iv ks.cipherText).bind fun sec =>
          (parsePrivateKey sec).bind fun sk =>
          (publicKey lib sk).bind fun pk =>
          (addressOf lib pk).bind fun a =>
          if Address.equal (some a) (some ks.address) then .ok sk else .err

inductive Wallet where
  | soft (sk pk : Bytes)
  | evm (sk : Bytes)
deriving DecidableEq

/-- keystore.go:146-168 `DecryptKeyStore`; `evmDecrypt` is go-ethereum's `keystore.DecryptKey` on the same text. -/
def decryptKeyStore (lib : Lib) (evmDecrypt : KeyStore → Bytes → Option Bytes) (ks : KeyStore) (pw : Bytes) : R Wallet :=
  match ks.coin with
  | .icx => (decryptIcon lib ks pw).bind fun sk => (publicKey lib sk).bind fun pk => .ok (.soft sk pk)
  | .evm => match evmDecrypt ks pw with | none => .err | some sk => .ok (.evm sk)
  | .empty => match evmDecrypt ks pw with | none => .err | some sk => .ok (.evm sk)
  | .other => .err

/-! ### encrypted.go -/

/-- encrypted.go:20-23 `Encrypted`. -/
structure Encrypted where
  param : Bytes
  cipherText : Bytes
deriving DecidableEq

/-- wallet.go:36-42, wallet_evm.go:30-33 `ECDH`: the EVM wallet returns nil without an error. -/
def walletEcdh (lib : Lib) (w : Wallet) (pub : Bytes) : R Bytes :=
  match w with
  | .soft sk _ => (parsePublicKey pub).bind fun pk => .ok (lib.ecdh pk sk)
  | .evm _ => .ok []

/-- wallet.go:32-34, wallet_evm.go:26-28 `PublicKey`; `evmPub` is `crypto.FromECDSAPub`, 65 bytes. -/
def walletPub (evmPub : Bytes → Bytes) : Wallet → Bytes
  | .soft _ pk => pk
  | .evm sk => evmPub sk

/-- encrypted.go:25-44 `Aes128CTRStream`, then the xor of 46-54 `Decrypt`. -/
def cryptWith (lib : Lib) (w : Wallet) (param b : Bytes) : R Bytes :=
  if param.length < 4 then .err
  else
    (walletEcdh lib w (param.drop 4)).bind fun secret =>
    let key := lib.hkdf secret (param.take 4)
    (slice key 0 16).bind fun k => ctr lib k (key.drop 16) b

/-- encrypted.go:46-54 `Decrypt`. -/
def Encrypted.decrypt (lib : Lib) (w : Wallet) (e : Encrypted) : R Bytes := cryptWith lib w e.param e.cipherText

/-- encrypted.go:65-81 `NewEncrypted`; `salt` are the 4 random bytes. The sender's public key is copied over the recipient's, as
far as it reaches. -/
def newEncrypted (lib : Lib) (evmPub : Bytes → Bytes) (w : Wallet) (pubKey salt b : Bytes) : R Encrypted :=
  (cryptWith lib w (salt ++ pubKey) b).bind fun ct =>
  let mine := walletPub evmPub w
  .ok ⟨salt ++ (mine.take pubKey.length ++ pubKey.drop mine.length), ct⟩

/-! ### cmd/relay/main.go -/

/-- main.go:71-81 `resolvePassword`: secret file name, password, file reader (`none`: unreadable). Returns the password
(nil and empty are the same) and whether there was an error. -/
def resolvePassword (read : Bytes → Option Bytes) (secret pass : Bytes) : Bytes × Bool :=
  if secret ≠ [] then
    match read secret with
    | some b => (b, false)
    | none => ([], true)
  else (pass, false)

/-- The part of chain.BaseConfig that `EnsureWallet` uses; `none` is an empty `KeyStoreData`. -/
structure KeyCfg where
  secret : Bytes
  pass : Bytes
  store : Option KeyStore
deriving DecidableEq

/-- main.go:89-100 and 102-113, one side: generate (random key, salt and iv are arguments) or check. -/
def ensureOne (lib : Lib) (evmDecrypt : KeyStore → Bytes → Option Bytes) (c : KeyCfg) (pw sk salt iv : Bytes) : R KeyCfg :=
  match c.store with
  | none => (encryptKey lib salt iv sk pw).bind fun ks => .ok { c with store := some ks }
  | some ks => (decryptKeyStore lib evmDecrypt ks pw).bind fun _ => .ok c

/-- main.go:83-116 `EnsureWallet`: the error of the first `resolvePassword` is overwritten by that of the second. -/
def ensureWallet (lib : Lib) (evmDecrypt : KeyStore → Bytes → Option Bytes) (read : Bytes → Option Bytes) (src dst : KeyCfg)
    (rnd : (Bytes × Bytes × Bytes) × (Bytes × Bytes × Bytes)) : R (KeyCfg × KeyCfg) :=
  let ps := resolvePassword read src.secret src.pass
  let pd := resolvePassword read dst.secret dst.pass
  if pd.2 then .err
  else
    (ensureOne lib evmDecrypt src ps.1 rnd.1.1 rnd.1.2.1 rnd.1.2.2).bind fun s =>
    (ensureOne lib evmDecrypt dst pd.1 rnd.2.1 rnd.2.2.1 rnd.2.2.2).bind fun d => .ok (s, d)

end Verif.Wallet
