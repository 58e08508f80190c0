import Verif.Model.Recovery
import Verif.Model.Pgp.KeySet

/-!
# `/repo/key_options.go`, `/repo/derive.go`, `/repo/mnemonikey.go`, rest of `/repo/recovery.go`
-/

namespace Verif.Model

open Verif.Model.Pgp

/-- mnemonikey.go:20-22. SubkeyType is a Go string. -/
def subkeyTypeEncryption : Bytes := str "encryption"
def subkeyTypeAuthentication : Bytes := str "authentication"
def subkeyTypeSigning : Bytes := str "signing"

/-- key_options.go:8-27 KeyOptions. The indices are Go uint16. `subkeys = none` is the nil slice. -/
structure KeyOptions where
  name : Bytes
  email : Bytes
  ttl : Int
  encryptionSubkeyIndex : UInt16
  authenticationSubkeyIndex : UInt16
  signingSubkeyIndex : UInt16
  subkeys : Option (List Bytes)
  deriving DecidableEq, Repr

/-- `new(KeyOptions)`, mnemonikey.go:61 -/
def KeyOptions.zero : KeyOptions :=
  { name := [], email := [], ttl := 0, encryptionSubkeyIndex := 0, authenticationSubkeyIndex := 0,
    signingSubkeyIndex := 0, subkeys := none }

/-- key_options.go:35-39, the loop of subkeyEnabled -/
def subkeyListed (target : Bytes) : List Bytes → Bool
  | [] => false
  | t :: rest => if t = target then true else subkeyListed target rest

/-- key_options.go:30-41 subkeyEnabled -/
def KeyOptions.subkeyEnabled (opts : KeyOptions) (target : Bytes) : Bool :=
  match opts.subkeys with
  | none => true
  | some l => subkeyListed target l

/-- derive.go:25 keyExpandInfoMaster -/
def keyExpandInfoMaster : Bytes := str "mnemonikey master key"

/-- derive.go:29-35 keyExpandInfoSubkey -/
def keyExpandInfoSubkey (subkeyType : Bytes) (index : UInt16) : Bytes :=
  str "mnemonikey " ++ subkeyType ++ str " subkey" ++ beBytes 2 index.toNat

/-- derive.go:66 the call of argon2.IDKey, with the salt of derive.go:63-64 -/
def rootKey (C : Crypto) (seed : Seed) (creation : Int) : Res Bytes := do
  let seedBytes ← seed.bytes
  .ok (C.argon2id seedBytes (beBytes 4 (u32 (unix creation))) argonTimeFactor argonMemoryFactor
    argonThreads 32)

/-- derive.go:57-61 -/
def expiryOf (creation ttl : Int) : Int :=
  if ttl > 0 then unix (timeAdd creation ttl) * second else zeroTime

/-- derive.go:56-122 derivePGPKeySet. hkdfExpand (derive.go:38-45) asks for 32 bytes, which
HKDF-SHA256 always provides. -/
def derivePGPKeySet (C : Crypto) (seed : Seed) (creation : Int) (opts : KeyOptions) :
    Res KeySet := do
  let expiry := expiryOf creation opts.ttl
  let root ← rootKey C seed creation
  let masterKey ← newEdKey C (C.hkdfExpand root keyExpandInfoMaster 32) creation expiry
  let encryption ← (if opts.subkeyEnabled subkeyTypeEncryption then do
      let k ← newCurveKey C (C.hkdfExpand root
        (keyExpandInfoSubkey subkeyTypeEncryption opts.encryptionSubkeyIndex) 32) creation expiry
        none
      .ok (some k)
    else .ok none : Res (Option CurveKey))
  let authentication ← (if opts.subkeyEnabled subkeyTypeAuthentication then do
      let k ← newEdKey C (C.hkdfExpand root
        (keyExpandInfoSubkey subkeyTypeAuthentication opts.authenticationSubkeyIndex) 32)
        creation expiry
      .ok (some k)
    else .ok none : Res (Option EdKey))
  let signing ← (if opts.subkeyEnabled subkeyTypeSigning then do
      let k ← newEdKey C (C.hkdfExpand root
        (keyExpandInfoSubkey subkeyTypeSigning opts.signingSubkeyIndex) 32) creation expiry
      .ok (some k)
    else .ok none : Res (Option EdKey))
  .ok { userID := { name := opts.name, email := opts.email }
        masterKey := masterKey
        encryptionSubkey := encryption
        authenticationSubkey := authentication
        signingSubkey := signing }

/-- mnemonikey.go:40-44 Mnemonikey -/
structure Mnemonikey where
  pgpKeySet : KeySet
  seed : Seed
  keyCreationTime : Int
  deriving DecidableEq, Repr

/-- mnemonikey.go:55-87 New; `none` is nil options. -/
def new (C : Crypto) (seed : Seed) (creation : Int) (opts : Option KeyOptions) :
    Res Mnemonikey := do
  eraCheck seed.era
  let opts := opts.getD KeyOptions.zero
  if opts.ttl < 0 then .err .ttlInvalid
  else if creation > maxCreationTime then .err .creationTooLate
  else if creation < epochStart then .err .creationTooEarly
  else
    let creationOffset := durDiv (timeSub creation epochStart) epochIncrement
    let creation := timeAdd epochStart (durMul epochIncrement creationOffset)
    let ks ← derivePGPKeySet C seed creation opts
    .ok { seed := seed, keyCreationTime := creation, pgpKeySet := ks }

namespace Mnemonikey

/-- mnemonikey.go:91-93 CreatedAt -/
def createdAt (mnk : Mnemonikey) : Int := mnk.keyCreationTime
/-- mnemonikey.go:96-98 Expiry -/
def expiry (mnk : Mnemonikey) : Int := mnk.pgpKeySet.masterKey.expiry
/-- mnemonikey.go:101-103 UserID -/
def userID (mnk : Mnemonikey) : Bytes := mnk.pgpKeySet.userID.encode
/-- mnemonikey.go:106-108 Fingerprint -/
def fingerprint (C : Crypto) (mnk : Mnemonikey) : Bytes :=
  mnk.pgpKeySet.masterKey.base.fingerprintV4 C

/-- mnemonikey.go:111-123 SubkeyTypes -/
def subkeyTypes (mnk : Mnemonikey) : List Bytes :=
  let l := []
  let l := if mnk.pgpKeySet.encryptionSubkey.isSome then l ++ [subkeyTypeEncryption] else l
  let l := if mnk.pgpKeySet.authenticationSubkey.isSome then l ++ [subkeyTypeAuthentication] else l
  if mnk.pgpKeySet.signingSubkey.isSome then l ++ [subkeyTypeSigning] else l

/-- mnemonikey.go:127-145 SubkeyFingerprint; `none` is a nil slice. -/
def subkeyFingerprint (C : Crypto) (mnk : Mnemonikey) (subkeyType : Bytes) : Option Bytes :=
  if subkeyType = subkeyTypeEncryption then
    mnk.pgpKeySet.encryptionSubkey.map (fun k => k.base.fingerprintV4 C)
  else if subkeyType = subkeyTypeAuthentication then
    mnk.pgpKeySet.authenticationSubkey.map (fun k => k.base.fingerprintV4 C)
  else if subkeyType = subkeyTypeSigning then
    mnk.pgpKeySet.signingSubkey.map (fun k => k.base.fingerprintV4 C)
  else none

/-- mnemonikey.go:151-153 EncodePGP -/
def encodePGP (C : Crypto) (mnk : Mnemonikey) (password rnd : Bytes) : Res (Bytes × Bytes) :=
  mnk.pgpKeySet.encodePackets C password rnd

/-- mnemonikey.go:167-169 EncodeSubkeysPGP -/
def encodeSubkeysPGP (C : Crypto) (mnk : Mnemonikey) (password : Bytes) (withSelfCert : Bool)
    (rnd : Bytes) : Res (Bytes × Bytes) :=
  mnk.pgpKeySet.encodeSubkeyPackets C password withSelfCert rnd

/-- mnemonikey.go:214-216 creationOffset -/
def creationOffset (mnk : Mnemonikey) : Nat :=
  u32 (durDiv (timeSub mnk.keyCreationTime epochStart) epochIncrement)

/-- mnemonikey.go:220-222 EncodeMnemonicPlaintext -/
def encodeMnemonicPlaintext (L : WordList) (mnk : Mnemonikey) : Res (List Bytes) :=
  Model.encodeMnemonicPlaintext L mnk.seed mnk.creationOffset

/-- mnemonikey.go:231-233 EncodeMnemonicEncrypted -/
def encodeMnemonicEncrypted (L : WordList) (C : Crypto) (mnk : Mnemonikey) (password rnd : Bytes) :
    Res (List Bytes × Bytes) :=
  Model.encodeMnemonicEncrypted L C.toPhraseCrypto mnk.seed mnk.creationOffset password rnd

end Mnemonikey

/-- recovery.go:54-56 Creation -/
def DecodedMnemonic.creation (dm : DecodedMnemonic) : Int :=
  timeAdd epochStart (durMul (dm.creationOffset : Int) epochIncrement)

/-- recovery.go:129-146 RecoverPlaintext (errors are wrapped with %w, so their tags stay) -/
def recoverPlaintext (L : WordList) (C : Crypto) (words : List Bytes) (opts : Option KeyOptions) :
    Res Mnemonikey := do
  let dm ← decodeMnemonic L words
  let seed ← dm.seed
  new C seed dm.creation opts

/-- recovery.go:161-178 RecoverEncrypted -/
def recoverEncrypted (L : WordList) (C : Crypto) (words : List Bytes) (password : Bytes)
    (opts : Option KeyOptions) : Res Mnemonikey := do
  let dm ← decodeMnemonic L words
  let seed ← dm.decryptSeed C.toPhraseCrypto password
  new C seed dm.creation opts

end Verif.Model
