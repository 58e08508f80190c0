import Verif.Model.Pgp.Signature

/-!
# `/repo/pgp/ecc_key.go`, `master_key.go`, `ed25519_subkey.go`, `encryption_subkey.go`
-/

namespace Verif.Model.Pgp

open Verif.Model

/-- ecc_key.go:15-24 ellipticCurveKey -/
structure ECKey where
  privateSerialized : Bytes
  publicSerialized : Bytes
  privateSigning : Option Bytes
  publicSigning : Option Bytes
  creation : Int
  algorithm : Byte
  curveOID : Bytes
  extraPublicData : Option Bytes
  deriving DecidableEq, Repr

/-- ecc_key.go:28-55 encodePublic -/
def ECKey.encodePublic (key : ECKey) : Bytes :=
  [keyPacketVersion] ++ beBytes 4 (u32 (unix key.creation)) ++ [key.algorithm] ++
    [UInt8.ofNat key.curveOID.length] ++ key.curveOID ++
    encodeMPI (setBytes (mpiPrefixEddsaPoint :: key.publicSerialized) : Int) ++
    key.extraPublicData.getD []

/-- ecc_key.go:59-82 encodePrivate; the random source is threaded through. -/
def ECKey.encodePrivate (C : Crypto) (key : ECKey) (password rnd : Bytes) : Res (Bytes × Bytes) :=
  if password.length > 0 then do
    let (encrypted, rnd) ← encryptS2K C defaultStringToKeyHashFunc key.privateSerialized password rnd
    .ok (key.encodePublic ++ encrypted, rnd)
  else
    let mpiEncodedKey := encodeMPI (setBytes key.privateSerialized : Int)
    .ok (key.encodePublic ++ [0] ++ mpiEncodedKey ++ checksumMPI mpiEncodedKey, rnd)

/-- ecc_key.go:86-101 encodePrivateDummy -/
def ECKey.encodePrivateDummy (key : ECKey) : Bytes :=
  key.encodePublic ++ [stringToKeySpecifierPrefix, 0, s2kExtensionGNUDummy, 0] ++
    s2kGNUExtensionID ++ [s2kExtensionGNUDummy - 100]

/-- ecc_key.go:104-113 FingerprintV4; the methods of the same name of the three kinds of keys (master_key.go:57-59,
ed25519_subkey.go:52-54, encryption_subkey.go:77-79) call it for their base key. -/
def ECKey.fingerprintV4 (C : Crypto) (key : ECKey) : Bytes :=
  let payload := key.encodePublic
  C.sha1 ([publicKeyPrefixV4] ++ beBytes 2 payload.length ++ payload)

/-- ecc_key.go:116-125 FingerprintV5 -/
def ECKey.fingerprintV5 (C : Crypto) (key : ECKey) : Bytes :=
  let payload := key.encodePublic
  C.sha256 ([publicKeyPrefixV5] ++ beBytes 4 payload.length ++ payload)

/-- master_key.go:12-14 oidED25519 -/
def oidED25519 : Bytes := [0x2B, 0x06, 0x01, 0x04, 0x01, 0xDA, 0x47, 0x0F, 0x01]

/-- encryption_subkey.go:11-13 oidCurve25519 -/
def oidCurve25519 : Bytes := [0x2B, 0x06, 0x01, 0x04, 0x01, 0x97, 0x55, 0x01, 0x05, 0x01]

/-- master_key.go:17-23 ED25519MasterKey and ed25519_subkey.go:10-16 ED25519Subkey, which have the
same fields. -/
structure EdKey where
  base : ECKey
  priv : Bytes
  pub : Bytes
  creation : Int
  expiry : Int
  deriving DecidableEq, Repr

/-- The common body of master_key.go:27-54 NewED25519MasterKey and ed25519_subkey.go:20-49
NewED25519Subkey (the two functions differ only in the type they return). -/
def newEdKey (C : Crypto) (seed : Bytes) (creation expiry : Int) : Res EdKey :=
  if seed.length ≠ 32 then .err .seedLength
  else
    let publicKey := C.ed25519Pub seed
    let privateKey := seed ++ publicKey
    .ok {
      base := {
        privateSerialized := privateKey.take 32
        publicSerialized := publicKey
        privateSigning := some privateKey
        publicSigning := some publicKey
        creation := creation
        algorithm := keyAlgorithmEDDSA
        curveOID := oidED25519
        extraPublicData := none }
      priv := privateKey
      pub := publicKey
      creation := creation
      expiry := expiry }

/-- encryption_subkey.go:16-23 Curve25519Subkey -/
structure CurveKey where
  base : ECKey
  priv : Bytes
  pub : Bytes
  creation : Int
  expiry : Int
  kdf : KeyDerivationParameters
  deriving DecidableEq, Repr

/-- encryption_subkey.go:95-102, the loop of reverse: `reversed[length-i-1] = original[i]` for the
indices below `i`. -/
def reverseLoop (original : Bytes) : Nat → Bytes
  | 0 => List.replicate original.length 0
  | i + 1 => (reverseLoop original i).set (original.length - i - 1) (original.getD i 0)

/-- encryption_subkey.go:95-102 reverse -/
def reverse (original : Bytes) : Bytes := reverseLoop original original.length

/-- encryption_subkey.go:29-74 NewCurve25519Subkey; `none` is nil kdfParams. -/
def newCurveKey (C : Crypto) (seed : Bytes) (creation expiry : Int)
    (kdfParams : Option KeyDerivationParameters) : Res CurveKey :=
  if seed.length ≠ 32 then .err .seedLength
  else
    let privateKey := seed
    let privateKey := privateKey.modify 0 (fun b => b &&& 248)
    let privateKey := privateKey.modify 31 (fun b => b &&& 127)
    let privateKey := privateKey.modify 31 (fun b => b ||| 64)
    let publicKey := C.x25519Base seed
    let kdf := kdfParams.getD defaultKDFParameters
    .ok {
      base := {
        privateSerialized := reverse privateKey
        publicSerialized := publicKey
        privateSigning := none
        publicSigning := none
        creation := creation
        algorithm := keyAlgorithmECDH
        curveOID := oidCurve25519
        extraPublicData := some kdf.encode }
      priv := privateKey
      pub := publicKey
      creation := creation
      expiry := expiry
      kdf := kdf }

/-- master_key.go:62-64 EncodePublicPacket -/
def EdKey.encodePublicPacket (key : EdKey) : Bytes :=
  encodePacket packetTagPublicKey key.base.encodePublic

/-- ed25519_subkey.go:57-59 and encryption_subkey.go:82-84 EncodePublicSubkeyPacket -/
def ECKey.encodePublicSubkeyPacket (base : ECKey) : Bytes :=
  encodePacket packetTagPublicSubkey base.encodePublic

/-- master_key.go:67-73 EncodePrivatePacket (tag 5), ed25519_subkey.go:62-68 and
encryption_subkey.go:87-93 EncodePrivatePacket (tag 7) -/
def ECKey.encodePrivatePacket (C : Crypto) (tag : Byte) (base : ECKey) (password rnd : Bytes) :
    Res (Bytes × Bytes) := do
  let (encodedPrivateKey, rnd) ← base.encodePrivate C password rnd
  .ok (encodePacket tag encodedPrivateKey, rnd)

/-- master_key.go:77-79 EncodePrivateDummyPacket -/
def EdKey.encodePrivateDummyPacket (key : EdKey) : Bytes :=
  encodePacket packetTagSecretKey key.base.encodePrivateDummy

/-- master_key.go:118-125 and 211-218: the expiry subpacket, absent for a zero time. -/
def expirySubpacket (C : Crypto) (expiry creation : Int) : List Subpacket :=
  if isZero expiry then []
  else [{ type := subpacketTypeExpiry,
          body := beBytes 4 (C.secondsU32 (timeSub expiry creation)) }]

/-- master_key.go:83-181 SelfCertify -/
def EdKey.selfCertify (C : Crypto) (key : EdKey) (userID : UserID) : Res Signature :=
  let publicKeyPayload := key.base.encodePublic
  let userIDPayload := userID.encode
  let data := [publicKeyPrefixV4] ++ beBytes 2 publicKeyPayload.length ++ publicKeyPayload ++
    [userIDPrefix] ++ beBytes 4 userIDPayload.length ++ userIDPayload
  let subpackets : List Subpacket :=
    [{ type := subpacketTypeKeyFlags, body := [keyFlagCertify] }] ++
    expirySubpacket C key.expiry key.creation ++
    [{ type := subpacketTypePreferredCipherAlgorithms,
       body := [cipherAlgoAES256, cipherAlgoAES192, cipherAlgoAES128, cipherAlgoDES] },
     { type := subpacketTypePreferredHashAlgorithms,
       body := [hashFuncSHA512, hashFuncSHA384, hashFuncSHA256, hashFuncSHA224, hashFuncSHA1] },
     { type := subpacketTypePreferredCompressionAlgorithms,
       body := [compressionAlgoZLIB, compressionAlgoBZIP2, compressionAlgoZIP] },
     { type := subpacketTypeFeatures, body := [1] },
     { type := subpacketTypeKeyServerPreferences, body := [keyServerNoModifyFlag] }]
  sign C key.priv {
    signingKeyFingerprint := key.base.fingerprintV4 C
    hashFunction := hashFuncSHA256
    data := data
    type := signatureTypePositiveCertification
    hashedSubpackets := subpackets
    unhashedSubpackets := []
    time := key.creation }

/-- master_key.go:184-254 BindSubkey -/
def EdKey.bindSubkey (C : Crypto) (key : EdKey) (subkeyBase : ECKey) (keyFlags : Byte)
    (expiry : Int) : Res Signature := do
  let parentPublicPayload := key.base.encodePublic
  let subkeyPublicPayload := subkeyBase.encodePublic
  let data := [publicKeyPrefixV4] ++ beBytes 2 parentPublicPayload.length ++ parentPublicPayload ++
    [publicKeyPrefixV4] ++ beBytes 2 subkeyPublicPayload.length ++ subkeyPublicPayload
  let subpackets : List Subpacket :=
    [{ type := subpacketTypeKeyFlags, body := [keyFlags] }] ++
    expirySubpacket C expiry subkeyBase.creation
  let unhashedSubpackets ← (
    if keyFlags &&& keyFlagSign ≠ 0 then
      match subkeyBase.privateSigning with
      | none => .panic .noSigningKey
      | some privateSigning => do
        let embedded ← sign C privateSigning {
          signingKeyFingerprint := subkeyBase.fingerprintV4 C
          hashFunction := hashFuncSHA256
          data := data
          type := signatureTypePrimaryKeyBinding
          hashedSubpackets := []
          unhashedSubpackets := []
          time := subkeyBase.creation }
        .ok [{ type := subpacketTypeEmbeddedSignature, body := embedded.encode }]
    else .ok [] : Res (List Subpacket))
  sign C key.priv {
    signingKeyFingerprint := key.base.fingerprintV4 C
    hashFunction := hashFuncSHA256
    data := data
    type := signatureTypeSubkeyBinding
    hashedSubpackets := subpackets
    unhashedSubpackets := unhashedSubpackets
    time := subkeyBase.creation }

end Verif.Model.Pgp
