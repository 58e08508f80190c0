import Verif.Model.Pgp.Keys

/-!
# `/repo/pgp/key_set.go`
-/

namespace Verif.Model.Pgp

open Verif.Model

/-- key_set.go:12-21 KeySet; nil subkeys are `none`. -/
structure KeySet where
  userID : UserID
  masterKey : EdKey
  encryptionSubkey : Option CurveKey
  authenticationSubkey : Option EdKey
  signingSubkey : Option EdKey
  deriving DecidableEq, Repr

/-- The common shape of key_set.go:29-43, 51-65 and 73-87: the private subkey packet followed by
its binding signature. -/
def encodeSubkeyPackets (C : Crypto) (master : EdKey) (base : ECKey) (flags : Byte) (expiry : Int)
    (password rnd : Bytes) : Res (Bytes × Bytes) := do
  let (subkeyPacket, rnd) ← base.encodePrivatePacket C packetTagSecretSubkey password rnd
  let bindSig ← master.bindSubkey C base flags expiry
  .ok (subkeyPacket ++ bindSig.encodePacket, rnd)

/-- key_set.go:29-43 encodeEncryptionSubkeyPackets, when the subkey is present
(key_set.go:102-108); otherwise the group stays empty. -/
def KeySet.encodeEncryption (C : Crypto) (ks : KeySet) (password rnd : Bytes) :
    Res (Bytes × Bytes) :=
  match ks.encryptionSubkey with
  | none => .ok ([], rnd)
  | some k => encodeSubkeyPackets C ks.masterKey k.base
      (keyFlagEncryptCommunications ||| keyFlagEncryptStorage) k.expiry password rnd

/-- key_set.go:51-65 encodeAuthenticationSubkeyPackets, when present (key_set.go:111-117) -/
def KeySet.encodeAuthentication (C : Crypto) (ks : KeySet) (password rnd : Bytes) :
    Res (Bytes × Bytes) :=
  match ks.authenticationSubkey with
  | none => .ok ([], rnd)
  | some k => encodeSubkeyPackets C ks.masterKey k.base keyFlagAuthenticate k.expiry password rnd

/-- key_set.go:73-87 encodeSigningSubkeyPackets, when present (key_set.go:120-126) -/
def KeySet.encodeSigning (C : Crypto) (ks : KeySet) (password rnd : Bytes) :
    Res (Bytes × Bytes) :=
  match ks.signingSubkey with
  | none => .ok ([], rnd)
  | some k => encodeSubkeyPackets C ks.masterKey k.base keyFlagSign k.expiry password rnd

/-- key_set.go:131-136: the seed of the shuffling generator. -/
def shuffleSeed (C : Crypto) (masterPrivate : Bytes) : Int :=
  let lastBits := setBytes ((C.sha256 masterPrivate).take 8)
  let seed : Int := (lastBits &&& 0x7FFFFFFFFFFFFFFF : Nat)
  if seed.toNat ≠ lastBits then seed * -1 else seed

/-- key_set.go:139, `packetGroups[i], packetGroups[j] = packetGroups[j], packetGroups[i]` -/
def swap (l : List Bytes) (i j : Nat) : Res (List Bytes) :=
  match l[i]?, l[j]? with
  | some a, some b => .ok ((l.set i b).set j a)
  | _, _ => .panic .indexOutOfRange

/-- math/rand `Shuffle`: Fisher-Yates from the last index down to 1. -/
def shuffleLoop (draw : Nat → Nat) : Nat → List Bytes → Res (List Bytes)
  | 0, l => .ok l
  | i + 1, l => do
    let l ← swap l (i + 1) (draw (i + 1))
    shuffleLoop draw i l

/-- key_set.go:95-147 encodeAllSubkeyPackets -/
def KeySet.encodeAllSubkeyPackets (C : Crypto) (ks : KeySet) (password rnd : Bytes) :
    Res (Bytes × Bytes) := do
  let (g0, rnd) ← ks.encodeEncryption C password rnd
  let (g1, rnd) ← ks.encodeAuthentication C password rnd
  let (g2, rnd) ← ks.encodeSigning C password rnd
  let packetGroups := [g0, g1, g2]
  let seed := shuffleSeed C ks.masterKey.priv
  let packetGroups ← shuffleLoop (C.shuffleDraw seed) (packetGroups.length - 1) packetGroups
  .ok (packetGroups.flatten, rnd)

/-- key_set.go:151-153 encodeSelfCertification -/
def KeySet.encodeSelfCertification (C : Crypto) (ks : KeySet) : Res Bytes := do
  let sig ← ks.masterKey.selfCertify C ks.userID
  .ok sig.encodePacket

/-- key_set.go:159-183 EncodePackets -/
def KeySet.encodePackets (C : Crypto) (ks : KeySet) (password rnd : Bytes) :
    Res (Bytes × Bytes) := do
  let (masterPacket, rnd) ←
    ks.masterKey.base.encodePrivatePacket C packetTagSecretKey password rnd
  let cert ← ks.encodeSelfCertification C
  let (subkeyPackets, rnd) ← ks.encodeAllSubkeyPackets C password rnd
  .ok (masterPacket ++ ks.userID.encodePacket ++ cert ++ subkeyPackets, rnd)

/-- key_set.go:194-218 EncodeSubkeyPackets -/
def KeySet.encodeSubkeyPackets (C : Crypto) (ks : KeySet) (password : Bytes) (withSelfCert : Bool)
    (rnd : Bytes) : Res (Bytes × Bytes) := do
  let cert ← (if withSelfCert then ks.encodeSelfCertification C else .ok [] : Res Bytes)
  let (subkeyPackets, rnd) ← ks.encodeAllSubkeyPackets C password rnd
  .ok (ks.masterKey.encodePrivateDummyPacket ++ ks.userID.encodePacket ++ cert ++ subkeyPackets,
    rnd)

end Verif.Model.Pgp
