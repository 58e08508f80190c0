import Verif.Spec.OpenPGP

/-!
# Transferable public keys

RFC 4880 11.1, with one user ID. As the reader of secret keys in `OpenPGP.lean`; a public key packet must end
with the public key.
-/

namespace Verif.Spec.OpenPGP

open Verif.Model

structure PublicSubkey where
  key : PublicKey
  binding : SigInfo
  cross : Option Nat
  deriving DecidableEq, Repr

structure PublicInfo where
  key : PublicKey
  userID : Bytes
  cert : Option CertInfo
  subkeys : List PublicSubkey
  deriving DecidableEq, Repr

/-- A public subkey and its binding signature; see `readSubkey`. -/
def readPublicSubkey (C : Crypto) (key : PublicKey) (body subkeyBody sigBody : Bytes) :
    Option PublicSubkey := do
  let (sub, subBody, rest) ← readPublic C subkeyBody
  if rest ≠ [] then none
  else do
    let sig ← readSignature sigBody
    let data := bindPreimage body subBody
    if sig.type = 0x18 ∧ checkSignature C key data sig = true then do
      let info ← sigInfo sig
      if info.flags / 2 % 2 = 1 then do
        let embedded ← only 32 sig.unhashed
        let esig ← readSignature embedded
        let created ← only 2 esig.hashed
        if esig.type = 0x19 ∧ checkSignature C sub data esig = true then
          some { key := sub, binding := info, cross := some (num created) }
        else none
      else some { key := sub, binding := info, cross := none }
    else none

def readPublicSubkeys (C : Crypto) (key : PublicKey) (body : Bytes) :
    List (Nat × Bytes) → Option (List PublicSubkey)
  | [] => some []
  | (14, subkeyBody) :: (2, sigBody) :: rest => do
    let s ← readPublicSubkey C key body subkeyBody sigBody
    let ss ← readPublicSubkeys C key body rest
    some (s :: ss)
  | _ => none

/-- RFC 4880 11.1: a transferable public key with one user ID; the certification may be missing. -/
def importPublic (C : Crypto) (b : Bytes) : Option PublicInfo := do
  match ← readPackets b with
  | (6, keyBody) :: (13, uid) :: rest => do
    let (key, body, after) ← readPublic C keyBody
    if after ≠ [] then none
    else
      match rest with
      | (2, sigBody) :: rest => do
        let cert ← readCert C key body uid sigBody
        let subkeys ← readPublicSubkeys C key body rest
        some { key := key, userID := uid, cert := some cert, subkeys := subkeys }
      | _ => do
        let subkeys ← readPublicSubkeys C key body rest
        some { key := key, userID := uid, cert := none, subkeys := subkeys }
  | _ => none

/-- What is public about a secret key -/
def SubkeyInfo.toPublic (s : SubkeyInfo) : PublicSubkey := ⟨s.key, s.binding, s.cross⟩

def KeyInfo.toPublic (k : KeyInfo) : PublicInfo := ⟨k.key, k.userID, k.cert, k.subkeys.map SubkeyInfo.toPublic⟩

/-- RFC 6637 9: the KDF parameters of an ECDH key -/
def kdfOctets : Option (Nat × Nat) → Bytes
  | none => []
  | some (h, c) => [3, 1, UInt8.ofNat h, UInt8.ofNat c]

/-- RFC 4880 5.5.2, RFC 6637: the octets of a public key, all of them public. -/
def publicBody (k : PublicKey) : Bytes :=
  [4] ++ octets 4 k.created ++ [UInt8.ofNat k.algorithm, UInt8.ofNat k.oid.length] ++ k.oid ++
    [0x01, 0x07, 0x40] ++ k.point ++ kdfOctets k.kdf

/-- RFC 4880 4.3: public key and public subkey packets -/
def holdsPublicKey (p : Nat × Bytes) : Bool := p.1 == 6 || p.1 == 14

/-- The public packet for a packet of a secret key -/
inductive PublicPacket (C : Crypto) : Nat × Bytes → Nat × Bytes → Prop where
  | key {body pub rest : Bytes} {k : PublicKey} : readPublic C body = some (k, pub, rest) →
    PublicPacket C (5, body) (6, pub)
  | subkey {body pub rest : Bytes} {k : PublicKey} : readPublic C body = some (k, pub, rest) →
    PublicPacket C (7, body) (14, pub)
  | other {tag : Nat} {body : Bytes} : tag ≠ 5 → tag ≠ 7 → PublicPacket C (tag, body) (tag, body)

end Verif.Spec.OpenPGP
