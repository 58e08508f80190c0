import Verif.Model.Time
import Verif.Model.Pgp.S2K

/-!
# `/repo/pgp/signature.go` and `/repo/pgp/sign.go`
-/

namespace Verif.Model.Pgp

open Verif.Model

/-- signature.go:12-15 Subpacket -/
structure Subpacket where
  type : Byte
  body : Bytes
  deriving DecidableEq, Repr

/-- signature.go:18-24 Encode -/
def Subpacket.encode (sp : Subpacket) : Bytes :=
  packetLengthEncode (sp.body.length + 1) ++ sp.type :: sp.body

/-- signature.go:26-33 encodeSubpackets (`beBytes 2` truncates the length to uint16) -/
def encodeSubpackets (subpackets : List Subpacket) : Bytes :=
  let encoded := (subpackets.map Subpacket.encode).flatten
  beBytes 2 encoded.length ++ encoded

/-- signature.go:36-43 Signature -/
structure Signature where
  hashedSubpackets : List Subpacket
  unhashedSubpackets : List Subpacket
  type : Byte
  hashFunction : Byte
  sigHash : Bytes
  r : Int
  s : Int
  deriving DecidableEq, Repr

/-- signature.go:48-67 encodePreimage -/
def Signature.encodePreimage (sig : Signature) : Bytes :=
  [sigPacketVersion, sig.type, keyAlgorithmEDDSA, sig.hashFunction] ++
    encodeSubpackets sig.hashedSubpackets

/-- signature.go:71-88 Encode. `SigHash[:2]` cannot fail: the hashes have at least 32 bytes. -/
def Signature.encode (sig : Signature) : Bytes :=
  sig.encodePreimage ++ encodeSubpackets sig.unhashedSubpackets ++ sig.sigHash.take 2 ++
    encodeMPI sig.r ++ encodeMPI sig.s

/-- signature.go:90-92 EncodePacket -/
def Signature.encodePacket (sig : Signature) : Bytes :=
  Pgp.encodePacket packetTagSignature sig.encode

/-- sign.go:11-35 SignatureRequest -/
structure SignatureRequest where
  signingKeyFingerprint : Bytes
  hashFunction : Byte
  data : Bytes
  type : Byte
  hashedSubpackets : List Subpacket
  unhashedSubpackets : List Subpacket
  time : Int

/-- sign.go:39-84 Sign. `SigHash` does not enter `encodePreimage`, so the signature is built once,
at the end. -/
def sign (C : Crypto) (privateKey : Bytes) (req : SignatureRequest) : Res Signature :=
  let signatureTimestamp := beBytes 4 (u32 (unix req.time))
  let hashedSubpackets : List Subpacket :=
    [{ type := subpacketTypeIssuerFingerprint,
       body := keyPacketVersion :: req.signingKeyFingerprint },
     { type := subpacketTypeCreationTime, body := signatureTimestamp }] ++ req.hashedSubpackets
  if req.signingKeyFingerprint.length < 8 then .panic .indexOutOfRange
  else
    let unhashedSubpackets : List Subpacket :=
      [{ type := subpacketTypeIssuer,
         body := req.signingKeyFingerprint.drop (req.signingKeyFingerprint.length - 8) }] ++
        req.unhashedSubpackets
    let signature : Signature :=
      { hashedSubpackets := hashedSubpackets, unhashedSubpackets := unhashedSubpackets,
        type := req.type, hashFunction := req.hashFunction, sigHash := [], r := 0, s := 0 }
    match hashNew C req.hashFunction with
    | none => .panic .nilDereference
    | some h =>
      let preimage := signature.encodePreimage
      let sigHash := h (req.data ++ preimage ++ signatureTrailer ++ beBytes 4 preimage.length)
      let encodedSig := C.ed25519Sign privateKey sigHash
      .ok { signature with
        sigHash := sigHash
        r := (setBytes (encodedSig.take 32) : Int)
        s := (setBytes (encodedSig.drop 32) : Int) }

end Verif.Model.Pgp
