import Verif.Model.BigInt

/-!
# `/repo/pgp/constants.go`, `/repo/pgp/packet.go`, `/repo/pgp/mpi.go`, `/repo/pgp/user_id.go`

`[]byte` lengths are assumed to fit in Go's int.
-/

namespace Verif.Model.Pgp

open Verif.Model

/-- constants.go:11 keyPacketVersion -/
def keyPacketVersion : Byte := 4
/-- constants.go:12 sigPacketVersion -/
def sigPacketVersion : Byte := 4
/-- constants.go:15 mpiPrefixEddsaPoint -/
def mpiPrefixEddsaPoint : Byte := 0x40
/-- constants.go:19 s2kCountMaximum -/
def s2kCountMaximum : Byte := 0xFF
/-- constants.go:23 s2kExtensionGNUDummy -/
def s2kExtensionGNUDummy : Byte := 101
/-- constants.go:24 s2kGNUExtensionID -/
def s2kGNUExtensionID : Bytes := str "GNU"
/-- constants.go:28 publicKeyPrefixV4 -/
def publicKeyPrefixV4 : Byte := 0x99
/-- constants.go:29 publicKeyPrefixV5 -/
def publicKeyPrefixV5 : Byte := 0x9A
/-- constants.go:30 userIDPrefix -/
def userIDPrefix : Byte := 0xB4
/-- constants.go:34 stringToKeySpecifierPrefix -/
def stringToKeySpecifierPrefix : Byte := 254
/-- constants.go:38 keyAlgorithmECDH -/
def keyAlgorithmECDH : Byte := 18
/-- constants.go:39 keyAlgorithmEDDSA -/
def keyAlgorithmEDDSA : Byte := 22
/-- constants.go:44 keyFlagCertify -/
def keyFlagCertify : Byte := 0b00000001
/-- constants.go:45 keyFlagSign -/
def keyFlagSign : Byte := 0b00000010
/-- constants.go:46 keyFlagEncryptCommunications -/
def keyFlagEncryptCommunications : Byte := 0b00000100
/-- constants.go:47 keyFlagEncryptStorage -/
def keyFlagEncryptStorage : Byte := 0b00001000
/-- constants.go:48 keyFlagAuthenticate -/
def keyFlagAuthenticate : Byte := 0b00100000
/-- constants.go:52 keyServerNoModifyFlag -/
def keyServerNoModifyFlag : Byte := 0x80
/-- constants.go:58 stringToKeyUsageIteratedAndSalted -/
def stringToKeyUsageIteratedAndSalted : Byte := 3
/-- constants.go:63 signatureTrailer -/
def signatureTrailer : Bytes := [sigPacketVersion, 0xFF]
/-- constants.go:83-85 -/
def compressionAlgoZIP : Byte := 1
def compressionAlgoZLIB : Byte := 2
def compressionAlgoBZIP2 : Byte := 3
/-- constants.go:92-96 -/
def hashFuncSHA1 : Byte := 2
def hashFuncSHA256 : Byte := 8
def hashFuncSHA384 : Byte := 9
def hashFuncSHA512 : Byte := 10
def hashFuncSHA224 : Byte := 11
/-- constants.go:74 DefaultStringToKeyHashFunc -/
def defaultStringToKeyHashFunc : Byte := hashFuncSHA256
/-- constants.go:115-118 -/
def cipherAlgoDES : Byte := 2
def cipherAlgoAES128 : Byte := 7
def cipherAlgoAES192 : Byte := 8
def cipherAlgoAES256 : Byte := 9
/-- constants.go:146, 150, 154 -/
def signatureTypePositiveCertification : Byte := 0x13
def signatureTypeSubkeyBinding : Byte := 0x18
def signatureTypePrimaryKeyBinding : Byte := 0x19
/-- constants.go:178-183 -/
def packetTagSignature : Byte := 2
def packetTagSecretKey : Byte := 5
def packetTagPublicKey : Byte := 6
def packetTagSecretSubkey : Byte := 7
def packetTagUserID : Byte := 13
def packetTagPublicSubkey : Byte := 14
/-- constants.go:191-201 -/
def subpacketTypeCreationTime : Byte := 2
def subpacketTypeExpiry : Byte := 9
def subpacketTypePreferredCipherAlgorithms : Byte := 11
def subpacketTypeIssuer : Byte := 16
def subpacketTypePreferredHashAlgorithms : Byte := 21
def subpacketTypePreferredCompressionAlgorithms : Byte := 22
def subpacketTypeKeyServerPreferences : Byte := 23
def subpacketTypeKeyFlags : Byte := 27
def subpacketTypeFeatures : Byte := 30
def subpacketTypeEmbeddedSignature : Byte := 32
def subpacketTypeIssuerFingerprint : Byte := 33

/-- constants.go:123-126 KeyDerivationParameters -/
structure KeyDerivationParameters where
  hashFunction : Byte
  cipherAlgorithm : Byte
  deriving DecidableEq, Repr

/-- constants.go:128-135 Encode -/
def KeyDerivationParameters.encode (kdf : KeyDerivationParameters) : Bytes :=
  [3, 1, kdf.hashFunction, kdf.cipherAlgorithm]

/-- constants.go:68-71 DefaultKDFParameters -/
def defaultKDFParameters : KeyDerivationParameters :=
  { hashFunction := hashFuncSHA256, cipherAlgorithm := cipherAlgoAES128 }

/-- packet.go:21-34 packetLengthEncode -/
def packetLengthEncode (payloadSize : Nat) : Bytes :=
  if payloadSize ≤ 191 then [UInt8.ofNat payloadSize]
  else if payloadSize ≤ 8383 then
    let k := payloadSize - 192
    [UInt8.ofNat (k >>> 8) + 192, UInt8.ofNat k]
  else 0xFF :: beBytes 4 payloadSize

/-- packet.go:9-19 EncodePacket -/
def encodePacket (tag : Byte) (payload : Bytes) : Bytes :=
  (0b11000000 ||| tag) :: (packetLengthEncode payload.length ++ payload)

/-- mpi.go:12-21 EncodeMPI (`beBytes 2` truncates the bit length to uint16) -/
def encodeMPI (n : Int) : Bytes := beBytes 2 (bitLen n) ++ intBytes n

/-- mpi.go:26-28, the loop of checksumMPI with its uint16 accumulator -/
def checksumLoop : UInt16 → Bytes → UInt16
  | c, [] => c
  | c, b :: rest => checksumLoop (c + b.toUInt16) rest

/-- mpi.go:24-32 checksumMPI -/
def checksumMPI (mpi : Bytes) : Bytes := beBytes 2 (checksumLoop 0 mpi).toNat

/-- user_id.go:6-9 UserID -/
structure UserID where
  name : Bytes
  email : Bytes
  deriving DecidableEq, Repr

/-- user_id.go:11-20 Encode -/
def UserID.encode (id : UserID) : Bytes :=
  if id.email = [] then id.name
  else if id.name = [] then id.email
  else id.name ++ str " <" ++ id.email ++ str ">"

/-- user_id.go:22-24 EncodePacket -/
def UserID.encodePacket (id : UserID) : Bytes := Pgp.encodePacket packetTagUserID id.encode

end Verif.Model.Pgp
