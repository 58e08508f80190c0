import Verif.Model.Encoding

/-!
# `/repo/recovery.go` (decoding; RecoverPlaintext and RecoverEncrypted are in `Model/Mnemonikey`)
-/

namespace Verif.Model

/-- recovery.go:34-43 DecodedMnemonic. A nil `salt` (plaintext phrases) is
`none`. `creationOffset` is also what CreationOffset returns (recovery.go:59-61). -/
structure DecodedMnemonic where
  version : Nat
  entropy : Int
  salt : Option Int
  encSeedVerify : Byte
  creationOffset : Nat
  deriving DecidableEq, Repr

/-- recovery.go:49-51 Encrypted -/
def DecodedMnemonic.encrypted (dm : DecodedMnemonic) : Bool := versionEncrypted dm.version

/-- recovery.go:116-121 Seed -/
def DecodedMnemonic.seed (dm : DecodedMnemonic) : Res Seed :=
  if dm.encrypted then .err .mnemonicDecryption
  else newSeed (versionEra dm.version) dm.entropy

/-- recovery.go:76-110 DecryptSeed. A nil salt would be a nil dereference in newBitBuffer. -/
def DecodedMnemonic.decryptSeed (C : PhraseCrypto) (dm : DecodedMnemonic) (password : Bytes) :
    Res Seed :=
  if !dm.encrypted then dm.seed
  else match dm.salt with
  | none => .panic .nilDereference
  | some salt => do
    let key ← encSeedKey C password salt dm.creationOffset
    let verify ← verifyBits key
    if verify ≠ dm.encSeedVerify then .err .mnemonicDecryption
    else
      let encSeed ← fillBytes dm.entropy 16
      let decSeed := C.aesDec (key.take 16) encSeed
      newSeed (versionEra dm.version) (setBytes decSeed : Int)

/-- recovery.go:257-266 ParseMnemonicVersion. Go returns the version together with the error;
callers that ignore the error use `parseMnemonicVersionRaw`. -/
def parseMnemonicVersionRaw (L : WordList) (firstWord : Bytes) : Nat × Option Err :=
  match L.lookup (L.toLower firstWord) with
  | none => (0, some .invalidWord)
  | some index =>
    let version := index >>> (bitsPerWord - mnemonicVersionBitCount)
    (version, match versionCheck version with
      | .err e => some e
      | _ => none)

def parseMnemonicVersion (L : WordList) (firstWord : Bytes) : Res Nat :=
  match parseMnemonicVersionRaw L firstWord with
  | (_, some e) => .err e
  | (v, none) => .ok v

/-- recovery.go:184-245 DecodeMnemonic -/
def decodeMnemonic (L : WordList) (words : List Bytes) : Res DecodedMnemonic :=
  match words with
  | [] => .err .invalidWordCount
  | firstWord :: _ => do
    let version ← parseMnemonicVersion L firstWord
    versionCheck version
    if words.length ≠ mnemonicSize version then .err .invalidWordCount
    else
      let indices ← decodeWords L words
      let payload ← decodeIndices indices
      let buf ← BitBuffer.new payload (words.length * bitsPerWord)
      let (ck, buf) ← buf.popTrailingBits checksumBitCount
      let expectedChecksum := uint64 ck % 2 ^ 32
      let b ← buf.bytes
      if checksum5 b ≠ expectedChecksum then .err .invalidChecksum
      else
        let (_, buf) ← buf.popLeadingBits mnemonicVersionBitCount
        let (entropy, buf) ← buf.popLeadingBits entropyBitCount
        let (salt, verify, buf) ← (if version = 1 then do
            let (salt, buf) ← buf.popLeadingBits saltBitCount
            let (v, buf) ← buf.popLeadingBits encSeedVerifyBitCount
            .ok (some salt, UInt8.ofNat (uint64 v), buf)
          else .ok (none, 0, buf) : Res (Option Int × Byte × BitBuffer))
        let (off, buf) ← buf.popLeadingBits creationOffsetBitCount
        if buf.bitLength ≠ 0 then .err .extraBits
        else .ok {
          version := version, entropy := entropy, salt := salt,
          encSeedVerify := verify, creationOffset := uint64 off % 2 ^ 32 }

end Verif.Model
