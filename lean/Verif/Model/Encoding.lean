import Verif.Model.BitBuffer
import Verif.Model.Crc32
import Verif.Model.Mnemonic
import Verif.Model.Seed
import Verif.Model.Crypto

/-!
# `/repo/encoding.go`
-/

namespace Verif.Model

/-- `checksumMask & crc32.ChecksumIEEE(b)`, encoding.go:19 and recovery.go:218 -/
def checksum5 (b : Bytes) : Nat := (checksumMask &&& crc32 b).toNat

/-- encoding.go:17-41 encodeMnemonic -/
def encodeMnemonic (L : WordList) (version : Nat) (payload : BitBuffer) : Res (List Bytes) := do
  let b ← payload.bytes
  let payload ← payload.appendTrailingBits (checksum5 b : Int) checksumBitCount
  if payload.bitLength ≠ payloadBitCount version then .err .payloadBitLen
  else
    let indices ← encodeToIndices payload.int payload.bitLength
    encodeToWords L indices

/-- encoding.go:45-58 EncodeMnemonicPlaintext. `creationOffset` is a Go uint32. -/
def encodeMnemonicPlaintext (L : WordList) (seed : Seed) (creationOffset : Nat) :
    Res (List Bytes) := do
  eraCheck seed.era
  let version : Nat := 0
  let buf ← BitBuffer.new (version : Int) mnemonicVersionBitCount
  let buf ← buf.appendTrailingBits seed.int entropyBitCount
  let buf ← buf.appendTrailingBits (creationOffset : Int) creationOffsetBitCount
  encodeMnemonic L version buf

/-- The `encSeedKey` computation shared by encoding.go:90-93 and recovery.go:82-94: buffer of
salt and offset, then Argon2id with a 17-byte output. -/
def encSeedKey (C : PhraseCrypto) (password : Bytes) (salt : Int) (creationOffset : Nat) :
    Res Bytes := do
  let buf ← BitBuffer.new salt saltBitCount
  let buf ← buf.appendTrailingBits (creationOffset : Int) creationOffsetBitCount
  let saltBytes ← buf.bytes
  .ok (C.argon2id password saltBytes argonTimeFactor argonMemoryFactor argonThreads 17)

/-- `key[16] & encSeedVerifyMask`, encoding.go:100 and recovery.go:94 -/
def verifyBits (key : Bytes) : Res Byte :=
  match key[16]? with
  | none => .panic .indexOutOfRange
  | some b => .ok (b &&& encSeedVerifyMask)

/-- encoding.go:67-113 EncodeMnemonicEncrypted; also returns the unread rest of the random
source. -/
def encodeMnemonicEncrypted (L : WordList) (C : PhraseCrypto) (seed : Seed) (creationOffset : Nat)
    (password : Bytes) (rnd : Bytes) : Res (List Bytes × Bytes) := do
  eraCheck seed.era
  if password.length = 0 then .err .emptyPassword
  else
    let version : Nat := 1
    let buf ← BitBuffer.new (version : Int) mnemonicVersionBitCount
    let (salt, rest) ← randInt rnd (2 ^ saltBitCount)
    let key ← encSeedKey C password (salt : Int) creationOffset
    let seedBytes ← seed.bytes
    let encSeed := C.aesEnc (key.take 16) seedBytes
    let verify ← verifyBits key
    let buf ← buf.appendTrailingBits (setBytes encSeed : Int) entropyBitCount
    let buf ← buf.appendTrailingBits (salt : Int) saltBitCount
    let buf ← buf.appendTrailingBits (verify.toNat : Int) encSeedVerifyBitCount
    let buf ← buf.appendTrailingBits (creationOffset : Int) creationOffsetBitCount
    let words ← encodeMnemonic L version buf
    .ok (words, rest)

end Verif.Model
