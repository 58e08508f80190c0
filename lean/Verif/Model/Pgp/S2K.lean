import Verif.Model.Crypto
import Verif.Model.Pgp.Packet

/-!
# `/repo/pgp/s2k.go` and the hash table of `/repo/pgp/constants.go`

A `hash.Hash` is represented by the bytes written so far; `Sum(nil)` applies the hash function to
them. `crypto/rand.Reader` is an explicit finite stream.
-/

namespace Verif.Model.Pgp

open Verif.Model

/-- constants.go:99-109 HashFuncID.New; `none` is the nil interface. -/
def hashNew (C : Crypto) (id : Byte) : Option (Bytes → Bytes) :=
  if id = hashFuncSHA256 then some C.sha256
  else if id = hashFuncSHA384 then some C.sha384
  else if id = hashFuncSHA512 then some C.sha512
  else none

/-- `hashFunc.New().Size()`; a nil interface panics. -/
def hashSize (id : Byte) : Res Nat :=
  if id = hashFuncSHA256 then .ok 32
  else if id = hashFuncSHA384 then .ok 48
  else if id = hashFuncSHA512 then .ok 64
  else .panic .nilDereference

/-- The octets written to the hash by s2k.go:14-23. -/
def s2kPreimage (password salt : Bytes) (byteCount : Nat) : Bytes :=
  let preimage := salt ++ password
  let m := byteCount / preimage.length
  let remainder := byteCount % preimage.length
  (List.replicate m preimage).flatten ++ preimage.take remainder

/-- s2k.go:13-25 stringToKey -/
def stringToKey (C : Crypto) (hashFunc : Byte) (password salt : Bytes) (byteCount : Nat) :
    Res Bytes :=
  if (salt ++ password).length = 0 then .panic .divideByZero
  else match hashNew C hashFunc with
    | none => .panic .nilDereference
    | some h => .ok (h (s2kPreimage password salt byteCount))

/-- s2k.go:28-30 s2kCountDecode -/
def s2kCountDecode (coded : Byte) : Nat :=
  (16 + (coded &&& 0b1111).toNat) <<< ((coded >>> 4) + 6).toNat

/-- `crypto/rand.Read(make([]byte, n))` -/
def randRead (rnd : Bytes) (n : Nat) : Res (Bytes × Bytes) :=
  if rnd.length < n then .err .randomRead else .ok (rnd.take n, rnd.drop n)

/-- `cipher.NewCFBEncrypter(block, iv).XORKeyStream(dst, src)` on a whole message, for a 16-byte
block cipher `E` (Go standard library). `fuel` is at least the number of blocks. -/
def cfbEncryptLoop (E : Bytes → Bytes) : Nat → Bytes → Bytes → Bytes
  | 0, _, _ => []
  | fuel + 1, iv, src =>
    if src = [] then []
    else
      let block := List.zipWith (· ^^^ ·) (src.take 16) (E iv)
      block ++ cfbEncryptLoop E fuel block (src.drop 16)

def cfbEncrypt (E : Bytes → Bytes) (iv src : Bytes) : Bytes := cfbEncryptLoop E src.length iv src

/-- The block cipher of `aes.NewCipher(key)`: keys of 16, 24 or 32 bytes, otherwise
`KeySizeError`. No supported hash has 24 bytes of output, so AES-192 is not modelled. -/
def aesNewCipher (C : Crypto) (key : Bytes) : Res (Bytes → Bytes) :=
  if key.length = 16 then .ok (C.aesEnc key)
  else if key.length = 32 then .ok (C.aes256Enc key)
  else .err .cipherKeySize

/-- s2k.go:35-81 EncryptS2K; also returns the unread rest of the random source. -/
def encryptS2K (C : Crypto) (hashFunc : Byte) (plaintext password rnd : Bytes) :
    Res (Bytes × Bytes) := do
  let (salt, rnd) ← randRead rnd 8
  let (iv, rnd) ← randRead rnd 16
  let secretKey ← stringToKey C hashFunc password salt (s2kCountDecode s2kCountMaximum)
  let mpiPlaintext := encodeMPI (setBytes plaintext : Int)
  let plaintextWithChecksum := mpiPlaintext ++ C.sha1 mpiPlaintext
  let block ← aesNewCipher C secretKey
  let ciphertext := cfbEncrypt block iv plaintextWithChecksum
  let size ← hashSize hashFunc
  let algo ← (if size = 16 then .ok cipherAlgoAES128
    else if size = 24 then .ok cipherAlgoAES192
    else if size = 32 then .ok cipherAlgoAES256
    else .err .cipherKeySize : Res Byte)
  .ok ([stringToKeySpecifierPrefix, algo, stringToKeyUsageIteratedAndSalted, hashFunc] ++ salt ++
    [s2kCountMaximum] ++ iv ++ ciphertext, rnd)

end Verif.Model.Pgp
