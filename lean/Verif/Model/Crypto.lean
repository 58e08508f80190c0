import Verif.Basic

/-!
# Cryptographic primitives (external code)

Parameters with contracts. Nothing about their strength is assumed.
-/

namespace Verif.Model

/-- Primitives used by the recovery phrase code. -/
structure PhraseCrypto where
  /-- `argon2.IDKey(password, salt, time, memory, threads, keyLen)` -/
  argon2id : Bytes → Bytes → Nat → Nat → Nat → Nat → Bytes
  /-- `aes.NewCipher(key)` then `block.Encrypt`, 16-byte key -/
  aesEnc : Bytes → Bytes → Bytes
  /-- `aes.NewCipher(key)` then `block.Decrypt`, 16-byte key -/
  aesDec : Bytes → Bytes → Bytes

structure PhraseCrypto.Lawful (C : PhraseCrypto) : Prop where
  argon2id_length : ∀ p s t m th n, (C.argon2id p s t m th n).length = n
  aesEnc_length : ∀ k b, k.length = 16 → b.length = 16 → (C.aesEnc k b).length = 16
  aesDec_length : ∀ k b, k.length = 16 → b.length = 16 → (C.aesDec k b).length = 16
  aes_inv : ∀ k b, k.length = 16 → b.length = 16 → C.aesDec k (C.aesEnc k b) = b

/-- Primitives used by key derivation and by package pgp. An Ed25519 private key is the 64-byte
slice of Go's crypto/ed25519: seed followed by public key. -/
structure Crypto extends PhraseCrypto where
  /-- `hkdf.Expand(sha256.New, key, info)` read for `n` bytes -/
  hkdfExpand : Bytes → Bytes → Nat → Bytes
  /-- public key of `ed25519.NewKeyFromSeed(seed)` -/
  ed25519Pub : Bytes → Bytes
  /-- `ed25519.Sign(privateKey, message)` -/
  ed25519Sign : Bytes → Bytes → Bytes
  /-- `ed25519.Verify(publicKey, message, sig)` (used by the specification only) -/
  ed25519Verify : Bytes → Bytes → Bytes → Bool
  /-- `curve25519.X25519(scalar, curve25519.Basepoint)`, which never fails for the base point -/
  x25519Base : Bytes → Bytes
  sha1 : Bytes → Bytes
  sha256 : Bytes → Bytes
  sha384 : Bytes → Bytes
  sha512 : Bytes → Bytes
  /-- `aes.NewCipher(key)` then `block.Encrypt`, for the 32-byte keys of the key export -/
  aes256Enc : Bytes → Bytes → Bytes
  /-- the index drawn by `rand.New(rand.NewSource(seed)).Shuffle` for loop variable `i` -/
  shuffleDraw : Int → Nat → Nat
  /-- `uint32(d.Seconds())` for a duration of `d` nanoseconds -/
  secondsU32 : Int → Nat

/-- RFC 7748 decodeScalar25519, on a 32-byte little-endian scalar: clear the low three bits and
bit 255, set bit 254. -/
def clampScalar (b : Bytes) : Bytes :=
  (b.modify 0 (· &&& 248)).modify 31 (fun x => (x &&& 127) ||| 64)

structure Crypto.Lawful (C : Crypto) : Prop where
  phrase : C.toPhraseCrypto.Lawful
  hkdf_length : ∀ k i n, (C.hkdfExpand k i n).length = n
  ed25519Pub_length : ∀ s, s.length = 32 → (C.ed25519Pub s).length = 32
  ed25519Sign_length : ∀ k m, k.length = 64 → (C.ed25519Sign k m).length = 64
  ed25519_verify : ∀ s m, s.length = 32 →
    C.ed25519Verify (C.ed25519Pub s) m (C.ed25519Sign (s ++ C.ed25519Pub s) m) = true
  x25519_length : ∀ s, s.length = 32 → (C.x25519Base s).length = 32
  x25519_clamp : ∀ s, s.length = 32 → C.x25519Base (clampScalar s) = C.x25519Base s
  sha1_length : ∀ m, (C.sha1 m).length = 20
  sha256_length : ∀ m, (C.sha256 m).length = 32
  sha384_length : ∀ m, (C.sha384 m).length = 48
  sha512_length : ∀ m, (C.sha512 m).length = 64
  aes256_length : ∀ k b, k.length = 32 → b.length = 16 → (C.aes256Enc k b).length = 16
  shuffle_le : ∀ s i, C.shuffleDraw s i ≤ i
  seconds_lt : ∀ d, C.secondsU32 d < 2 ^ 32
  /-- Exact for a whole number of seconds that fits in 32 bits; elsewhere the Go specification
  leaves the conversion to the implementation. -/
  seconds_exact : ∀ n : Nat, n < 2 ^ 32 → C.secondsU32 (n * 10 ^ 9) = n

/-- derive.go:18 argonTimeFactor -/
def argonTimeFactor : Nat := 4
/-- derive.go:19 argonMemoryFactor -/
def argonMemoryFactor : Nat := 0x80000
/-- derive.go:20 argonThreads -/
def argonThreads : Nat := 2

end Verif.Model
