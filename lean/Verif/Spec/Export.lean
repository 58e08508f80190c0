import Verif.Spec.Derive

/-!
# What an OpenPGP reader should find in an exported key

Written from the README and RFC 4880, in terms of the primitives and `Spec.Derive` only.
-/

namespace Verif.Spec

open Verif.Model (Crypto)
open Verif.Spec.OpenPGP

/-- RFC 4880 5.5.2 with RFC 4880bis 13.3: the body of a version 4 EdDSA key with a native point.
The point is a 263-bit MPI: 0x40 followed by 32 octets. -/
def edBody (second : Nat) (point : Bytes) : Bytes :=
  4 :: octets 4 second ++ 22 :: 9 :: oidEd25519 ++ [0x01, 0x07, 0x40] ++ point

/-- RFC 6637 9: the same for ECDH, with the KDF parameters SHA-256 (8) and AES-128 (7). -/
def ecdhBody (second : Nat) (point : Bytes) : Bytes :=
  4 :: octets 4 second ++ 18 :: 10 :: oidCurve25519 ++ [0x01, 0x07, 0x40] ++ point ++ [3, 1, 8, 7]

/-- RFC 4880 12.2 -/
def fingerprint (C : Crypto) (body : Bytes) : Bytes := C.sha1 (keyPreimage body)

def edPublic (C : Crypto) (second : Nat) (seed : Bytes) : PublicKey :=
  { created := second, algorithm := 22, oid := oidEd25519, point := C.ed25519Pub seed, kdf := none,
    fingerprint := fingerprint C (edBody second (C.ed25519Pub seed)) }

def ecdhPublic (C : Crypto) (second : Nat) (seed : Bytes) : PublicKey :=
  { created := second, algorithm := 18, oid := oidCurve25519, point := C.x25519Base seed,
    kdf := some (8, 7), fingerprint := fingerprint C (ecdhBody second (C.x25519Base seed)) }

/-- The choices that determine an export besides the key's seed and second: user ID, expiration
field, and for each type of subkey its index if it is wanted. -/
structure Wanted where
  userID : Bytes
  expires : Option Nat
  encryption : Option Nat
  authentication : Option Nat
  signing : Option Nat

/-- RFC 7748, section 5: the scalar of 32 octets is their number, little-endian, with bits 0, 1, 2 and 255 cleared
and bit 254 set. -/
def clamped (b : Bytes) : Nat := 2 ^ 254 + num b.reverse % 2 ^ 254 / 8 * 8

/-- The scalar of the encryption subkey, as the integer OpenPGP stores -/
def scalarInt (C : Crypto) (second seed index : Nat) : Nat :=
  clamped (subkeySeed C seed second "encryption" index)

def encryptionSubkey (C : Crypto) (seed second : Nat) (expires : Option Nat) (index : Nat) :
    SubkeyInfo :=
  { key := ecdhPublic C second (subkeySeed C seed second "encryption" index)
    secret := .clear (scalarInt C second seed index)
    binding := { created := second, flags := 0x04 + 0x08, expires := expires }
    cross := none }

def authenticationSubkey (C : Crypto) (seed second : Nat) (expires : Option Nat) (index : Nat) :
    SubkeyInfo :=
  { key := edPublic C second (subkeySeed C seed second "authentication" index)
    secret := .clear (num (subkeySeed C seed second "authentication" index))
    binding := { created := second, flags := 0x20, expires := expires }
    cross := none }

def signingSubkey (C : Crypto) (seed second : Nat) (expires : Option Nat) (index : Nat) :
    SubkeyInfo :=
  { key := edPublic C second (subkeySeed C seed second "signing" index)
    secret := .clear (num (subkeySeed C seed second "signing" index))
    binding := { created := second, flags := 0x02, expires := expires }
    cross := some second }

def wantedSubkeys (C : Crypto) (seed second : Nat) (w : Wanted) : List SubkeyInfo :=
  (w.encryption.map (encryptionSubkey C seed second w.expires)).toList ++
  (w.authentication.map (authenticationSubkey C seed second w.expires)).toList ++
  (w.signing.map (signingSubkey C seed second w.expires)).toList

/-- The three types of subkeys, each in its place, which is empty if the subkey is not wanted -/
def wantedSlots (C : Crypto) (seed second : Nat) (w : Wanted) : List (Option SubkeyInfo) :=
  [w.encryption.map (encryptionSubkey C seed second w.expires),
    w.authentication.map (authenticationSubkey C seed second w.expires),
    w.signing.map (signingSubkey C seed second w.expires)]

/-- A list with two of its places exchanged -/
def exchange {α : Type} (l : List α) (i j : Nat) : List α :=
  l.mapIdx fun k a => if k = i then l.getD j a else if k = j then l.getD i a else a

/-- Fisher-Yates: each place from the last down to the second is exchanged with the one drawn for it. -/
def shuffled {α : Type} (draw : Nat → Nat) (l : List α) : List α :=
  (List.range (l.length - 1)).reverse.foldl (fun l i => exchange l (i + 1) (draw (i + 1))) l

/-- The seed of the generator shuffling the subkeys: the first 8 bytes of the SHA-256 of the master secret
followed by its public key, as a sign bit and a number of 63 bits -/
def orderSeed (C : Crypto) (master : Bytes) : Int :=
  let x := num ((C.sha256 (master ++ C.ed25519Pub master)).take 8)
  if x < 2 ^ 63 then x else -((x - 2 ^ 63 : Nat) : Int)

/-- The certification of the user ID: usage "certify" and the listed preferences. -/
def wantedCert (second : Nat) (w : Wanted) : CertInfo :=
  { info := { created := second, flags := 0x01, expires := w.expires }
    ciphers := [9, 8, 7, 2]           -- AES-256, AES-192, AES-128, TripleDES
    hashes := [10, 9, 8, 11, 2]       -- SHA-512, SHA-384, SHA-256, SHA-224, SHA-1
    compressions := [2, 3, 1]         -- ZLIB, BZip2, ZIP
    features := [1]                   -- modification detection
    keyServer := [0x80] }             -- no-modify

/-- The whole key, its subkeys in the given order. -/
def wantedKey (C : Crypto) (seed second : Nat) (w : Wanted) (subkeys : List SubkeyInfo) : KeyInfo :=
  { key := edPublic C second (masterSeed C seed second)
    secret := .clear (num (masterSeed C seed second))
    userID := w.userID
    cert := some (wantedCert second w)
    subkeys := subkeys }

/-- Replace every protected secret of an imported key by the integer it opens to. -/
def unlockSubkey (C : Crypto) (password : Bytes) (s : SubkeyInfo) : Option SubkeyInfo := do
  let n ← openSecret C password s.secret
  some { s with secret := .clear n }

def unlock (C : Crypto) (password : Bytes) (k : KeyInfo) : Option KeyInfo := do
  let n ← openSecret C password k.secret
  let subkeys ← k.subkeys.mapM (unlockSubkey C password)
  some { k with secret := .clear n, subkeys := subkeys }

/-- AES-256, iterated and salted S2K with SHA-256 and the largest count. -/
def Protected : Secret → Prop
  | .locked cipher hash salt count iv _ =>
    cipher = 9 ∧ hash = 8 ∧ salt.length = 8 ∧ count = 65011712 ∧ iv.length = 16
  | _ => False

end Verif.Spec
