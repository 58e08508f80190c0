import Verif.Model.Crypto

/-!
# A reader for OpenPGP secret keys

Written from RFC 4880 (packets, version 4 keys and signatures, S2K), RFC 6637 (ECDH keys),
RFC 4880bis (EdDSA keys and signatures) and the GnuPG stub extension. It uses only the
cryptographic primitives of `Model.Crypto`, none of the exporting code. The reader is strict: any
deviation makes it return `none`.
-/

namespace Verif.Spec.OpenPGP

open Verif.Model (Crypto)

/-- Big-endian number. -/
def num (b : Bytes) : Nat := b.foldl (fun a x => 256 * a + x.toNat) 0

/-- `v` as `n` big-endian octets. -/
def octets (n v : Nat) : Bytes := (List.range n).map (fun i => UInt8.ofNat (v / 256 ^ (n - 1 - i)))

def split (n : Nat) (b : Bytes) : Option (Bytes × Bytes) :=
  if b.length < n then none else some (b.take n, b.drop n)

/-- RFC 4880 4.2.2: new-format body lengths; partial lengths are refused. -/
def readLength : Bytes → Option (Nat × Bytes)
  | [] => none
  | a :: rest =>
    if a.toNat < 192 then some (a.toNat, rest)
    else if a.toNat < 224 then
      match rest with
      | [] => none
      | b :: rest => some ((a.toNat - 192) * 256 + b.toNat + 192, rest)
    else if a.toNat = 255 then do
      let (l, rest) ← split 4 rest
      some (num l, rest)
    else none

/-- RFC 4880 4.2: one new-format packet. -/
def readPacket : Bytes → Option ((Nat × Bytes) × Bytes)
  | [] => none
  | h :: rest =>
    if h.toNat < 192 then none
    else do
      let (n, rest) ← readLength rest
      let (body, rest) ← split n rest
      some ((h.toNat - 192, body), rest)

def readPacketsFuel : Nat → Bytes → Option (List (Nat × Bytes))
  | 0, b => if b = [] then some [] else none
  | fuel + 1, b =>
    if b = [] then some []
    else do
      let (p, rest) ← readPacket b
      let ps ← readPacketsFuel fuel rest
      some (p :: ps)

/-- A whole sequence of packets. Every packet has at least two octets, so the fuel suffices. -/
def readPackets (b : Bytes) : Option (List (Nat × Bytes)) := readPacketsFuel b.length b

/-- RFC 4880 3.2: multiprecision integers; the length must be that of the leading one bit. -/
def readMPI (b : Bytes) : Option (Nat × Bytes) := do
  let (l, b) ← split 2 b
  let n := num l
  let (v, b) ← split ((n + 7) / 8) b
  if num v < 2 ^ n ∧ (n = 0 ∨ 2 ^ (n - 1) ≤ num v) then some (num v, b) else none

/-- RFC 4880 3.7.1 and 5.5.3, plus the GnuPG stub. -/
inductive Secret where
  | clear (n : Nat)
  | locked (cipher hash : Nat) (salt : Bytes) (count : Nat) (iv data : Bytes)
  | stub
  deriving DecidableEq, Repr

structure PublicKey where
  created : Nat
  algorithm : Nat
  oid : Bytes
  /-- the 32 native octets of the point, after the prefix 0x40 -/
  point : Bytes
  /-- ECDH: KDF hash and key-wrapping cipher -/
  kdf : Option (Nat × Nat)
  fingerprint : Bytes
  deriving DecidableEq, Repr

/-- 1.3.6.1.4.1.11591.15.1 -/
def oidEd25519 : Bytes := [0x2B, 0x06, 0x01, 0x04, 0x01, 0xDA, 0x47, 0x0F, 0x01]
/-- 1.3.6.1.4.1.3029.1.5.1 -/
def oidCurve25519 : Bytes := [0x2B, 0x06, 0x01, 0x04, 0x01, 0x97, 0x55, 0x01, 0x05, 0x01]

/-- RFC 4880 12.2: what is hashed for a key: 0x99, two-octet length, body. -/
def keyPreimage (body : Bytes) : Bytes := 0x99 :: octets 2 body.length ++ body

/-- RFC 4880 5.5.2 version 4 public key with a 32-octet native point. Returns the key, its body and
the rest. -/
def readPublic (C : Crypto) (b : Bytes) : Option (PublicKey × Bytes × Bytes) := do
  let (version, rest) ← split 1 b
  let (created, rest) ← split 4 rest
  let (algorithm, rest) ← split 1 rest
  let (oidLength, rest) ← split 1 rest
  let (oid, rest) ← split (num oidLength) rest
  let (p, rest) ← readMPI rest
  if num version ≠ 4 ∨ p / 256 ^ 32 ≠ 0x40 then none
  else do
    let (kdf, rest) ← (
      if num algorithm = 22 ∧ oid = oidEd25519 then some (none, rest)
      else if num algorithm = 18 ∧ oid = oidCurve25519 then
        match rest with
        | 3 :: 1 :: h :: c :: rest => some (some (h.toNat, c.toNat), rest)
        | _ => none
      else none : Option (Option (Nat × Nat) × Bytes))
    let body := b.take (b.length - rest.length)
    some ({ created := num created, algorithm := num algorithm, oid := oid,
            point := octets 32 (p % 256 ^ 32), kdf := kdf,
            fingerprint := C.sha1 (keyPreimage body) }, body, rest)

/-- RFC 4880 3.7.1.3: the coded count. -/
def s2kCount (c : Nat) : Nat := (16 + c % 16) * 2 ^ (c / 16 + 6)

/-- RFC 4880 5.5.3: the secret part, which must end the packet. -/
def readSecret (b : Bytes) : Option Secret :=
  match b with
  | 0 :: rest => do
    let (n, tail) ← readMPI rest
    let mpi := rest.take (rest.length - tail.length)
    if tail = octets 2 ((mpi.map UInt8.toNat).sum % 65536) then some (.clear n) else none
  | 254 :: cipher :: 3 :: hash :: rest => do
    let (salt, rest) ← split 8 rest
    let (count, rest) ← split 1 rest
    let (iv, rest) ← split 16 rest
    some (.locked cipher.toNat hash.toNat salt (s2kCount (num count)) iv rest)
  | [254, 0, 101, 0, 0x47, 0x4E, 0x55, 1] => some .stub
  | _ => none

/-- RFC 4880 5.2.3.1: subpacket lengths (two octets up to first octet 254). -/
def readSubLength : Bytes → Option (Nat × Bytes)
  | [] => none
  | a :: rest =>
    if a.toNat < 192 then some (a.toNat, rest)
    else if a.toNat < 255 then
      match rest with
      | [] => none
      | b :: rest => some ((a.toNat - 192) * 256 + b.toNat + 192, rest)
    else do
      let (l, rest) ← split 4 rest
      some (num l, rest)

def readSubpacketsFuel : Nat → Bytes → Option (List (Nat × Bytes))
  | 0, b => if b = [] then some [] else none
  | fuel + 1, b =>
    if b = [] then some []
    else do
      let (n, rest) ← readSubLength b
      let (sp, rest) ← split n rest
      match sp with
      | [] => none
      | t :: body => do
        let sps ← readSubpacketsFuel fuel rest
        some ((t.toNat, body) :: sps)

def readSubpackets (b : Bytes) : Option (List (Nat × Bytes)) := readSubpacketsFuel b.length b

/-- A subpacket area: two-octet length and that many octets. -/
def readArea (b : Bytes) : Option (List (Nat × Bytes) × Bytes) := do
  let (l, b) ← split 2 b
  let (area, b) ← split (num l) b
  let sps ← readSubpackets area
  some (sps, b)

structure Sig where
  type : Nat
  keyAlgorithm : Nat
  hashAlgorithm : Nat
  hashed : List (Nat × Bytes)
  unhashed : List (Nat × Bytes)
  left16 : Bytes
  r : Nat
  s : Nat
  /-- version to end of hashed subpackets: the part of the packet that is hashed -/
  hashedPart : Bytes
  deriving DecidableEq, Repr

/-- RFC 4880 5.2.3 version 4 signature with two MPIs. -/
def readSignature (b : Bytes) : Option Sig :=
  match b with
  | 4 :: type :: keyAlgorithm :: hashAlgorithm :: rest => do
    let (hashed, rest1) ← readArea rest
    let (unhashed, rest2) ← readArea rest1
    let (left16, rest3) ← split 2 rest2
    let (r, rest4) ← readMPI rest3
    let (s, rest5) ← readMPI rest4
    if rest5 = [] then
      some { type := type.toNat, keyAlgorithm := keyAlgorithm.toNat,
             hashAlgorithm := hashAlgorithm.toNat, hashed := hashed, unhashed := unhashed,
             left16 := left16, r := r, s := s, hashedPart := b.take (b.length - rest1.length) }
    else none
  | _ => none

/-- The body of the only subpacket of type `t`. -/
def only (t : Nat) (sps : List (Nat × Bytes)) : Option Bytes :=
  match sps.filter (fun p => p.1 == t) with
  | [p] => some p.2
  | _ => none

/-- RFC 4880 5.2.4 with EdDSA (RFC 4880bis): the signed octets are hashed with the hashed part
and the trailer; the left 16 bits must match; R and S are the 32-octet halves; the issuer named in
the hashed area and the issuer key ID in the unhashed area must be the signing key. -/
def checkSignature (C : Crypto) (key : PublicKey) (data : Bytes) (sig : Sig) : Bool :=
  let h := C.sha256 (data ++ sig.hashedPart ++ [0x04, 0xFF] ++ octets 4 sig.hashedPart.length)
  key.algorithm == 22 && sig.keyAlgorithm == 22 && sig.hashAlgorithm == 8 &&
    sig.left16 == h.take 2 && decide (sig.r < 256 ^ 32) && decide (sig.s < 256 ^ 32) &&
    C.ed25519Verify key.point h (octets 32 sig.r ++ octets 32 sig.s) &&
    only 33 sig.hashed == some (4 :: key.fingerprint) &&
    only 16 sig.unhashed == some (key.fingerprint.drop 12)

/-- What a signature says about a key. -/
structure SigInfo where
  created : Nat
  flags : Nat
  expires : Option Nat
  deriving DecidableEq, Repr

/-- Creation time (type 2), key flags (27) and key expiration (9) of the hashed area. The expiration
may be absent but not repeated. -/
def sigInfo (sig : Sig) : Option SigInfo := do
  let created ← only 2 sig.hashed
  let flags ← only 27 sig.hashed
  let expires ← (match sig.hashed.filter (fun p => p.1 == 9) with
    | [] => some none
    | [p] => if p.2.length = 4 then some (some (num p.2)) else none
    | _ => none)
  if created.length = 4 ∧ flags.length = 1 then
    some { created := num created, flags := num flags, expires := expires }
  else none

structure SubkeyInfo where
  key : PublicKey
  secret : Secret
  binding : SigInfo
  /-- present for signing subkeys: creation time of the cross-certification -/
  cross : Option Nat
  deriving DecidableEq, Repr

/-- The user ID certification with its preference subpackets (types 11, 21, 22, 30, 23). -/
structure CertInfo where
  info : SigInfo
  ciphers : Bytes
  hashes : Bytes
  compressions : Bytes
  features : Bytes
  keyServer : Bytes
  deriving DecidableEq, Repr

structure KeyInfo where
  key : PublicKey
  secret : Secret
  userID : Bytes
  cert : Option CertInfo
  subkeys : List SubkeyInfo
  deriving DecidableEq, Repr

/-- RFC 4880 5.2.4: certification of a user ID. -/
def certPreimage (body uid : Bytes) : Bytes :=
  keyPreimage body ++ 0xB4 :: octets 4 uid.length ++ uid

/-- RFC 4880 5.2.4: subkey and primary key bindings. -/
def bindPreimage (body subBody : Bytes) : Bytes := keyPreimage body ++ keyPreimage subBody

def readCert (C : Crypto) (key : PublicKey) (body uid sigBody : Bytes) : Option CertInfo := do
  let sig ← readSignature sigBody
  if sig.type = 0x13 ∧ checkSignature C key (certPreimage body uid) sig = true then do
    let info ← sigInfo sig
    let ciphers ← only 11 sig.hashed
    let hashes ← only 21 sig.hashed
    let compressions ← only 22 sig.hashed
    let features ← only 30 sig.hashed
    let keyServer ← only 23 sig.hashed
    some { info := info, ciphers := ciphers, hashes := hashes, compressions := compressions,
           features := features, keyServer := keyServer }
  else none

/-- A secret subkey and its binding signature. A subkey flagged for signing (0x02) must carry a
valid embedded primary-key binding (type 0x19) made by the subkey itself. -/
def readSubkey (C : Crypto) (key : PublicKey) (body subkeyBody sigBody : Bytes) :
    Option SubkeyInfo := do
  let (sub, subBody, rest) ← readPublic C subkeyBody
  let secret ← readSecret rest
  let sig ← readSignature sigBody
  let data := bindPreimage body subBody
  if sig.type = 0x18 ∧ checkSignature C key data sig = true then do
    let info ← sigInfo sig
    if info.flags / 2 % 2 = 1 then do
      let embedded ← only 32 sig.unhashed
      let esig ← readSignature embedded
      let created ← only 2 esig.hashed
      if esig.type = 0x19 ∧ checkSignature C sub data esig = true then
        some { key := sub, secret := secret, binding := info, cross := some (num created) }
      else none
    else some { key := sub, secret := secret, binding := info, cross := none }
  else none

def readSubkeys (C : Crypto) (key : PublicKey) (body : Bytes) :
    List (Nat × Bytes) → Option (List SubkeyInfo)
  | [] => some []
  | (7, subkeyBody) :: (2, sigBody) :: rest => do
    let s ← readSubkey C key body subkeyBody sigBody
    let ss ← readSubkeys C key body rest
    some (s :: ss)
  | _ => none

/-- RFC 4880 11.2: a transferable secret key with one user ID; the certification may be missing. -/
def importKey (C : Crypto) (b : Bytes) : Option KeyInfo := do
  match ← readPackets b with
  | (5, keyBody) :: (13, uid) :: rest => do
    let (key, body, secretPart) ← readPublic C keyBody
    let secret ← readSecret secretPart
    match rest with
    | (2, sigBody) :: rest => do
      let cert ← readCert C key body uid sigBody
      let subkeys ← readSubkeys C key body rest
      some { key := key, secret := secret, userID := uid, cert := some cert, subkeys := subkeys }
    | _ => do
      let subkeys ← readSubkeys C key body rest
      some { key := key, secret := secret, userID := uid, cert := none, subkeys := subkeys }
  | _ => none

/-- RFC 4880 3.7.1.3: the octets hashed by the iterated and salted S2K: salt and password repeated
until `count` octets have been hashed, but always at least once in full. -/
def s2kOctets (salt password : Bytes) (count : Nat) : Bytes :=
  let unit := salt ++ password
  (List.range (max count unit.length)).map (fun i => unit.getD (i % unit.length) 0)

/-- CFB decryption (RFC 4880 13.9 without resynchronisation) with 16-octet blocks: each ciphertext
block is XORed with the encryption of the previous one. -/
def cfbDecryptFuel (E : Bytes → Bytes) : Nat → Bytes → Bytes → Bytes
  | 0, _, _ => []
  | fuel + 1, prev, data =>
    if data = [] then []
    else List.zipWith (· ^^^ ·) (data.take 16) (E prev) ++
      cfbDecryptFuel E fuel (data.take 16) (data.drop 16)

def cfbDecrypt (E : Bytes → Bytes) (iv data : Bytes) : Bytes := cfbDecryptFuel E data.length iv data

/-- RFC 4880 5.5.3: recover the secret integer. Protected keys: AES-256 (9) with the SHA-256 (8)
S2K key; the plaintext is an MPI followed by its SHA-1. -/
def openSecret (C : Crypto) (password : Bytes) : Secret → Option Nat
  | .clear n => some n
  | .stub => none
  | .locked cipher hash salt count iv data =>
    if cipher = 9 ∧ hash = 8 then do
      let key := C.sha256 (s2kOctets salt password count)
      let plain := cfbDecrypt (C.aes256Enc key) iv data
      let (n, tail) ← readMPI plain
      if tail = C.sha1 (plain.take (plain.length - tail.length)) then some n else none
    else none

end Verif.Spec.OpenPGP
