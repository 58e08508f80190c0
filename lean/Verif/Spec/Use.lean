import Mathlib.Data.Nat.Size
import Verif.Spec.OpenPGP

/-!
# What OpenPGP keys are for

How other programs encrypt to a key and decrypt with it, and how they sign: RFC 6637 (ECDH), RFC 3394 (AES key
wrap), RFC 4880 5.1, 5.13 and 13.9 (session key and integrity protected data), 5.2 (signatures). These programs have
the keys only as read by `importKey`.
-/

namespace Verif.Spec.OpenPGP

open Verif.Model (Crypto)

def xored (a b : Bytes) : Bytes := List.zipWith (· ^^^ ·) a b

/-! ## RFC 3394 -/

/-- The initial value of 2.2.3.1 -/
def wrapIV : Bytes := List.replicate 8 0xA6

/-- 2.2.1: one of the six passes over the blocks; `t` counts the steps. -/
def wrapPass (E : Bytes → Bytes) : Nat → Bytes → List Bytes → Bytes × List Bytes
  | _, a, [] => (a, [])
  | t, a, r :: rs =>
    let b := E (a ++ r)
    let p := wrapPass E (t + 1) (xored (b.take 8) (octets 8 t)) rs
    (p.1, b.drop 8 :: p.2)

/-- 2.2.2: the same, from the last block to the first -/
def unwrapPass (D : Bytes → Bytes) : Nat → Bytes → List Bytes → Bytes × List Bytes
  | _, a, [] => (a, [])
  | t, a, r :: rs =>
    let p := unwrapPass D (t + 1) a rs
    let b := D (xored p.1 (octets 8 t) ++ r)
    (b.take 8, b.drop 8 :: p.2)

/-- The octets in blocks of eight -/
def blocks (b : Bytes) : List Bytes := (List.range (b.length / 8)).map fun i => (b.drop (8 * i)).take 8

def keyWrap (E : Bytes → Bytes) (m : Bytes) : Bytes :=
  let n := m.length / 8
  let p := (List.range 6).foldl (fun p j => wrapPass E (n * j + 1) p.1 p.2) (wrapIV, blocks m)
  p.1 ++ p.2.flatten

def keyUnwrap (D : Bytes → Bytes) (c : Bytes) : Option Bytes :=
  let n := c.length / 8 - 1
  let p := (List.range 6).reverse.foldl (fun p j => unwrapPass D (n * j + 1) p.1 p.2) (c.take 8, blocks (c.drop 8))
  if c.length % 8 = 0 ∧ p.1 = wrapIV then some p.2.flatten else none

/-! ## RFC 6637 -/

/-- `dh scalar point` is X25519 (RFC 7748); both parties get the same. -/
structure DhLawful (C : Crypto) (dh : Bytes → Bytes → Bytes) : Prop where
  agree : ∀ s t, s.length = 32 → t.length = 32 → dh s (C.x25519Base t) = dh t (C.x25519Base s)

/-- RFC 6637 7 and 8: the key encryption key, for the KDF parameters SHA-256 and AES-128 -/
def keyEncryptionKey (C : Crypto) (key : PublicKey) (shared : Bytes) : Option Bytes :=
  if key.kdf = some (8, 7) then
    some ((C.sha256 ([0, 0, 0, 1] ++ shared ++ UInt8.ofNat key.oid.length :: key.oid ++ [18, 3, 1, 8, 7] ++
      "Anonymous Sender    ".toUTF8.toList ++ key.fingerprint)).take 16)
  else none

/-- RFC 4880 5.1, RFC 6637 8: cipher, session key, checksum and padding, which may be longer than needed -/
def sessionData (cipher : Nat) (session : Bytes) (padding : Nat) : Bytes :=
  UInt8.ofNat cipher :: session ++ octets 2 ((session.map UInt8.toNat).sum % 65536) ++
    List.replicate padding (UInt8.ofNat padding)

/-- The session key for AES-256 in `sessionData` -/
def readSessionData (m : Bytes) : Option Bytes := do
  let last ← m.getLast?
  let padding := last.toNat
  if padding = 0 ∨ m.length < padding ∨ m.drop (m.length - padding) ≠ List.replicate padding last then none
  else do
    let (cipher, rest) ← split 1 (m.take (m.length - padding))
    let (session, sum) ← split 32 rest
    if num cipher = 9 ∧ sum = octets 2 ((session.map UInt8.toNat).sum % 65536) then some session else none

/-- What the sender draws: the ephemeral scalar, the session key, the prefix of the data, and the length of the
padding -/
structure Drawn where
  ephemeral : Bytes
  session : Bytes
  start : Bytes
  padding : Nat

structure Drawn.Fine (d : Drawn) : Prop where
  ephemeral : d.ephemeral.length = 32
  session : d.session.length = 32
  start : d.start.length = 16
  padding : 0 < d.padding ∧ d.padding < 200
  whole : (35 + d.padding) % 8 = 0

/-- RFC 4880 5.1 with RFC 6637 10: the packet with the encrypted session key -/
def sessionPacket (C : Crypto) (dh : Bytes → Bytes → Bytes) (key : PublicKey) (d : Drawn) : Option Bytes := do
  let kek ← keyEncryptionKey C key (dh d.ephemeral key.point)
  let c := keyWrap (C.aesEnc kek) (sessionData 9 d.session d.padding)
  some (3 :: key.fingerprint.drop 12 ++ [18, 0x01, 0x07, 0x40] ++ C.x25519Base d.ephemeral ++
    UInt8.ofNat c.length :: c)

/-- The recipient, who has the secret integer `n` of the key -/
def openSession (C : Crypto) (dh : Bytes → Bytes → Bytes) (key : PublicKey) (n : Nat) (body : Bytes) :
    Option Bytes := do
  let (version, rest) ← split 1 body
  let (id, rest) ← split 8 rest
  let (algorithm, rest) ← split 1 rest
  let (p, rest) ← readMPI rest
  let (len, c) ← split 1 rest
  if num version = 3 ∧ id = key.fingerprint.drop 12 ∧ num algorithm = 18 ∧ p / 256 ^ 32 = 0x40 ∧
      c.length = num len then do
    let kek ← keyEncryptionKey C key (dh (octets 32 n).reverse (octets 32 (p % 256 ^ 32)))
    let m ← keyUnwrap (C.aesDec kek) c
    readSessionData m
  else none

/-! ## RFC 4880 5.13 -/

def cfbEncryptFuel (E : Bytes → Bytes) : Nat → Bytes → Bytes → Bytes
  | 0, _, _ => []
  | fuel + 1, prev, data =>
    if data = [] then []
    else
      let c := xored (data.take 16) (E prev)
      c ++ cfbEncryptFuel E fuel c (data.drop 16)

def cfbEncrypt (E : Bytes → Bytes) (iv data : Bytes) : Bytes := cfbEncryptFuel E data.length iv data

/-- Integrity protected data: random octets, the last two repeated, the packets, and a SHA-1 of all that -/
def dataPacket (C : Crypto) (d : Drawn) (data : Bytes) : Bytes :=
  let plain := d.start ++ d.start.drop 14 ++ data ++ [0xD3, 0x14]
  1 :: cfbEncrypt (C.aes256Enc d.session) (List.replicate 16 0) (plain ++ C.sha1 plain)

def openData (C : Crypto) (session body : Bytes) : Option Bytes := do
  let (version, c) ← split 1 body
  let plain := cfbDecrypt (C.aes256Enc session) (List.replicate 16 0) c
  let (start, rest) ← split 16 plain
  let (again, rest) ← split 2 rest
  let (data, rest) ← split (rest.length - 22) rest
  if num version = 1 ∧ again = start.drop 14 ∧
      rest = [0xD3, 0x14] ++ C.sha1 (start ++ again ++ data ++ [0xD3, 0x14]) then some data else none

/-! ## Messages -/

/-- A packet with the long form of the length -/
def packetOf (tag : Nat) (body : Bytes) : Bytes := UInt8.ofNat (192 + tag) :: 255 :: octets 4 body.length ++ body

/-- A message to the owner of the key, made by someone who has the public key -/
def encryptTo (C : Crypto) (dh : Bytes → Bytes → Bytes) (key : PublicKey) (d : Drawn) (data : Bytes) :
    Option Bytes := do
  let session ← sessionPacket C dh key d
  some (packetOf 1 session ++ packetOf 18 (dataPacket C d data))

/-- What is in a message to the owner of the key, for someone who has its secret integer `n` -/
def decryptWith (C : Crypto) (dh : Bytes → Bytes → Bytes) (key : PublicKey) (n : Nat) (message : Bytes) :
    Option Bytes := do
  match ← readPackets message with
  | [(1, body), (18, body')] => do
    let session ← openSession C dh key n body
    openData C session body'
  | _ => none

/-! ## Signatures -/

/-- RFC 4880 3.2 -/
def mpi (v : Nat) : Bytes := octets 2 v.size ++ octets ((v.size + 7) / 8) v

/-- A signature packet body (RFC 4880 5.2.3, SHA-256) over `data`, made with the EdDSA key whose secret integer is
`n`: issuer fingerprint and creation time are hashed, the issuer is not -/
def signWith (C : Crypto) (key : PublicKey) (n type created : Nat) (data : Bytes) : Bytes :=
  let area := UInt8.ofNat (key.fingerprint.length + 2) :: 33 :: 4 :: key.fingerprint ++ [5, 2] ++ octets 4 created
  let part := [4, UInt8.ofNat type, 22, 8] ++ octets 2 area.length ++ area
  let hash := C.sha256 (data ++ part ++ [0x04, 0xFF] ++ octets 4 part.length)
  let sig := C.ed25519Sign (octets 32 n ++ key.point) hash
  part ++ octets 2 10 ++ [9, 16] ++ key.fingerprint.drop 12 ++ hash.take 2 ++ mpi (num (sig.take 32)) ++
    mpi (num (sig.drop 32))

end Verif.Spec.OpenPGP
