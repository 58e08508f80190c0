import Verif.Model.Pgp.KeySet

/-!
# Storage of byte slices in `/repo/pgp`

The other model files pass `[]byte` by value. Here the same functions work on a memory of byte arrays,
step by step as in Go: a slice is a window of an array, it has a capacity beyond its length, and
`append` writes into the array when the capacity suffices. How much capacity the run-time system gives
to an array that it allocates for `append`, for a `bytes.Buffer` or for a conversion from string is a
parameter (`Growth`).

Simplified: the array inside a `bytes.Buffer` or a hash is not visible before `Bytes()` or `Sum(nil)`,
so until then its contents are passed by value. The same holds for arrays that are read once, right after
they are made (`n.Bytes()`, `packetLengthEncode`, `[]byte{...}` written to a buffer, the result of
`ed25519.Sign`, the array `checksum`). The slices of subpacket pointers are lists: their literals have no
spare capacity, so that `append` copies them.
-/

namespace Verif.Model.Slices

open Verif.Model Verif.Model.Pgp

/-- An array, with the number of bytes that have been written to it since it was filled for the first time -/
structure Arr where
  bytes : Bytes
  written : Nat
  deriving DecidableEq, Repr

/-- The arrays that have been allocated; a pointer to an array is its number. -/
abbrev Mem := List Arr

/-- The memory and the unread rest of the random source -/
structure St where
  mem : Mem
  rnd : Bytes

/-- The capacities that the run-time system chooses -/
structure Growth where
  /-- for `append` to a slice of the given capacity, when the given length is needed -/
  append : Nat → Nat → Nat
  /-- the spare capacity of a `bytes.Buffer` or of `[]byte(string)` of the given length -/
  spare : Nat → Nat

structure Slice where
  arr : Nat
  off : Nat
  len : Nat
  cap : Nat
  deriving DecidableEq, Repr

/-- A computation over the memory -/
def SM (α : Type) : Type := St → Res α × St

def SM.bind {α β : Type} (x : SM α) (f : α → SM β) : SM β := fun s =>
  match x s with
  | (.ok a, s) => f a s
  | (.err e, s) => (.err e, s)
  | (.panic p, s) => (.panic p, s)

instance : Monad SM where
  pure a := fun s => (.ok a, s)
  bind := SM.bind

/-- A computation without slices -/
def pureRes {α : Type} (r : Res α) : SM α := fun s => (r, s)

/-- The bytes of an array -/
def contents (m : Mem) (i : Nat) : Bytes := m[i]?.elim [] Arr.bytes

/-- The bytes of a slice -/
def load (m : Mem) (s : Slice) : Bytes := ((contents m s.arr).drop s.off).take s.len

def read (s : Slice) : SM Bytes := fun st => (.ok (load st.mem s), st)

/-- A new array that starts with the given bytes and has the given spare capacity -/
def alloc (bs : Bytes) (spare : Nat) : SM Slice := fun st =>
  (.ok ⟨st.mem.length, 0, bs.length, bs.length + spare⟩,
    { st with mem := st.mem ++ [⟨bs ++ List.replicate spare 0, 0⟩] })

/-- `make([]byte, n)` -/
def make (n : Nat) : SM Slice := alloc (List.replicate n 0) 0

/-- Writing to an array, also if the bytes are the same as before -/
def Arr.write (i : Nat) (bs : Bytes) (a : Arr) : Arr :=
  ⟨a.bytes.take i ++ bs ++ a.bytes.drop (i + bs.length), a.written + bs.length⟩

/-- `copy(s[i:], bs)`, `binary.BigEndian.PutUint16(s[i:], v)` and so on, for bytes that fit -/
def put (s : Slice) (i : Nat) (bs : Bytes) : SM Unit := fun st =>
  if i + bs.length ≤ s.len then
    (.ok (), { st with mem := st.mem.modify s.arr (Arr.write (s.off + i) bs) })
  else (.panic .indexOutOfRange, st)

/-- `append(s, bs...)` -/
def append (G : Growth) (s : Slice) (bs : Bytes) : SM Slice := fun st =>
  if s.len + bs.length ≤ s.cap then
    (.ok { s with len := s.len + bs.length },
      { st with mem := st.mem.modify s.arr (Arr.write (s.off + s.len) bs) })
  else
    let need := s.len + bs.length
    alloc (load st.mem s ++ bs) (G.append s.cap need - need) st

/-- `s[:n]` -/
def upTo (s : Slice) (n : Nat) : SM Slice :=
  if n ≤ s.cap then pure { s with len := n } else pureRes (.panic .indexOutOfRange)

/-- `s[n:]` -/
def from' (s : Slice) (n : Nat) : SM Slice :=
  if n ≤ s.len then pure ⟨s.arr, s.off + n, s.len - n, s.cap - n⟩
  else pureRes (.panic .indexOutOfRange)

/-- `buf.Bytes()`, `h.Sum(nil)` and `[]byte(str)`: a new array with some spare capacity -/
def fresh (G : Growth) (bs : Bytes) : SM Slice := alloc bs (G.spare bs.length)

/-- `rand.Read(s)` -/
def randFill (s : Slice) : SM Unit := fun st =>
  match randRead st.rnd s.len with
  | .ok (bs, rnd) => put s 0 bs { st with rnd := rnd }
  | .err e => (.err e, st)
  | .panic p => (.panic p, st)

/-! ## mpi.go, packet.go -/

/-- mpi.go:12-21 EncodeMPI -/
def encodeMPI (n : Int) : SM Slice := do
  let outLen := (bitLen n + 7) / 8 + 2
  let encoded ← make outLen
  put encoded 0 (beBytes 2 (bitLen n))
  put encoded 2 (intBytes n)
  pure encoded

/-- packet.go:9-19 EncodePacket -/
def encodePacket (tag : Byte) (payload : Slice) : SM Slice := do
  let payloadSize := payload.len
  let lengthEncoded := packetLengthEncode payloadSize
  let encoded ← make (1 + lengthEncoded.length + payloadSize)
  put encoded 0 [0b11000000 ||| tag]
  put encoded 1 lengthEncoded
  let bs ← read payload
  put encoded (1 + lengthEncoded.length) bs
  pure encoded

/-! ## s2k.go -/

/-- s2k.go:13-25 stringToKey -/
def stringToKey (C : Crypto) (G : Growth) (hashFunc : Byte) (password salt : Slice)
    (byteCount : Nat) : SM Slice := do
  let preimage ← append G salt (← read password)
  if preimage.len = 0 then pureRes (.panic .divideByZero)
  else match hashNew C hashFunc with
    | none => pureRes (.panic .nilDereference)
    | some h => do
      let whole ← read preimage
      let rest ← read { preimage with len := byteCount % preimage.len }
      fresh G (h ((List.replicate (byteCount / preimage.len) whole).flatten ++ rest))

/-- s2k.go:35-81 EncryptS2K -/
def encryptS2K (C : Crypto) (G : Growth) (hashFunc : Byte) (plaintext password : Slice) :
    SM Slice := do
  let salt ← make 8
  randFill salt
  let iv ← make 16
  randFill iv
  let secretKey ← stringToKey C G hashFunc password salt (s2kCountDecode s2kCountMaximum)
  let mpiPlaintext ← encodeMPI (setBytes (← read plaintext) : Int)
  let checksum := C.sha1 (← read mpiPlaintext)
  let plaintextWithChecksum ← append G mpiPlaintext checksum
  let block ← pureRes (aesNewCipher C (← read secretKey))
  let ciphertext ← make plaintextWithChecksum.len
  put ciphertext 0 (cfbEncrypt block (← read iv) (← read plaintextWithChecksum))
  let size ← pureRes (hashSize hashFunc)
  let algo ← pureRes (if size = 16 then .ok cipherAlgoAES128
    else if size = 24 then .ok cipherAlgoAES192
    else if size = 32 then .ok cipherAlgoAES256
    else .err .cipherKeySize)
  fresh G ([stringToKeySpecifierPrefix, algo, stringToKeyUsageIteratedAndSalted, hashFunc] ++
    (← read salt) ++ [s2kCountMaximum] ++ (← read iv) ++ (← read ciphertext))

/-! ## signature.go, sign.go -/

/-- signature.go:12-15 Subpacket -/
structure SubpacketRef where
  type : Byte
  body : Slice

/-- signature.go:18-24 Encode -/
def SubpacketRef.encode (G : Growth) (sp : SubpacketRef) : SM Slice := do
  fresh G (packetLengthEncode (sp.body.len + 1) ++ sp.type :: (← read sp.body))

/-- signature.go:28-30, the loop of encodeSubpackets -/
def appendSubpackets (G : Growth) (encoded : Slice) : List SubpacketRef → SM Slice
  | [] => pure encoded
  | sp :: rest => do
    let e ← sp.encode G
    let encoded ← append G encoded (← read e)
    appendSubpackets G encoded rest

/-- signature.go:26-33 encodeSubpackets -/
def encodeSubpackets (G : Growth) (subpackets : List SubpacketRef) : SM Slice := do
  let encoded ← make 2
  let encoded ← appendSubpackets G encoded subpackets
  put encoded 0 (beBytes 2 (encoded.len - 2))
  pure encoded

/-- signature.go:36-43 Signature -/
structure SignatureRef where
  hashedSubpackets : List SubpacketRef
  unhashedSubpackets : List SubpacketRef
  type : Byte
  hashFunction : Byte
  sigHash : Slice
  r : Int
  s : Int

/-- signature.go:48-67 encodePreimage -/
def encodePreimage (G : Growth) (type hashFunction : Byte) (hashed : List SubpacketRef) :
    SM Slice := do
  let subpackets ← encodeSubpackets G hashed
  fresh G ([sigPacketVersion, type, keyAlgorithmEDDSA, hashFunction] ++ (← read subpackets))

/-- signature.go:71-88 Encode -/
def SignatureRef.encode (G : Growth) (sig : SignatureRef) : SM Slice := do
  let preimage ← encodePreimage G sig.type sig.hashFunction sig.hashedSubpackets
  let preimage ← read preimage
  let unhashed ← encodeSubpackets G sig.unhashedSubpackets
  let unhashed ← read unhashed
  let preview ← upTo sig.sigHash 2
  let preview ← read preview
  let r ← encodeMPI sig.r
  let r ← read r
  let s ← encodeMPI sig.s
  let s ← read s
  fresh G (preimage ++ unhashed ++ preview ++ r ++ s)

/-- signature.go:90-92 EncodePacket -/
def SignatureRef.encodePacket (G : Growth) (sig : SignatureRef) : SM Slice := do
  let payload ← sig.encode G
  Slices.encodePacket packetTagSignature payload

/-- sign.go:11-35 SignatureRequest -/
structure RequestRef where
  signingKeyFingerprint : Slice
  hashFunction : Byte
  data : Slice
  type : Byte
  hashedSubpackets : List SubpacketRef
  unhashedSubpackets : List SubpacketRef
  time : Int

/-- sign.go:39-84 Sign -/
def sign (C : Crypto) (G : Growth) (privateKey : Slice) (req : RequestRef) : SM SignatureRef := do
  let signatureTimestamp ← make 4
  put signatureTimestamp 0 (beBytes 4 (u32 (unix req.time)))
  let version ← alloc [keyPacketVersion] 0
  let fingerprint ← append G version (← read req.signingKeyFingerprint)
  let hashedSubpackets :=
    [⟨subpacketTypeIssuerFingerprint, fingerprint⟩, ⟨subpacketTypeCreationTime, signatureTimestamp⟩] ++
      req.hashedSubpackets
  if req.signingKeyFingerprint.len < 8 then pureRes (.panic .indexOutOfRange)
  else do
    let issuer ← from' req.signingKeyFingerprint (req.signingKeyFingerprint.len - 8)
    let unhashedSubpackets := [⟨subpacketTypeIssuer, issuer⟩] ++ req.unhashedSubpackets
    match hashNew C req.hashFunction with
    | none => pureRes (.panic .nilDereference)
    | some h => do
      let data ← read req.data
      let preimage ← encodePreimage G req.type req.hashFunction hashedSubpackets
      let bs ← read preimage
      let sigHash ← fresh G (h (data ++ bs ++ signatureTrailer ++ beBytes 4 preimage.len))
      let encodedSig := C.ed25519Sign (← read privateKey) (← read sigHash)
      pure { hashedSubpackets := hashedSubpackets, unhashedSubpackets := unhashedSubpackets,
             type := req.type, hashFunction := req.hashFunction, sigHash := sigHash,
             r := (setBytes (encodedSig.take 32) : Int), s := (setBytes (encodedSig.drop 32) : Int) }

/-! ## ecc_key.go -/

/-- ecc_key.go:15-24 ellipticCurveKey; `none` is a nil slice. -/
structure ECKeyRef where
  privateSerialized : Slice
  publicSerialized : Slice
  privateSigning : Option Slice
  publicSigning : Option Slice
  creation : Int
  algorithm : Byte
  curveOID : Slice
  extraPublicData : Option Slice

/-- ecc_key.go:50-52: what is written for a slice that may be nil -/
def readOption : Option Slice → SM Bytes
  | some s => read s
  | none => pure []

/-- ecc_key.go:28-55 encodePublic -/
def ECKeyRef.encodePublic (G : Growth) (key : ECKeyRef) : SM Slice := do
  let oid ← read key.curveOID
  let point ← alloc [mpiPrefixEddsaPoint] 0
  let point ← append G point (← read key.publicSerialized)
  let publicKeyMPI ← encodeMPI (setBytes (← read point) : Int)
  let publicKeyMPI ← read publicKeyMPI
  let extra ← readOption key.extraPublicData
  fresh G ([keyPacketVersion] ++ beBytes 4 (u32 (unix key.creation)) ++ [key.algorithm] ++
    [UInt8.ofNat key.curveOID.len] ++ oid ++ publicKeyMPI ++ extra)

/-- ecc_key.go:59-82 encodePrivate -/
def ECKeyRef.encodePrivate (C : Crypto) (G : Growth) (key : ECKeyRef) (password : Slice) :
    SM Slice := do
  let pub ← key.encodePublic G
  let pub ← read pub
  if password.len > 0 then do
    let encrypted ← encryptS2K C G defaultStringToKeyHashFunc key.privateSerialized password
    fresh G (pub ++ (← read encrypted))
  else do
    let mpiEncodedKey ← encodeMPI (setBytes (← read key.privateSerialized) : Int)
    let mpi ← read mpiEncodedKey
    fresh G (pub ++ [0] ++ mpi ++ checksumMPI mpi)

/-- ecc_key.go:86-101 encodePrivateDummy -/
def ECKeyRef.encodePrivateDummy (G : Growth) (key : ECKeyRef) : SM Slice := do
  let pub ← key.encodePublic G
  fresh G ((← read pub) ++ [stringToKeySpecifierPrefix, 0, s2kExtensionGNUDummy, 0] ++
    s2kGNUExtensionID ++ [s2kExtensionGNUDummy - 100])

/-- ecc_key.go:104-113 FingerprintV4 -/
def ECKeyRef.fingerprintV4 (C : Crypto) (G : Growth) (key : ECKeyRef) : SM Slice := do
  let payload ← key.encodePublic G
  fresh G (C.sha1 ([publicKeyPrefixV4] ++ beBytes 2 payload.len ++ (← read payload)))

/-! ## master_key.go, ed25519_subkey.go, encryption_subkey.go -/

/-- master_key.go:12-14 and encryption_subkey.go:11-13: the arrays of the two package variables -/
def oidED25519Ref : Slice := ⟨0, 0, 9, 9⟩
def oidCurve25519Ref : Slice := ⟨1, 0, 10, 10⟩

/-- The memory after the initialisation of the package -/
def initial : Mem := [⟨oidED25519, 0⟩, ⟨oidCurve25519, 0⟩]

/-- master_key.go:17-23 ED25519MasterKey and ed25519_subkey.go:10-16 ED25519Subkey -/
structure EdKeyRef where
  base : ECKeyRef
  priv : Slice
  pub : Slice
  creation : Int
  expiry : Int

/-- encryption_subkey.go:16-23 Curve25519Subkey -/
structure CurveKeyRef where
  base : ECKeyRef
  priv : Slice
  pub : Slice
  creation : Int
  expiry : Int
  kdf : KeyDerivationParameters

/-- master_key.go:27-54 NewED25519MasterKey and ed25519_subkey.go:20-49 NewED25519Subkey.
`NewKeyFromSeed` makes an array of 64 bytes, `Public` copies the second half. -/
def newEdKey (C : Crypto) (seed : Slice) (creation expiry : Int) : SM EdKeyRef :=
  if seed.len ≠ 32 then pureRes (.err .seedLength)
  else do
    let bs ← read seed
    let privateKey ← alloc (bs ++ C.ed25519Pub bs) 0
    let publicKey ← alloc ((← read privateKey).drop 32) 0
    let privateSerialized ← upTo privateKey 32
    pure {
      base := {
        privateSerialized := privateSerialized
        publicSerialized := publicKey
        privateSigning := some privateKey
        publicSigning := some publicKey
        creation := creation
        algorithm := keyAlgorithmEDDSA
        curveOID := oidED25519Ref
        extraPublicData := none }
      priv := privateKey
      pub := publicKey
      creation := creation
      expiry := expiry }

/-- `s[i] = f(s[i])` -/
def update (s : Slice) (i : Nat) (f : Byte → Byte) : SM Unit := do
  let bs ← read s
  match bs[i]? with
  | none => pureRes (.panic .indexOutOfRange)
  | some b => put s i [f b]

/-- encryption_subkey.go:98-100, the loop of reverse for the indices from `i` on -/
def reverseLoop (reversed original : Slice) (length : Nat) : Nat → SM Unit
  | 0 => pure ()
  | n + 1 => do
    let i := length - (n + 1)
    let bs ← read original
    match bs[i]? with
    | none => pureRes (.panic .indexOutOfRange)
    | some b => do
      put reversed (length - i - 1) [b]
      reverseLoop reversed original length n

/-- encryption_subkey.go:95-102 reverse -/
def reverse (original : Slice) : SM Slice := do
  let reversed ← make original.len
  reverseLoop reversed original original.len original.len
  pure reversed

/-- encryption_subkey.go:29-74 NewCurve25519Subkey -/
def newCurveKey (C : Crypto) (G : Growth) (seed : Slice) (creation expiry : Int)
    (kdfParams : Option KeyDerivationParameters) : SM CurveKeyRef :=
  if seed.len ≠ 32 then pureRes (.err .seedLength)
  else do
    let empty ← alloc [] 0
    let privateKey ← append G empty (← read seed)
    update privateKey 0 (fun b => b &&& 248)
    update privateKey 31 (fun b => b &&& 127)
    update privateKey 31 (fun b => b ||| 64)
    let publicKey ← alloc (C.x25519Base (← read seed)) 0
    let kdf := kdfParams.getD defaultKDFParameters
    let privateSerialized ← reverse privateKey
    let extra ← alloc kdf.encode 0
    pure {
      base := {
        privateSerialized := privateSerialized
        publicSerialized := publicKey
        privateSigning := none
        publicSigning := none
        creation := creation
        algorithm := keyAlgorithmECDH
        curveOID := oidCurve25519Ref
        extraPublicData := some extra }
      priv := privateKey
      pub := publicKey
      creation := creation
      expiry := expiry
      kdf := kdf }

/-- master_key.go:67-73, ed25519_subkey.go:62-68 and encryption_subkey.go:87-93 EncodePrivatePacket -/
def ECKeyRef.encodePrivatePacket (C : Crypto) (G : Growth) (tag : Byte) (base : ECKeyRef)
    (password : Slice) : SM Slice := do
  let encodedPrivateKey ← base.encodePrivate C G password
  encodePacket tag encodedPrivateKey

/-- master_key.go:62-64 EncodePublicPacket (tag 6), ed25519_subkey.go:57-59 and encryption_subkey.go:82-84
EncodePublicSubkeyPacket (tag 14) -/
def ECKeyRef.encodePublicPacket (G : Growth) (tag : Byte) (base : ECKeyRef) : SM Slice := do
  let payload ← base.encodePublic G
  encodePacket tag payload

/-- master_key.go:77-79 EncodePrivateDummyPacket -/
def ECKeyRef.encodePrivateDummyPacket (G : Growth) (base : ECKeyRef) : SM Slice := do
  let payload ← base.encodePrivateDummy G
  encodePacket packetTagSecretKey payload

/-- master_key.go:118-125 and 211-218 -/
def expirySubpacket (C : Crypto) (expiry creation : Int) : SM (List SubpacketRef) :=
  if isZero expiry then pure []
  else do
    let expiryTime ← make 4
    put expiryTime 0 (beBytes 4 (C.secondsU32 (timeSub expiry creation)))
    pure [⟨subpacketTypeExpiry, expiryTime⟩]

/-- A subpacket literal -/
def subpacket (type : Byte) (body : Bytes) : SM SubpacketRef := do
  let b ← alloc body 0
  pure ⟨type, b⟩

/-- master_key.go:83-181 SelfCertify -/
def EdKeyRef.selfCertify (C : Crypto) (G : Growth) (key : EdKeyRef) (userID : UserID) :
    SM SignatureRef := do
  let publicKeyPayload ← key.base.encodePublic G
  let userIDPayload ← fresh G userID.encode
  let data ← fresh G ([publicKeyPrefixV4] ++ beBytes 2 publicKeyPayload.len ++
    (← read publicKeyPayload) ++ [userIDPrefix] ++ beBytes 4 userIDPayload.len ++
    (← read userIDPayload))
  let flags ← subpacket subpacketTypeKeyFlags [keyFlagCertify]
  let expiry ← expirySubpacket C key.expiry key.creation
  let ciphers ← subpacket subpacketTypePreferredCipherAlgorithms
    [cipherAlgoAES256, cipherAlgoAES192, cipherAlgoAES128, cipherAlgoDES]
  let hashes ← subpacket subpacketTypePreferredHashAlgorithms
    [hashFuncSHA512, hashFuncSHA384, hashFuncSHA256, hashFuncSHA224, hashFuncSHA1]
  let compression ← subpacket subpacketTypePreferredCompressionAlgorithms
    [compressionAlgoZLIB, compressionAlgoBZIP2, compressionAlgoZIP]
  let features ← subpacket subpacketTypeFeatures [1]
  let server ← subpacket subpacketTypeKeyServerPreferences [keyServerNoModifyFlag]
  let fingerprint ← key.base.fingerprintV4 C G
  sign C G key.priv {
    signingKeyFingerprint := fingerprint
    hashFunction := hashFuncSHA256
    data := data
    type := signatureTypePositiveCertification
    hashedSubpackets := [flags] ++ expiry ++ [ciphers, hashes, compression, features, server]
    unhashedSubpackets := []
    time := key.creation }

/-- master_key.go:220-240, the embedded signature of BindSubkey -/
def crossCertify (C : Crypto) (G : Growth) (subkeyBase : ECKeyRef) (keyFlags : Byte) (data : Slice) :
    SM (List SubpacketRef) :=
  if keyFlags &&& keyFlagSign ≠ 0 then
    match subkeyBase.privateSigning with
    | none => pureRes (.panic .noSigningKey)
    | some privateSigning => do
      let fingerprint ← subkeyBase.fingerprintV4 C G
      let embedded ← sign C G privateSigning {
        signingKeyFingerprint := fingerprint
        hashFunction := hashFuncSHA256
        data := data
        type := signatureTypePrimaryKeyBinding
        hashedSubpackets := []
        unhashedSubpackets := []
        time := subkeyBase.creation }
      let body ← embedded.encode G
      pure [⟨subpacketTypeEmbeddedSignature, body⟩]
  else pure []

/-- master_key.go:184-254 BindSubkey -/
def EdKeyRef.bindSubkey (C : Crypto) (G : Growth) (key : EdKeyRef) (subkeyBase : ECKeyRef)
    (keyFlags : Byte) (expiry : Int) : SM SignatureRef := do
  let parentPublicPayload ← key.base.encodePublic G
  let subkeyPublicPayload ← subkeyBase.encodePublic G
  let data ← fresh G ([publicKeyPrefixV4] ++ beBytes 2 parentPublicPayload.len ++
    (← read parentPublicPayload) ++ [publicKeyPrefixV4] ++ beBytes 2 subkeyPublicPayload.len ++
    (← read subkeyPublicPayload))
  let flags ← subpacket subpacketTypeKeyFlags [keyFlags]
  let expirySub ← expirySubpacket C expiry subkeyBase.creation
  let unhashedSubpackets ← crossCertify C G subkeyBase keyFlags data
  let fingerprint ← key.base.fingerprintV4 C G
  sign C G key.priv {
    signingKeyFingerprint := fingerprint
    hashFunction := hashFuncSHA256
    data := data
    type := signatureTypeSubkeyBinding
    hashedSubpackets := [flags] ++ expirySub
    unhashedSubpackets := unhashedSubpackets
    time := subkeyBase.creation }

/-! ## key_set.go -/

/-- key_set.go:12-21 KeySet -/
structure KeySetRef where
  userID : UserID
  masterKey : EdKeyRef
  encryptionSubkey : Option CurveKeyRef
  authenticationSubkey : Option EdKeyRef
  signingSubkey : Option EdKeyRef

/-- The common shape of key_set.go:29-43, 51-65 and 73-87 -/
def encodeSubkeyPackets (C : Crypto) (G : Growth) (master : EdKeyRef) (base : ECKeyRef) (flags : Byte)
    (expiry : Int) (password : Slice) : SM Slice := do
  let subkeyPacket ← base.encodePrivatePacket C G packetTagSecretSubkey password
  let bindSig ← master.bindSubkey C G base flags expiry
  let sigPacket ← bindSig.encodePacket G
  append G subkeyPacket (← read sigPacket)

/-- key_set.go:99-126: one group of packets; without the subkey it stays `[]byte{}`. -/
def encodeGroup (C : Crypto) (G : Growth) (master : EdKeyRef) (sub : Option (ECKeyRef × Int))
    (flags : Byte) (password : Slice) : SM Slice :=
  match sub with
  | none => alloc [] 0
  | some (base, expiry) => encodeSubkeyPackets C G master base flags expiry password

/-- key_set.go:95-147 encodeAllSubkeyPackets. The slice packetGroups holds the three slices, so the
shuffle moves those. -/
def KeySetRef.encodeAllSubkeyPackets (C : Crypto) (G : Growth) (ks : KeySetRef) (password : Slice) :
    SM Slice := do
  let g0 ← encodeGroup C G ks.masterKey (ks.encryptionSubkey.map fun k => (k.base, k.expiry))
    (keyFlagEncryptCommunications ||| keyFlagEncryptStorage) password
  let g1 ← encodeGroup C G ks.masterKey (ks.authenticationSubkey.map fun k => (k.base, k.expiry))
    keyFlagAuthenticate password
  let g2 ← encodeGroup C G ks.masterKey (ks.signingSubkey.map fun k => (k.base, k.expiry))
    keyFlagSign password
  let seed := shuffleSeed C (← read ks.masterKey.priv)
  let g0 ← read g0
  let g1 ← read g1
  let g2 ← read g2
  let packetGroups ← pureRes (shuffleLoop (C.shuffleDraw seed) 2 [g0, g1, g2])
  fresh G packetGroups.flatten

/-- key_set.go:151-153 encodeSelfCertification -/
def KeySetRef.encodeSelfCertification (C : Crypto) (G : Growth) (ks : KeySetRef) : SM Slice := do
  let sig ← ks.masterKey.selfCertify C G ks.userID
  sig.encodePacket G

/-- user_id.go:22-24 EncodePacket -/
def encodeUserID (G : Growth) (id : UserID) : SM Slice := do
  let payload ← fresh G id.encode
  encodePacket packetTagUserID payload

/-- key_set.go:159-183 EncodePackets -/
def KeySetRef.encodePackets (C : Crypto) (G : Growth) (ks : KeySetRef) (password : Slice) :
    SM Slice := do
  let master ← ks.masterKey.base.encodePrivatePacket C G packetTagSecretKey password
  let master ← read master
  let user ← encodeUserID G ks.userID
  let user ← read user
  let cert ← ks.encodeSelfCertification C G
  let cert ← read cert
  let subkeyPackets ← ks.encodeAllSubkeyPackets C G password
  fresh G (master ++ user ++ cert ++ (← read subkeyPackets))

/-- key_set.go:194-218 EncodeSubkeyPackets -/
def KeySetRef.encodeSubkeyPackets (C : Crypto) (G : Growth) (ks : KeySetRef) (password : Slice)
    (withSelfCert : Bool) : SM Slice := do
  let dummy ← ks.masterKey.base.encodePrivateDummyPacket G
  let dummy ← read dummy
  let user ← encodeUserID G ks.userID
  let user ← read user
  let cert ← (if withSelfCert then do
      let cert ← ks.encodeSelfCertification C G
      read cert
    else pure [] : SM Bytes)
  let subkeyPackets ← ks.encodeAllSubkeyPackets C G password
  fresh G (dummy ++ user ++ cert ++ (← read subkeyPackets))

end Verif.Model.Slices
