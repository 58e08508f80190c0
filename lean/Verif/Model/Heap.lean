import Verif.Model.Recovery

/-!
# Storage of `*big.Int` values

The other model files pass integers by value. Here the same functions work on a heap of integer cells,
step by step as in Go: `z.Op(x, y)` reads the cells `x` and `y` and overwrites the cell `z`, and
`new(big.Int)` adds a cell. A `*big.Int` is the number of its cell; there are no nil pointers, since
the only one in the code (`salt` of a plaintext phrase) is an `Option`. The slices inside a big.Int are
not modelled: math/big copies them, it never shares them between two integers. A bitBuffer never
outlives the call that makes it, so only its integer is a cell; `nBits` is passed along.
-/

namespace Verif.Model.Heap

open Verif.Model

abbrev Cells := List Int

/-- A computation over the heap -/
def HM (α : Type) : Type := Cells → Res α × Cells

def HM.bind {α β : Type} (x : HM α) (f : α → HM β) : HM β := fun h =>
  match x h with
  | (.ok a, h) => f a h
  | (.err e, h) => (.err e, h)
  | (.panic p, h) => (.panic p, h)

instance : Monad HM where
  pure a := fun h => (.ok a, h)
  bind := HM.bind

/-- A computation without big.Int -/
def pureRes {α : Type} (r : Res α) : HM α := fun h => (r, h)

def read (p : Nat) : HM Int := fun h => (.ok (h.getD p 0), h)

/-- `big.NewInt(v)` -/
def newInt (v : Int) : HM Nat := fun h => (.ok h.length, h ++ [v])

def write (p : Nat) (v : Int) : HM Unit := fun h => (.ok (), h.set p v)

/-- seed.go:10 bigOne, mnemonic/encode.go:16 wordMask: the two integers the packages themselves hold -/
def bigOne : Nat := 0
def wordMaskPtr : Nat := 1
def initial : Cells := [1, wordMask]

/-! ## math/big methods: `z.Op(...)` -/

def setTo (z x : Nat) : HM Unit := do write z (← read x)
def lshTo (z x : Nat) (n : Nat) : HM Unit := do write z (lsh (← read x) n)
def rshTo (z x : Nat) (n : Nat) : HM Unit := do write z (rsh (← read x) n)
def subTo (z x y : Nat) : HM Unit := do
  let a ← read x
  let b ← read y
  write z (a - b)
def andTo (z x y : Nat) : HM Unit := do
  let a ← read x
  let b ← read y
  write z (Int.land a b)
def orTo (z x y : Nat) : HM Unit := do
  let a ← read x
  let b ← read y
  write z (Int.lor a b)
def xorTo (z x y : Nat) : HM Unit := do
  let a ← read x
  let b ← read y
  write z (Int.xor a b)

/-! ## `bit_buffer.go` -/

/-- bit_buffer.go:10-13 -/
structure Buf where
  value : Nat
  nBits : Nat
  deriving DecidableEq, Repr

/-- bit_buffer.go:15-24 newBitBuffer -/
def newBitBuffer (value : Nat) (nBits : Nat) : HM Buf := do
  let v ← read value
  if bitLen v > nBits then pureRes (.panic .bitBufferWidth)
  else do
    let p ← newInt 0
    setTo p value
    pure ⟨p, nBits⟩

/-- bit_buffer.go:28-51 PopTrailingBits -/
def popTrailingBits (bb : Buf) (n : Nat) : HM (Nat × Buf) :=
  if n > bb.nBits then pureRes (.panic .bitBufferBounds)
  else do
    let mask ← newInt 0
    lshTo mask bigOne n
    subTo mask mask bigOne
    let bits ← newInt 0
    andTo bits mask bb.value
    rshTo bb.value bb.value n
    pure (bits, { bb with nBits := bb.nBits - n })

/-- bit_buffer.go:55-80 PopLeadingBits -/
def popLeadingBits (bb : Buf) (n : Nat) : HM (Nat × Buf) :=
  if n > bb.nBits then pureRes (.panic .bitBufferBounds)
  else do
    let mask ← newInt 0
    lshTo mask bigOne n
    subTo mask mask bigOne
    let bits ← newInt 0
    rshTo bits bb.value (bb.nBits - n)
    andTo bits mask bits
    lshTo mask bits (bb.nBits - n)
    xorTo bb.value bb.value mask
    pure (bits, { bb with nBits := bb.nBits - n })

/-- bit_buffer.go:98-110 AppendTrailingBits -/
def appendTrailingBits (bb : Buf) (value : Nat) (nBits : Nat) : HM Buf := do
  let v ← read value
  if bitLen v > nBits then pureRes (.panic .bitBufferWidth)
  else do
    lshTo bb.value bb.value nBits
    orTo bb.value bb.value value
    pure { bb with nBits := bb.nBits + nBits }

/-- bit_buffer.go:115-117 Bytes -/
def bufBytes (bb : Buf) : HM Bytes := do
  let v ← read bb.value
  pureRes (fillBytes v ((bb.nBits + 7) / 8))

/-- bit_buffer.go:120-122 Int -/
def bufInt (bb : Buf) : HM Nat := do
  let p ← newInt 0
  setTo p bb.value
  pure p

/-! ## `seed.go` -/

/-- seed.go:18-21 -/
structure SeedRef where
  era : Int
  value : Nat
  deriving DecidableEq, Repr

/-- seed.go:28-46 NewSeed: keeps the caller's integer. -/
def newSeed (era : Int) (entropy : Nat) : HM SeedRef := do
  pureRes (eraCheck era)
  let v ← read entropy
  if bitLen v > entropyBitCount then pureRes (.err .entropyTooLarge)
  else pure ⟨era, entropy⟩

/-- seed.go:54-56 Int -/
def seedInt (s : SeedRef) : HM Nat := do
  let p ← newInt 0
  setTo p s.value
  pure p

/-- seed.go:59-61 Bytes -/
def seedBytes (s : SeedRef) : HM Bytes := do
  let v ← read s.value
  pureRes (fillBytes v ((entropyBitCount + 7) / 8))

/-- seed.go:66-77 GenerateSeed. rand.Int returns a new integer and leaves `max` alone. -/
def generateSeed (rnd : Bytes) : HM (SeedRef × Bytes) := do
  let max ← newInt 0
  lshTo max bigOne entropyBitCount
  let m ← read max
  let (n, rest) ← pureRes (randInt rnd m.toNat)
  let p ← newInt n
  let s ← newSeed eraLatest p
  pure (s, rest)

/-! ## `mnemonic/encode.go` and `mnemonic/decode.go` -/

/-- mnemonic/encode.go:38-41, the loop of EncodeToIndices (as `Model.encodeLoop`) -/
def encodeLoop : Nat → Nat → List Nat → HM (List Nat)
  | 0, payload, acc => do
    let v ← read payload
    if bitLen v > 0 then pureRes (.panic .indexOutOfRange) else pure acc
  | i + 1, payload, acc => do
    let v ← read payload
    if bitLen v > 0 then do
      let w ← newInt 0
      andTo w payload wordMaskPtr
      let x ← read w
      rshTo payload payload bitsPerWord
      encodeLoop i payload (uint64 x % 2 ^ 16 :: acc)
    else pure (List.replicate (i + 1) 0 ++ acc)

/-- mnemonic/encode.go:31-43 EncodeToIndices -/
def encodeToIndices (payload : Nat) (bitSize : Nat) : HM (List Nat) := do
  let v ← read payload
  if bitLen v > bitSize then pureRes (.err .payloadTooLarge)
  else encodeLoop ((bitSize + bitsPerWord - 1) / bitsPerWord) payload []

/-- mnemonic/decode.go:23-29, the loop of DecodeIndices -/
def decodeLoop : Nat → List Nat → HM Nat
  | payload, [] => pure payload
  | payload, index :: rest =>
    if index.size > bitsPerWord then pureRes (.err .invalidIndex)
    else do
      lshTo payload payload bitsPerWord
      let p ← newInt index
      orTo payload payload p
      decodeLoop payload rest

/-- mnemonic/decode.go:20-32 DecodeIndices -/
def decodeIndices (indices : List Nat) : HM Nat := do
  let p ← newInt 0
  decodeLoop p indices

/-! ## `encoding.go` -/

/-- encoding.go:17-41 encodeMnemonic -/
def encodeMnemonic (L : WordList) (version : Nat) (payload : Buf) : HM (List Bytes) := do
  let b ← bufBytes payload
  let ck ← newInt (checksum5 b : Int)
  let payload ← appendTrailingBits payload ck checksumBitCount
  if payload.nBits ≠ payloadBitCount version then pureRes (.err .payloadBitLen)
  else do
    let p ← bufInt payload
    let indices ← encodeToIndices p payload.nBits
    pureRes (encodeToWords L indices)

/-- encoding.go:45-58 EncodeMnemonicPlaintext -/
def encodeMnemonicPlaintext (L : WordList) (seed : SeedRef) (creationOffset : Nat) :
    HM (List Bytes) := do
  pureRes (eraCheck seed.era)
  let v ← newInt 0
  let buf ← newBitBuffer v mnemonicVersionBitCount
  let s ← seedInt seed
  let buf ← appendTrailingBits buf s entropyBitCount
  let off ← newInt creationOffset
  let buf ← appendTrailingBits buf off creationOffsetBitCount
  encodeMnemonic L 0 buf

/-- encoding.go:90-93 and recovery.go:82-92 (as `Model.encSeedKey`) -/
def encSeedKey (C : PhraseCrypto) (password : Bytes) (salt : Nat) (creationOffset : Nat) :
    HM Bytes := do
  let buf ← newBitBuffer salt saltBitCount
  let off ← newInt creationOffset
  let buf ← appendTrailingBits buf off creationOffsetBitCount
  let saltBytes ← bufBytes buf
  pure (C.argon2id password saltBytes argonTimeFactor argonMemoryFactor argonThreads 17)

/-- encoding.go:67-113 EncodeMnemonicEncrypted -/
def encodeMnemonicEncrypted (L : WordList) (C : PhraseCrypto) (seed : SeedRef) (creationOffset : Nat)
    (password : Bytes) (rnd : Bytes) : HM (List Bytes × Bytes) := do
  pureRes (eraCheck seed.era)
  if password.length = 0 then pureRes (.err .emptyPassword)
  else do
    let v ← newInt 1
    let buf ← newBitBuffer v mnemonicVersionBitCount
    let (n, rest) ← pureRes (randInt rnd (2 ^ saltBitCount))
    let salt ← newInt n
    let key ← encSeedKey C password salt creationOffset
    let seedB ← seedBytes seed
    let verify ← pureRes (verifyBits key)
    let verifyInt ← newInt verify.toNat
    let enc ← newInt (setBytes (C.aesEnc (key.take 16) seedB))
    let buf ← appendTrailingBits buf enc entropyBitCount
    let buf ← appendTrailingBits buf salt saltBitCount
    let buf ← appendTrailingBits buf verifyInt encSeedVerifyBitCount
    let off ← newInt creationOffset
    let buf ← appendTrailingBits buf off creationOffsetBitCount
    let words ← encodeMnemonic L 1 buf
    pure (words, rest)

/-! ## `recovery.go` -/

/-- recovery.go:34-43 DecodedMnemonic -/
structure DecodedRef where
  version : Nat
  entropy : Nat
  salt : Option Nat
  encSeedVerify : Byte
  creationOffset : Nat
  deriving DecidableEq, Repr

/-- recovery.go:116-121 Seed: the seed shares the integer of the decoded phrase. -/
def decodedSeed (dm : DecodedRef) : HM SeedRef :=
  if versionEncrypted dm.version then pureRes (.err .mnemonicDecryption)
  else newSeed (versionEra dm.version) dm.entropy

/-- recovery.go:76-110 DecryptSeed -/
def decryptSeed (C : PhraseCrypto) (dm : DecodedRef) (password : Bytes) : HM SeedRef :=
  if !versionEncrypted dm.version then decodedSeed dm
  else match dm.salt with
  | none => pureRes (.panic .nilDereference)
  | some salt => do
    let key ← encSeedKey C password salt dm.creationOffset
    let verify ← pureRes (verifyBits key)
    if verify ≠ dm.encSeedVerify then pureRes (.err .mnemonicDecryption)
    else do
      let e ← read dm.entropy
      let encSeed ← pureRes (fillBytes e 16)
      let p ← newInt (setBytes (C.aesDec (key.take 16) encSeed))
      newSeed (versionEra dm.version) p

/-- recovery.go:232-236, the fields of encrypted phrases -/
def popSecret (version : Nat) (buf : Buf) : HM (Option Nat × Byte × Buf) :=
  if version = 1 then do
    let (salt, buf) ← popLeadingBits buf saltBitCount
    let (v, buf) ← popLeadingBits buf encSeedVerifyBitCount
    let x ← read v
    pure (some salt, UInt8.ofNat (uint64 x), buf)
  else pure (none, 0, buf)

/-- recovery.go:184-245 DecodeMnemonic -/
def decodeMnemonic (L : WordList) (words : List Bytes) : HM DecodedRef :=
  match words with
  | [] => pureRes (.err .invalidWordCount)
  | firstWord :: _ => do
    let version ← pureRes (parseMnemonicVersion L firstWord)
    pureRes (versionCheck version)
    if words.length ≠ mnemonicSize version then pureRes (.err .invalidWordCount)
    else do
      let indices ← pureRes (decodeWords L words)
      let payload ← decodeIndices indices
      let buf ← newBitBuffer payload (words.length * bitsPerWord)
      let (ck, buf) ← popTrailingBits buf checksumBitCount
      let x ← read ck
      let b ← bufBytes buf
      if checksum5 b ≠ uint64 x % 2 ^ 32 then pureRes (.err .invalidChecksum)
      else do
        let (_, buf) ← popLeadingBits buf mnemonicVersionBitCount
        let (entropy, buf) ← popLeadingBits buf entropyBitCount
        let (salt, verify, buf) ← popSecret version buf
        let (off, buf) ← popLeadingBits buf creationOffsetBitCount
        let o ← read off
        if buf.nBits ≠ 0 then pureRes (.err .extraBits)
        else pure ⟨version, entropy, salt, verify, uint64 o % 2 ^ 32⟩

/-! ## Histories of calls -/

/-- What a program using the package holds: its own integers, seeds and decoded phrases. `given` are the
integers it has passed to NewSeed. -/
structure Client where
  ints : List Nat
  given : List Nat
  seeds : List SeedRef
  decoded : List DecodedRef

/-- One step of the client: making or assigning to an integer of its own, or a call into the packages.
Arguments are positions in the lists it holds; a call with a missing argument does nothing. New
(mnemonikey.go:55-87) only calls Bytes on its seed. -/
inductive Call where
  | int (v : Int)
  | assign (i : Nat) (v : Int)
  | newSeed (era : Int) (i : Nat)
  | generateSeed (rnd : Bytes)
  | seedInt (k : Nat)
  | seedBytes (k : Nat)
  | encodePlaintext (k : Nat) (offset : Nat)
  | encodeEncrypted (k : Nat) (offset : Nat) (password rnd : Bytes)
  | decode (words : List Bytes)
  | decodedSeed (j : Nat)
  | decryptSeed (j : Nat) (password : Bytes)
  | encodeToIndices (i : Nat) (bitSize : Nat)
  | decodeIndices (indices : List Nat)

structure State where
  client : Client
  heap : Cells

def start : State := ⟨⟨[], [], [], []⟩, initial⟩

/-- The heap after a call, and the client's view of a result; a panic is taken to be recovered. -/
def State.call {α : Type} (s : State) (m : HM α) (keep : α → Client → Client) : State :=
  match m s.heap with
  | (.ok a, h) => ⟨keep a s.client, h⟩
  | (_, h) => ⟨s.client, h⟩

def State.step (L : WordList) (C : PhraseCrypto) (s : State) : Call → State
  | .int v => s.call (newInt v) fun p c => { c with ints := c.ints ++ [p] }
  | .assign i v => match s.client.ints[i]? with
    | none => s
    | some p => s.call (write p v) fun _ c => c
  | .newSeed era i => match s.client.ints[i]? with
    | none => s
    | some p => s.call (newSeed era p) fun x c =>
        { c with given := p :: c.given, seeds := c.seeds ++ [x] }
  | .generateSeed rnd => s.call (generateSeed rnd) fun x c => { c with seeds := c.seeds ++ [x.1] }
  | .seedInt k => match s.client.seeds[k]? with
    | none => s
    | some x => s.call (seedInt x) fun p c => { c with ints := c.ints ++ [p] }
  | .seedBytes k => match s.client.seeds[k]? with
    | none => s
    | some x => s.call (seedBytes x) fun _ c => c
  | .encodePlaintext k off => match s.client.seeds[k]? with
    | none => s
    | some x => s.call (encodeMnemonicPlaintext L x off) fun _ c => c
  | .encodeEncrypted k off pw rnd => match s.client.seeds[k]? with
    | none => s
    | some x => s.call (encodeMnemonicEncrypted L C x off pw rnd) fun _ c => c
  | .decode words => s.call (decodeMnemonic L words) fun d c => { c with decoded := c.decoded ++ [d] }
  | .decodedSeed j => match s.client.decoded[j]? with
    | none => s
    | some d => s.call (decodedSeed d) fun x c => { c with seeds := c.seeds ++ [x] }
  | .decryptSeed j pw => match s.client.decoded[j]? with
    | none => s
    | some d => s.call (decryptSeed C d pw) fun x c => { c with seeds := c.seeds ++ [x] }
  | .encodeToIndices i n => match s.client.ints[i]? with
    | none => s
    | some p => s.call (encodeToIndices p n) fun _ c => c
  | .decodeIndices is => s.call (decodeIndices is) fun p c => { c with ints := c.ints ++ [p] }

/-- The step overwrites an integer that was passed to NewSeed. -/
def Call.touchesGiven (c : Client) : Call → Prop
  | .assign i _ => ∃ p, c.ints[i]? = some p ∧ p ∈ c.given
  | .encodeToIndices i _ => ∃ p, c.ints[i]? = some p ∧ p ∈ c.given
  | _ => False

end Verif.Model.Heap
