import Verif.Model.Heap

/-!
# The functions on `*big.Int` step by step, for several goroutines

`Heap.lean` runs a function from beginning to end. Here the same functions are trees of single accesses to cells, so that
those of several goroutines can be interleaved in any way. `Proofs/Threads.lean` shows that a function run alone does what
it does there. One access is one step; in Go a method of big.Int makes many, so that what is proved here is of use only
because no two goroutines access a cell at the same time that one of them writes (c111_no_race). A goroutine of the caller
makes calls one after the other and looks at each result before the next.
-/

namespace Verif.Model.Threads

open Verif.Model
open Verif.Model.Heap (Cells HM SeedRef DecodedRef Buf Client Call State bigOne wordMaskPtr)

/-- A computation, as its next access to a cell and what follows -/
inductive Thr (α : Type) : Type where
  | ret (r : Res α)
  | get (p : Nat) (k : Int → Thr α)
  | new (v : Int) (k : Nat → Thr α)
  | put (p : Nat) (v : Int) (k : Thr α)

def Thr.bind {α β : Type} : Thr α → (α → Thr β) → Thr β
  | .ret (.ok a), f => f a
  | .ret (.err e), _ => .ret (.err e)
  | .ret (.panic p), _ => .ret (.panic p)
  | .get p k, f => .get p fun v => (k v).bind f
  | .new v k, f => .new v fun p => (k p).bind f
  | .put p v k, f => .put p v (k.bind f)

instance : Monad Thr where
  pure a := .ret (.ok a)
  bind := Thr.bind

/-- All of it, without anybody else -/
def Thr.run {α : Type} : Thr α → HM α
  | .ret r => fun h => (r, h)
  | .get p k => fun h => (k (h.getD p 0)).run h
  | .new v k => fun h => (k h.length).run (h ++ [v])
  | .put p v k => fun h => k.run (h.set p v)

/-- One access -/
def Thr.step {α : Type} : Thr α → Cells → Thr α × Cells
  | .ret r, h => (.ret r, h)
  | .get p k, h => (k (h.getD p 0), h)
  | .new v k, h => (k h.length, h ++ [v])
  | .put p v k, h => (k, h.set p v)

/-- The result, if there was an error or a panic too -/
def Thr.attempt {α : Type} : Thr α → Thr (Res α)
  | .ret r => .ret (.ok r)
  | .get p k => .get p fun v => (k v).attempt
  | .new v k => .new v fun p => (k p).attempt
  | .put p v k => .put p v k.attempt

def pureRes {α : Type} (r : Res α) : Thr α := .ret r
def read (p : Nat) : Thr Int := .get p fun v => .ret (.ok v)
def newInt (v : Int) : Thr Nat := .new v fun p => .ret (.ok p)
def write (p : Nat) (v : Int) : Thr Unit := .put p v (.ret (.ok ()))

/-! ## math/big methods: `z.Op(...)` -/

def setTo (z x : Nat) : Thr Unit := do write z (← read x)
def lshTo (z x : Nat) (n : Nat) : Thr Unit := do write z (lsh (← read x) n)
def rshTo (z x : Nat) (n : Nat) : Thr Unit := do write z (rsh (← read x) n)
def subTo (z x y : Nat) : Thr Unit := do
  let a ← read x
  let b ← read y
  write z (a - b)
def andTo (z x y : Nat) : Thr Unit := do
  let a ← read x
  let b ← read y
  write z (Int.land a b)
def orTo (z x y : Nat) : Thr Unit := do
  let a ← read x
  let b ← read y
  write z (Int.lor a b)
def xorTo (z x y : Nat) : Thr Unit := do
  let a ← read x
  let b ← read y
  write z (Int.xor a b)

/-! ## `bit_buffer.go` -/

/-- bit_buffer.go:15-24 newBitBuffer -/
def newBitBuffer (value : Nat) (nBits : Nat) : Thr Buf := do
  let v ← read value
  if bitLen v > nBits then pureRes (.panic .bitBufferWidth)
  else do
    let p ← newInt 0
    setTo p value
    pure ⟨p, nBits⟩

/-- bit_buffer.go:28-51 PopTrailingBits -/
def popTrailingBits (bb : Buf) (n : Nat) : Thr (Nat × Buf) :=
  if n > bb.nBits then pureRes (.panic .bitBufferBounds)
  else do
    let mask ← newInt 0
    lshTo mask bigOne n
    subTo mask mask bigOne
    let bits ← newInt 0
    andTo bits mask bb.value
    rshTo bb.value bb.value n
    pure (bits, { bb with nBits := bb.nBits - n })

/-- bit_buffer.go:55-80 PopLeadingBits -/
def popLeadingBits (bb : Buf) (n : Nat) : Thr (Nat × Buf) :=
  if n > bb.nBits then pureRes (.panic .bitBufferBounds)
  else do
    let mask ← newInt 0
    lshTo mask bigOne n
    subTo mask mask bigOne
    let bits ← newInt 0
    rshTo bits bb.value (bb.nBits - n)
    andTo bits mask bits
    lshTo mask bits (bb.nBits - n)
    xorTo bb.value bb.value mask
    pure (bits, { bb with nBits := bb.nBits - n })

/-- bit_buffer.go:98-110 AppendTrailingBits -/
def appendTrailingBits (bb : Buf) (value : Nat) (nBits : Nat) : Thr Buf := do
  let v ← read value
  if bitLen v > nBits then pureRes (.panic .bitBufferWidth)
  else do
    lshTo bb.value bb.value nBits
    orTo bb.value bb.value value
    pure { bb with nBits := bb.nBits + nBits }

/-- bit_buffer.go:115-117 Bytes -/
def bufBytes (bb : Buf) : Thr Bytes := do
  let v ← read bb.value
  pureRes (fillBytes v ((bb.nBits + 7) / 8))

/-- bit_buffer.go:120-122 Int -/
def bufInt (bb : Buf) : Thr Nat := do
  let p ← newInt 0
  setTo p bb.value
  pure p

/-! ## `seed.go` -/

/-- seed.go:28-46 NewSeed: keeps the caller's integer. -/
def newSeed (era : Int) (entropy : Nat) : Thr SeedRef := do
  pureRes (eraCheck era)
  let v ← read entropy
  if bitLen v > entropyBitCount then pureRes (.err .entropyTooLarge)
  else pure ⟨era, entropy⟩

/-- seed.go:54-56 Int -/
def seedInt (s : SeedRef) : Thr Nat := do
  let p ← newInt 0
  setTo p s.value
  pure p

/-- seed.go:59-61 Bytes -/
def seedBytes (s : SeedRef) : Thr Bytes := do
  let v ← read s.value
  pureRes (fillBytes v ((entropyBitCount + 7) / 8))

/-- seed.go:66-77 GenerateSeed. rand.Int returns a new integer and leaves `max` alone. -/
def generateSeed (rnd : Bytes) : Thr (SeedRef × Bytes) := do
  let max ← newInt 0
  lshTo max bigOne entropyBitCount
  let m ← read max
  let (n, rest) ← pureRes (randInt rnd m.toNat)
  let p ← newInt n
  let s ← newSeed eraLatest p
  pure (s, rest)

/-! ## `mnemonic/encode.go` and `mnemonic/decode.go` -/

/-- mnemonic/encode.go:38-41, the loop of EncodeToIndices (as `Model.encodeLoop`) -/
def encodeLoop : Nat → Nat → List Nat → Thr (List Nat)
  | 0, payload, acc => do
    let v ← read payload
    if bitLen v > 0 then pureRes (.panic .indexOutOfRange) else pure acc
  | i + 1, payload, acc => do
    let v ← read payload
    if bitLen v > 0 then do
      let w ← newInt 0
      andTo w payload wordMaskPtr
      let x ← read w
      rshTo payload payload bitsPerWord
      encodeLoop i payload (uint64 x % 2 ^ 16 :: acc)
    else pure (List.replicate (i + 1) 0 ++ acc)

/-- mnemonic/encode.go:31-43 EncodeToIndices -/
def encodeToIndices (payload : Nat) (bitSize : Nat) : Thr (List Nat) := do
  let v ← read payload
  if bitLen v > bitSize then pureRes (.err .payloadTooLarge)
  else encodeLoop ((bitSize + bitsPerWord - 1) / bitsPerWord) payload []

/-- mnemonic/decode.go:23-29, the loop of DecodeIndices -/
def decodeLoop : Nat → List Nat → Thr Nat
  | payload, [] => pure payload
  | payload, index :: rest =>
    if index.size > bitsPerWord then pureRes (.err .invalidIndex)
    else do
      lshTo payload payload bitsPerWord
      let p ← newInt index
      orTo payload payload p
      decodeLoop payload rest

/-- mnemonic/decode.go:20-32 DecodeIndices -/
def decodeIndices (indices : List Nat) : Thr Nat := do
  let p ← newInt 0
  decodeLoop p indices

/-! ## `encoding.go` -/

/-- encoding.go:17-41 encodeMnemonic -/
def encodeMnemonic (L : WordList) (version : Nat) (payload : Buf) : Thr (List Bytes) := do
  let b ← bufBytes payload
  let ck ← newInt (checksum5 b : Int)
  let payload ← appendTrailingBits payload ck checksumBitCount
  if payload.nBits ≠ payloadBitCount version then pureRes (.err .payloadBitLen)
  else do
    let p ← bufInt payload
    let indices ← encodeToIndices p payload.nBits
    pureRes (encodeToWords L indices)

/-- encoding.go:45-58 EncodeMnemonicPlaintext -/
def encodeMnemonicPlaintext (L : WordList) (seed : SeedRef) (creationOffset : Nat) :
    Thr (List Bytes) := do
  pureRes (eraCheck seed.era)
  let v ← newInt 0
  let buf ← newBitBuffer v mnemonicVersionBitCount
  let s ← seedInt seed
  let buf ← appendTrailingBits buf s entropyBitCount
  let off ← newInt creationOffset
  let buf ← appendTrailingBits buf off creationOffsetBitCount
  encodeMnemonic L 0 buf

/-- encoding.go:90-93 and recovery.go:82-92 (as `Model.encSeedKey`) -/
def encSeedKey (C : PhraseCrypto) (password : Bytes) (salt : Nat) (creationOffset : Nat) :
    Thr Bytes := do
  let buf ← newBitBuffer salt saltBitCount
  let off ← newInt creationOffset
  let buf ← appendTrailingBits buf off creationOffsetBitCount
  let saltBytes ← bufBytes buf
  pure (C.argon2id password saltBytes argonTimeFactor argonMemoryFactor argonThreads 17)

/-- encoding.go:67-113 EncodeMnemonicEncrypted -/
def encodeMnemonicEncrypted (L : WordList) (C : PhraseCrypto) (seed : SeedRef) (creationOffset : Nat)
    (password : Bytes) (rnd : Bytes) : Thr (List Bytes × Bytes) := do
  pureRes (eraCheck seed.era)
  if password.length = 0 then pureRes (.err .emptyPassword)
  else do
    let v ← newInt 1
    let buf ← newBitBuffer v mnemonicVersionBitCount
    let (n, rest) ← pureRes (randInt rnd (2 ^ saltBitCount))
    let salt ← newInt n
    let key ← encSeedKey C password salt creationOffset
    let seedB ← seedBytes seed
    let verify ← pureRes (verifyBits key)
    let verifyInt ← newInt verify.toNat
    let enc ← newInt (setBytes (C.aesEnc (key.take 16) seedB))
    let buf ← appendTrailingBits buf enc entropyBitCount
    let buf ← appendTrailingBits buf salt saltBitCount
    let buf ← appendTrailingBits buf verifyInt encSeedVerifyBitCount
    let off ← newInt creationOffset
    let buf ← appendTrailingBits buf off creationOffsetBitCount
    let words ← encodeMnemonic L 1 buf
    pure (words, rest)

/-! ## `recovery.go` -/

/-- recovery.go:116-121 Seed: the seed shares the integer of the decoded phrase. -/
def decodedSeed (dm : DecodedRef) : Thr SeedRef :=
  if versionEncrypted dm.version then pureRes (.err .mnemonicDecryption)
  else newSeed (versionEra dm.version) dm.entropy

/-- recovery.go:76-110 DecryptSeed -/
def decryptSeed (C : PhraseCrypto) (dm : DecodedRef) (password : Bytes) : Thr SeedRef :=
  if !versionEncrypted dm.version then decodedSeed dm
  else match dm.salt with
  | none => pureRes (.panic .nilDereference)
  | some salt => do
    let key ← encSeedKey C password salt dm.creationOffset
    let verify ← pureRes (verifyBits key)
    if verify ≠ dm.encSeedVerify then pureRes (.err .mnemonicDecryption)
    else do
      let e ← read dm.entropy
      let encSeed ← pureRes (fillBytes e 16)
      let p ← newInt (setBytes (C.aesDec (key.take 16) encSeed))
      newSeed (versionEra dm.version) p

/-- recovery.go:232-236, the fields of encrypted phrases -/
def popSecret (version : Nat) (buf : Buf) : Thr (Option Nat × Byte × Buf) :=
  if version = 1 then do
    let (salt, buf) ← popLeadingBits buf saltBitCount
    let (v, buf) ← popLeadingBits buf encSeedVerifyBitCount
    let x ← read v
    pure (some salt, UInt8.ofNat (uint64 x), buf)
  else pure (none, 0, buf)

/-- recovery.go:184-245 DecodeMnemonic -/
def decodeMnemonic (L : WordList) (words : List Bytes) : Thr DecodedRef :=
  match words with
  | [] => pureRes (.err .invalidWordCount)
  | firstWord :: _ => do
    let version ← pureRes (parseMnemonicVersion L firstWord)
    pureRes (versionCheck version)
    if words.length ≠ mnemonicSize version then pureRes (.err .invalidWordCount)
    else do
      let indices ← pureRes (decodeWords L words)
      let payload ← decodeIndices indices
      let buf ← newBitBuffer payload (words.length * bitsPerWord)
      let (ck, buf) ← popTrailingBits buf checksumBitCount
      let x ← read ck
      let b ← bufBytes buf
      if checksum5 b ≠ uint64 x % 2 ^ 32 then pureRes (.err .invalidChecksum)
      else do
        let (_, buf) ← popLeadingBits buf mnemonicVersionBitCount
        let (entropy, buf) ← popLeadingBits buf entropyBitCount
        let (salt, verify, buf) ← popSecret version buf
        let (off, buf) ← popLeadingBits buf creationOffsetBitCount
        let o ← read off
        if buf.nBits ≠ 0 then pureRes (.err .extraBits)
        else pure ⟨version, entropy, salt, verify, uint64 o % 2 ^ 32⟩

/-! ## Goroutines of a caller -/

/-- What a goroutine sees of a call: the result, with the integers that it holds then -/
inductive Obs where
  | nothing
  | int (r : Res Int)
  | seed (r : Res Seed)
  | drawn (r : Res (Seed × Bytes))
  | bytes (r : Res Bytes)
  | words (r : Res (List Bytes))
  | drawnWords (r : Res (List Bytes × Bytes))
  | decoded (r : Res DecodedMnemonic)
  | indices (r : Res (List Nat))
  deriving DecidableEq, Repr

def lookAtSeed (x : SeedRef) : Thr Seed := do
  let v ← read x.value
  pure ⟨x.era, v⟩

def lookAtSalt : Option Nat → Thr (Option Int)
  | none => pure none
  | some p => do
    let v ← read p
    pure (some v)

def lookAtDecoded (d : DecodedRef) : Thr DecodedMnemonic := do
  let e ← read d.entropy
  let s ← lookAtSalt d.salt
  pure ⟨d.version, e, s, d.encSeedVerify, d.creationOffset⟩

/-- A call, what the goroutine holds afterwards (`keep`) and what it sees -/
def calling {α β : Type} (m : Thr α) (keep : α → Client → Client) (look : α → Thr β) (obs : Res β → Obs) (c : Client) :
    Thr (Client × Obs) := do
  let r ← m.attempt
  match r with
  | .ok a => do
    let b ← look a
    pure (keep a c, obs (.ok b))
  | .err e => pure (c, obs (.err e))
  | .panic p => pure (c, obs (.panic p))

/-- One step of a goroutine (as `State.step` of Heap.lean) -/
def callOf (L : WordList) (C : PhraseCrypto) (c : Client) : Call → Thr (Client × Obs)
  | .int v => calling (newInt v) (fun p c => { c with ints := c.ints ++ [p] }) read .int c
  | .assign i v => match c.ints[i]? with
    | none => pure (c, .nothing)
    | some p => calling (write p v) (fun _ c => c) (fun _ => read p) .int c
  | .newSeed era i => match c.ints[i]? with
    | none => pure (c, .nothing)
    | some p => calling (newSeed era p) (fun x c => { c with given := p :: c.given, seeds := c.seeds ++ [x] }) lookAtSeed .seed c
  | .generateSeed rnd => calling (generateSeed rnd) (fun x c => { c with seeds := c.seeds ++ [x.1] })
      (fun x => do
        let s ← lookAtSeed x.1
        pure (s, x.2)) .drawn c
  | .seedInt k => match c.seeds[k]? with
    | none => pure (c, .nothing)
    | some x => calling (seedInt x) (fun p c => { c with ints := c.ints ++ [p] }) read .int c
  | .seedBytes k => match c.seeds[k]? with
    | none => pure (c, .nothing)
    | some x => calling (seedBytes x) (fun _ c => c) pure .bytes c
  | .encodePlaintext k off => match c.seeds[k]? with
    | none => pure (c, .nothing)
    | some x => calling (encodeMnemonicPlaintext L x off) (fun _ c => c) pure .words c
  | .encodeEncrypted k off pw rnd => match c.seeds[k]? with
    | none => pure (c, .nothing)
    | some x => calling (encodeMnemonicEncrypted L C x off pw rnd) (fun _ c => c) pure .drawnWords c
  | .decode words => calling (decodeMnemonic L words) (fun d c => { c with decoded := c.decoded ++ [d] }) lookAtDecoded .decoded c
  | .decodedSeed j => match c.decoded[j]? with
    | none => pure (c, .nothing)
    | some d => calling (decodedSeed d) (fun x c => { c with seeds := c.seeds ++ [x] }) lookAtSeed .seed c
  | .decryptSeed j pw => match c.decoded[j]? with
    | none => pure (c, .nothing)
    | some d => calling (decryptSeed C d pw) (fun x c => { c with seeds := c.seeds ++ [x] }) lookAtSeed .seed c
  | .encodeToIndices i n => match c.ints[i]? with
    | none => pure (c, .nothing)
    | some p => calling (encodeToIndices p n) (fun _ c => c) pure .indices c
  | .decodeIndices is => calling (decodeIndices is) (fun p c => { c with ints := c.ints ++ [p] }) read .int c

/-- A goroutine that makes these calls -/
def goroutine (L : WordList) (C : PhraseCrypto) : Client → List Call → Thr (List Obs)
  | _, [] => pure []
  | c, call :: cs => do
    let (c, o) ← callOf L C c call
    let os ← goroutine L C c cs
    pure (o :: os)

structure World where
  heap : Cells
  threads : List (Thr (List Obs))

/-- Goroutine `t` makes its next access. -/
def World.step (w : World) (t : Nat) : World :=
  match w.threads[t]? with
  | none => w
  | some p => ⟨(p.step w.heap).2, w.threads.set t (p.step w.heap).1⟩

def World.run (w : World) (schedule : List Nat) : World := schedule.foldl World.step w

end Verif.Model.Threads
