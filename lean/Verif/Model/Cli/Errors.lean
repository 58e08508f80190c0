import Verif.Model.Cli.Output

/-!
# Texts of errors

The functions of the library and the commands once more, with what `Error()` returns for the errors they
return; `fmt.Errorf` with `%w` puts a text before or after that of the error it wraps. That they otherwise do
the same is proved (`c86_same`). Texts of the operating system are given by the record `OsText`. Errors that
no command can return (`c81_generate`, `c81_recover`, `c81_convert`) have no text here.
-/

namespace Verif.Model.Cli

open Verif.Model Verif.Model.Pgp

/-- A Go error: which one it is (or wraps), and its text -/
structure GoErr where
  kind : Err
  text : Bytes
  deriving DecidableEq, Repr

inductive ResE (α : Type) where
  | ok (a : α)
  | err (e : GoErr)
  | panic (p : Panic)
  deriving DecidableEq, Repr

def ResE.bind {α β : Type} (x : ResE α) (f : α → ResE β) : ResE β :=
  match x with
  | .ok a => f a
  | .err e => .err e
  | .panic p => .panic p

instance : Monad ResE where
  pure := .ok
  bind := ResE.bind

/-- Without the text -/
def ResE.plain {α : Type} : ResE α → Res α
  | .ok a => .ok a
  | .err e => .err e.kind
  | .panic p => .panic p

/-- With the text that the error has where it is made -/
def explain {α : Type} (r : Res α) (text : Err → Bytes) : ResE α :=
  match r with
  | .ok a => .ok a
  | .err e => .err ⟨e, text e⟩
  | .panic p => .panic p

/-- The call returns no error, or none that can occur. -/
def noError {α : Type} (r : Res α) : ResE α := explain r (fun _ => [])

/-- `fmt.Errorf("...: %w", err)` -/
def ResE.wrap {α : Type} (before : Bytes) : ResE α → ResE α
  | .ok a => .ok a
  | .err e => .err { e with text := before ++ str ": " ++ e.text }
  | .panic p => .panic p

/-- Texts of errors of the operating system -/
structure OsText where
  /-- of rand.Reader -/
  random : Bytes
  /-- generate.go:100, os.Open -/
  entropyOpen : Bytes
  /-- generate.go:202, os.Stat -/
  stat : Bytes
  /-- generate.go:209, os.WriteFile -/
  write : Bytes
  /-- recover.go:208, os.Open -/
  wordOpen : Bytes

/-! ## The library -/

/-- io.ReadFull on a source that ends, called by rand.Int -/
def readFullText (source : Bytes) : Bytes := if source = [] then str "EOF" else str "unexpected EOF"

/-- seed.go:66-77 GenerateSeed; `text` is that of the error of its source. -/
def generateSeedE (text : Bytes) (rnd : Bytes) : ResE (Seed × Bytes) := do
  let (n, rest) ← (explain (randInt rnd (2 ^ entropyBitCount)) (fun _ => text)).wrap
    (str "failed to generate " ++ formatInt entropyBitCount ++ str " bits of secure random seed data")
  let s ← noError (newSeed eraLatest (n : Int))
  .ok (s, rest)

/-- mnemonikey.go:27, 31, 35 -/
def newText : Err → Bytes
  | .ttlInvalid => str "key time-to-live cannot be negative"
  | .creationTooLate => str "key creation time exceeds maximum"
  | .creationTooEarly => str "key creation time exceeds maximum"
  | _ => []

/-- mnemonikey.go:55-87 New -/
def newE (C : Crypto) (seed : Seed) (creation : Int) (opts : Option KeyOptions) : ResE Mnemonikey :=
  explain (new C seed creation opts) newText

/-- recovery.go:19, 23, mnemonic/decode.go:14, version.go:17 and 69: the errors of DecodeMnemonic -/
def decodeText (L : WordList) (words : List Bytes) : Err → Bytes
  | .invalidChecksum => str "failed to validate checksum embedded in mnemonic phrase"
  | .invalidWordCount => str "mnemonic is not the correct length"
  | .invalidWord => str "word is not a member of the wordlist"
  | .invalidVersion => str "invalid version number in recovery phrase: " ++
      formatInt (parseMnemonicVersionRaw L (words.headD [])).1
  | _ => []

/-- recovery.go:184-245 DecodeMnemonic -/
def decodeMnemonicE (L : WordList) (words : List Bytes) : ResE DecodedMnemonic :=
  explain (decodeMnemonic L words) (decodeText L words)

/-- encoding.go:67-113 EncodeMnemonicEncrypted; the error of rand.Int is returned as it is (line 87). -/
def encodeMnemonicEncryptedE (os : OsText) (L : WordList) (C : PhraseCrypto) (seed : Seed)
    (creationOffset : Nat) (password : Bytes) (rnd : Bytes) : ResE (List Bytes × Bytes) :=
  explain (encodeMnemonicEncrypted L C seed creationOffset password rnd)
    (fun e => if e = .randomRead then os.random else [])

/-- pgp/s2k.go:35-81 EncryptS2K -/
def encryptS2KE (os : OsText) (C : Crypto) (hashFunc : Byte) (plaintext password rnd : Bytes) :
    ResE (Bytes × Bytes) := do
  let (salt, rnd) ← (explain (randRead rnd 8) (fun _ => os.random)).wrap (str "failed to read random salt")
  let (iv, rnd) ← (explain (randRead rnd 16) (fun _ => os.random)).wrap (str "failed to read random IV")
  let secretKey ← noError (stringToKey C hashFunc password salt (s2kCountDecode s2kCountMaximum))
  let mpiPlaintext := encodeMPI (setBytes plaintext : Int)
  let plaintextWithChecksum := mpiPlaintext ++ C.sha1 mpiPlaintext
  let block ← noError (aesNewCipher C secretKey)
  let ciphertext := cfbEncrypt block iv plaintextWithChecksum
  let size ← noError (hashSize hashFunc)
  let algo ← noError (if size = 16 then .ok cipherAlgoAES128
    else if size = 24 then .ok cipherAlgoAES192
    else if size = 32 then .ok cipherAlgoAES256
    else .err .cipherKeySize : Res Byte)
  .ok ([stringToKeySpecifierPrefix, algo, stringToKeyUsageIteratedAndSalted, hashFunc] ++ salt ++
    [s2kCountMaximum] ++ iv ++ ciphertext, rnd)

/-- pgp/ecc_key.go:59-82 encodePrivate -/
def encodePrivateE (os : OsText) (C : Crypto) (key : ECKey) (password rnd : Bytes) : ResE (Bytes × Bytes) :=
  if password.length > 0 then do
    let (encrypted, rnd) ← encryptS2KE os C defaultStringToKeyHashFunc key.privateSerialized password rnd
    .ok (key.encodePublic ++ encrypted, rnd)
  else noError (key.encodePrivate C password rnd)

/-- pgp/master_key.go:67-73, ed25519_subkey.go:62-68 and encryption_subkey.go:87-93 EncodePrivatePacket -/
def encodePrivatePacketE (os : OsText) (C : Crypto) (tag : Byte) (base : ECKey) (password rnd : Bytes) :
    ResE (Bytes × Bytes) := do
  let (encodedPrivateKey, rnd) ← encodePrivateE os C base password rnd
  .ok (encodePacket tag encodedPrivateKey, rnd)

/-- The common shape of pgp/key_set.go:29-43, 51-65 and 73-87; `what` is "encryption", "authentication" or
"signing". -/
def encodeSubkeyPacketsE (os : OsText) (C : Crypto) (what : Bytes) (master : EdKey) (base : ECKey)
    (flags : Byte) (expiry : Int) (password rnd : Bytes) : ResE (Bytes × Bytes) := do
  let (subkeyPacket, rnd) ← (encodePrivatePacketE os C packetTagSecretSubkey base password rnd).wrap
    (str "failed to encode " ++ what ++ str " subkey packet")
  let bindSig ← noError (master.bindSubkey C base flags expiry)
  .ok (subkeyPacket ++ bindSig.encodePacket, rnd)

/-- pgp/key_set.go:102-108 -/
def encodeEncryptionE (os : OsText) (C : Crypto) (ks : KeySet) (password rnd : Bytes) :
    ResE (Bytes × Bytes) :=
  match ks.encryptionSubkey with
  | none => .ok ([], rnd)
  | some k => encodeSubkeyPacketsE os C (str "encryption") ks.masterKey k.base
      (keyFlagEncryptCommunications ||| keyFlagEncryptStorage) k.expiry password rnd

/-- pgp/key_set.go:111-117 -/
def encodeAuthenticationE (os : OsText) (C : Crypto) (ks : KeySet) (password rnd : Bytes) :
    ResE (Bytes × Bytes) :=
  match ks.authenticationSubkey with
  | none => .ok ([], rnd)
  | some k => encodeSubkeyPacketsE os C (str "authentication") ks.masterKey k.base keyFlagAuthenticate
      k.expiry password rnd

/-- pgp/key_set.go:120-126 -/
def encodeSigningE (os : OsText) (C : Crypto) (ks : KeySet) (password rnd : Bytes) : ResE (Bytes × Bytes) :=
  match ks.signingSubkey with
  | none => .ok ([], rnd)
  | some k => encodeSubkeyPacketsE os C (str "signing") ks.masterKey k.base keyFlagSign k.expiry password rnd

/-- pgp/key_set.go:95-147 encodeAllSubkeyPackets -/
def encodeAllSubkeyPacketsE (os : OsText) (C : Crypto) (ks : KeySet) (password rnd : Bytes) :
    ResE (Bytes × Bytes) := do
  let (g0, rnd) ← encodeEncryptionE os C ks password rnd
  let (g1, rnd) ← encodeAuthenticationE os C ks password rnd
  let (g2, rnd) ← encodeSigningE os C ks password rnd
  let packetGroups := [g0, g1, g2]
  let seed := shuffleSeed C ks.masterKey.priv
  let packetGroups ← noError (shuffleLoop (C.shuffleDraw seed) (packetGroups.length - 1) packetGroups)
  .ok (packetGroups.flatten, rnd)

/-- pgp/key_set.go:159-183 EncodePackets -/
def encodePacketsE (os : OsText) (C : Crypto) (ks : KeySet) (password rnd : Bytes) : ResE (Bytes × Bytes) := do
  let (masterPacket, rnd) ← (encodePrivatePacketE os C packetTagSecretKey ks.masterKey.base password rnd).wrap
    (str "failed to encode master key packet")
  let cert ← noError (ks.encodeSelfCertification C)
  let (subkeyPackets, rnd) ← encodeAllSubkeyPacketsE os C ks password rnd
  .ok (masterPacket ++ ks.userID.encodePacket ++ cert ++ subkeyPackets, rnd)

/-- pgp/key_set.go:194-218 EncodeSubkeyPackets -/
def encodeOnlySubkeyPacketsE (os : OsText) (C : Crypto) (ks : KeySet) (password : Bytes)
    (withSelfCert : Bool) (rnd : Bytes) : ResE (Bytes × Bytes) := do
  let cert ← noError (if withSelfCert then ks.encodeSelfCertification C else .ok [] : Res Bytes)
  let (subkeyPackets, rnd) ← encodeAllSubkeyPacketsE os C ks password rnd
  .ok (ks.masterKey.encodePrivateDummyPacket ++ ks.userID.encodePacket ++ cert ++ subkeyPackets, rnd)

/-! ## Input and files -/

/-- expiry.go:11 and 21 -/
def durationText (F : Fmt) (input : Bytes) : Bytes := str "invalid duration parameter: " ++ F.quote input

/-- command.go:11 ErrPrintUsage -/
def incorrectUsage : Bytes := str "incorrect usage"

/-- generate.go:75-80, recover.go:147-152 -/
def ttlOfE (F : Fmt) (flag : Bytes) : ResE Int :=
  (explain (ttlOf flag) (fun _ => durationText F flag)).wrap incorrectUsage

/-- common_opts.go:90-101, the loop of DecodeOnlyKeyTypes -/
def onlyLoopE (F : Fmt) : Bool → List Bytes → List Bytes → ResE (Bool × Option (List Bytes))
  | master, subkeyTypes, [] => .ok (master, some subkeyTypes)
  | master, subkeyTypes, keyType :: rest =>
    if keyType = str "master" then onlyLoopE F true subkeyTypes rest
    else if keyType = subkeyTypeEncryption ∨ keyType = subkeyTypeAuthentication ∨
        keyType = subkeyTypeSigning then
      onlyLoopE F master (subkeyTypes ++ [keyType]) rest
    else .err ⟨.badOnlyElement, incorrectUsage ++ str ": unknown -only list element " ++ F.quote keyType⟩

/-- common_opts.go:79-104 DecodeOnlyKeyTypes -/
def decodeOnlyKeyTypesE (F : Fmt) (onlyKeyTypes : Bytes) : ResE (Bool × Option (List Bytes)) :=
  if onlyKeyTypes ≠ [] then onlyLoopE F false [] (split 0x2C onlyKeyTypes)
  else .ok (true, none)

/-- recover.go:216-226, the loop of readWordFile -/
def readLoopE (L : WordList) (fpath : Bytes) : List Bytes → List Bytes → ResE (List Bytes)
  | words, [] => .ok words
  | words, text :: rest =>
    let word := L.toLower text
    match L.lookup word with
    | none => .err ⟨.fileBadWord, str "found word in " ++ fpath ++ str " not present in wordlist"⟩
    | some _ =>
      let words := words ++ [word]
      if words.length > 100 then .err ⟨.fileBadFormat, str "invalid format for word file"⟩
      else readLoopE L fpath words rest

/-- recover.go:207-239 readWordFile -/
def readWordFileE (os : OsText) (L : WordList) (fpath : Bytes) (content : Option Bytes) :
    ResE (List Bytes) :=
  match content with
  | none => .err ⟨.fileOpen, os.wordOpen⟩
  | some content => do
    let words ← readLoopE L fpath [] (scanWords content)
    match words with
    | [] => .err ⟨.fileNoWords, str "found only no words in word file " ++ fpath⟩
    | first :: _ =>
      let version := (parseMnemonicVersionRaw L first).1
      if words.length ≠ mnemonicSize version then
        .err ⟨.fileWordCount, str "found only " ++ formatInt words.length ++ str " words in word file " ++
          fpath ++ str ", expected " ++ formatInt (mnemonicSize version) ++ str " words for version " ++
          formatInt version ++ str " phrase"⟩
      else .ok words

/-- word_input.go:71 (os.Stdin.Read at the end of its input) and 76 -/
def keysText : Err → Bytes
  | .stdinRead => str "failed to read from standard input: EOF"
  | .aborted => str "aborted"
  | _ => []

/-- word_input.go:187 -/
def linesText : Err → Bytes
  | .stdinRead => str "unexpected EOF on standard input"
  | _ => []

/-- recover.go:86-99, the words of the phrase -/
def inputWordsE (os : OsText) (L : WordList) (env : Env) (opts : InputFlags) : ResE (List Bytes) :=
  if opts.inputWordFile ≠ [] then readWordFileE os L opts.inputWordFile (env.fs.read opts.inputWordFile)
  else if byLine env opts then explain (userInputMnemonicSimple L env.stdin) linesText
  else explain (userInputMnemonic L env.stdin) keysText

/-- generate.go:203, 205, 210 -/
def saveText (os : OsText) (wordFile : Bytes) : Err → Bytes
  | .fileExists => str "refused to write word-file to " ++ wordFile ++ str ": file already exists"
  | .fileInaccessible => str "failed to write word-file to " ++ wordFile ++
      str ": path is not accessible: " ++ os.stat
  | .fileWrite => str "failed to write words to file: " ++ os.write
  | _ => []

/-! ## The commands -/

inductive OutcomeE (α : Type) where
  | ok (a : α)
  | err (e : GoErr)
  | panic (p : Panic)
  | waits (confirm : Bool)
  | loops
  deriving DecidableEq, Repr

def OutcomeE.plain {α : Type} : OutcomeE α → Outcome α
  | .ok a => .ok a
  | .err e => .err e.kind
  | .panic p => .panic p
  | .waits confirm => .waits confirm
  | .loops => .loops

structure StE where
  prompts : List (ResE Bytes)
  rnd : Bytes
  acts : List Act
  deriving DecidableEq, Repr

def StE.plain (st : StE) : St := ⟨st.prompts.map ResE.plain, st.rnd, st.acts⟩

def ProgE (α : Type) : Type := StE → OutcomeE α × StE

def ProgE.bind {α β : Type} (x : ProgE α) (f : α → ProgE β) : ProgE β := fun st =>
  match x st with
  | (.ok a, st) => f a st
  | (.err e, st) => (.err e, st)
  | (.panic p, st) => (.panic p, st)
  | (.waits confirm, st) => (.waits confirm, st)
  | (.loops, st) => (.loops, st)

instance : Monad ProgE where
  pure a := fun st => (.ok a, st)
  bind := ProgE.bind

def liftE {α : Type} (r : ResE α) : ProgE α := fun st =>
  match r with
  | .ok a => (.ok a, st)
  | .err e => (.err e, st)
  | .panic p => (.panic p, st)

/-- One call of userInputPassword -/
def userInputPasswordE (confirm : Bool) : ProgE Bytes := fun st =>
  match st.prompts with
  | [] => (.waits confirm, st)
  | .ok p :: rest => (.ok p, { st with prompts := rest })
  | .err e :: rest => (.err e, { st with prompts := rest })
  | .panic p :: rest => (.panic p, { st with prompts := rest })

/-- A computation that reads from `rand.Reader` -/
def randomE {α : Type} (f : Bytes → ResE (α × Bytes)) : ProgE α := fun st =>
  match f st.rnd with
  | .ok (a, rnd) => (.ok a, { st with rnd := rnd })
  | .err e => (.err e, st)
  | .panic p => (.panic p, st)

/-- A part of a program that returns no error -/
def noErrorE {α : Type} (x : Prog α) : ProgE α := fun st =>
  let r := x ⟨[], st.rnd, st.acts⟩
  (match r.1 with
    | .ok a => .ok a
    | .err e => .err ⟨e, []⟩
    | .panic p => .panic p
    | .waits confirm => .waits confirm
    | .loops => .loops, ⟨st.prompts, r.2.rnd, r.2.acts⟩)

/-- generate.go:155-157, convert.go:79-81: a call of saveMnemonic, its error wrapped -/
def saveE (os : OsText) (env : Env) (words : List Bytes) (wordFile : Bytes) : ProgE Unit := do
  noErrorE (emit (saveMnemonic env.fs env.save words wordFile).1)
  liftE ((explain (saveMnemonic env.fs env.save words wordFile).2 (saveText os wordFile)).wrap
    (str "failed to write words to file"))

/-- generate.go:88-112 -/
def seedOfE (os : OsText) (env : Env) (unsafeEntropy : Bytes) : ProgE Seed :=
  if unsafeEntropy ≠ [] then
    liftE (do
      let source ← (if unsafeEntropy = str "-" then .ok env.stdin
        else match env.fs.read unsafeEntropy with
          | none => .err ⟨.noEntropyFile, str "failed to open entropy source file: " ++ os.entropyOpen⟩
          | some content => .ok content : ResE Bytes)
      let (seed, _) ← generateSeedE (readFullText source) source
      .ok seed)
  else randomE (generateSeedE os.random)

/-- generate.go:127-135, recover.go:184-192 -/
def exportKeyE (os : OsText) (C : Crypto) (mnk : Mnemonikey) (master selfCert : Bool) (password : Bytes) :
    ProgE Bytes :=
  if master then randomE (encodePacketsE os C mnk.pgpKeySet password)
  else randomE (encodeOnlySubkeyPacketsE os C mnk.pgpKeySet password selfCert)

/-- generate.go:64-175 generateAndPrintKey -/
def generateAndPrintKeyE (F : Fmt) (os : OsText) (L : WordList) (C : Crypto) (env : Env)
    (opts : GenerateOptions) : ProgE Unit := do
  let ttl ← liftE (ttlOfE F opts.key.ttl)
  let (master, subkeys) ← liftE (decodeOnlyKeyTypesE F opts.key.only)
  let keyOptions : KeyOptions :=
    { name := trimSpace opts.key.name, email := trimSpace opts.key.email, ttl := ttl
      encryptionSubkeyIndex := 0, authenticationSubkeyIndex := 0, signingSubkeyIndex := 0
      subkeys := subkeys }
  let seed ← seedOfE os env opts.unsafeEntropy
  let mnk ← liftE (newE C seed env.now (some keyOptions))
  let password ← (if opts.key.encryptKeys then userInputPasswordE true else pure [] : ProgE Bytes)
  let key ← exportKeyE os C mnk master true password
  let words ← (if opts.encryptPhrase then do
      let phrasePassword ← userInputPasswordE true
      randomE (encodeMnemonicEncryptedE os L C.toPhraseCrypto mnk.seed mnk.creationOffset phrasePassword)
    else liftE (noError (mnk.encodeMnemonicPlaintext L)) : ProgE (List Bytes))
  if opts.outputWordFile ≠ [] then saveE os env words opts.outputWordFile
  noErrorE (printKey (env.armor key))
  if opts.outputWordFile = [] then noErrorE (printMnemonic env words)

/-- recover.go:116-134, the loop asking for the phrase password, on an encrypted phrase -/
def passwordLoopE (C : Crypto) (dm : DecodedMnemonic) :
    List (ResE Bytes) → OutcomeE Seed × List (ResE Bytes)
  | [] => (.waits false, [])
  | .err e :: rest => (.err e, rest)
  | .panic p :: rest => (.panic p, rest)
  | .ok password :: rest =>
    match dm.decryptSeed C.toPhraseCrypto password with
    | .err .mnemonicDecryption => passwordLoopE C dm rest
    | .err e => (.err ⟨e, []⟩, rest)
    | .panic p => (.panic p, rest)
    | .ok seed => (.ok seed, rest)

/-- recover.go:116-134 -/
def askSeedE (C : Crypto) (dm : DecodedMnemonic) : ProgE Seed := fun st =>
  if dm.encrypted then
    let r := passwordLoopE C dm st.prompts
    (r.1, { st with prompts := r.2 })
  else noErrorE (askSeed C dm) st

/-- recover.go:82-135 decodeMnemonicFromInput -/
def decodeMnemonicFromInputE (os : OsText) (L : WordList) (C : Crypto) (env : Env) (opts : InputFlags) :
    ProgE (Seed × DecodedMnemonic) := do
  let words ← liftE (inputWordsE os L env opts)
  let dm ← liftE (decodeMnemonicE L words)
  let seed ← askSeedE C dm
  pure (seed, dm)

/-- recover.go:157 -/
def indexText : Bytes :=
  str "invalid subkey index; must be less than or equal to " ++ formatInt maxSubkeyIndex

/-- recover.go:137-205 recoverAndPrintKey -/
def recoverAndPrintKeyE (F : Fmt) (os : OsText) (L : WordList) (C : Crypto) (env : Env)
    (opts : RecoverOptions) : ProgE Unit := do
  let ttl ← liftE (ttlOfE F opts.key.ttl)
  if opts.encIndex > maxSubkeyIndex ∨ opts.authIndex > maxSubkeyIndex ∨
      opts.sigIndex > maxSubkeyIndex then
    liftE (.err ⟨.badSubkeyIndex, indexText⟩)
  else do
    let (master, subkeys) ← liftE (decodeOnlyKeyTypesE F opts.key.only)
    let keyOptions : KeyOptions :=
      { name := trimSpace opts.key.name, email := trimSpace opts.key.email, ttl := ttl
        encryptionSubkeyIndex := UInt16.ofNat opts.encIndex
        authenticationSubkeyIndex := UInt16.ofNat opts.authIndex
        signingSubkeyIndex := UInt16.ofNat opts.sigIndex
        subkeys := subkeys }
    let (seed, dm) ← decodeMnemonicFromInputE os L C env opts.input
    let mnk ← liftE ((newE C seed dm.creation (some keyOptions)).wrap (str "failed to re-derive PGP keys"))
    let password ← (if opts.key.encryptKeys then userInputPasswordE true else pure [] : ProgE Bytes)
    let key ← exportKeyE os C mnk master opts.selfCert password
    noErrorE (printKey (env.armor key))

/-- convert.go:48-85 decodeAndConvertPhrase -/
def decodeAndConvertPhraseE (os : OsText) (L : WordList) (C : Crypto) (env : Env) (opts : ConvertOptions) :
    ProgE Unit := do
  let (seed, dm) ← decodeMnemonicFromInputE os L C env opts.input
  let words ← (if opts.encryptPhrase then do
      let phrasePassword ← userInputPasswordE true
      randomE (encodeMnemonicEncryptedE os L C.toPhraseCrypto seed dm.creationOffset phrasePassword)
    else liftE (noError (encodeMnemonicPlaintext L seed dm.creationOffset)) : ProgE (List Bytes))
  if opts.input.inputWordFile = [] then noErrorE (printMnemonic env words)
  else saveE os env words opts.input.inputWordFile

/-! ## The process -/

/-- generate.go:59-61, recover.go:77-79, convert.go:43-45 -/
def programE (F : Fmt) (os : OsText) (L : WordList) (C : Crypto) (env : Env)
    (settings : List (Bytes × FlagValue)) : Cmd → ProgE Unit
  | .root => pure ()
  | .generate => generateAndPrintKeyE F os L C env (generateOptions settings)
  | .recover => recoverAndPrintKeyE F os L C env (recoverOptions settings)
  | .convert => decodeAndConvertPhraseE os L C env (convertOptions settings)

/-- An error returned by `Run` or `Execute`: what errors.Is can tell, and its text -/
structure CmdErrE where
  kind : CmdErr
  text : Bytes
  deriving DecidableEq, Repr

inductive EndsE where
  | returns (err : Option CmdErrE)
  | exits (code : Nat)
  | waits
  | loops
  deriving DecidableEq, Repr

def EndsE.plain : EndsE → Ends
  | .returns err => .returns (err.map CmdErrE.kind)
  | .exits code => .exits code
  | .waits => .waits
  | .loops => .loops

def execEndsE : OutcomeE Unit → EndsE
  | .ok _ => .returns none
  | .err e => .returns (some ⟨if isUsageErr e.kind then .usage else .other, e.text⟩)
  | .panic _ => .exits 2
  | .waits _ => .waits
  | .loops => .loops

structure DoneE where
  printed : List Cmd
  ends : EndsE
  st : StE
  deriving DecidableEq, Repr

def DoneE.plain (d : DoneE) : Done := ⟨d.printed, d.ends.plain, d.st.plain⟩

/-- The usage text returns no error. -/
def printUsageE (columns : Nat) (cmd : Cmd) (printed : List Cmd) (ends : EndsE) (st : StE) : DoneE :=
  match usage columns cmd with
  | .ok _ => ⟨printed ++ [cmd], ends, st⟩
  | .err e => ⟨printed, .returns (some ⟨if isUsageErr e then .usage else .other, []⟩), st⟩
  | .panic _ => ⟨printed, .exits 2, st⟩
  | .waits _ => ⟨printed, .waits, st⟩
  | .loops => ⟨printed, .loops, st⟩

/-- command.go:28-92 Run. Line 89 makes a new error with the same text. -/
def runCommandE (columns : Nat) (cmd : Cmd)
    (execute : List (Bytes × FlagValue) → List Bytes → StE → DoneE) (args : List Bytes) (st : StE) : DoneE :=
  if args = [str "help"] then printUsageE columns cmd [] (.returns none) st
  else
    match parseArgs (formal cmd) args with
    | .help => printUsageE columns cmd [] (.exits 0) st
    | .failed => printUsageE columns cmd [] (.exits 2) st
    | .ok settings rest =>
      match execute settings rest st with
      | ⟨printed, .returns (some ⟨.usage, text⟩), st⟩ =>
        printUsageE columns cmd printed (.returns (some ⟨.other, text⟩)) st
      | done => done

/-- A subcommand's Run -/
def runSubE (F : Fmt) (os : OsText) (L : WordList) (C : Crypto) (env : Env) (cmd : Cmd) (args : List Bytes)
    (st : StE) : DoneE :=
  runCommandE env.columns cmd
    (fun settings _ st =>
      let r := programE F os L C env settings cmd st
      ⟨[], execEndsE r.1, r.2⟩)
    args st

/-- main.go:27-40 RootCommand.Execute -/
def rootExecuteE (F : Fmt) (os : OsText) (L : WordList) (C : Crypto) (env : Env) : List Bytes → StE → DoneE
  | [], st => ⟨[], .returns (some ⟨.usage, incorrectUsage ++ str ": missing subcommand"⟩), st⟩
  | name :: rest, st =>
    if name = str "help" then ⟨[], .returns (some ⟨.graceful, incorrectUsage⟩), st⟩
    else
      match subcommands name with
      | none => ⟨[], .returns (some ⟨.usage, incorrectUsage ++ str ": unknown subcommand " ++ F.quote name⟩), st⟩
      | some cmd => runSubE F os L C env cmd rest st

/-- main.go:43-49 main: usage texts printed, what line 46 writes to standard error, status, and the state -/
def mainE (F : Fmt) (os : OsText) (L : WordList) (C : Crypto) (env : Env) (args : List Bytes) (st : StE) :
    List Cmd × Bytes × Status × StE :=
  let d := runCommandE env.columns .root (fun _ rest => rootExecuteE F os L C env rest) args st
  (d.printed,
    match d.ends with
    | .returns (some ⟨.usage, text⟩) => str "ERROR: " ++ text ++ str "\n"
    | .returns (some ⟨.other, text⟩) => str "ERROR: " ++ text ++ str "\n"
    | _ => [],
    match d.ends with
    | .exits code => .exited code
    | .returns none => .exited 0
    | .returns (some ⟨.graceful, _⟩) => .exited 0
    | .returns (some _) => .exited 1
    | .waits => .waits
    | .loops => .loops,
    d.st)

end Verif.Model.Cli
