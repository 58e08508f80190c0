import Verif.Model.Cli.Run
import Verif.Model.Cli.Screen

/-!
# What the subcommands write to standard error

The programs of `Commands.lean` once more, with the messages on standard error and the option `-verbose`. That
they otherwise do the same is `c80_same`. A run is a list of events in order. The prompts for the words of a
phrase and for passwords are single events here; what the former write is in `Screen.lean`. Formatting by the Go
library is the record `Fmt`. What main.go:46 writes for an error is in `Errors.lean`.
-/

namespace Verif.Model.Cli

open Verif.Model

/-- Formatting by the Go library -/
structure Fmt where
  /-- the verb `%q` of fmt on a string -/
  quote : Bytes → Bytes
  /-- `Format(time.RFC3339)` of a time in UTC, in nanoseconds since 1970 -/
  time : Int → Bytes

inductive Ev where
  /-- an action of `Files.lean`. For `showPhrase` the text follows as events `err`. -/
  | act (a : Act)
  /-- a write to standard error -/
  | err (text : Bytes)
  /-- recover.go:92-96, a prompt for the words of a phrase -/
  | words (byLine : Bool)
  /-- a call of userInputPassword, with its prompt -/
  | password (prompt : Bytes) (confirm : Bool)
  deriving DecidableEq, Repr

structure StV where
  prompts : List (Res Bytes)
  rnd : Bytes
  events : List Ev
  deriving DecidableEq, Repr

def ProgV (α : Type) : Type := StV → Outcome α × StV

def ProgV.bind {α β : Type} (x : ProgV α) (f : α → ProgV β) : ProgV β := fun st =>
  match x st with
  | (.ok a, st) => f a st
  | (.err e, st) => (.err e, st)
  | (.panic p, st) => (.panic p, st)
  | (.waits confirm, st) => (.waits confirm, st)
  | (.loops, st) => (.loops, st)

instance : Monad ProgV where
  pure a := fun st => (.ok a, st)
  bind := ProgV.bind

/-- A part of a program that writes nothing to standard error -/
def silent {α : Type} (x : Prog α) : ProgV α := fun st =>
  let r := x ⟨st.prompts, st.rnd, []⟩
  (r.1, ⟨r.2.prompts, r.2.rnd, st.events ++ r.2.acts.map .act⟩)

def event (e : Ev) : ProgV Unit := fun st => (.ok (), { st with events := st.events ++ [e] })

/-- word_input.go:24-25 eprint, eprintf (of the formatted text). Their errors are not looked at. -/
def eprint (text : Bytes) : ProgV Unit := event (.err text)

/-- word_input.go:26 eprintln -/
def eprintln (text : Bytes) : ProgV Unit := eprint (text ++ str "\n")

/-- terminal.go:44 magentaStart -/
def magentaStart : Bytes := escapeCode ++ str "[35m"

/-- terminal.go:45 colorEnd -/
def colorEnd : Bytes := escapeCode ++ str "[39m"

/-- terminal.go:51 underline -/
def underline (s : Bytes) : Bytes := escapeCode ++ str "[4m" ++ s ++ escapeCode ++ str "[24m"

/-! ## The phrase -/

/-- generate.go:178 -/
def phraseHeader : Bytes := str "\nThis is the mnemonic phrase which can be used to recover the private key:\n\n"

/-- generate.go:181-183, the row for the word with index i. From the 10000th word on strings.Repeat would panic;
there are at most 16 (`Props.complete_words`). -/
def phraseRow (i : Nat) (word : Bytes) : Bytes :=
  let humanIndex := formatInt (i + 1)
  let spacing := List.replicate (4 - humanIndex.length) (0x20 : Byte)
  humanIndex ++ str ":" ++ spacing ++ bold (magenta word) ++ str "\n"

/-- generate.go:180-184, the loop from index i on -/
def phraseRows : Nat → List Bytes → List Bytes
  | _, [] => []
  | i, word :: words => phraseRow i word :: phraseRows (i + 1) words

/-- generate.go:186 -/
def phraseAdvice : Bytes := str "\nSave this phrase in a secure place, preferably offline, on paper.\n\n"

/-- generate.go:195-197 -/
def phraseWarning : Bytes :=
  underline (str "If you do not save it now, you will " ++ bold (str "NEVER") ++ str " see this phrase again.\n\n")

/-- Several writes to standard error -/
def eprints (texts : List Bytes) : ProgV Unit := fun st => (.ok (), { st with events := st.events ++ texts.map .err })

/-- generate.go:177-199 printMnemonic -/
def printMnemonicV (env : Env) (words : List Bytes) : ProgV Unit := do
  event (.act (.showPhrase words))
  eprint phraseHeader
  eprints (phraseRows 0 words)
  eprint phraseAdvice
  match justifyTerminalWidth 19 env.columns 0 notice with
  | none => fun st => (.loops, st)
  | some r => do
    let text ← silent (lift r)
    eprint text
    eprint phraseWarning

/-! ## The output of -verbose -/

/-- One hexadecimal digit of the verb `%X` -/
def hexDigit (n : Nat) : Byte := if n < 10 then UInt8.ofNat (0x30 + n) else UInt8.ofNat (0x41 + (n - 10))

/-- The verb `%X` of fmt on a byte slice -/
def hex (bs : Bytes) : Bytes := bs.flatMap (fun b => [hexDigit (b.toNat / 16), hexDigit (b.toNat % 16)])

/-- terminal.go:127-129 capitalize. The strings it is called with are ASCII and not empty (an empty one would
panic). -/
def capitalize : Bytes → Bytes
  | [] => []
  | c :: rest => (if 0x61 ≤ c ∧ c ≤ 0x7A then c - 0x20 else c) :: rest

/-- terminal.go:132-139 maxLen. The keys are ASCII, so utf8.RuneCountInString is the length. -/
def maxKeyLen (values : List (Bytes × Bytes)) : Nat := values.foldl (fun m pair => max m pair.1.length) 0

/-- terminal.go:142-144, one row of the table -/
def debugRow (maxLen : Nat) (pair : Bytes × Bytes) : Bytes :=
  faint (pair.1 ++ str ":") ++ List.replicate (maxLen - pair.1.length + 1) (0x20 : Byte) ++ cyan pair.2 ++ str "\n"

/-- terminal.go:131-146 printDebugInfo -/
def printDebugInfo (values : List (Bytes × Bytes)) : ProgV Unit :=
  eprints (values.map (debugRow (maxKeyLen values)))

/-- terminal.go:112-123, the rows that printKeyDebugInfo has printed. IsZero compares with the zero time. -/
def keyDebugInfo (F : Fmt) (C : Crypto) (mnk : Mnemonikey) : List (Bytes × Bytes) :=
  let info :=
    [(str "Master key Fingerprint", hex (mnk.fingerprint C)),
     (str "User ID", F.quote mnk.userID),
     (str "Created at", F.time mnk.createdAt)]
  let info := if mnk.expiry ≠ zeroTime then info ++ [(str "Expires at", F.time mnk.expiry)] else info
  info ++ mnk.subkeyTypes.map (fun subkeyType =>
    (capitalize subkeyType ++ str " subkey fingerprint", hex ((mnk.subkeyFingerprint C subkeyType).getD [])))

/-- terminal.go:111-125 printKeyDebugInfo -/
def printKeyDebugInfo (F : Fmt) (C : Crypto) (mnk : Mnemonikey) : ProgV Unit :=
  printDebugInfo (keyDebugInfo F C mnk)

/-- recover.go:108-112 -/
def phraseDebugInfo (dm : DecodedMnemonic) : List (Bytes × Bytes) :=
  [(str "version", formatInt dm.version),
   (str "era", formatInt (versionEra dm.version)),
   (str "encrypted", if dm.encrypted then str "true" else str "false")]

/-! ## The subcommands -/

/-- A call of userInputPassword -/
def askPassword (prompt : Bytes) (confirm : Bool) : ProgV Bytes := do
  event (.password prompt confirm)
  silent (userInputPassword confirm)

/-- generate.go:91-94 -/
def entropyWarning : Bytes :=
  red (bold (str "WARNING:") ++ str " The -unsafe-entropy option is dangerous and can produce" ++
    str " weak PGP keys if used incorrectly.")

/-- generate.go:121, recover.go:178 -/
def keyPasswordPrompt : Bytes := str "Enter key encryption password: "

/-- generate.go:139, convert.go:56 -/
def phrasePasswordPrompt : Bytes := str "Enter phrase encryption password: "

/-- recover.go:119 -/
def decryptPrompt : Bytes := str "Enter phrase decryption password: "

/-- generate.go:166-168, recover.go:200-202 -/
def printKeyV (armored : Bytes) : ProgV Unit := do
  eprint magentaStart
  silent (printKey armored)
  eprint colorEnd

/-- generate.go:64-175 generateAndPrintKey -/
def generateAndPrintKeyV (F : Fmt) (L : WordList) (C : Crypto) (env : Env) (opts : GenerateOptions)
    (verbose : Bool) : ProgV Unit := do
  let ttl ← silent (lift (ttlOf opts.key.ttl))
  let (master, subkeys) ← silent (lift (decodeOnlyKeyTypes opts.key.only))
  let keyOptions : KeyOptions :=
    { name := trimSpace opts.key.name, email := trimSpace opts.key.email, ttl := ttl
      encryptionSubkeyIndex := 0, authenticationSubkeyIndex := 0, signingSubkeyIndex := 0
      subkeys := subkeys }
  if opts.unsafeEntropy ≠ [] then eprintln entropyWarning
  let seed ← silent (seedOf env opts.unsafeEntropy)
  let mnk ← silent (lift (new C seed env.now (some keyOptions)))
  let password ← (if opts.key.encryptKeys then askPassword keyPasswordPrompt true else pure [] : ProgV Bytes)
  let key ← silent (exportKey C mnk master true password)
  let words ← (if opts.encryptPhrase then do
      let phrasePassword ← askPassword phrasePasswordPrompt true
      silent (random (mnk.encodeMnemonicEncrypted L C phrasePassword))
    else silent (lift (mnk.encodeMnemonicPlaintext L)) : ProgV (List Bytes))
  if opts.outputWordFile ≠ [] then silent (save env words opts.outputWordFile)
  -- 160-164
  if verbose then do
    eprint (str "Generated OpenPGP private key with " ++ formatInt entropyBitCount ++ str " bits of entropy:\n")
    printKeyDebugInfo F C mnk
    eprintln []
  printKeyV (env.armor key)
  if opts.outputWordFile = [] then printMnemonicV env words

/-- recover.go:116-134, the loop asking for the phrase password, on an encrypted phrase: the outcome, the prompts
still to be answered, and the events. The error of recovery.go:96 is the only one wrapping
ErrMnemonicDecryption here. -/
def passwordLoopV (C : Crypto) (dm : DecodedMnemonic) :
    List (Res Bytes) → Outcome Seed × List (Res Bytes) × List Ev
  | [] => (.waits false, [], [.password decryptPrompt false])
  | .err e :: rest => (.err e, rest, [.password decryptPrompt false])
  | .panic p :: rest => (.panic p, rest, [.password decryptPrompt false])
  | .ok password :: rest =>
    match dm.decryptSeed C.toPhraseCrypto password with
    | .err .mnemonicDecryption =>
      let r := passwordLoopV C dm rest
      (r.1, r.2.1, [.password decryptPrompt false,
        .err (red (str "failed to decrypt entropy: incorrect password") ++ str "\n")] ++ r.2.2)
    | .err e => (.err e, rest, [.password decryptPrompt false])
    | .panic p => (.panic p, rest, [.password decryptPrompt false])
    | .ok seed => (.ok seed, rest, [.password decryptPrompt false])

/-- The loop as a program. On a plaintext phrase no password is asked for and nothing is refused
(`c11_seed_access`). -/
def askSeedV (C : Crypto) (dm : DecodedMnemonic) : ProgV Seed := fun st =>
  if dm.encrypted then
    let r := passwordLoopV C dm st.prompts
    (r.1, ⟨r.2.1, st.rnd, st.events ++ r.2.2⟩)
  else silent (askSeed C dm) st

/-- word_input.go:35-38 -/
def rawWarnings (env : Env) (opts : InputFlags) : List Bytes :=
  if opts.simple then []
  else match env.rawError with
    | none => []
    | some text => [str "WARN: failed to hook into terminal interface: " ++ text ++ str "\n",
        str "WARN: reverting to backup input method\n"]

/-- recover.go:92-96 -/
def askWordsV (env : Env) (opts : InputFlags) : ProgV Unit := do
  eprints (rawWarnings env opts)
  event (.words (byLine env opts))

/-- recover.go:82-135 decodeMnemonicFromInput -/
def decodeMnemonicFromInputV (L : WordList) (C : Crypto) (env : Env) (opts : InputFlags) (verbose : Bool) :
    ProgV (Seed × DecodedMnemonic) := do
  if opts.inputWordFile = [] then askWordsV env opts
  let words ← silent (lift (inputWords L env opts))
  let dm ← silent (lift (decodeMnemonic L words))
  -- 106-114
  if verbose then do
    eprintln (str "Decoded mnemonic recovery phrase:")
    printDebugInfo (phraseDebugInfo dm)
    eprintln []
  let seed ← askSeedV C dm
  pure (seed, dm)

/-- recover.go:137-205 recoverAndPrintKey -/
def recoverAndPrintKeyV (F : Fmt) (L : WordList) (C : Crypto) (env : Env) (opts : RecoverOptions)
    (verbose : Bool) : ProgV Unit := do
  let ttl ← silent (lift (ttlOf opts.key.ttl))
  if opts.encIndex > maxSubkeyIndex ∨ opts.authIndex > maxSubkeyIndex ∨
      opts.sigIndex > maxSubkeyIndex then
    silent (lift (.err .badSubkeyIndex))
  else do
    let (master, subkeys) ← silent (lift (decodeOnlyKeyTypes opts.key.only))
    let keyOptions : KeyOptions :=
      { name := trimSpace opts.key.name, email := trimSpace opts.key.email, ttl := ttl
        encryptionSubkeyIndex := UInt16.ofNat opts.encIndex
        authenticationSubkeyIndex := UInt16.ofNat opts.authIndex
        signingSubkeyIndex := UInt16.ofNat opts.sigIndex
        subkeys := subkeys }
    let (seed, dm) ← decodeMnemonicFromInputV L C env opts.input verbose
    let mnk ← silent (lift (new C seed dm.creation (some keyOptions)))
    let password ← (if opts.key.encryptKeys then askPassword keyPasswordPrompt true else pure [] : ProgV Bytes)
    let key ← silent (exportKey C mnk master opts.selfCert password)
    -- 194-198
    if verbose then do
      eprintln (str "Re-derived OpenPGP key:")
      printKeyDebugInfo F C mnk
      eprintln []
    printKeyV (env.armor key)

/-- convert.go:48-85 decodeAndConvertPhrase -/
def decodeAndConvertPhraseV (L : WordList) (C : Crypto) (env : Env) (opts : ConvertOptions)
    (verbose : Bool) : ProgV Unit := do
  let (seed, dm) ← decodeMnemonicFromInputV L C env opts.input verbose
  let words ← (if opts.encryptPhrase then do
      let phrasePassword ← askPassword phrasePasswordPrompt true
      silent (random (encodeMnemonicEncrypted L C.toPhraseCrypto seed dm.creationOffset phrasePassword))
    else silent (lift (encodeMnemonicPlaintext L seed dm.creationOffset)) : ProgV (List Bytes))
  if opts.input.inputWordFile = [] then printMnemonicV env words
  else silent (save env words opts.input.inputWordFile)

/-- common_opts.go:15-22, the value of -verbose -/
def setVerbose (o : Bool) (s : Bytes × FlagValue) : Bool :=
  match s with
  | (name, .bool b) => if name = str "verbose" then b else o
  | _ => o

def verboseOption (settings : List (Bytes × FlagValue)) : Bool := settings.foldl setVerbose false

/-- generate.go:59-61, recover.go:77-79, convert.go:43-45 -/
def programV (F : Fmt) (L : WordList) (C : Crypto) (env : Env) (settings : List (Bytes × FlagValue)) :
    Cmd → ProgV Unit
  | .root => pure ()
  | .generate => generateAndPrintKeyV F L C env (generateOptions settings) (verboseOption settings)
  | .recover => recoverAndPrintKeyV F L C env (recoverOptions settings) (verboseOption settings)
  | .convert => decodeAndConvertPhraseV L C env (convertOptions settings) (verboseOption settings)

end Verif.Model.Cli
