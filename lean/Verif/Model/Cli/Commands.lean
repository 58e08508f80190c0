import Verif.Model.Cli.Files
import Verif.Model.Cli.Flags
import Verif.Model.Cli.Input
import Verif.Model.Cli.Layout
import Verif.Model.Mnemonikey

/-!
# The three subcommands: `generate.go`, `recover.go`, `convert.go`

A command is a program over the state `St`: the password prompts still to be answered, the rest of
`rand.Reader`, and the actions done so far. The operating system is the record `Env`. Messages on standard
error and `-verbose` are left out; they are in `Output.lean`. Each call of userInputPassword returns the next
element of `prompts` (what it can return: `Model/Cli/Password.lean`; what it does on one input with the words:
`Session.lean`); when there is none the command is still waiting.
-/

namespace Verif.Model.Cli

open Verif.Model

/-- How far a command has come. -/
inductive Outcome (α : Type) where
  | ok (a : α)
  | err (e : Err)
  | panic (p : Panic)
  | waits (confirm : Bool)     -- at a password prompt
  | loops     -- for ever
  deriving DecidableEq, Repr

structure St where
  prompts : List (Res Bytes)
  rnd : Bytes
  acts : List Act
  deriving DecidableEq, Repr

def Prog (α : Type) : Type := St → Outcome α × St

def Prog.bind {α β : Type} (x : Prog α) (f : α → Prog β) : Prog β := fun st =>
  match x st with
  | (.ok a, st) => f a st
  | (.err e, st) => (.err e, st)
  | (.panic p, st) => (.panic p, st)
  | (.waits confirm, st) => (.waits confirm, st)
  | (.loops, st) => (.loops, st)

instance : Monad Prog where
  pure a := fun st => (.ok a, st)
  bind := Prog.bind

/-- A computation without effects -/
def lift {α : Type} (r : Res α) : Prog α := fun st =>
  match r with
  | .ok a => (.ok a, st)
  | .err e => (.err e, st)
  | .panic p => (.panic p, st)

/-- generate.go:121 and 139, recover.go:119 and 178, convert.go:56: one call of userInputPassword -/
def userInputPassword (confirm : Bool) : Prog Bytes := fun st =>
  match st.prompts with
  | [] => (.waits confirm, st)
  | .ok p :: rest => (.ok p, { st with prompts := rest })
  | .err e :: rest => (.err e, { st with prompts := rest })
  | .panic p :: rest => (.panic p, { st with prompts := rest })

/-- A computation that reads from `rand.Reader` -/
def random {α : Type} (f : Bytes → Res (α × Bytes)) : Prog α := fun st =>
  match f st.rnd with
  | .ok (a, rnd) => (.ok a, { st with rnd := rnd })
  | .err e => (.err e, st)
  | .panic p => (.panic p, st)

def emit (acts : List Act) : Prog Unit := fun st => (.ok (), { st with acts := st.acts ++ acts })

structure Env where
  /-- `time.Now()`, nanoseconds since 1970 -/
  now : Int
  fs : FS
  save : SaveEnv
  stdin : Bytes
  /-- terminal.go:67-73 getTerminalSize: width of the terminal, 75 when it is not known -/
  columns : Nat
  /-- mnemonikey.go:235-248 armorEncode: the ASCII armor of a private key, made by the OpenPGP library.
  Taken to be a function of the packets that does not fail (it writes to a buffer in memory). -/
  armor : Bytes → Bytes
  /-- word_input.go:34: the text of the error of `term.MakeRaw`, if it fails (standard input is not a
  terminal) -/
  rawError : Option Bytes := none

/-- generate.go:190-191, the text laid out after a phrase -/
def notice : Bytes :=
  str ("Once you have saved it, use the 'mnemonikey recover' command " ++
    "to verify that you have saved the phrase correctly.\n\n")

/-- generate.go:177-199 printMnemonic. The layout loop runs for at most as many rounds as there are words
(19), or for ever: 19 steps decide which (`c57_phrase_notice`). -/
def printMnemonic (env : Env) (words : List Bytes) : Prog Unit := fun st =>
  let st := { st with acts := st.acts ++ [.showPhrase words] }
  match justifyTerminalWidth 19 env.columns 0 notice with
  | none => (.loops, st)
  | some (.ok _) => (.ok (), st)
  | some (.err e) => (.err e, st)
  | some (.panic p) => (.panic p, st)

/-- generate.go:155, convert.go:79: a call of saveMnemonic -/
def save (env : Env) (words : List Bytes) (wordFile : Bytes) : Prog Unit := do
  emit (saveMnemonic env.fs env.save words wordFile).1
  lift (saveMnemonic env.fs env.save words wordFile).2

/-- generate.go:167, recover.go:201: fmt.Println(pgpArmorKey) -/
def printKey (armored : Bytes) : Prog Unit := emit ((armored ++ str "\n").map .stdout)

/-- common_opts.go:27-33 GenerateRecoverOptions -/
structure KeyFlags where
  name : Bytes
  email : Bytes
  ttl : Bytes
  encryptKeys : Bool
  only : Bytes
  deriving DecidableEq, Repr

/-- generate.go:19-26 GenerateOptions (without Verbose) -/
structure GenerateOptions where
  key : KeyFlags
  outputWordFile : Bytes
  encryptPhrase : Bool
  unsafeEntropy : Bytes
  deriving DecidableEq, Repr

/-- generate.go:75-80, recover.go:147-152 -/
def ttlOf (flag : Bytes) : Res Int := if flag ≠ [] then parseTTL flag else .ok 0

/-- generate.go:88-112, the entropy source and the seed read from it. Reading `-unsafe-entropy -` and a
later prompt share standard input; the prompts are given separately here, and `Session.lean` says what they get. -/
def seedOf (env : Env) (unsafeEntropy : Bytes) : Prog Seed :=
  if unsafeEntropy ≠ [] then
    lift (do
      let source ← (if unsafeEntropy = str "-" then .ok env.stdin
        else match env.fs.read unsafeEntropy with
          | none => .err .noEntropyFile
          | some content => .ok content : Res Bytes)
      let (seed, _) ← generateSeed source
      .ok seed)
  else random generateSeed

/-- generate.go:119-125, recover.go:176-182: the password for the exported key -/
def keyPassword (encryptKeys : Bool) : Prog Bytes := 
  if encryptKeys then userInputPassword true else pure []

/-- generate.go:127-135, recover.go:184-192, mnemonikey.go:176-211: the exported key, before armor -/
def exportKey (C : Crypto) (mnk : Mnemonikey) (master selfCert : Bool) (password : Bytes) :
    Prog Bytes :=
  if master then random (mnk.encodePGP C password)
  else random (mnk.encodeSubkeysPGP C password selfCert)

/-- generate.go:64-175 generateAndPrintKey -/
def generateAndPrintKey (L : WordList) (C : Crypto) (env : Env) (opts : GenerateOptions) :
    Prog Unit := do
  let ttl ← lift (ttlOf opts.key.ttl)
  let (master, subkeys) ← lift (decodeOnlyKeyTypes opts.key.only)
  let keyOptions : KeyOptions :=
    { name := trimSpace opts.key.name, email := trimSpace opts.key.email, ttl := ttl
      encryptionSubkeyIndex := 0, authenticationSubkeyIndex := 0, signingSubkeyIndex := 0
      subkeys := subkeys }
  let seed ← seedOf env opts.unsafeEntropy
  let mnk ← lift (new C seed env.now (some keyOptions))
  let password ← keyPassword opts.key.encryptKeys
  let key ← exportKey C mnk master true password
  let words ← (if opts.encryptPhrase then do
      let phrasePassword ← userInputPassword true
      random (mnk.encodeMnemonicEncrypted L C phrasePassword)
    else lift (mnk.encodeMnemonicPlaintext L) : Prog (List Bytes))
  if opts.outputWordFile ≠ [] then save env words opts.outputWordFile
  printKey (env.armor key)
  if opts.outputWordFile = [] then printMnemonic env words

/-- common_opts.go:107-110 RecoverConvertOptions -/
structure InputFlags where
  simple : Bool
  inputWordFile : Bytes
  deriving DecidableEq, Repr

/-- recover.go:92-96, word_input.go:34-39: whether the words are asked for line by line -/
def byLine (env : Env) (opts : InputFlags) : Bool := opts.simple || env.rawError.isSome

/-- recover.go:86-99, the words of the phrase -/
def inputWords (L : WordList) (env : Env) (opts : InputFlags) : Res (List Bytes) :=
  if opts.inputWordFile ≠ [] then readWordFile L (env.fs.read opts.inputWordFile)
  else if byLine env opts then userInputMnemonicSimple L env.stdin
  else userInputMnemonic L env.stdin

/-- recover.go:116-134, the loop asking for the phrase password, on an encrypted phrase, over the prompts
still to be answered -/
def passwordLoop (C : Crypto) (dm : DecodedMnemonic) :
    List (Res Bytes) → Outcome Seed × List (Res Bytes)
  | [] => (.waits false, [])
  | .err e :: rest => (.err e, rest)
  | .panic p :: rest => (.panic p, rest)
  | .ok password :: rest =>
    match dm.decryptSeed C.toPhraseCrypto password with
    | .err .mnemonicDecryption => passwordLoop C dm rest
    | .err e => (.err e, rest)
    | .panic p => (.panic p, rest)
    | .ok seed => (.ok seed, rest)

/-- recover.go:116-134, on any phrase. A plaintext phrase is tried with a nil password; were it refused, the
loop would try it again for ever. -/
def seedLoop (C : Crypto) (dm : DecodedMnemonic) (prompts : List (Res Bytes)) :
    Outcome Seed × List (Res Bytes) :=
  if dm.encrypted then passwordLoop C dm prompts
  else match dm.decryptSeed C.toPhraseCrypto [] with
    | .err .mnemonicDecryption => (.loops, prompts)
    | .err e => (.err e, prompts)
    | .panic p => (.panic p, prompts)
    | .ok seed => (.ok seed, prompts)

/-- The loop as a program -/
def askSeed (C : Crypto) (dm : DecodedMnemonic) : Prog Seed := fun st =>
  ((seedLoop C dm st.prompts).1, { st with prompts := (seedLoop C dm st.prompts).2 })

/-- recover.go:82-135 decodeMnemonicFromInput -/
def decodeMnemonicFromInput (L : WordList) (C : Crypto) (env : Env) (opts : InputFlags) :
    Prog (Seed × DecodedMnemonic) := do
  let words ← lift (inputWords L env opts)
  let dm ← lift (decodeMnemonic L words)
  let seed ← askSeed C dm
  pure (seed, dm)

/-- recover.go:18-27 RecoverOptions (without Verbose); the index flags are Go uint (64 bits). -/
structure RecoverOptions where
  key : KeyFlags
  input : InputFlags
  selfCert : Bool
  encIndex : Nat
  authIndex : Nat
  sigIndex : Nat
  deriving DecidableEq, Repr

/-- recover.go:16 -/
def maxSubkeyIndex : Nat := 0xFFFF

/-- recover.go:137-205 recoverAndPrintKey. `uint16(x)` keeps the low 16 bits. -/
def recoverAndPrintKey (L : WordList) (C : Crypto) (env : Env) (opts : RecoverOptions) :
    Prog Unit := do
  let ttl ← lift (ttlOf opts.key.ttl)
  if opts.encIndex > maxSubkeyIndex ∨ opts.authIndex > maxSubkeyIndex ∨
      opts.sigIndex > maxSubkeyIndex then
    lift (.err .badSubkeyIndex)
  else do
    let (master, subkeys) ← lift (decodeOnlyKeyTypes opts.key.only)
    let keyOptions : KeyOptions :=
      { name := trimSpace opts.key.name, email := trimSpace opts.key.email, ttl := ttl
        encryptionSubkeyIndex := UInt16.ofNat opts.encIndex
        authenticationSubkeyIndex := UInt16.ofNat opts.authIndex
        signingSubkeyIndex := UInt16.ofNat opts.sigIndex
        subkeys := subkeys }
    let (seed, dm) ← decodeMnemonicFromInput L C env opts.input
    let mnk ← lift (new C seed dm.creation (some keyOptions))
    let password ← keyPassword opts.key.encryptKeys
    let key ← exportKey C mnk master opts.selfCert password
    printKey (env.armor key)

/-- convert.go:11-18 ConvertOptions (without Verbose) -/
structure ConvertOptions where
  input : InputFlags
  /-- GenerateConvertOptions.OutputWordFile, set by the flag; never read -/
  outputWordFile : Bytes
  encryptPhrase : Bool
  deriving DecidableEq, Repr

/-- convert.go:48-85 decodeAndConvertPhrase -/
def decodeAndConvertPhrase (L : WordList) (C : Crypto) (env : Env) (opts : ConvertOptions) :
    Prog Unit := do
  let (seed, dm) ← decodeMnemonicFromInput L C env opts.input
  let words ← (if opts.encryptPhrase then do
      let phrasePassword ← userInputPassword true
      random (encodeMnemonicEncrypted L C.toPhraseCrypto seed dm.creationOffset phrasePassword)
    else lift (encodeMnemonicPlaintext L seed dm.creationOffset) : Prog (List Bytes))
  if opts.input.inputWordFile = [] then printMnemonic env words
  else save env words opts.input.inputWordFile

/-- A whole run: outcome and actions -/
def Prog.outcome {α : Type} (x : Prog α) (prompts : List (Res Bytes)) (rnd : Bytes) : Outcome α :=
  (x ⟨prompts, rnd, []⟩).1

def Prog.acts {α : Type} (x : Prog α) (prompts : List (Res Bytes)) (rnd : Bytes) : List Act :=
  (x ⟨prompts, rnd, []⟩).2.acts

end Verif.Model.Cli
