import Verif.Spec.Failure
import Verif.Model.Cli.Errors

/-!
# What a command says when it fails

One relation for each part of a command, between an error and its text. They depend on the options given on the
command line, on the texts of the operating system (`OsText`), and for a phrase that cannot be read on two
numbers: how many words there are and which version the first word announces. Nothing else can be in a message.
`quote` is the verb `%q` of fmt.
-/

namespace Verif.Spec

open Verif.Model (WordList)
open Verif.Model.Cli (OsText KeyFlags InputFlags GenerateOptions RecoverOptions ConvertOptions ResE GoErr Cmd Env)

/-- A number in decimal -/
def dec (n : Nat) : Bytes := str (toString n)

/-- The four words that `-only` accepts -/
def keyTypes : List Bytes := ["master", "encryption", "authentication", "signing"].map str

inductive FlagText (quote : Bytes → Bytes) (f : KeyFlags) : Err → Bytes → Prop where
  | duration : FlagText quote f .badDuration (str "incorrect usage: invalid duration parameter: " ++ quote f.ttl)
  /-- the first element that is not known is named -/
  | only {known rest : List Bytes} {e : Bytes} : IsList f.only (known ++ e :: rest) → (∀ k ∈ known, k ∈ keyTypes) →
    e ∉ keyTypes → FlagText quote f .badOnlyElement (str "incorrect usage: unknown -only list element " ++ quote e)

inductive NewText : Err → Bytes → Prop where
  | ttl : NewText .ttlInvalid (str "key time-to-live cannot be negative")
  | late : NewText .creationTooLate (str "key creation time exceeds maximum")
  | early : NewText .creationTooEarly (str "key creation time exceeds maximum")

/-- The packets of an export that are encrypted -/
def packetNames : List Bytes :=
  ["master key", "encryption subkey", "authentication subkey", "signing subkey"].map str

inductive ExportText (os : OsText) : Err → Bytes → Prop where
  | salt {what : Bytes} : what ∈ packetNames → ExportText os .randomRead
      (str "failed to encode " ++ what ++ str " packet: failed to read random salt: " ++ os.random)
  | iv {what : Bytes} : what ∈ packetNames → ExportText os .randomRead
      (str "failed to encode " ++ what ++ str " packet: failed to read random IV: " ++ os.random)

inductive SaveText (os : OsText) (file : Bytes) : Err → Bytes → Prop where
  | exists : SaveText os file .fileExists
      (str "failed to write words to file: refused to write word-file to " ++ file ++ str ": file already exists")
  | inaccessible : SaveText os file .fileInaccessible
      (str "failed to write words to file: failed to write word-file to " ++ file ++
        str ": path is not accessible: " ++ os.stat)
  | write : SaveText os file .fileWrite
      (str "failed to write words to file: failed to write words to file: " ++ os.write)

/-- What userInputPassword says: word_input.go:236, 253, 266, 282. The last part of a text is the operating
system's. -/
inductive PromptText : Err → Bytes → Prop where
  | aborted : PromptText .aborted (str "aborted")
  | read (text : Bytes) : PromptText .stdinRead (str "failed to read password: " ++ text)
  | confirm (text : Bytes) : PromptText .stdinRead (str "failed to confirm password: " ++ text)
  | state (text : Bytes) : PromptText .terminalState text

/-- What a call of userInputPassword can return -/
inductive PromptAnswer : ResE Bytes → Prop where
  | password {p : Bytes} : p ≠ [] → PromptAnswer (.ok p)
  | failed {e : GoErr} : PromptText e.kind e.text → PromptAnswer (.err e)

/-- Words that a phrase of this version has; 0 for a version that is not supported -/
def wordsWanted (version : Nat) : Nat := if version = 0 then 14 else if version = 1 then 16 else 0

/-- `n` is the number of words, `v` the version that the first one announces. -/
inductive InputText (os : OsText) (file : Bytes) (n v : Nat) : Err → Bytes → Prop where
  | open : file ≠ [] → InputText os file n v .fileOpen os.wordOpen
  | badWord : file ≠ [] → InputText os file n v .fileBadWord
      (str "found word in " ++ file ++ str " not present in wordlist")
  | format : file ≠ [] → InputText os file n v .fileBadFormat (str "invalid format for word file")
  | noWords : file ≠ [] → InputText os file n v .fileNoWords (str "found only no words in word file " ++ file)
  | count : file ≠ [] → n ≠ wordsWanted v → InputText os file n v .fileWordCount
      (str "found only " ++ dec n ++ str " words in word file " ++ file ++ str ", expected " ++
        dec (wordsWanted v) ++ str " words for version " ++ dec v ++ str " phrase")
  | keys : file = [] → InputText os file n v .stdinRead (str "failed to read from standard input: EOF")
  | lines : file = [] → InputText os file n v .stdinRead (str "unexpected EOF on standard input")
  | aborted : file = [] → InputText os file n v .aborted (str "aborted")
  | checksum : InputText os file n v .invalidChecksum
      (str "failed to validate checksum embedded in mnemonic phrase")
  | size : InputText os file n v .invalidWordCount (str "mnemonic is not the correct length")
  | word : InputText os file n v .invalidWord (str "word is not a member of the wordlist")
  | version : 2 ≤ v → InputText os file n v .invalidVersion
      (str "invalid version number in recovery phrase: " ++ dec v)

/-- The version that the first word of a phrase announces: the first 4 of the 12 bits of its number -/
def announced (L : WordList) (ws : List Bytes) : Nat :=
  match ws with
  | [] => 0
  | w :: _ => ((L.lookup (L.toLower w)).getD 0) / 256

/-- What the file or standard input named by `-unsafe-entropy` holds -/
def entropySource (env : Env) (name : Bytes) : Option Bytes :=
  if name = str "-" then some env.stdin else env.fs.read name

/-- `source` is what the file or standard input named by `-unsafe-entropy` holds. -/
inductive GenerateText (quote : Bytes → Bytes) (os : OsText) (opts : GenerateOptions) (source : Option Bytes)
    (prompts : List (ResE Bytes)) : Err → Bytes → Prop where
  | flags {e : Err} {t : Bytes} : FlagText quote opts.key e t → GenerateText quote os opts source prompts e t
  | noEntropyFile : opts.unsafeEntropy ≠ [] → source = none → GenerateText quote os opts source prompts .noEntropyFile
      (str "failed to open entropy source file: " ++ os.entropyOpen)
  | random : opts.unsafeEntropy = [] → GenerateText quote os opts source prompts .randomRead
      (str "failed to generate 128 bits of secure random seed data: " ++ os.random)
  | entropyEmpty : opts.unsafeEntropy ≠ [] → source = some [] → GenerateText quote os opts source prompts .randomRead
      (str "failed to generate 128 bits of secure random seed data: EOF")
  | entropyShort {s : Bytes} : opts.unsafeEntropy ≠ [] → source = some s → s ≠ [] → s.length < 16 →
    GenerateText quote os opts source prompts .randomRead
      (str "failed to generate 128 bits of secure random seed data: unexpected EOF")
  | new {e : Err} {t : Bytes} : NewText e t → GenerateText quote os opts source prompts e t
  | prompt {e : GoErr} : .err e ∈ prompts → GenerateText quote os opts source prompts e.kind e.text
  | export {e : Err} {t : Bytes} : opts.key.encryptKeys = true → ExportText os e t →
    GenerateText quote os opts source prompts e t
  | phrase : opts.encryptPhrase = true → GenerateText quote os opts source prompts .randomRead os.random
  | save {e : Err} {t : Bytes} : opts.outputWordFile ≠ [] → SaveText os opts.outputWordFile e t →
    GenerateText quote os opts source prompts e t

inductive RecoverText (quote : Bytes → Bytes) (os : OsText) (opts : RecoverOptions) (n v : Nat)
    (prompts : List (ResE Bytes)) : Err → Bytes → Prop where
  | flags {e : Err} {t : Bytes} : FlagText quote opts.key e t → RecoverText quote os opts n v prompts e t
  | index : RecoverText quote os opts n v prompts .badSubkeyIndex
      (str "invalid subkey index; must be less than or equal to 65535")
  | input {e : Err} {t : Bytes} : InputText os opts.input.inputWordFile n v e t →
    RecoverText quote os opts n v prompts e t
  | prompt {e : GoErr} : .err e ∈ prompts → RecoverText quote os opts n v prompts e.kind e.text
  | new {e : Err} {t : Bytes} : NewText e t →
    RecoverText quote os opts n v prompts e (str "failed to re-derive PGP keys: " ++ t)
  | export {e : Err} {t : Bytes} : opts.key.encryptKeys = true → ExportText os e t →
    RecoverText quote os opts n v prompts e t

inductive ConvertText (os : OsText) (opts : ConvertOptions) (n v : Nat) (prompts : List (ResE Bytes)) :
    Err → Bytes → Prop where
  | input {e : Err} {t : Bytes} : InputText os opts.input.inputWordFile n v e t → ConvertText os opts n v prompts e t
  | prompt {e : GoErr} : .err e ∈ prompts → ConvertText os opts n v prompts e.kind e.text
  | phrase : opts.encryptPhrase = true → ConvertText os opts n v prompts .randomRead os.random
  | save {e : Err} {t : Bytes} : opts.input.inputWordFile ≠ [] → SaveText os opts.input.inputWordFile e t →
    ConvertText os opts n v prompts e t

/-- Where the two numbers in a message about a phrase come from: the words of the file, or the words entered -/
def Counted (L : WordList) (offer : Bytes → Option Bytes) (env : Env) (input : InputFlags) (n v : Nat) (k : Err) :
    Prop :=
  n ≤ 100 ∧ v < 16 ∧
  (k = .fileWordCount → ∃ content, env.fs.read input.inputWordFile = some content ∧
    ∃ ts, WordsIn content ts ∧ n = ts.length ∧ v = announced L (ts.map L.toLower)) ∧
  (k = .invalidVersion → ∃ ws, Gets L offer env input ws ∧ v = announced L ws)

end Verif.Spec
