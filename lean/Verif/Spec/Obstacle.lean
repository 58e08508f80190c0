import Verif.Spec.Message
import Verif.Spec.Success

/-!
# The obstacles of a command, in the order in which it meets them

How a run of generate, recover or convert ends: without error, with an error and its message, waiting for a
password, or stuck. Each relation below says what one step can run into; `next` is the rest of the run if it
runs into nothing. `quote` is the verb `%q` of fmt.
-/

namespace Verif.Spec

open Verif.Model (WordList PhraseCrypto)
open Verif.Model.Cli

/-- How a run ends -/
abbrev Ending := OutcomeE Unit → Prop

/-- A run that ends with this error and message -/
abbrev fails (k : Err) (text : Bytes) : OutcomeE Unit := .err ⟨k, text⟩

/-- The option -ttl is read. -/
inductive Duration (quote : Bytes → Bytes) (ttl : Bytes) (next : Ending) : Ending where
  | bad : ttl ≠ [] → (¬ ∃ q u, IsTTL ttl q u) → Duration quote ttl next
      (fails .badDuration (str "incorrect usage: invalid duration parameter: " ++ quote ttl))
  | good {o : OutcomeE Unit} : (ttl = [] ∨ ∃ q u, IsTTL ttl q u) → next o → Duration quote ttl next o

/-- The option -only is read; the first element that is not known is named. -/
inductive Only (quote : Bytes → Bytes) (only : Bytes) (next : (String → Prop) → Ending) : Ending where
  | bad {known rest : List Bytes} {e : Bytes} : only ≠ [] → IsList only (known ++ e :: rest) →
    (∀ k ∈ known, k ∈ keyTypes) → e ∉ keyTypes →
    Only quote only next (fails .badOnlyElement (str "incorrect usage: unknown -only list element " ++ quote e))
  | good {part : String → Prop} {o : OutcomeE Unit} : Parts only part → next part o → Only quote only next o

/-- The indices of the subkeys are checked. -/
inductive Indices (enc auth sig : Nat) (next : Ending) : Ending where
  | large : 65535 < enc ∨ 65535 < auth ∨ 65535 < sig → Indices enc auth sig next
      (fails .badSubkeyIndex (str "invalid subkey index; must be less than or equal to 65535"))
  | good {o : OutcomeE Unit} : enc ≤ 65535 → auth ≤ 65535 → sig ≤ 65535 → next o → Indices enc auth sig next o

/-- 16 bytes of entropy are read, from the system's random bytes or from a file or standard input; `next` gets
what is left of the former. -/
inductive Entropy (os : OsText) (env : Env) (source rnd : Bytes) (next : Bytes → Ending) : Ending where
  | noFile : source ≠ [] → entropySource env source = none → Entropy os env source rnd next
      (fails .noEntropyFile (str "failed to open entropy source file: " ++ os.entropyOpen))
  | empty : source ≠ [] → entropySource env source = some [] → Entropy os env source rnd next
      (fails .randomRead (str "failed to generate 128 bits of secure random seed data: EOF"))
  | short {s : Bytes} : source ≠ [] → entropySource env source = some s → s ≠ [] → s.length < 16 →
    Entropy os env source rnd next
      (fails .randomRead (str "failed to generate 128 bits of secure random seed data: unexpected EOF"))
  | system : source = [] → rnd.length < 16 → Entropy os env source rnd next
      (fails .randomRead (str "failed to generate 128 bits of secure random seed data: " ++ os.random))
  | good {seed left : Bytes} {o : OutcomeE Unit} : SeedBytes env rnd source seed left → next left o →
    Entropy os env source rnd next o

/-- A lifetime that is not negative as a signed number of nanoseconds with 64 bits -/
def Lifetime (ttl : Bytes) : Prop := ttl = [] ∨ ∃ q u, IsTTL ttl q u ∧ q * u * 10 ^ 9 % 2 ^ 64 < 2 ^ 63

/-- The key is made at time `now`. -/
inductive Made (ttl : Bytes) (now : Int) (next : Ending) : Ending where
  | negative : ¬ Lifetime ttl → Made ttl now next (fails .ttlInvalid (str "key time-to-live cannot be negative"))
  | late : Lifetime ttl → (1672531200 + (2 ^ 31 - 1)) * 10 ^ 9 < now → Made ttl now next
      (fails .creationTooLate (str "key creation time exceeds maximum"))
  | early : Lifetime ttl → now < 1672531200 * 10 ^ 9 → Made ttl now next
      (fails .creationTooEarly (str "key creation time exceeds maximum"))
  | good {o : OutcomeE Unit} : Lifetime ttl → 1672531200 * 10 ^ 9 ≤ now →
    now ≤ (1672531200 + (2 ^ 31 - 1)) * 10 ^ 9 → next o → Made ttl now next o

/-- The key of a phrase is made again; its time is never wrong. -/
inductive Remade (ttl : Bytes) (next : Ending) : Ending where
  | negative : ¬ Lifetime ttl → Remade ttl next
      (fails .ttlInvalid (str "failed to re-derive PGP keys: key time-to-live cannot be negative"))
  | good {o : OutcomeE Unit} : Lifetime ttl → next o → Remade ttl next o

/-- A new password is asked for, if so wanted. -/
inductive Password (wanted : Bool) (prompts : List (ResE Bytes)) (next : List (ResE Bytes) → Ending) : Ending where
  | no {o : OutcomeE Unit} : wanted = false → next prompts o → Password wanted prompts next o
  | waits : wanted = true → prompts = [] → Password wanted prompts next (.waits true)
  | failed {e : GoErr} {rest : List (ResE Bytes)} : wanted = true → prompts = .err e :: rest →
    Password wanted prompts next (.err e)
  | typed {p : Bytes} {rest : List (ResE Bytes)} {o : OutcomeE Unit} : wanted = true → prompts = .ok p :: rest →
    next rest o → Password wanted prompts next o

/-- The name of a part in messages -/
def packetName (type : String) : Bytes := if type = "master" then str "master key" else str type ++ str " subkey"

/-- `n` random bytes are not enough for those of the parts `types` that are asked for: 8 bytes of salt and then 16
of IV are taken for each, and the part is named for which some are missing. -/
inductive RunsOut (os : OsText) (part : String → Prop) : List String → Nat → Bytes → Prop where
  | other {type : String} {types : List String} {n : Nat} {t : Bytes} : ¬ part type →
    RunsOut os part types n t → RunsOut os part (type :: types) n t
  | later {type : String} {types : List String} {n : Nat} {t : Bytes} : part type →
    RunsOut os part types n t → RunsOut os part (type :: types) (24 + n) t
  | salt {type : String} {types : List String} {n : Nat} : part type → n < 8 →
    RunsOut os part (type :: types) n
      (str "failed to encode " ++ packetName type ++ str " packet: failed to read random salt: " ++ os.random)
  | iv {type : String} {types : List String} {n : Nat} : part type → 8 ≤ n → n < 24 →
    RunsOut os part (type :: types) n
      (str "failed to encode " ++ packetName type ++ str " packet: failed to read random IV: " ++ os.random)

/-- The key is exported; `next` gets the number of random bytes left. -/
inductive Packed (os : OsText) (protect : Bool) (part : String → Prop) (n : Nat) (next : Nat → Ending) :
    Ending where
  | random {t : Bytes} : protect = true →
    RunsOut os part ["master", "encryption", "authentication", "signing"] n t →
    Packed os protect part n next (fails .randomRead t)
  | good {o : OutcomeE Unit} {left : Nat} : n = randomForKey protect part + left → next left o →
    Packed os protect part n next o

/-- The phrase is made. -/
inductive Worded (os : OsText) (protect : Bool) (n : Nat) (next : Ending) : Ending where
  | random : protect = true → n < 3 → Worded os protect n next (fails .randomRead os.random)
  | good {o : OutcomeE Unit} : randomForPhrase protect ≤ n → next o → Worded os protect n next o

/-- The phrase is saved in a file. -/
inductive Saved (os : OsText) (env : Env) (file : Bytes) : Ending where
  | unknown : env.save.statFails = true → Saved os env file
      (fails .fileInaccessible (str "failed to write words to file: failed to write word-file to " ++ file ++
        str ": path is not accessible: " ++ os.stat))
  | exists : env.save.statFails = false → env.fs.read file ≠ none → Saved os env file
      (fails .fileExists (str "failed to write words to file: refused to write word-file to " ++ file ++
        str ": file already exists"))
  | refused : env.save.statFails = false → env.fs.read file = none →
    env.save.openFails = true ∨ env.save.writeFails ≠ none → Saved os env file
      (fails .fileWrite (str "failed to write words to file: failed to write words to file: " ++ os.write))
  | good : env.save.statFails = false → env.fs.read file = none → env.save.openFails = false →
    env.save.writeFails = none → Saved os env file (.ok ())

/-- The phrase is shown, with a warning that needs 17 columns. -/
inductive Displayed (columns : Nat) : Ending where
  | panics : columns < 2 → Displayed columns (.panic .divideByZero)
  | loops : 2 ≤ columns → columns < 17 → Displayed columns .loops
  | good : 17 ≤ columns → Displayed columns (.ok ())

/-- How generate ends -/
def GenerateEnds (quote : Bytes → Bytes) (os : OsText) (env : Env) (opts : GenerateOptions)
    (prompts : List (ResE Bytes)) (rnd : Bytes) : Ending :=
  Duration quote opts.key.ttl <| Only quote opts.key.only fun part =>
  Entropy os env opts.unsafeEntropy rnd fun left => Made opts.key.ttl env.now <|
  Password opts.key.encryptKeys prompts fun prompts => Packed os opts.key.encryptKeys part left.length fun n =>
  Password opts.encryptPhrase prompts fun _ => Worded os opts.encryptPhrase n <|
  if opts.outputWordFile = [] then Displayed env.columns else Saved os env opts.outputWordFile

/-- The words of a phrase are read from a file, or entered. -/
inductive Entered (os : OsText) (L : WordList) (offer : Bytes → Option Bytes) (env : Env) (input : InputFlags)
    (next : List Bytes → Ending) : Ending where
  | noFile : input.inputWordFile ≠ [] → env.fs.read input.inputWordFile = none → Entered os L offer env input next
      (fails .fileOpen os.wordOpen)
  | unknown {content w : Bytes} {good rest : List Bytes} : input.inputWordFile ≠ [] →
    env.fs.read input.inputWordFile = some content → WordsIn content (good ++ w :: rest) → good.length ≤ 100 →
    (∀ g ∈ good, IsWord L.word (L.toLower g)) → ¬ IsWord L.word (L.toLower w) → Entered os L offer env input next
      (fails .fileBadWord (str "found word in " ++ input.inputWordFile ++ str " not present in wordlist"))
  | tooLong {content : Bytes} {ts : List Bytes} : input.inputWordFile ≠ [] →
    env.fs.read input.inputWordFile = some content → WordsIn content ts → 100 < ts.length →
    (∀ w ∈ ts.take 101, IsWord L.word (L.toLower w)) →
    Entered os L offer env input next (fails .fileBadFormat (str "invalid format for word file"))
  | noWords {content : Bytes} : input.inputWordFile ≠ [] → env.fs.read input.inputWordFile = some content →
    WordsIn content [] → Entered os L offer env input next
      (fails .fileNoWords (str "found only no words in word file " ++ input.inputWordFile))
  | count {content : Bytes} {ts : List Bytes} {n v : Nat} : input.inputWordFile ≠ [] →
    env.fs.read input.inputWordFile = some content → WordsIn content ts → ts ≠ [] → ts.length ≤ 100 →
    (∀ w ∈ ts, IsWord L.word (L.toLower w)) → n = ts.length → v = announced L (ts.map L.toLower) → n ≠ wordsWanted v → Entered os L offer env input next
      (fails .fileWordCount (str "found only " ++ dec n ++ str " words in word file " ++ input.inputWordFile ++
        str ", expected " ++ dec (wordsWanted v) ++ str " words for version " ++ dec v ++ str " phrase"))
  | file {content : Bytes} {ts : List Bytes} {o : OutcomeE Unit} : input.inputWordFile ≠ [] →
    env.fs.read input.inputWordFile = some content → WordsIn content ts → Complete L.word (ts.map L.toLower) →
    next (ts.map L.toLower) o → Entered os L offer env input next o
  | lines : input.inputWordFile = [] → lineByLine env input = true → ByLines L.word L.toLower env.stdin .ended →
    Entered os L offer env input next (fails .stdinRead (str "unexpected EOF on standard input"))
  | keys : input.inputWordFile = [] → lineByLine env input = false → ByKeys L.word offer env.stdin .ended →
    Entered os L offer env input next (fails .stdinRead (str "failed to read from standard input: EOF"))
  | aborted : input.inputWordFile = [] → lineByLine env input = false → ByKeys L.word offer env.stdin .aborted →
    Entered os L offer env input next (fails .aborted (str "aborted"))
  | typed {ws : List Bytes} {o : OutcomeE Unit} : input.inputWordFile = [] → Gets L offer env input ws →
    next ws o → Entered os L offer env input next o

/-- Why words are no phrase -/
inductive Unreadable (L : WordList) (ws : List Bytes) : Err → Bytes → Prop where
  | checksum : Unreadable L ws .invalidChecksum (str "failed to validate checksum embedded in mnemonic phrase")
  | size : Unreadable L ws .invalidWordCount (str "mnemonic is not the correct length")
  | word : Unreadable L ws .invalidWord (str "word is not a member of the wordlist")
  | version : Unreadable L ws .invalidVersion
      (str "invalid version number in recovery phrase: " ++ dec (announced L ws))

/-- The phrase is read, and its password is asked for until it is right, if it has one. -/
inductive Unlocked (L : WordList) (index : Bytes → Option Nat) (C : PhraseCrypto) (ws : List Bytes)
    (prompts : List (ResE Bytes)) (next : List (ResE Bytes) → Ending) : Ending where
  | unreadable {e : Err} {t : Bytes} : readPhrase index ws = .error e → Unreadable L ws e t →
    Unlocked L index C ws prompts next (fails e t)
  | plaintext {seed offset : Nat} {o : OutcomeE Unit} : Holds index C ws none seed offset → next prompts o →
    Unlocked L index C ws prompts next o
  | waits {wrong : List Bytes} {e salt v offset : Nat} : readPhrase index ws = .ok (.encrypted e salt v offset) →
    (∀ p ∈ wrong, ∀ s o, ¬ Holds index C ws (some p) s o) → prompts = wrong.map .ok →
    Unlocked L index C ws prompts next (.waits false)
  | failed {wrong : List Bytes} {x : GoErr} {rest : List (ResE Bytes)} {e salt v offset : Nat} :
    readPhrase index ws = .ok (.encrypted e salt v offset) →
    (∀ p ∈ wrong, ∀ s o, ¬ Holds index C ws (some p) s o) → prompts = wrong.map .ok ++ .err x :: rest →
    Unlocked L index C ws prompts next (.err x)
  | right {wrong : List Bytes} {p : Bytes} {rest : List (ResE Bytes)} {seed offset : Nat} {o : OutcomeE Unit} :
    (∀ p ∈ wrong, ∀ s o, ¬ Holds index C ws (some p) s o) → Holds index C ws (some p) seed offset →
    prompts = wrong.map .ok ++ .ok p :: rest → next rest o → Unlocked L index C ws prompts next o

/-- How recover ends -/
def RecoverEnds (quote : Bytes → Bytes) (os : OsText) (L : WordList) (offer : Bytes → Option Bytes)
    (index : Bytes → Option Nat) (C : PhraseCrypto) (env : Env) (opts : RecoverOptions)
    (prompts : List (ResE Bytes)) (rnd : Bytes) : Ending :=
  Duration quote opts.key.ttl <| Indices opts.encIndex opts.authIndex opts.sigIndex <|
  Only quote opts.key.only fun part => Entered os L offer env opts.input fun ws =>
  Unlocked L index C ws prompts fun prompts => Remade opts.key.ttl <|
  Password opts.key.encryptKeys prompts fun _ => Packed os opts.key.encryptKeys part rnd.length fun _ =>
  (· = .ok ())

/-- How convert ends -/
def ConvertEnds (os : OsText) (L : WordList) (offer : Bytes → Option Bytes) (index : Bytes → Option Nat)
    (C : PhraseCrypto) (env : Env) (opts : ConvertOptions) (prompts : List (ResE Bytes)) (rnd : Bytes) : Ending :=
  Entered os L offer env opts.input fun ws => Unlocked L index C ws prompts fun prompts =>
  Password opts.encryptPhrase prompts fun _ => Worded os opts.encryptPhrase rnd.length <|
  if opts.input.inputWordFile = [] then Displayed env.columns else Saved os env opts.input.inputWordFile

/-- What a process makes of the end of its command: the line that `main` writes to standard error, and its status.
Two errors are about the usage and need a terminal wide enough for the usage text. -/
inductive Reported (columns needed : Nat) : OutcomeE Unit → Bytes → Status → Prop where
  | success : Reported columns needed (.ok ()) [] (.exited 0)
  | usage {k : Err} {t : Bytes} : k = .badDuration ∨ k = .badOnlyElement → needed ≤ columns →
    Reported columns needed (fails k t) (str "ERROR: " ++ t ++ str "\n") (.exited 1)
  | narrow {k : Err} {t : Bytes} : k = .badDuration ∨ k = .badOnlyElement → columns < needed →
    Reported columns needed (fails k t) [] .loops
  | error {k : Err} {t : Bytes} : k ≠ .badDuration → k ≠ .badOnlyElement →
    Reported columns needed (fails k t) (str "ERROR: " ++ t ++ str "\n") (.exited 1)
  | panics {p : Panic} : Reported columns needed (.panic p) [] (.exited 2)
  | waits {confirm : Bool} : Reported columns needed (.waits confirm) [] .waits
  | loops : Reported columns needed .loops [] .loops

end Verif.Spec
