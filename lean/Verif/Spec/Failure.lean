import Verif.Spec.Words

/-!
# Why a command may fail

One constructor for each cause; the error it leads to is the index. Independent of the model, except that
options and environment come in its records.
-/

namespace Verif.Spec

open Verif.Model (WordList)
open Verif.Model.Cli

/-- What a call of userInputPassword can return. -/
inductive PromptResult : Res Bytes → Prop where
  | password {p : Bytes} : p ≠ [] → PromptResult (.ok p)
  | failed {e : Err} : e ∈ [Err.aborted, .stdinRead, .terminalState] → PromptResult (.err e)

/-- An option of generate and recover is not of the documented form; a duration whose number of nanoseconds
has its 64th bit set counts as negative. -/
inductive BadKeyFlags (f : KeyFlags) : Err → Prop where
  | duration : f.ttl ≠ [] → (¬ ∃ q u, IsTTL f.ttl q u) → BadKeyFlags f .badDuration
  | negative {q u : Nat} : IsTTL f.ttl q u → 2 ^ 63 ≤ q * u * 10 ^ 9 % 2 ^ 64 → BadKeyFlags f .ttlInvalid
  | only {elems : List Bytes} {e : Bytes} : f.only ≠ [] → IsList f.only elems → e ∈ elems →
    e ∉ ["master", "encryption", "authentication", "signing"].map str → BadKeyFlags f .badOnlyElement

/-- The phrase cannot be written to the file. -/
inductive SaveFails (env : Env) (path : Bytes) : Err → Prop where
  | unknown : env.save.statFails = true → SaveFails env path .fileInaccessible
  | exists : env.fs.read path ≠ none → SaveFails env path .fileExists
  | refused : env.fs.read path = none → env.save.openFails = true ∨ env.save.writeFails ≠ none →
    SaveFails env path .fileWrite

/-- Random bytes that generate needs -/
def generateNeeds (opts : GenerateOptions) : Nat :=
  (if opts.unsafeEntropy = [] then 16 else 0) + (if opts.key.encryptKeys then 96 else 0) +
    (if opts.encryptPhrase then 3 else 0)

inductive GenerateFails (env : Env) (opts : GenerateOptions) (prompts : List (Res Bytes)) (rnd : Bytes) :
    Err → Prop where
  | flags {e : Err} : BadKeyFlags opts.key e → GenerateFails env opts prompts rnd e
  | noEntropyFile : opts.unsafeEntropy ≠ [] → opts.unsafeEntropy ≠ str "-" →
    env.fs.read opts.unsafeEntropy = none → GenerateFails env opts prompts rnd .noEntropyFile
  | shortStdin : opts.unsafeEntropy = str "-" → env.stdin.length < 16 →
    GenerateFails env opts prompts rnd .randomRead
  | shortFile {content : Bytes} : opts.unsafeEntropy ≠ [] → opts.unsafeEntropy ≠ str "-" →
    env.fs.read opts.unsafeEntropy = some content → content.length < 16 →
    GenerateFails env opts prompts rnd .randomRead
  | random : rnd.length < generateNeeds opts → GenerateFails env opts prompts rnd .randomRead
  | late : (1672531200 + (2 ^ 31 - 1)) * 10 ^ 9 < env.now → GenerateFails env opts prompts rnd .creationTooLate
  | early : env.now < 1672531200 * 10 ^ 9 → GenerateFails env opts prompts rnd .creationTooEarly
  | prompt {e : Err} : opts.key.encryptKeys = true ∨ opts.encryptPhrase = true → .err e ∈ prompts →
    GenerateFails env opts prompts rnd e
  | save {e : Err} : opts.outputWordFile ≠ [] → SaveFails env opts.outputWordFile e →
    GenerateFails env opts prompts rnd e

/-- No phrase can be had from the prompt or from the file. `offer` is the completion that the prompt
offers. -/
inductive InputFails (L : WordList) (offer : Bytes → Option Bytes) (env : Env) (input : InputFlags) :
    Err → Prop where
  | noFile : input.inputWordFile ≠ [] → env.fs.read input.inputWordFile = none →
    InputFails L offer env input .fileOpen
  | fileBadWord {content w : Bytes} {ts : List Bytes} : input.inputWordFile ≠ [] →
    env.fs.read input.inputWordFile = some content → WordsIn content ts → w ∈ ts →
    ¬ IsWord L.word (L.toLower w) → InputFails L offer env input .fileBadWord
  | fileTooLong {content : Bytes} {ts : List Bytes} : input.inputWordFile ≠ [] →
    env.fs.read input.inputWordFile = some content → WordsIn content ts → 100 < ts.length →
    InputFails L offer env input .fileBadFormat
  | fileNoWords {content : Bytes} : input.inputWordFile ≠ [] →
    env.fs.read input.inputWordFile = some content → WordsIn content [] →
    InputFails L offer env input .fileNoWords
  | fileWordCount {content : Bytes} {ts : List Bytes} : input.inputWordFile ≠ [] →
    env.fs.read input.inputWordFile = some content → WordsIn content ts → ts ≠ [] →
    (∀ w ∈ ts, IsWord L.word (L.toLower w)) → ¬ Complete L.word (ts.map L.toLower) → InputFails L offer env input .fileWordCount
  | aborted : input.inputWordFile = [] → lineByLine env input = false → ByKeys L.word offer env.stdin .aborted →
    InputFails L offer env input .aborted
  | keysEnd : input.inputWordFile = [] → lineByLine env input = false → ByKeys L.word offer env.stdin .ended →
    InputFails L offer env input .stdinRead
  | linesEnd : input.inputWordFile = [] → lineByLine env input = true →
    ByLines L.word L.toLower env.stdin .ended → InputFails L offer env input .stdinRead
  | checksum {ws : List Bytes} : Gets L offer env input ws →
    readPhrase (fun w => L.lookup (L.toLower w)) ws = .error .invalidChecksum →
    InputFails L offer env input .invalidChecksum
  /-- The left arrow key makes the prompt accept more words than a phrase has. -/
  | leftArrow {ws : List Bytes} {e : Err} : input.inputWordFile = [] → lineByLine env input = false →
    68 ∈ env.stdin → Gets L offer env input ws →
    readPhrase (fun w => L.lookup (L.toLower w)) ws = .error e → InputFails L offer env input e

inductive RecoverFails (L : WordList) (offer : Bytes → Option Bytes) (env : Env) (opts : RecoverOptions)
    (prompts : List (Res Bytes)) (rnd : Bytes) : Err → Prop where
  | flags {e : Err} : BadKeyFlags opts.key e → RecoverFails L offer env opts prompts rnd e
  | index : 65535 < opts.encIndex ∨ 65535 < opts.authIndex ∨ 65535 < opts.sigIndex →
    RecoverFails L offer env opts prompts rnd .badSubkeyIndex
  | input {e : Err} : InputFails L offer env opts.input e → RecoverFails L offer env opts prompts rnd e
  | prompt {e : Err} : .err e ∈ prompts → RecoverFails L offer env opts prompts rnd e
  | random : opts.key.encryptKeys = true → rnd.length < 96 →
    RecoverFails L offer env opts prompts rnd .randomRead

inductive ConvertFails (L : WordList) (offer : Bytes → Option Bytes) (env : Env) (opts : ConvertOptions)
    (prompts : List (Res Bytes)) (rnd : Bytes) : Err → Prop where
  | input {e : Err} : InputFails L offer env opts.input e → ConvertFails L offer env opts prompts rnd e
  | prompt {e : Err} : .err e ∈ prompts → ConvertFails L offer env opts prompts rnd e
  | random : opts.encryptPhrase = true → rnd.length < 3 → ConvertFails L offer env opts prompts rnd .randomRead
  | save {e : Err} : opts.input.inputWordFile ≠ [] → e = .fileExists ∨ e = .fileInaccessible →
    SaveFails env opts.input.inputWordFile e → ConvertFails L offer env opts prompts rnd e

end Verif.Spec
