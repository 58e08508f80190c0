import Verif.Spec.Flags
import Verif.Model.Cli.Output

/-!
# What a command lets be seen, apart from the key it prints and the contents of files it writes

The events of a run without the bytes written to standard output and to files, as functions of the options.
-/

namespace Verif.Spec

open Verif.Model.Cli (Ev Act GenerateOptions RecoverOptions ConvertOptions InputFlags)

/-- Not a byte written to standard output or to a file -/
def seen : Ev → Bool
  | .act (.write _) => false
  | .act (.stdout _) => false
  | _ => true

/-- How many passwords are asked for -/
def asked (t : List Ev) : Nat := t.countP fun e => match e with | .password _ _ => true | _ => false

/-- The key password, for -encrypt-keys -/
def keyPrompt (encryptKeys : Bool) : List Ev :=
  if encryptKeys then [.password (str "Enter key encryption password: ") true] else []

/-- The phrase password, for -encrypt-phrase -/
def phrasePrompt (encryptPhrase : Bool) : List Ev :=
  if encryptPhrase then [.password (str "Enter phrase encryption password: ") true] else []

/-- What surrounds the key: it is printed in magenta -/
def coloured : List Ev := [.err (str "\x1b[35m"), .err (str "\x1b[39m")]

/-- generate, before the key is printed -/
def beforeKey (opts : GenerateOptions) : List Ev :=
  (if opts.unsafeEntropy = [] then [] else [.err (str ("\x1b[31m\x1b[1mWARNING:\x1b[22m The -unsafe-entropy option " ++
    "is dangerous and can produce weak PGP keys if used incorrectly.\x1b[39m\n"))]) ++
  keyPrompt opts.key.encryptKeys ++ phrasePrompt opts.encryptPhrase

/-- generate, with the phrase saved in a file that only its owner may read -/
def generateSaved (opts : GenerateOptions) : List Ev :=
  beforeKey opts ++ [.act (.openTrunc opts.outputWordFile 0o600)] ++ coloured

/-- The request for the words of a phrase, unless they are in a file; `problem` is what keeps the terminal from raw
mode. -/
def wordsPrompt (input : InputFlags) (problem : Option Bytes) : List Ev :=
  if input.inputWordFile ≠ [] then []
  else if input.simple then [.words true]
  else match problem with
    | none => [.words false]
    | some text => [.err (str "WARN: failed to hook into terminal interface: " ++ text ++ str "\n"),
        .err (str "WARN: reverting to backup input method\n"), .words true]

/-- The password of a phrase, after so many wrong ones -/
def decryption (wrong : Nat) : List Ev :=
  (List.replicate wrong [Ev.password (str "Enter phrase decryption password: ") false,
    .err (str "\x1b[31mfailed to decrypt entropy: incorrect password\x1b[39m\n")]).flatten ++
  [.password (str "Enter phrase decryption password: ") false]

/-- Entering a phrase that has a password or has none -/
def entered (input : InputFlags) (problem : Option Bytes) (wrong : Option Nat) : List Ev :=
  wordsPrompt input problem ++ (wrong.map decryption).getD []

def recovered (opts : RecoverOptions) (problem : Option Bytes) (wrong : Option Nat) : List Ev :=
  entered opts.input problem wrong ++ keyPrompt opts.key.encryptKeys ++ coloured

/-- convert, before the new phrase is saved or shown -/
def beforePhrase (opts : ConvertOptions) (problem : Option Bytes) (wrong : Option Nat) : List Ev :=
  entered opts.input problem wrong ++ phrasePrompt opts.encryptPhrase

end Verif.Spec
