import Verif.Model.Cli.Commands
import Verif.Model.Cli.Scanner
import Verif.Spec.Keyboard

/-!
# A command and everything that is typed for it

`Commands.lean` is given the words and the answers to the password prompts separately. Here they come from one standard
input, one reader after the other: the words or the entropy first, then the lines that `ReadPassword` of
golang.org/x/term reads (`readPasswordLine` in `Spec/Keyboard.lean`; this library is external). Left out: interrupts
and errors of reading (`Password.lean`, `Concurrent.lean`).
-/

namespace Verif.Model.Cli

open Verif.Model
open Verif.Spec (readPasswordLine)

/-- What comes in: keys, as long as the terminal is in raw mode, and then what is read in pieces (`Scanner.lean`) -/
structure Console where
  keys : Bytes
  pieces : List Bytes
  deriving DecidableEq, Repr

/-- The pieces for somebody who reads a byte at a time; `none` is a read of nothing. -/
def byteByByte (pieces : List Bytes) : List (Option Byte) :=
  pieces.flatMap fun piece => if piece = [] then [none] else piece.map some

/-- word_input.go:248-278, the reader goroutine of userInputPassword: the password it sends, and what is left. `none`: it
is still reading. The first argument bounds the iterations; each one reads a line. -/
def promptLoop (confirm : Bool) : Nat → List (Option Byte) → Option (Bytes × List (Option Byte))
  | 0, _ => none
  | n + 1, bs =>
    match readPasswordLine [] bs with
    | .waits => none
    | .password pass1 bs =>
      if pass1.length = 0 then promptLoop confirm n bs
      else if confirm then
        match readPasswordLine [] bs with
        | .waits => none
        | .password pass2 bs => if pass1 = pass2 then some (pass1, bs) else promptLoop confirm n bs
      else some (pass1, bs)

structure Ending where
  outcome : Outcome Unit
  acts : List Act
  /-- what has not been read -/
  left : List (Option Byte)

/-- A command whose password prompts have returned some passwords goes on. Where it waits, the next prompt reads. The
first argument bounds the prompts. -/
def goOn (P : Prog Unit) (rnd : Bytes) : Nat → List Bytes → List (Option Byte) → Ending
  | 0, passwords, bs => ⟨P.outcome (passwords.map .ok) rnd, P.acts (passwords.map .ok) rnd, bs⟩
  | n + 1, passwords, bs =>
    match P.outcome (passwords.map .ok) rnd with
    | .waits confirm =>
      match promptLoop confirm (bs.length + 1) bs with
      | none => ⟨.waits confirm, P.acts (passwords.map .ok) rnd, bs⟩
      | some (password, bs) => goOn P rnd n (passwords ++ [password]) bs
    | outcome => ⟨outcome, P.acts (passwords.map .ok) rnd, bs⟩

/-- The command with these bytes behind what its first reader took -/
def session (P : Prog Unit) (rnd : Bytes) (bs : List (Option Byte)) : Ending := goOn P rnd (bs.length + 1) [] bs

/-- What a reader gets until the end of the input -/
def Console.text (c : Console) : Bytes := (c.pieces.takeWhile (· ≠ [])).flatten

/-- recover.go:86-99: what is read for the words -/
def Console.forWords (c : Console) (env : Env) (opts : InputFlags) : Env :=
  { env with stdin := if byLine env opts then c.text else c.keys }

/-- recover.go:86-99: what is left by those who read the words. Keys that were pressed too early can be read when the
terminal has left raw mode. -/
def Console.behindWords (L : WordList) (c : Console) (env : Env) (opts : InputFlags) : List Bytes :=
  if opts.inputWordFile ≠ [] then c.pieces
  else if byLine env opts then (simplePrompted L c.pieces).2
  else
    let keys := (keyLoop L .start c.keys).2
    if keys = [] then c.pieces else keys :: c.pieces

/-- recover.go:137-205, with everything that is typed -/
def recoverSession (L : WordList) (C : Crypto) (env : Env) (opts : RecoverOptions) (c : Console) (rnd : Bytes) : Ending :=
  session (recoverAndPrintKey L C (c.forWords env opts.input) opts) rnd (byteByByte (c.behindWords L env opts.input))

/-- convert.go:48-85, with everything that is typed -/
def convertSession (L : WordList) (C : Crypto) (env : Env) (opts : ConvertOptions) (c : Console) (rnd : Bytes) : Ending :=
  session (decodeAndConvertPhrase L C (c.forWords env opts.input) opts) rnd (byteByByte (c.behindWords L env opts.input))

/-- generate.go:88-112: what is left by the reader of the seed -/
def Console.behindEntropy (c : Console) (unsafeEntropy : Bytes) : List Bytes :=
  if unsafeEntropy = str "-" then (readFull 16 16 c.pieces).2 else c.pieces

/-- generate.go:64-175, with everything that is typed -/
def generateSession (L : WordList) (C : Crypto) (env : Env) (opts : GenerateOptions) (c : Console) (rnd : Bytes) : Ending :=
  session (generateAndPrintKey L C { env with stdin := c.text } opts) rnd (byteByByte (c.behindEntropy opts.unsafeEntropy))

end Verif.Model.Cli
