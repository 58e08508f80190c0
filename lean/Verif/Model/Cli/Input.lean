import Verif.Model.Cli.Text
import Verif.Model.Recovery

/-!
# `/repo/cmd/mnemonikey/word_input.go`: entering a phrase

What is written to the screen is in `Screen.lean`. Standard input is the list of bytes still to be read; when it is used up
reading fails. `term.MakeRaw` and `term.Restore` are not modelled (when `MakeRaw` fails the simple
prompt is used, word_input.go:34-39).
-/

namespace Verif.Model.Cli

open Verif.Model

/-- The variables of userInputMnemonic -/
structure WordState where
  i : Int
  wordCount : Nat
  words : List Bytes
  wordInput : Bytes
  deriving DecidableEq, Repr

/-- word_input.go:48-50 and 67 -/
def WordState.start : WordState := ⟨0, 1, [], []⟩

/-- What one key press leads to: more input, or the end of the prompt. -/
inductive KeyStep where
  | next (s : WordState)
  | finished (r : Res (List Bytes))
  deriving DecidableEq, Repr

/-- word_input.go:64, the condition of the outer loop after `break` out of the inner one; the new round
starts with an empty wordInput. -/
def nextWord (s : WordState) : KeyStep :=
  if s.i < s.wordCount then .next { s with wordInput := [] } else .finished (.ok s.words)

/-- word_input.go:74-160, one round of the inner loop for the byte read -/
def keyStep (L : WordList) (s : WordState) (c : Byte) : KeyStep :=
  -- 75: CTRL+C, CTRL+D
  if c = 3 ∨ c = 4 then .finished (.err .aborted)
  else
    -- 80-83
    let wordInput := if 0x61 ≤ c ∧ c ≤ 0x7A then s.wordInput ++ [c] else s.wordInput
    -- 86-91
    let wordInput := if c = 127 then wordInput.dropLast else wordInput
    -- 94-97: left arrow
    if c = 68 then nextWord { s with i := s.i - 1 }
    else
      let suffixes := L.suffixes wordInput
      -- 103-107
      match decide (c = 9), suffixes with
      | true, suffix :: _ => .next { s with wordInput := wordInput ++ suffix }
      | _, _ =>
        -- 114-137
        if c = 13 ∨ c = 32 then
          match suffixes with
          | [] => .next { s with wordInput := wordInput }
          | suffix :: _ =>
            let completedWord := wordInput ++ suffix
            if s.i = 0 then
              match parseMnemonicVersion L completedWord with
              | .err _ => .next { s with wordInput := wordInput }
              | .panic p => .finished (.panic p)
              | .ok version =>
                nextWord { s with
                  wordCount := mnemonicSize version
                  words := s.words ++ [completedWord]
                  i := s.i + 1 }
            else nextWord { s with words := s.words ++ [completedWord], i := s.i + 1 }
        else .next { s with wordInput := wordInput }

/-- word_input.go:64-162, the loops prompt, with the input left unread -/
def keyLoop (L : WordList) : WordState → Bytes → Res (List Bytes) × Bytes
  | _, [] => (.err .stdinRead, [])
  | s, c :: stdin =>
    match keyStep L s c with
    | .next s => keyLoop L s stdin
    | .finished r => (r, stdin)

/-- word_input.go:33-165 userInputMnemonic, in raw mode -/
def userInputMnemonic (L : WordList) (stdin : Bytes) : Res (List Bytes) :=
  (keyLoop L .start stdin).1

/-- word_input.go:182-220, the loop of userInputMnemonicSimple over the lines scanned -/
def simpleLoop (L : WordList) (wordCount : Nat) : List Bytes → List Bytes → Res (List Bytes)
  | _, [] => .err .stdinRead
  | words, line :: lines =>
    let wordInput := L.toLower (trimSpace line)
    if L.exactMatch wordInput then
      if words.length = 0 then
        match parseMnemonicVersion L wordInput with
        | .err _ => simpleLoop L wordCount words lines
        | .panic p => .panic p
        | .ok version =>
          let words := words ++ [wordInput]
          if words.length < mnemonicSize version then
            simpleLoop L (mnemonicSize version) words lines
          else .ok words
      else
        let words := words ++ [wordInput]
        if words.length < wordCount then simpleLoop L wordCount words lines else .ok words
    else simpleLoop L wordCount words lines

/-- word_input.go:171-223 userInputMnemonicSimple (`i` is always the number of words) -/
def userInputMnemonicSimple (L : WordList) (stdin : Bytes) : Res (List Bytes) :=
  simpleLoop L 1 [] (scanLines stdin)

end Verif.Model.Cli
