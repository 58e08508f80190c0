import Verif.Model.Cli.Input
import Verif.Model.Cli.Terminal

/-!
# `/repo/cmd/mnemonikey/word_input.go`: what the interactive prompt writes to standard error

`keyRound` is `keyStep` together with the bytes that the round writes (`Proofs.keyRound_snd`). Writes to standard
error are taken to succeed, as the code does not look at their errors (terminal.go: eprint).
-/

namespace Verif.Model.Cli

open Verif.Model

/-- The verb `%d` of fmt -/
def formatInt (n : Int) : Bytes := str (toString n)

/-- word_input.go:20 inputHeaderMessage -/
def inputHeaderMessage : Bytes := str "Enter the words of your recovery mnemonic in sequence."

/-- word_input.go:21 badWordMessage -/
def badWordMessage : Bytes := str "No matching words found in the wordlist!"

/-- The text of the error that ParseMnemonicVersion returns: recovery.go:260 with mnemonic/decode.go:14, or
recovery.go:264 with version.go:17 and 69. -/
def versionErrorText (L : WordList) (firstWord : Bytes) : Bytes :=
  match L.lookup (L.toLower firstWord) with
  | none => str "word is not a member of the wordlist"
  | some _ => str "invalid version number in recovery phrase: " ++ formatInt (parseMnemonicVersionRaw L firstWord).1

/-- word_input.go:52-62 -/
def promptHeader : Bytes :=
  bold (cyan (inputHeaderMessage ++ str "\r\n")) ++
  str "\r\n" ++
  faint (str "- ENTER/SPACE:    Autocomplete and submit word\r\n") ++
  faint (str "- TAB:            Autocomplete word without submitting\r\n") ++
  faint (str "- BACKSPACE:      Revise current word\r\n") ++
  faint (str "- LEFT ARROW:     Revise previous word\r\n") ++
  faint (str "- CTRL+C/CTRL+D:  Quit\r\n") ++
  str "\r\n" ++
  (str "\n" ++ previousLine)

/-- The text of word_input.go:65 without its colours -/
def promptText (i : Int) : Bytes := str "Word " ++ formatInt (i + 1) ++ str " >> "

/-- word_input.go:65 -/
def wordPrompt (i : Int) : Bytes := str "\r" ++ eraseLineForward ++ bold (cyan (promptText i))

/-- word_input.go:42, run when the function returns -/
def promptDeferred : Bytes := str "\r" ++ eraseLineForward ++ str "\n\n"

/-- word_input.go:64-65: what is written before the next key is read, if another word is asked for -/
def nextWordOut (s : WordState) : Bytes := if s.i < s.wordCount then wordPrompt s.i else []

/-- word_input.go:79-91: what is written for a letter or a backspace, and the new text -/
def typeKey (wordInput : Bytes) (c : Byte) : Bytes × Bytes :=
  -- 80-83
  let (out, wordInput) := if 0x61 ≤ c ∧ c ≤ 0x7A then ([c], wordInput ++ [c]) else ([], wordInput)
  -- 86-91
  if c = 127 then
    if wordInput.length > 0 then (out ++ backspaceCode, wordInput.dropLast) else (out, wordInput)
  else (out, wordInput)

/-- word_input.go:74-160, one round of the inner loop, and lines 64-65 if another word begins: what is
written, and the step -/
def keyRound (L : WordList) (s : WordState) (c : Byte) : Bytes × KeyStep :=
  -- 75
  if c = 3 ∨ c = 4 then ([], .finished (.err .aborted))
  else
    let (out, wordInput) := typeKey s.wordInput c
    -- 94-97
    if c = 68 then (out ++ nextWordOut { s with i := s.i - 1 }, nextWord { s with i := s.i - 1 })
    else
      let suffixes := L.suffixes wordInput
      -- 103-107
      match decide (c = 9), suffixes with
      | true, suffix :: _ => (out ++ suffix, .next { s with wordInput := wordInput ++ suffix })
      | _, _ =>
        -- 111
        let out := out ++ saveCursor
        -- 114-137
        if c = 13 ∨ c = 32 then
          match suffixes with
          | [] => (out ++ (str "\r\n" ++ red badWordMessage ++ loadCursor), .next { s with wordInput := wordInput })
          | suffix :: _ =>
            let completedWord := wordInput ++ suffix
            if s.i = 0 then
              match parseMnemonicVersion L completedWord with
              | .err _ => (out ++ (str "\r\n" ++ red (versionErrorText L completedWord) ++ loadCursor),
                  .next { s with wordInput := wordInput })
              | .panic p => (out, .finished (.panic p))
              | .ok version =>
                let s' := { s with
                  wordCount := mnemonicSize version
                  words := s.words ++ [completedWord]
                  i := s.i + 1 }
                (out ++ nextWordOut s', nextWord s')
            else
              let s' := { s with words := s.words ++ [completedWord], i := s.i + 1 }
              (out ++ nextWordOut s', nextWord s')
        else
          -- 140
          let out := out ++ eraseLineForward
          -- 143-145
          let out := match suffixes with
            | [] => out
            | suffix :: _ => out ++ faint suffix
          -- 149-151
          let out := if suffixes.length > 0 ∨ wordInput = [] then out ++ (str "\r\n" ++ eraseLineForward) else out
          -- 155-157
          let out := if suffixes.length = 0 ∧ wordInput ≠ [] then out ++ (str "\r\n" ++ red badWordMessage) else out
          -- 160
          (out ++ loadCursor, .next { s with wordInput := wordInput })

/-- What is written while the keys are read, from word_input.go:70 on, and the state in which the next key is
waited for, unless the function has returned. -/
def keysOut (L : WordList) : WordState → Bytes → Bytes × Option WordState
  | s, [] => ([], some s)
  | s, c :: keys =>
    match keyRound L s c with
    | (out, .finished _) => (out ++ promptDeferred, none)
    | (out, .next s') => (out ++ (keysOut L s' keys).1, (keysOut L s' keys).2)

/-- word_input.go:33-165 userInputMnemonic: what has been written to standard error when these keys were read
(all of them, or as many as it takes to return), and the state in which the next key is waited for -/
def shownAfter (L : WordList) (keys : Bytes) : Bytes × Option WordState :=
  let (out, s) := keysOut L .start keys
  (promptHeader ++ wordPrompt 0 ++ out, s)

/-- word_input.go:33-165: all that is written until the function returns, when no more than `stdin` can be
read -/
def promptOutput (L : WordList) (stdin : Bytes) : Bytes :=
  match shownAfter L stdin with
  | (out, some _) => out ++ promptDeferred
  | (out, none) => out

/-! ## The simple prompt

The terminal is not in raw mode and itself shows what is typed. A line is taken to be typed after its prompt was
written; how it was edited before return was pressed is not modelled. -/

/-- word_input.go:177-180 -/
def simpleHeader : Bytes := bold (cyan (inputHeaderMessage ++ str "\n\n")) ++ (str "\n" ++ previousLine)

/-- word_input.go:183 -/
def simplePrompt (words : List Bytes) : Bytes := bold (cyan (promptText words.length))

/-- word_input.go:189-219: what is written for a line, and the new values of wordCount and words -/
def simpleRound (L : WordList) (wordCount : Nat) (words : List Bytes) (line : Bytes) : Bytes × Nat × List Bytes :=
  let wordInput := L.toLower (trimSpace line)
  let (out, wordCount, words) :=
    if L.exactMatch wordInput then
      -- 196
      let out := eraseLineForward
      if words.length = 0 then
        match parseMnemonicVersion L wordInput with
        | .ok version => (out, mnemonicSize version, words ++ [wordInput])
        | _ => (out ++ red (versionErrorText L wordInput), wordCount, words)
      else (out, wordCount, words ++ [wordInput])
    else (red badWordMessage, wordCount, words)
  -- 219
  (out ++ (previousLine ++ eraseLineForward), wordCount, words)

/-- word_input.go:182-220: what was written, with the lines typed, when the next line is waited for, and the values
of wordCount and words; or when the function has returned -/
def simpleShows (L : WordList) (wordCount : Nat) : List Bytes → List Bytes → Bytes × Option (Nat × List Bytes)
  | words, [] => (simplePrompt words, some (wordCount, words))
  | words, line :: lines =>
    let (out, wordCount, words') := simpleRound L wordCount words line
    let out := simplePrompt words ++ (line ++ str "\n") ++ out
    if words'.length < wordCount then
      let (out', st) := simpleShows L wordCount words' lines
      (out ++ out', st)
    else (out, none)

/-- word_input.go:171-223 userInputMnemonicSimple: what was written, with the lines typed -/
def simpleShown (L : WordList) (lines : List Bytes) : Bytes × Option (Nat × List Bytes) :=
  let (out, st) := simpleShows L 1 [] lines
  (simpleHeader ++ out, st)

/-- word_input.go:186, written when the input ends -/
def simpleEnd : Bytes := str "\n\n"

end Verif.Model.Cli
