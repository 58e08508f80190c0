import Verif.Model.Cli.Format
import Verif.Model.Cli.Input
import Verif.Model.Cli.Files

/-!
# Go's `bufio.Scanner`, and who gets what from one standard input

`scanWords` and `scanLines` in `Text.lean` say which tokens a whole text has. Here is the loop of Go 1.20 with its buffer,
for recover.go:213-216 and word_input.go:173-189. It takes what it reads in pieces: a read gives (a part of) the first piece.
A file is one piece, or several; a terminal in canonical mode gives a line at a time, with its line feed, and an empty piece
for the end of the input (CTRL+D at the beginning of a line).
-/

namespace Verif.Model.Cli

open Verif.Model

/-- A read into a buffer with this much room; `none` is the end of the input. What is left comes next. -/
def readPiece (room : Nat) : List Bytes → Option Bytes × List Bytes
  | [] => (none, [])
  | [] :: rest => (none, rest)
  | piece :: rest => (some (piece.take room), if piece.length ≤ room then rest else piece.drop room :: rest)

/-- The type `bufio.Scanner` -/
structure Scanner where
  /-- `buf[start:end]` -/
  data : Bytes
  start : Nat
  /-- `len(buf)` -/
  size : Nat
  /-- `err` is io.EOF -/
  eof : Bool
  /-- what the reader still has -/
  input : List Bytes
  deriving DecidableEq, Repr

/-- bufio.NewScanner -/
def newScanner (input : List Bytes) : Scanner := ⟨[], 0, 0, false, input⟩

/-- A split function: how many bytes it takes, and the token if there is one -/
abbrev SplitFunc := Bytes → Bool → Nat × Option Bytes

/-- bufio.ScanLines -/
def splitLines : SplitFunc := fun data atEOF =>
  if atEOF ∧ data = [] then (0, none)
  else match data.idxOf? 0x0A with
    | some i => (i + 1, some (dropCR (data.take i)))
    | none => if atEOF then (data.length, some (dropCR data)) else (0, none)

/-- bufio.isSpace -/
def isSpaceRune (r : Nat) : Bool :=
  if r ≤ 0xFF then r = 0x20 || r = 0x09 || r = 0x0A || r = 0x0B || r = 0x0C || r = 0x0D || r = 0x85 || r = 0xA0
  else (0x2000 ≤ r && r ≤ 0x200A) || r = 0x1680 || r = 0x2028 || r = 0x2029 || r = 0x202F || r = 0x205F || r = 0x3000

/-- The first loop of bufio.ScanWords: how many bytes of white space there are at the beginning. The first argument
bounds the iterations. -/
def leadingSpaces : Nat → Bytes → Nat
  | 0, _ => 0
  | _ + 1, [] => 0
  | n + 1, data =>
    let (r, width) := decodeRune data
    if isSpaceRune r then width + leadingSpaces n (data.drop width) else 0

/-- The second loop of bufio.ScanWords: where the first white space is, and its width -/
def nextSpace : Nat → Bytes → Option (Nat × Nat)
  | 0, _ => none
  | _ + 1, [] => none
  | n + 1, data =>
    let (r, width) := decodeRune data
    if isSpaceRune r then some (0, width)
    else (nextSpace n (data.drop width)).map fun p => (width + p.1, p.2)

/-- bufio.ScanWords -/
def splitWords : SplitFunc := fun data atEOF =>
  let start := leadingSpaces data.length data
  let rest := data.drop start
  match nextSpace rest.length rest with
  | some (i, width) => (start + i + width, some (rest.take i))
  | none => if atEOF ∧ data.length > start then (data.length, some rest) else (start, none)

/-- The part of Scanner.Scan's loop after the split function has asked for more: room is made, and the reader is
read. `none` is bufio.ErrTooLong. -/
def Scanner.fill (s : Scanner) : Option Scanner :=
  -- First, shift data to beginning of buffer if there's lots of empty space or space is needed.
  let start := if 0 < s.start ∧ (s.start + s.data.length = s.size ∨ s.size / 2 < s.start) then 0 else s.start
  -- Is the buffer full? If so, resize.
  if start + s.data.length = s.size then
    if maxScanTokenSize ≤ s.size then none
    else
      let size := min (if s.size * 2 = 0 then 4096 else s.size * 2) maxScanTokenSize
      some (read s 0 size)
  else some (read s start s.size)
where
  read (s : Scanner) (start size : Nat) : Scanner :=
    match readPiece (size - (start + s.data.length)) s.input with
    | (none, input) => { s with start := start, size := size, eof := true, input := input }
    | (some bytes, input) => { s with data := s.data ++ bytes, start := start, size := size, input := input }

/-- Scanner.Scan: the token, or `none` when it returns false. The first argument bounds the iterations; each one reads
something, except for the last two. -/
def Scanner.scan (split : SplitFunc) : Nat → Scanner → Option Bytes × Scanner
  | 0, s => (none, s)
  | n + 1, s =>
    let (advance, token) := if s.data ≠ [] ∨ s.eof then split s.data s.eof else (0, none)
    let s := { s with data := s.data.drop advance, start := s.start + advance }
    match token with
    | some token => (some token, s)
    | none =>
      if s.eof then (none, { s with data := [], start := 0 })
      else match s.fill with
        | none => (none, s)
        | some s => s.scan split n

/-- Enough iterations for one call of Scan -/
def Scanner.fuel (s : Scanner) : Nat := s.input.flatten.length + 2

/-- Scan is called until it returns false: the tokens. -/
def Scanner.tokens (split : SplitFunc) : Nat → Scanner → List Bytes
  | 0, _ => []
  | n + 1, s =>
    match s.scan split s.fuel with
    | (some token, s) => token :: s.tokens split n
    | (none, _) => []

/-- word_input.go:182-220, the loop of userInputMnemonicSimple, with the scanner: what it returns, and the scanner
afterwards -/
def simpleScan (L : WordList) : Nat → Nat → List Bytes → Scanner → Res (List Bytes) × Scanner
  | 0, _, _, s => (.err .stdinRead, s)
  | n + 1, wordCount, words, s =>
    match s.scan splitLines s.fuel with
    | (none, s) => (.err .stdinRead, s)
    | (some line, s) =>
      let wordInput := L.toLower (trimSpace line)
      if L.exactMatch wordInput then
        if words.length = 0 then
          match parseMnemonicVersion L wordInput with
          | .err _ => simpleScan L n wordCount words s
          | .panic p => (.panic p, s)
          | .ok version =>
            let words := words ++ [wordInput]
            if words.length < mnemonicSize version then simpleScan L n (mnemonicSize version) words s
            else (.ok words, s)
        else
          let words := words ++ [wordInput]
          if words.length < wordCount then simpleScan L n wordCount words s else (.ok words, s)
      else simpleScan L n wordCount words s

/-- word_input.go:171-223 userInputMnemonicSimple, reading these pieces: what it returns, and what it leaves for those
who read later -/
def simplePrompted (L : WordList) (input : List Bytes) : Res (List Bytes) × List Bytes :=
  let r := simpleScan L (input.flatten.length + 2) 1 [] (newScanner input)
  (r.1, r.2.input)

/-- Go's io.ReadFull, for seed.go:68 and generate.go:98: so many bytes, or `none` if there are not as many -/
def readFull : Nat → Nat → List Bytes → Option Bytes × List Bytes
  | _, 0, input => (some [], input)
  | 0, _, input => (none, input)
  | n + 1, wanted, input =>
    match readPiece wanted input with
    | (none, input) => (none, input)
    | (some bytes, input) =>
      match readFull n (wanted - bytes.length) input with
      | (none, input) => (none, input)
      | (some more, input) => (some (bytes ++ more), input)

end Verif.Model.Cli
