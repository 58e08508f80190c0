import Verif.Model.Wordlist

/-!
# Text functions of the Go standard library used by `/repo/cmd/mnemonikey`

`strings.Split`, `strings.Join`, `strings.TrimSpace`, `bufio.ScanWords`, `bufio.ScanLines`. White
space is that of `unicode.IsSpace`, recognised by its UTF-8 encodings (lead bytes are never consumed
as part of another rune, so matching encodings byte by byte is the same as decoding runes).
-/

namespace Verif.Model.Cli

/-- The UTF-8 encodings of the white space runes: the ASCII ones, U+0085, U+00A0, U+1680,
U+2000-U+200A, U+2028, U+2029, U+202F, U+205F, U+3000. -/
def spaces : List Bytes :=
  [[0x09], [0x0A], [0x0B], [0x0C], [0x0D], [0x20], [0xC2, 0x85], [0xC2, 0xA0], [0xE1, 0x9A, 0x80],
   [0xE2, 0x80, 0x80], [0xE2, 0x80, 0x81], [0xE2, 0x80, 0x82], [0xE2, 0x80, 0x83],
   [0xE2, 0x80, 0x84], [0xE2, 0x80, 0x85], [0xE2, 0x80, 0x86], [0xE2, 0x80, 0x87],
   [0xE2, 0x80, 0x88], [0xE2, 0x80, 0x89], [0xE2, 0x80, 0x8A], [0xE2, 0x80, 0xA8],
   [0xE2, 0x80, 0xA9], [0xE2, 0x80, 0xAF], [0xE2, 0x81, 0x9F], [0xE3, 0x80, 0x80]]

/-- The white space rune at the start of the text. -/
def headSpace (b : Bytes) : Option Bytes := spaces.find? (fun s => s.isPrefixOf b)

/-- A finished token; empty ones are not tokens. -/
def flush (cur : Bytes) : List Bytes := if cur = [] then [] else [cur]

/-- The words of a text, each with the number of bytes of the buffer that it takes to see its end: those of the
white space rune behind it, or one more at the end of the text. `skip` bytes still belong to a white space rune;
`cur` is the word read so far. -/
def fields : Nat → Bytes → Bytes → List (Bytes × Nat)
  | _, cur, [] => (flush cur).map fun w => (w, 1)
  | skip + 1, cur, _ :: rest => fields skip cur rest
  | 0, cur, x :: rest =>
    match headSpace (x :: rest) with
    | some s => ((flush cur).map fun w => (w, s.length)) ++ fields (s.length - 1) [] rest
    | none => fields 0 (cur ++ [x]) rest

/-- `bufio.MaxScanTokenSize`: the size of the buffer. If it is full and the end of the token is not in sight, the
scan ends. White space in front of a word is taken out of the buffer first. -/
def maxScanTokenSize : Nat := 65536

/-- The tokens delivered by a `bufio.Scanner` with `bufio.ScanWords`, until `Scan` first returns
false. -/
def scanWords (text : Bytes) : List Bytes :=
  ((fields 0 [] text).takeWhile (fun w => w.1.length + w.2 ≤ maxScanTokenSize)).map Prod.fst

/-- `bufio.ScanLines`' removal of a trailing carriage return -/
def dropCR (line : Bytes) : Bytes := if line.getLast? = some 0x0D then line.dropLast else line

/-- The lines of a text, with their carriage returns. A final line without newline counts unless
empty. -/
def rawLines : Bytes → Bytes → List Bytes
  | cur, [] => flush cur
  | cur, x :: rest => if x = 0x0A then cur :: rawLines [] rest else rawLines (cur ++ [x]) rest

/-- The tokens delivered by a `bufio.Scanner` with the default `bufio.ScanLines`, until `Scan`
first returns false. -/
def scanLines (text : Bytes) : List Bytes :=
  ((rawLines [] text).takeWhile (fun l => l.length < maxScanTokenSize)).map dropCR

/-- `strings.TrimLeftFunc(s, unicode.IsSpace)` -/
def trimLeft : Nat → Bytes → Bytes
  | _, [] => []
  | skip + 1, _ :: rest => trimLeft skip rest
  | 0, x :: rest =>
    match headSpace (x :: rest) with
    | some s => trimLeft (s.length - 1) rest
    | none => x :: rest

/-- The white space rune at the end of the text. -/
def lastSpace (b : Bytes) : Option Bytes := spaces.find? (fun s => s.isSuffixOf b)

/-- `strings.TrimRightFunc(s, unicode.IsSpace)`; every round removes at least one byte. -/
def trimRight : Nat → Bytes → Bytes
  | 0, b => b
  | fuel + 1, b =>
    match lastSpace b with
    | some s => trimRight fuel (b.take (b.length - s.length))
    | none => b

/-- `strings.TrimSpace` -/
def trimSpace (b : Bytes) : Bytes :=
  let l := trimLeft 0 b
  trimRight l.length l

/-- `strings.Split(s, sep)` for a one-byte separator; `cur` is the element read so far. -/
def splitLoop (sep : Byte) : Bytes → Bytes → List Bytes
  | cur, [] => [cur]
  | cur, x :: rest => if x = sep then cur :: splitLoop sep [] rest else splitLoop sep (cur ++ [x]) rest

def split (sep : Byte) (s : Bytes) : List Bytes := splitLoop sep [] s

/-- `strings.Join(elems, sep)` -/
def join (sep : Bytes) : List Bytes → Bytes
  | [] => []
  | [e] => e
  | e :: rest => e ++ sep ++ join sep rest

end Verif.Model.Cli
