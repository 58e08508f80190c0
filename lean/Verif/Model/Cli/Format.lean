import Verif.Model.Cli.Output

/-!
# Formatting by the Go library

The two functions of the record `Fmt` as Go 1.20 computes them: `Time.Format(time.RFC3339)` of a time in UTC
(terminal.go:115, terminal.go:118) and the verb `%q` of fmt, which is `strconv.AppendQuote` (expiry.go:21,
common_opts.go:98, main.go:37, terminal.go:114, command.go:65). Whether a character is printable
(`strconv.IsPrint`) is a table of Unicode and stays a parameter.
-/

namespace Verif.Model.Cli

open Verif.Model

/-! ## time.Format -/

/-- Go's time.isLeap -/
def isLeap (year : Int) : Bool := year % 4 = 0 && (year % 100 ≠ 0 || year % 400 = 0)

/-- Go's time.daysBefore -/
def daysBefore : List Int := [0, 31, 59, 90, 120, 151, 181, 212, 243, 273, 304, 334, 365]

/-- Go's time.absoluteZeroYear -/
def absoluteZeroYear : Int := -292277022399

/-- The second part of Go's time.absDate: month and day from the day of the year, counted from 0. The slice
daysBefore is indexed with at most 12. -/
def monthDay (leap : Bool) (yday : Int) : Int × Int :=
  if leap ∧ yday = 31 + 29 - 1 then (2, 29)
  else
    let day := if leap ∧ yday > 31 + 29 - 1 then yday - 1 else yday
    let month := day / 31
    let «end» := daysBefore.getD (month + 1).toNat 0
    if day ≥ «end» then (month + 2, day - «end» + 1)
    else (month + 1, day - daysBefore.getD month.toNat 0 + 1)

/-- Go's time.absDate, with full = true: year, month and day of a number of seconds since the start of
absoluteZeroYear -/
def absDate (abs : Int) : Int × Int × Int :=
  let d := abs / 86400
  let n := d / 146097
  let y := 400 * n
  let d := d - 146097 * n
  let n := d / 36524
  let n := n - n / 4
  let y := y + 100 * n
  let d := d - 36524 * n
  let n := d / 1461
  let y := y + 4 * n
  let d := d - 1461 * n
  let n := d / 365
  let n := n - n / 4
  let y := y + n
  let d := d - 365 * n
  let year := y + absoluteZeroYear
  (year, monthDay (isLeap year) d)

/-- Go's time.absClock -/
def absClock (abs : Int) : Int × Int × Int :=
  let sec := abs % 86400
  let hour := sec / 3600
  let sec := sec - hour * 3600
  let min := sec / 60
  (hour, min, sec - min * 60)

/-- The loop of Go's time.appendInt, which fills a buffer of 20 bytes from its end -/
def decimalLoop : Nat → Nat → Bytes
  | 0, _ => []
  | n + 1, u => if u ≥ 10 then decimalLoop n (u / 10) ++ [0x30 + UInt8.ofNat (u - u / 10 * 10)] else [0x30 + UInt8.ofNat u]

/-- Go's time.appendInt -/
def appendInt (x : Int) (width : Nat) : Bytes :=
  let digits := decimalLoop 20 x.natAbs
  (if x < 0 then [0x2D] else []) ++ (List.replicate (width - digits.length) 0x30 ++ digits)

/-- terminal.go:115, 118: Go's Time.Format with layout time.RFC3339 (Time.appendFormatRFC3339), for a time in UTC, in nanoseconds since
1970. The first summand brings the seconds to the year 1 (Go's unixToInternal), the second one to
absoluteZeroYear; the sum is a uint64 in Go, and positive for all times. -/
def rfc3339 (t : Int) : Bytes :=
  let abs := unix t + 62135596800 + 9223371966579724800
  let (year, month, day) := absDate abs
  let (hour, min, sec) := absClock abs
  appendInt year 4 ++ str "-" ++ appendInt month 2 ++ str "-" ++ appendInt day 2 ++ str "T" ++
    appendInt hour 2 ++ str ":" ++ appendInt min 2 ++ str ":" ++ appendInt sec 2 ++ str "Z"

/-! ## strconv.Quote -/

/-- The tables `first` and `acceptRanges` of Go's unicode/utf8: for the first byte of a character of several bytes,
their number and the range of the second one -/
def utf8First (b : Nat) : Option (Nat × Nat × Nat) :=
  if 0xC2 ≤ b ∧ b ≤ 0xDF then some (2, 0x80, 0xBF)
  else if b = 0xE0 then some (3, 0xA0, 0xBF)
  else if b = 0xED then some (3, 0x80, 0x9F)
  else if 0xE1 ≤ b ∧ b ≤ 0xEF then some (3, 0x80, 0xBF)
  else if b = 0xF0 then some (4, 0x90, 0xBF)
  else if 0xF1 ≤ b ∧ b ≤ 0xF3 then some (4, 0x80, 0xBF)
  else if b = 0xF4 then some (4, 0x80, 0x8F)
  else none

/-- Go's utf8.RuneError -/
def runeError : Nat := 0xFFFD

/-- Go's utf8.DecodeRuneInString: a character and its width. Malformed bytes give utf8.RuneError and 1. -/
def decodeRune (s : Bytes) : Nat × Nat :=
  match s with
  | [] => (runeError, 0)
  | b0 :: rest =>
    if b0.toNat < 0x80 then (b0.toNat, 1)
    else
      match utf8First b0.toNat with
      | none => (runeError, 1)
      | some (size, lo, hi) =>
        if s.length < size then (runeError, 1)
        else
          let b1 := (rest.getD 0 0).toNat
          let b2 := (rest.getD 1 0).toNat
          let b3 := (rest.getD 2 0).toNat
          if b1 < lo ∨ hi < b1 then (runeError, 1)
          else if size ≤ 2 then (b0.toNat % 32 * 64 + b1 % 64, 2)
          else if b2 < 0x80 ∨ 0xBF < b2 then (runeError, 1)
          else if size ≤ 3 then (b0.toNat % 16 * 4096 + b1 % 64 * 64 + b2 % 64, 3)
          else if b3 < 0x80 ∨ 0xBF < b3 then (runeError, 1)
          else (b0.toNat % 8 * 262144 + b1 % 64 * 4096 + b2 % 64 * 64 + b3 % 64, 4)

/-- Go's utf8.ValidRune -/
def validRune (r : Nat) : Bool := r < 0xD800 || (0xDFFF < r && r ≤ 0x10FFFF)

/-- Go's utf8.AppendRune -/
def appendRune (r : Nat) : Bytes :=
  let three (r : Nat) : Bytes := [UInt8.ofNat (0xE0 + r / 4096), UInt8.ofNat (0x80 + r / 64 % 64), UInt8.ofNat (0x80 + r % 64)]
  if r ≤ 0x7F then [UInt8.ofNat r]
  else if r ≤ 0x7FF then [UInt8.ofNat (0xC0 + r / 64), UInt8.ofNat (0x80 + r % 64)]
  else if ¬ validRune r then three runeError
  else if r ≤ 0xFFFF then three r
  else [UInt8.ofNat (0xF0 + r / 262144), UInt8.ofNat (0x80 + r / 4096 % 64), UInt8.ofNat (0x80 + r / 64 % 64),
    UInt8.ofNat (0x80 + r % 64)]

/-- Go's strconv.lowerhex -/
def lowerhex : Bytes := str "0123456789abcdef"

/-- The loops of Go's strconv.appendEscapedRune over the hexadecimal digits, from a shift of `4 * n` bits down
to 0 -/
def hexDigits (r : Nat) : Nat → Bytes
  | 0 => [lowerhex.getD (r % 16) 0]
  | n + 1 => lowerhex.getD (r / 16 ^ (n + 1) % 16) 0 :: hexDigits r n

/-- Go's strconv.appendEscapedRune with quote = '"', ASCIIonly = graphicOnly = false -/
def appendEscapedRune (isPrint : Nat → Bool) (r : Nat) : Bytes :=
  if r = 0x22 ∨ r = 0x5C then [0x5C, UInt8.ofNat r]
  else if isPrint r then appendRune r
  else if r = 0x07 then str "\\a"
  else if r = 0x08 then str "\\b"
  else if r = 0x0C then str "\\f"
  else if r = 0x0A then str "\\n"
  else if r = 0x0D then str "\\r"
  else if r = 0x09 then str "\\t"
  else if r = 0x0B then str "\\v"
  else if r < 0x20 ∨ r = 0x7F then str "\\x" ++ hexDigits r 1
  else
    let r := if validRune r then r else 0xFFFD
    if r < 0x10000 then str "\\u" ++ hexDigits r 3 else str "\\U" ++ hexDigits r 7

/-- The loop of Go's strconv.appendQuotedWith. The first argument bounds the iterations; each one takes at least a
byte. -/
def quoteLoop (isPrint : Nat → Bool) : Nat → Bytes → Bytes
  | 0, _ => []
  | _ + 1, [] => []
  | n + 1, b0 :: rest =>
    let s := b0 :: rest
    let (r, width) := if b0.toNat ≥ 0x80 then decodeRune s else (b0.toNat, 1)
    (if width = 1 ∧ r = runeError then str "\\x" ++ hexDigits b0.toNat 1 else appendEscapedRune isPrint r) ++
      quoteLoop isPrint n (s.drop width)

/-- terminal.go:114, expiry.go:21, common_opts.go:98, main.go:37, command.go:65: the verb `%q` of fmt, which is Go's
strconv.AppendQuote -/
def goQuote (isPrint : Nat → Bool) (s : Bytes) : Bytes :=
  str "\"" ++ quoteLoop isPrint s.length s ++ str "\""

/-- The formatting of the Go library, for terminal.go:114-118 -/
def goFmt (isPrint : Nat → Bool) : Fmt := ⟨goQuote isPrint, rfc3339⟩

end Verif.Model.Cli
