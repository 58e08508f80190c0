import Verif.Model.Cli.Text
import Verif.Model.Mnemonikey

/-!
# `/repo/cmd/mnemonikey/expiry.go` and `common_opts.go`

Parsing of flag values; the registration of flags (package `flag`) is not modelled.
-/

namespace Verif.Model.Cli

open Verif.Model

/-- `strings.ToLower` of a one-byte string: a byte above 0x7F is invalid UTF-8 and becomes
U+FFFD. -/
def lowerByte (b : Byte) : Bytes := if b < 0x80 then [asciiLower b] else [0xEF, 0xBF, 0xBD]

/-- `time.Hour` -/
def hour : Int := 3600 * second

/-- expiry.go:13-18 durationUnits (the constants are far below 2^63) -/
def durationUnits (key : Bytes) : Option Int :=
  if key = str "d" then some (hour * 24)
  else if key = str "w" then some (hour * 24 * 7)
  else if key = str "m" then some ((hour * 24 * 365).tdiv 12)
  else if key = str "y" then some (hour * 24 * 365)
  else none

/-- The digit loop of `strconv.ParseUint(s, 10, 64)`: syntax and range errors are one error here,
as in expiry.go:32. -/
def parseUintLoop : Nat → Bytes → Option Nat
  | n, [] => some n
  | n, c :: rest =>
    if 0x30 ≤ c ∧ c ≤ 0x39 then
      let n := n * 10 + (c - 0x30).toNat
      if n < 2 ^ 64 then parseUintLoop n rest else none
    else none

/-- `strconv.ParseUint(s, 10, 64)` -/
def parseUint (s : Bytes) : Option Nat := if s = [] then none else parseUintLoop 0 s

/-- expiry.go:20-38 parseTTL. `time.Duration(quantity)` converts uint64 to int64. -/
def parseTTL (input : Bytes) : Res Int :=
  match input.getLast? with
  | none => .err .badDuration
  | some last =>
    match durationUnits (lowerByte last) with
    | none => .err .badDuration
    | some unit =>
      match parseUint input.dropLast with
      | none => .err .badDuration
      | some quantity => .ok (durMul (wrap64 quantity) unit)

/-- common_opts.go:90-101, the loop of DecodeOnlyKeyTypes -/
def onlyLoop : Bool → List Bytes → List Bytes → Res (Bool × Option (List Bytes))
  | master, subkeyTypes, [] => .ok (master, some subkeyTypes)
  | master, subkeyTypes, keyType :: rest =>
    if keyType = str "master" then onlyLoop true subkeyTypes rest
    else if keyType = subkeyTypeEncryption ∨ keyType = subkeyTypeAuthentication ∨
        keyType = subkeyTypeSigning then
      onlyLoop master (subkeyTypes ++ [keyType]) rest
    else .err .badOnlyElement

/-- common_opts.go:79-104 DecodeOnlyKeyTypes; `none` is the nil slice. -/
def decodeOnlyKeyTypes (onlyKeyTypes : Bytes) : Res (Bool × Option (List Bytes)) :=
  if onlyKeyTypes ≠ [] then onlyLoop false [] (split 0x2C onlyKeyTypes)
  else .ok (true, none)

end Verif.Model.Cli
