import Verif.Model.Cli.Format
import Verif.Model.Wordlist

/-!
# Go's `strings.ToLower` on any bytes

For recovery.go:258, mnemonic/decode.go:41, word_input.go:189 and recover.go:217, after Go 1.20. The function
`unicode.ToLower` on single characters is the parameter `lower`.
-/

namespace Verif.Model

open Verif.Model.Cli

/-- The second loop of Go's strings.Map: every character is written as it is mapped, utf8.RuneError for a malformed byte. The
first argument bounds the iterations; each one takes at least a byte. -/
def mapRest (lower : Nat → Nat) : Nat → Bytes → Bytes
  | 0, _ => []
  | _ + 1, [] => []
  | n + 1, s => appendRune (lower (decodeRune s).1) ++ mapRest lower n (s.drop (decodeRune s).2)

/-- Go's strings.Map: characters at the beginning that are mapped to themselves (`done`) are kept, and when all are, the
string itself is returned. -/
def mapFirst (lower : Nat → Nat) : Nat → Bytes → Bytes → Bytes
  | 0, done, _ => done
  | _ + 1, done, [] => done
  | n + 1, done, s =>
    let (c, width) := decodeRune s
    let r := lower c
    if r = c ∧ (c ≠ runeError ∨ width ≠ 1) then mapFirst lower n (done ++ s.take width) (s.drop width)
    else done ++ appendRune r ++ mapRest lower n (s.drop width)

/-- Go's strings.ToLower -/
def goToLower (lower : Nat → Nat) (s : Bytes) : Bytes :=
  if s.all (fun b => b < 0x80) then s.map asciiLower else mapFirst lower s.length [] s

/-- What is assumed of `unicode.ToLower`: the two characters outside ASCII that have an ASCII lower case are the Kelvin
sign and the capital I with a dot above. -/
structure LowerTable (lower : Nat → Nat) : Prop where
  ascii : ∀ r, r < 0x80 → lower r = if 0x41 ≤ r ∧ r ≤ 0x5A then r + 0x20 else r
  kelvin : lower 0x212A = 0x6B
  dotted : lower 0x130 = 0x69
  other : ∀ r, 0x80 ≤ r → r ≠ 0x212A → r ≠ 0x130 → 0x80 ≤ lower r

end Verif.Model
