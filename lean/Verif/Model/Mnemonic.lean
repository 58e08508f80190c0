import Verif.Model.BigInt
import Verif.Model.Wordlist

/-!
# `/repo/mnemonic/encode.go` and `/repo/mnemonic/decode.go`

Indices are Go `uint16`; here they are `Nat`, and the theorems that need it assume `< 65536`.
-/

namespace Verif.Model

/-- mnemonic/encode.go:16 wordMask -/
def wordMask : Int := 2 ^ bitsPerWord - 1

/-- mnemonic/encode.go:38-41, the loop of EncodeToIndices. `i` is the number of slots not yet
visited (the Go loop variable is `i - 1`); `acc` holds the slots already written. Slots that the
loop does not reach keep their zero value. With no slot left the Go index has wrapped below zero
and the slice access panics. -/
def encodeLoop : Nat → Int → List Nat → Res (List Nat)
  | 0, payload, acc => if bitLen payload > 0 then .panic .indexOutOfRange else .ok acc
  | i + 1, payload, acc =>
    if bitLen payload > 0 then
      encodeLoop i (rsh payload bitsPerWord)
        (uint64 (Int.land payload wordMask) % 2 ^ 16 :: acc)
    else .ok (List.replicate (i + 1) 0 ++ acc)

/-- mnemonic/encode.go:31-43 EncodeToIndices (the overwriting of `payloadInt` is modelled in
`Model/Heap.lean`). -/
def encodeToIndices (payload : Int) (bitSize : Nat) : Res (List Nat) :=
  if bitLen payload > bitSize then .err .payloadTooLarge
  else
    let nWords := (bitSize + bitsPerWord - 1) / bitsPerWord
    encodeLoop nWords payload []

/-- mnemonic/encode.go:50-59 EncodeToWords -/
def encodeToWords (L : WordList) : List Nat → Res (List Bytes)
  | [] => .ok []
  | index :: rest =>
    if index.size > bitsPerWord then .err .invalidIndex
    else do
      let ws ← encodeToWords L rest
      .ok (L.word index :: ws)

/-- mnemonic/decode.go:23-29, the loop of DecodeIndices -/
def decodeLoop : Int → List Nat → Res Int
  | payload, [] => .ok payload
  | payload, index :: rest =>
    if index.size > bitsPerWord then .err .invalidIndex
    else decodeLoop (Int.lor (lsh payload bitsPerWord) (index : Int)) rest

/-- mnemonic/decode.go:20-32 DecodeIndices -/
def decodeIndices (indices : List Nat) : Res Int := decodeLoop 0 indices

/-- mnemonic/decode.go:38-48 DecodeWords -/
def decodeWords (L : WordList) : List Bytes → Res (List Nat)
  | [] => .ok []
  | w :: rest =>
    match L.lookup (L.toLower w) with
    | none => .err .invalidWord
    | some index => do
      let is ← decodeWords L rest
      .ok (index :: is)

end Verif.Model
