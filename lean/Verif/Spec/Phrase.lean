import Verif.Spec.Crc
import Verif.Model.Crypto

/-!
# Specification of recovery phrases, after README.md "Mnemonic Encoding" (lines 740-873)

Phrases are described as strings of bits. Nothing here uses the model of the Go code, except that
the library functions Argon2id and AES (`Model/Crypto.lean`) and the error tags are shared. The
CRC-32 is the one of `Spec/Crc.lean`.
-/

namespace Verif.Spec

/-- What a phrase carries. -/
inductive Contents where
  | plaintext (seed offset : Nat)
  | encrypted (encSeed salt verify offset : Nat)
  deriving DecidableEq, Repr

/-- Every field fits its width. -/
def Contents.Fits : Contents → Prop
  | .plaintext s o => s < 2 ^ 128 ∧ o < 2 ^ 31
  | .encrypted e s v o => e < 2 ^ 128 ∧ s < 2 ^ 19 ∧ v < 2 ^ 5 ∧ o < 2 ^ 31

/-- version || seed || offset, or version || encSeed || salt || verify || offset -/
def Contents.payload : Contents → List Bool
  | .plaintext s o => bits 4 0 ++ bits 128 s ++ bits 31 o
  | .encrypted e s v o => bits 4 1 ++ bits 128 e ++ bits 19 s ++ bits 5 v ++ bits 31 o

/-- The five low bits of the CRC-32 of the payload bytes. -/
def checksum (payload : List Bool) : List Bool :=
  bits 5 (crc32 (toBytes payload))

/-- Number of words of the phrase. -/
def Contents.wordCount : Contents → Nat
  | .plaintext .. => 14
  | .encrypted .. => 16

/-- The word indices of a phrase. -/
def Contents.indices (c : Contents) : List Nat :=
  (groups 12 c.wordCount (c.payload ++ checksum c.payload)).map val

/-- The words of a phrase over the word list `word`. -/
def Contents.words (word : Nat → Bytes) (c : Contents) : List Bytes := c.indices.map word

/-- The bits `[from, from+len)` of a bit string, as a number. -/
def field (l : List Bool) (start len : Nat) : Nat := val ((l.drop start).take len)

/-- The reader that the README describes, with the documented error for each failing check.
`index w` is the position of the (lower-cased) word in the list. -/
def readPhrase (index : Bytes → Option Nat) (ws : List Bytes) : Except Err Contents :=
  match ws with
  | [] => .error .invalidWordCount
  | w :: _ =>
    match index w with
    | none => .error .invalidWord
    | some i =>
      let version := val ((bits 12 i).take 4)
      if version ≠ 0 ∧ version ≠ 1 then .error .invalidVersion
      else if ws.length ≠ (if version = 0 then 14 else 16) then .error .invalidWordCount
      else
        match ws.mapM index with
        | none => .error .invalidWord
        | some is =>
          let all := is.flatMap (bits 12)
          let payload := all.take (all.length - 5)
          if all.drop (all.length - 5) ≠ checksum payload then .error .invalidChecksum
          else if version = 0 then
            .ok (.plaintext (field all 4 128) (field all 132 31))
          else
            .ok (.encrypted (field all 4 128) (field all 132 19) (field all 151 5)
              (field all 156 31))

/-- The number written by big-endian bytes. -/
def valueOfBytes (b : Bytes) : Nat := val (b.flatMap (fun x => bits 8 x.toNat))

/-- README "Encrypted Phrases": Argon2id(password, salt || offset), 17 bytes. -/
def phraseKey (C : Model.PhraseCrypto) (password : Bytes) (salt offset : Nat) : Bytes :=
  C.argon2id password (toBytes (bits 19 salt ++ bits 31 offset)) 4 524288 2 17

/-- The five verify bits: the low bits of the last key byte. -/
def verifyOf (key : Bytes) : Nat := (key.getLast?.getD 0).toNat % 32

/-- The contents of an encrypted phrase. -/
def encryptSeed (C : Model.PhraseCrypto) (password : Bytes) (salt offset seed : Nat) : Contents :=
  let key := phraseKey C password salt offset
  .encrypted (valueOfBytes (C.aesEnc (key.take 16) (toBytes (bits 128 seed)))) salt
    (verifyOf key) offset

/-- The seed inside an encrypted phrase, if the verify bits accept the password. -/
def decryptSeed (C : Model.PhraseCrypto) (password : Bytes) (encSeed salt verify offset : Nat) :
    Option Nat :=
  let key := phraseKey C password salt offset
  if verifyOf key = verify then
    some (valueOfBytes (C.aesDec (key.take 16) (toBytes (bits 128 encSeed))))
  else none

/-- Two ASCII characters that differ at most in letter case. -/
def sameLetter (a b : Byte) : Prop :=
  a < 0x80 ∧ b < 0x80 ∧
    (a = b ∨ (0x41 ≤ a ∧ a ≤ 0x5A ∧ b = a + 0x20) ∨ (0x41 ≤ b ∧ b ≤ 0x5A ∧ a = b + 0x20))

end Verif.Spec
