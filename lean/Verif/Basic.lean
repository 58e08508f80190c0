/-!
# Representation of Go values and outcomes

`Res α` is the outcome of a Go call: a value, a Go `error`, or a run-time panic.
Go byte slices and strings are lists of bytes.
-/

namespace Verif

abbrev Byte := UInt8
abbrev Bytes := List UInt8

/-- The bytes of a string literal, as in Go its UTF-8 encoding. -/
def str (s : String) : Bytes := s.toByteArray.data.toList

/-- The run-time panics that the modelled code can raise. -/
inductive Panic where
  | bitBufferWidth   -- bit_buffer.go:17, 85, 100
  | bitBufferBounds  -- bit_buffer.go:30-36, 57-63
  | fillBytes        -- big.Int.FillBytes: buffer too small
  | indexOutOfRange  -- slice index out of range
  | nilDereference
  | divideByZero
  | nonPositiveMax   -- crypto/rand.Int argument
  | noSigningKey     -- pgp/master_key.go:225
  | makeSliceCap     -- make with a negative capacity
  deriving DecidableEq, Repr

/-- The Go `error` values the modelled code can return. Without their texts (`Model/Cli/Errors.lean`): one tag per
sentinel error (`var Err...`) and one per anonymous `fmt.Errorf`/`errors.New` site. -/
inductive Err where
  | invalidEra          -- version.go:12 ErrInvalidEraNumber
  | invalidVersion      -- version.go:17 ErrInvalidVersionNumber
  | entropyTooLarge     -- seed.go:34
  | invalidWordCount    -- recovery.go:23 ErrInvalidWordCount
  | invalidChecksum     -- recovery.go:19 ErrInvalidChecksum
  | mnemonicDecryption  -- recovery.go:27 ErrMnemonicDecryption
  | invalidWord         -- mnemonic/decode.go:14 ErrInvalidWord
  | invalidIndex        -- mnemonic/encode.go:20 ErrInvalidIndex
  | payloadTooLarge     -- mnemonic/encode.go:33
  | payloadBitLen       -- encoding.go:25
  | extraBits           -- recovery.go:241
  | emptyPassword       -- encoding.go:78
  | randomRead          -- io.ReadFull on the random source failed
  | cipherKeySize       -- aes.NewCipher
  | ttlInvalid          -- mnemonikey.go:27 ErrTTLInvalid
  | creationTooLate     -- mnemonikey.go:31 ErrCreationTooLate
  | creationTooEarly    -- mnemonikey.go:35 ErrCreationTooEarly
  | seedLength          -- pgp/master_key.go:29, ed25519_subkey.go:22, encryption_subkey.go:36
  | badDuration         -- cmd/mnemonikey/generate.go:78, recover.go:150 (usage error)
  | badOnlyElement      -- cmd/mnemonikey/common_opts.go:98 (usage error)
  | badSubkeyIndex      -- cmd/mnemonikey/recover.go:157
  | noEntropyFile       -- cmd/mnemonikey/generate.go:102
  | aborted             -- cmd/mnemonikey/word_input.go:76, 282
  | stdinRead           -- cmd/mnemonikey/word_input.go:71, 187, 253, 266
  | terminalState       -- cmd/mnemonikey/word_input.go:236
  | fileExists          -- cmd/mnemonikey/generate.go:203
  | fileInaccessible    -- cmd/mnemonikey/generate.go:205
  | fileWrite           -- cmd/mnemonikey/generate.go:210
  | fileOpen            -- cmd/mnemonikey/recover.go:210
  | fileBadWord         -- cmd/mnemonikey/recover.go:219
  | fileBadFormat       -- cmd/mnemonikey/recover.go:224
  | fileNoWords         -- cmd/mnemonikey/recover.go:228
  | fileWordCount       -- cmd/mnemonikey/recover.go:233
  deriving DecidableEq, Repr

inductive Res (α : Type) where
  | ok (a : α)
  | err (e : Err)
  | panic (p : Panic)
  deriving DecidableEq, Repr

namespace Res

def bind {α β : Type} (x : Res α) (f : α → Res β) : Res β :=
  match x with
  | ok a => f a
  | err e => err e
  | panic p => panic p

instance : Monad Res where
  pure := ok
  bind := bind

@[simp] theorem bind_ok {α β : Type} (a : α) (f : α → Res β) : (ok a >>= f) = f a := rfl
@[simp] theorem bind_err {α β : Type} (e : Err) (f : α → Res β) :
    ((err e : Res α) >>= f) = err e := rfl
@[simp] theorem bind_panic {α β : Type} (p : Panic) (f : α → Res β) :
    ((panic p : Res α) >>= f) = panic p := rfl
@[simp] theorem pure_eq {α : Type} (a : α) : (pure a : Res α) = ok a := rfl

def isOk {α : Type} : Res α → Bool
  | ok _ => true
  | _ => false

def isPanic {α : Type} : Res α → Bool
  | panic _ => true
  | _ => false

theorem bind_eq_ok {α β : Type} {x : Res α} {f : α → Res β} {b : β} :
    (x >>= f) = ok b ↔ ∃ a, x = ok a ∧ f a = ok b := by
  cases x <;> simp

theorem bind_eq_panic {α β : Type} {x : Res α} {f : α → Res β} {p : Panic} :
    (x >>= f) = panic p ↔ x = panic p ∨ ∃ a, x = ok a ∧ f a = panic p := by
  cases x <;> simp

end Res

end Verif
