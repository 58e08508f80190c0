import Verif.Spec.Export

/-!
# Two keys that come from the same values

The keys that the program derives from a seed and a creation second, and what it means that two of them fall together
on the way although they start apart.
-/

namespace Verif.Spec

open Verif.Model (Crypto clampScalar)
open Verif.Spec.OpenPGP

/-- A key of a set: the master key, or the subkey of a type with an index -/
inductive Part where
  | master
  | encryption (index : Nat)
  | authentication (index : Nat)
  | signing (index : Nat)
  deriving DecidableEq

/-- A key that the program can derive -/
structure KeyId where
  seed : Nat
  second : Nat
  part : Part
  deriving DecidableEq

namespace KeyId

/-- The index, 0 for the master key -/
def index (k : KeyId) : Nat :=
  match k.part with
  | .master => 0
  | .encryption i | .authentication i | .signing i => i

/-- 128 bits of seed, 32 bits of time, 16 bits of index -/
def Fits (k : KeyId) : Prop := k.seed < 2 ^ 128 ∧ k.second < 2 ^ 32 ∧ k.index < 2 ^ 16

def isEncryption (k : KeyId) : Prop :=
  match k.part with
  | .encryption _ => True
  | _ => False

/-- What is hashed to the root key -/
def root (k : KeyId) : Bytes × Bytes := (octets 16 k.seed, octets 4 k.second)

def label (k : KeyId) : Bytes :=
  match k.part with
  | .master => str "mnemonikey master key"
  | .encryption i => subkeyInfo "encryption" i
  | .authentication i => subkeyInfo "authentication" i
  | .signing i => subkeyInfo "signing" i

/-- The 32 bytes that the key is made of -/
def secret (C : Crypto) (k : KeyId) : Bytes :=
  match k.part with
  | .master => masterSeed C k.seed k.second
  | .encryption i => subkeySeed C k.seed k.second "encryption" i
  | .authentication i => subkeySeed C k.seed k.second "authentication" i
  | .signing i => subkeySeed C k.seed k.second "signing" i

/-- The key as others see it -/
def shown (C : Crypto) (k : KeyId) : PublicKey :=
  match k.part with
  | .encryption _ => ecdhPublic C k.second (k.secret C)
  | _ => edPublic C k.second (k.secret C)

/-- The octets whose hash is the fingerprint -/
def hashed (C : Crypto) (k : KeyId) : Bytes :=
  match k.part with
  | .encryption _ => keyPreimage (ecdhBody k.second (C.x25519Base (k.secret C)))
  | _ => keyPreimage (edBody k.second (C.ed25519Pub (k.secret C)))

end KeyId

/-- Somewhere between seed and fingerprint, a primitive gives the same for two different inputs, and these are the very
inputs it gets for the two keys. (That there are some two inputs would say nothing: SHA-1 has them for sure.) -/
inductive Collision (C : Crypto) (a b : KeyId) : Prop where
  | argon2id : a.root ≠ b.root → C.argon2id a.root.1 a.root.2 4 524288 2 32 = C.argon2id b.root.1 b.root.2 4 524288 2 32 →
    Collision C a b
  | hkdf : (rootKey C a.seed a.second, a.label) ≠ (rootKey C b.seed b.second, b.label) →
    C.hkdfExpand (rootKey C a.seed a.second) a.label 32 = C.hkdfExpand (rootKey C b.seed b.second) b.label 32 →
    Collision C a b
  /-- up to the five bits that X25519 does not use -/
  | hkdfScalar : a.isEncryption → b.isEncryption →
    (rootKey C a.seed a.second, a.label) ≠ (rootKey C b.seed b.second, b.label) →
    clampScalar (C.hkdfExpand (rootKey C a.seed a.second) a.label 32) =
      clampScalar (C.hkdfExpand (rootKey C b.seed b.second) b.label 32) → Collision C a b
  | ed25519 : ¬ a.isEncryption → ¬ b.isEncryption → a.secret C ≠ b.secret C →
    C.ed25519Pub (a.secret C) = C.ed25519Pub (b.secret C) → Collision C a b
  | x25519 : a.isEncryption → b.isEncryption → clampScalar (a.secret C) ≠ clampScalar (b.secret C) →
    C.x25519Base (a.secret C) = C.x25519Base (b.secret C) → Collision C a b
  | sha1 : a.hashed C ≠ b.hashed C → C.sha1 (a.hashed C) = C.sha1 (b.hashed C) → Collision C a b

end Verif.Spec
