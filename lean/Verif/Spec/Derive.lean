import Verif.Spec.OpenPGP

/-!
# Key derivation as documented (README, "Key derivation" and derive.go's header)

and the contents of the exported key that follow from it.
-/

namespace Verif.Spec

open Verif.Model (Crypto)
open Verif.Spec.OpenPGP

/-- Argon2id of the 16-octet seed and the 4-octet creation second. -/
def rootKey (C : Crypto) (seed second : Nat) : Bytes :=
  C.argon2id (octets 16 seed) (octets 4 second) 4 524288 2 32

def masterSeed (C : Crypto) (seed second : Nat) : Bytes :=
  C.hkdfExpand (rootKey C seed second) (str "mnemonikey master key") 32

def subkeyInfo (type : String) (index : Nat) : Bytes :=
  str "mnemonikey " ++ str type ++ str " subkey" ++ octets 2 index

def subkeySeed (C : Crypto) (seed second : Nat) (type : String) (index : Nat) : Bytes :=
  C.hkdfExpand (rootKey C seed second) (subkeyInfo type index) 32

/-- `name <email>`, or the non-empty one of the two. -/
def userID (name email : Bytes) : Bytes :=
  match name, email with
  | n, [] => n
  | [], e => e
  | n, e => n ++ 0x20 :: 0x3C :: e ++ [0x3E]

end Verif.Spec
