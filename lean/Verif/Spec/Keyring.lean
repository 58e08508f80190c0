import Verif.Spec.Armor
import Verif.Spec.Export

/-!
# A keyring

What somebody knows who imports keys one after the other, as OpenPGP programs do: what is about the same primary key
comes together, and nothing is forgotten. User IDs without certification are not kept.
-/

namespace Verif.Spec

open Verif.Model (Crypto)
open Verif.Spec.OpenPGP

/-- One thing known -/
inductive Fact where
  /-- there is this primary key -/
  | primary (key : PublicKey)
  /-- its secret -/
  | primarySecret (key : PublicKey) (n : Nat)
  /-- a user ID that it has certified -/
  | user (key : PublicKey) (userID : Bytes) (cert : CertInfo)
  /-- a subkey that it has bound to itself, with what the signature says and the time of the cross-certification -/
  | subkey (key sub : PublicKey) (binding : SigInfo) (cross : Option Nat)
  /-- the secret of a subkey -/
  | subkeySecret (sub : PublicKey) (n : Nat)

/-- What can be learned from an imported key with the password -/
inductive Learned (C : Crypto) (k : KeyInfo) (password : Bytes) : Fact → Prop where
  | primary : Learned C k password (.primary k.key)
  | primarySecret {n : Nat} : openSecret C password k.secret = some n → Learned C k password (.primarySecret k.key n)
  | user {cert : CertInfo} : k.cert = some cert → Learned C k password (.user k.key k.userID cert)
  | subkey {s : SubkeyInfo} : s ∈ k.subkeys → Learned C k password (.subkey k.key s.key s.binding s.cross)
  | subkeySecret {s : SubkeyInfo} {n : Nat} : s ∈ k.subkeys → openSecret C password s.secret = some n →
    Learned C k password (.subkeySecret s.key n)

/-- A text in armor is imported, with the password for its secrets; a text that is no key changes nothing. -/
inductive Imported (C : Crypto) (ring : Fact → Prop) (text password : Bytes) : Fact → Prop where
  | old {f : Fact} : ring f → Imported C ring text password f
  | new {f : Fact} {data : Bytes} {k : KeyInfo} : dearmor text = some data → importKey C data = some k →
    Learned C k password f → Imported C ring text password f

/-- The keyring after some imports, the last one first in the list -/
def keyring (C : Crypto) : List (Bytes × Bytes) → Fact → Prop
  | [] => fun _ => False
  | (text, password) :: before => Imported C (keyring C before) text password

end Verif.Spec
