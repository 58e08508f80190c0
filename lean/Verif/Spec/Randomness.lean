import Verif.Spec.Export
import Verif.Spec.Phrase

/-!
# What random bytes are used for
-/

namespace Verif.Spec

open Verif.Model Verif.Spec.OpenPGP

/-- The bytes of a secret part that are chosen at random: salt and initialisation vector -/
def nonce : Secret → Bytes
  | .locked _ _ salt _ iv _ => salt ++ iv
  | _ => []

/-- The bytes, cut in pieces, are the random parts of the secrets of the key: one piece for each secret, the
first one for the master key, and none left over. -/
def MakesUp (k : KeyInfo) (drawn : Bytes) : Prop :=
  ∃ pieces : List Bytes, pieces.Perm (k.subkeys.map fun s => nonce s.secret) ∧
    drawn = nonce k.secret ++ pieces.flatten

/-- The bytes are what the salt of the phrase was made of: three for an encrypted phrase, of which the last
19 bits are the salt; none for a plain one. -/
def SaltOf (index : Bytes → Option Nat) (words : List Bytes) (drawn : Bytes) : Prop :=
  (∃ s o, readPhrase index words = .ok (.plaintext s o) ∧ drawn = []) ∨
  ∃ e v o, readPhrase index words = .ok (.encrypted e (valueOfBytes drawn % 2 ^ 19) v o) ∧ drawn.length = 3

end Verif.Spec
