import Verif.Spec.OpenPGP

/-! # Lengths of secrets in keys under a password -/

namespace Verif.Spec

open Verif.Spec.OpenPGP

/-- `n` has `k` octets without leading zeros. -/
def HasOctets (n k : Nat) : Prop := n < 256 ^ k ∧ (k = 0 ∨ 256 ^ (k - 1) ≤ n)

/-- What stands in the key instead of the integer: `l` octets that are encrypted. -/
def LockedIn (s : Secret) (l : Nat) : Prop :=
  ∃ cipher hash salt count iv data, s = .locked cipher hash salt count iv data ∧ data.length = l

end Verif.Spec
