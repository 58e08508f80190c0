import Verif.Spec.Keyring

/-!
# When a key is valid

RFC 4880 5.2.3.6: the key expires the given number of seconds after its own creation; zero means never. A key or
signature of the future is not valid yet.
-/

namespace Verif.Spec

open Verif.Spec.OpenPGP

/-- The key is valid at second `t` for who goes by this signature (of its owner on it). -/
def ValidAt (key : PublicKey) (sig : SigInfo) (t : Nat) : Prop :=
  key.created ≤ t ∧ sig.created ≤ t ∧ ∀ d, sig.expires = some d → d = 0 ∨ t < key.created + d

/-- The times from `second` on, up to the lifetime if there is one -/
def Lasts (second : Nat) (lifetime : Option Nat) (t : Nat) : Prop :=
  second ≤ t ∧ ∀ d, lifetime = some d → t < second + d

end Verif.Spec
