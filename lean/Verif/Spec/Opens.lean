import Verif.Spec.Export

/-! # Which passwords open a secret (C126)

Independent of the model: RFC 4880 5.5.3 and 3.7.1.3.
-/

namespace Verif.Spec

open OpenPGP

/-- The secrets of a key: that of the master key, and those of the subkeys -/
def secretsOf (k : KeyInfo) : List Secret := k.secret :: k.subkeys.map fun s => s.secret

/-- The secret is encrypted as `-encrypt-keys` does it, with this salt. -/
def SaltedWith (salt : Bytes) (s : Secret) : Prop :=
  ∃ iv data, s = .locked 9 8 salt 65011712 iv data ∧ salt.length = 8 ∧ iv.length = 16

/-- What is encrypted is, under this AES key, an integer and its SHA-1. -/
def SoundUnder (C : Model.Crypto) (key : Bytes) (s : Secret) : Prop :=
  ∃ cipher hash salt count iv data mpi n, s = .locked cipher hash salt count iv data ∧
    cfbDecrypt (C.aes256Enc key) iv data = mpi ++ C.sha1 mpi ∧ readMPI mpi = some (n, [])

/-- The octets repeat themselves with this period. -/
def Period (d : Nat) (b : Bytes) : Prop := ∀ i, i + d < b.length → b[i + d]? = b[i]?

end Verif.Spec
