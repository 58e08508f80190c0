import Verif.Model.Crypto
import Mathlib.Logic.Equiv.Defs

/-!
# Renamed seeds (C122)

A renaming gives every seed another name. Under the renamed primitives the renamed seed does what the seed does under
the primitives themselves.
-/

namespace Verif.Spec

/-- A permutation of byte strings that keeps lengths, so also of the 16 bytes of a seed -/
structure Renaming where
  perm : Equiv.Perm Bytes
  length : ∀ b, (perm b).length = b.length

namespace Renaming

/-- The renaming back -/
def back (π : Renaming) : Renaming where
  perm := π.perm.symm
  length b := by
    have h := π.length (π.perm.symm b)
    rw [π.perm.apply_symm_apply] at h
    exact h.symm

end Renaming

/-- Primitives that take the new names of seeds for the old ones: Argon2id when it makes the 32 bytes that all keys
come from, and the AES block that a phrase holds. Everything else is left alone, and so is Argon2id when it makes the
17 bytes that come from a phrase password. -/
def renamed (π : Renaming) (C : Model.Crypto) : Model.Crypto :=
  { C with
    argon2id := fun p s t m th n => if n = 32 then C.argon2id (π.back.perm p) s t m th n else C.argon2id p s t m th n
    aesEnc := fun k b => C.aesEnc k (π.back.perm b)
    aesDec := fun k b => π.perm (C.aesDec k b) }

end Verif.Spec
