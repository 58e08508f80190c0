import Verif.Model.Cli.Stderr
import Mathlib.Logic.Equiv.Defs

/-!
# Aliases of phrase passwords (C123)

Every password gets an alias. Argon2id that knows the aliases does on an alias what Argon2id does on the password.
-/

namespace Verif.Spec

open Verif.Model Verif.Model.Cli

/-- A permutation of passwords of any lengths; the empty one, which is no password, keeps its name. -/
structure Aliases where
  perm : Equiv.Perm Bytes
  empty : perm [] = []

/-- Argon2id takes aliases for the passwords where it makes the 17 bytes that belong to a phrase. Everything else is
left alone, and so is Argon2id where it makes the 32 bytes that keys come from. -/
def aliased (π : Aliases) (C : Crypto) : Crypto :=
  { C with
    argon2id := fun p s t m th n => if n = 17 then C.argon2id (π.perm.symm p) s t m th n else C.argon2id p s t m th n }

/-- The alias entered in place of a password -/
def Aliases.answer (π : Aliases) : ResE Bytes → ResE Bytes
  | .ok p => .ok (π.perm p)
  | .err e => .err e
  | .panic p => .panic p

/-- How often a process asks for the password of the phrase it was given -/
def decryptions (events : List Ev) : Nat :=
  events.countP fun e => decide (e = .password (str "Enter phrase decryption password: ") false)

end Verif.Spec
