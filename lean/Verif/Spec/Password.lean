import Verif.Basic

/-!
# What a password prompt should return

Independent of the model.
-/

namespace Verif.Spec

/-- Lines that led to no password so far: empty ones, and with confirmation pairs that differ. -/
inductive Failed (confirm : Bool) : List Bytes → Prop where
  | nil : Failed confirm []
  | empty (ls : List Bytes) : Failed confirm ls → Failed confirm (ls ++ [[]])
  | mismatch (ls : List Bytes) (a b : Bytes) : confirm = true → Failed confirm ls → a ≠ [] → a ≠ b →
      Failed confirm (ls ++ [a, b])

/-- The lines end with an acceptable password: not empty, and with confirmation typed twice. -/
def Accepted (confirm : Bool) (ls : List Bytes) (p : Bytes) : Prop :=
  p ≠ [] ∧ ∃ before, Failed confirm before ∧ ls = before ++ if confirm then [p, p] else [p]

end Verif.Spec
