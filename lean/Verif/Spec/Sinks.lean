import Verif.Basic

/-!
# Outputs that do not take everything
-/

namespace Verif.Spec

/-- `out` is a beginning of `text`, in one piece, with at most `n` more line feeds before and after. -/
def FramedPart (n : Nat) (out text : Bytes) : Prop :=
  ∃ i j part, i + j ≤ n ∧ part <+: text ∧ out = List.replicate i 0x0A ++ part ++ List.replicate j 0x0A

end Verif.Spec
