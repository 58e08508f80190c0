import Verif.Basic

/-!
# Standard output shared with somebody who only writes line feeds
-/

namespace Verif.Spec

/-- `out` is `text`, in one piece, with `n` more line feeds before and after. -/
def Framed (n : Nat) (out text : Bytes) : Prop :=
  ∃ i j, i + j = n ∧ out = List.replicate i 0x0A ++ text ++ List.replicate j 0x0A

end Verif.Spec
