import Verif.Basic

/-! # Readings of the clock (C124) -/

namespace Verif.Spec

/-- Two readings of the clock, in nanoseconds since 1970, lie in the same second. In the last second that a phrase can hold
(2091-01-19T03:14:07 UTC) only its very beginning is accepted. -/
def SameSecond (now now' : Int) : Prop :=
  now / 10 ^ 9 = now' / 10 ^ 9 ∧
    (now / 10 ^ 9 = 1672531200 + 2 ^ 31 - 1 → (now % 10 ^ 9 = 0 ↔ now' % 10 ^ 9 = 0))

end Verif.Spec
