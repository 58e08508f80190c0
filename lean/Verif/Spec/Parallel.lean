import Verif.Spec.Collision
import Verif.Spec.Request

/-! # The keys that a command asks for -/

namespace Verif.Spec

/-- The keys that `-only` and the indices ask for. The master key is always needed: its public half is in every
export. -/
inductive AskedFor (only : Bytes) (enc auth sig : Nat) : Part → Prop where
  | master : AskedFor only enc auth sig .master
  | encryption {part : String → Prop} : Parts only part → part "encryption" → AskedFor only enc auth sig (.encryption enc)
  | authentication {part : String → Prop} : Parts only part → part "authentication" →
    AskedFor only enc auth sig (.authentication auth)
  | signing {part : String → Prop} : Parts only part → part "signing" → AskedFor only enc auth sig (.signing sig)

end Verif.Spec
