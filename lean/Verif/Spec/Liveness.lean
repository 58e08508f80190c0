import Verif.Model.Cli.Concurrent

/-!
# Who makes a move
-/

namespace Verif.Spec

open Verif.Model Verif.Model.Cli

/-- Someone types a line, or reading it fails. -/
def lineMove : ProcMove → Bool
  | .at _ (.line _) => true
  | _ => false

/-- Someone types a line into call `k`, or reading it fails. -/
def lineAt (k : Nat) : ProcMove → Bool
  | .at j (.line _) => j == k
  | _ => false

/-- The moves for which the program needs nobody: everything but lines and interrupts. -/
def ownMove : ProcMove → Bool
  | .at _ (.line _) => false
  | .at _ .interrupt => false
  | _ => true

/-- The reader of the call is in ReadPassword. -/
def AtTerminal (p : Prompt) : Prop := (∃ e, p.reader = .reading e) ∨ ∃ q e, p.reader = .confirming q e

/-- The moves by which a call comes to its end when `q` is typed -/
def Helpful (k : Nat) (q : Bytes) (m : ProcMove) : Prop :=
  m = .at k (.line (.ok q)) ∨ m = .at k .enterRead ∨ m = .at k .receive ∨ m = .at k .cancel

end Verif.Spec
