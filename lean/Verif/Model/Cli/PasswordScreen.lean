import Verif.Model.Cli.Password
import Verif.Model.Cli.Terminal

/-!
# `/repo/cmd/mnemonikey/word_input.go`: what userInputPassword writes

Every write belongs to a move of the transition system in `Password.lean`. A request for a line is written
when the reader enters ReadPassword; between the two nothing but moves of other threads can happen.
-/

namespace Verif.Model.Cli

/-- The writes of one call of userInputPassword. -/
inductive Msg where
  | ask        -- word_input.go:250
  | empty      -- word_input.go:258
  | again      -- word_input.go:263
  | mismatch   -- word_input.go:270
  | blank      -- word_input.go:285
  | newline    -- word_input.go:241, on standard output
  deriving DecidableEq, Repr

/-- word_input.go:241, 250, 258, 263, 270, 285; eprintln (word_input.go:26) ends a line. -/
def Msg.text (prompt : Bytes) : Msg → Bytes
  | .ask => faint prompt
  | .empty => red (str "\nCannot use an empty password.") ++ str "\n"
  | .again => faint (str "\nRepeat password to confirm: ")
  | .mismatch => red (str "\nPasswords do not match. Please try again.") ++ str "\n"
  | .blank => str "\n"
  | .newline => str "\n"

/-- word_input.go:239-290: what a move writes -/
def Prompt.says (p : Prompt) : Move → List Msg
  | .enterRead =>
    match p.reader with
    | .start => [.ask]
    | .confirmStart _ => [.again]
    | _ => []
  | .line (.ok l) =>
    match p.reader with
    | .reading _ => if l.length = 0 then [.empty] else []
    | .confirming q _ => if q = l then [] else [.mismatch]
    | _ => []
  | .receiveErr => [.blank]
  | .print => [.newline]
  | _ => []

/-- A move of the process, with the number of the call that writes -/
def Sys.says (s : Sys) : SysMove → List (Nat × Msg)
  | .at k m =>
    match s.prompts[k]? with
    | some p => (p.says m).map (fun x => (k, x))
    | none => []
  | _ => []

/-- What is written along a schedule, in order -/
def Sys.said : Sys → List SysMove → List (Nat × Msg)
  | _, [] => []
  | s, m :: ms =>
    match s.move m with
    | none => []
    | some s' => s.says m ++ s'.said ms

end Verif.Model.Cli
