import Verif.Model.Cli.PasswordScreen
import Verif.Spec.Terminal

/-!
# The dialogue at a password prompt
-/

namespace Verif.Spec

open Verif.Model Verif.Model.Cli

/-- What the person at the terminal has been told when these lines have been typed (or a read has failed) and the
next one, if another is needed, has been requested -/
def dialogue (confirm : Bool) : List (Res Bytes) → List Msg
  | .ok [] :: rest => [.ask, .empty] ++ dialogue confirm rest
  | .ok (x :: xs) :: .ok second :: rest =>
    if confirm = false then [.ask]
    else if second = x :: xs then [.ask, .again]
    else [.ask, .again, .mismatch] ++ dialogue confirm rest
  | .ok (_ :: _) :: _ => if confirm then [.ask, .again] else [.ask]
  | _ => [.ask]

/-- What call `k` said on standard error -/
def saidBy (k : Nat) (said : List (Nat × Msg)) : List Msg :=
  (said.filter (fun x => x.1 == k && x.2 != .newline)).map Prod.snd

/-- How often call `k` wrote a line feed to standard output -/
def newlinesBy (k : Nat) (said : List (Nat × Msg)) : Nat := said.count (k, .newline)

/-- A request the reader is about to make -/
def pending (p : Prompt) : List Msg :=
  match p.reader with
  | .start => [.ask]
  | .confirmStart _ => [.again]
  | _ => []

/-- Reading a line failed. -/
def readFailed : List (Res Bytes) → Bool
  | [] => false
  | .err _ :: _ => true
  | _ :: rest => readFailed rest

/-- After a failed read, the row is ended when the failure is taken note of. -/
def parting (failed : Bool) (errChan : Option Err) : List Msg :=
  match failed, errChan with
  | true, none => [.blank]
  | _, _ => []

/-- The row of the screen for a message -/
def Msg.row (prompt : Bytes) : Msg → List Cell
  | .ask => faintly prompt
  | .empty => plain (str "Cannot use an empty password.")
  | .again => faintly (str "Repeat password to confirm: ")
  | .mismatch => plain (str "Passwords do not match. Please try again.")
  | .blank => []
  | .newline => []

/-- The texts that are sent to the terminal, where call `k` has the prompt `prompt k` -/
def texts (prompt : Nat → Bytes) (said : List (Nat × Msg)) : List Bytes := said.map (fun x => x.2.text (prompt x.1))

/-- The cursor is at the start of a row, and nothing is shown from there on. -/
structure EmptyFrom (t : Term) (row : Nat) : Prop where
  at_row : t.row = row
  start : t.col = 0 ∧ t.wrap = false
  ready : t.esc = .ground ∧ t.faint = false
  window : t.top ≤ t.row ∧ t.row < t.top + t.height
  blank : ∀ r c, row ≤ r → t.cell r c = .blank

/-- Below what was shown before stand these rows, and nothing below them. -/
structure ShowsRows (t u : Term) (rows : List (List Cell)) : Prop where
  width : u.width = t.width
  above : ∀ r c, r < t.row → u.cell r c = t.cell r c
  shown : ∀ i (hi : i < rows.length), u.Shows (t.row + i) rows[i]
  below : ∀ r c, t.row + rows.length ≤ r → u.cell r c = .blank

/-- The cursor is at the end of the last of these rows. -/
structure AtEnd (t u : Term) (rows : List (List Cell)) : Prop where
  row : u.row + 1 = t.row + rows.length
  col : rows.getLast?.map List.length = some u.col
  ready : u.esc = .ground ∧ u.faint = false ∧ u.wrap = false

/-- Someone types other lines. -/
def renameMove (f : Bytes → Bytes) : SysMove → SysMove
  | .at k (.line (.ok l)) => .at k (.line (.ok (f l)))
  | m => m

end Verif.Spec
