import Verif.Model.Cli.Text

/-!
# `/repo/cmd/mnemonikey/terminal.go`: layout

A loop that may run for ever is a function of a number of steps: `none` means it is still running.
-/

namespace Verif.Model.Cli

/-- terminal.go:84-91, the inner loop: append words to the line while they fit. -/
def fillLine (indentString : Bytes) (maxWidth : Int) : Bytes → List Bytes → Bytes × List Bytes
  | line, [] => (line, [])
  | line, w :: words =>
    if (line.length : Int) + w.length + 1 ≤ maxWidth then
      let line := if line ≠ indentString then line ++ str " " else line
      fillLine indentString maxWidth (line ++ w) words
    else (line, w :: words)

/-- terminal.go:83-93, the outer loop, for a number of rounds -/
def justifyLoop (indentString : Bytes) (maxWidth : Int) : Nat → List Bytes → List Bytes →
    Option (List Bytes)
  | _, lines, [] => some lines
  | 0, _, _ :: _ => none
  | steps + 1, lines, w :: words =>
    let r := fillLine indentString maxWidth indentString (w :: words)
    justifyLoop indentString maxWidth steps (lines ++ [r.1]) r.2

/-- terminal.go:75-95 justifyWidth. `indent` is not negative at any call. A zero sum divides by zero;
a negative one can ask `make` for a negative capacity. -/
def justifyWidth (steps : Nat) (indent : Nat) (width : Int) (text : Bytes) : Option (Res Bytes) :=
  let maxWidth : Int := indent + width
  let indentString := List.replicate indent (0x20 : Byte)
  let words := split 0x20 text
  if maxWidth = 0 then some (.panic .divideByZero)
  else if (text.length : Int).tdiv maxWidth + 1 < 0 then some (.panic .makeSliceCap)
  else (justifyLoop indentString maxWidth steps [] words).map (fun lines => .ok (join [0x0A] lines))

/-- terminal.go:97-102 justifyTerminalWidth, on a terminal of the given width -/
def justifyTerminalWidth (steps : Nat) (termWidth : Int) (indent : Nat) (text : Bytes) :
    Option (Res Bytes) :=
  justifyWidth steps indent ((termWidth * 4).tdiv 5) text

/-- terminal.go:104-109 justifyOptionDescription -/
def justifyOptionDescription (steps : Nat) (termWidth : Int) (description : Bytes) :
    Option (Res Bytes) :=
  justifyWidth steps 8 (((termWidth - 8) * 4).tdiv 5) description

end Verif.Model.Cli
