import Verif.Basic

/-!
# The keyboard outside of raw mode

What the terminal driver makes of keys in canonical mode (termios(3), with the usual settings: erase is DEL, kill is
control-U, ECHOE and ECHOKE, IUTF8), and what `ReadPassword` of golang.org/x/term makes of that (word_input.go:251 and
264). Other control keys are not here: words and the arrow keys of the interactive prompt do not concern this mode.
-/

namespace Verif.Spec

inductive Stroke where
  /-- a byte of a character, not a control character -/
  | char (b : Byte)
  /-- takes the last character back -/
  | erase
  /-- takes the whole line back -/
  | kill
  deriving DecidableEq, Repr

/-- A byte in a character of several bytes, not the first -/
def continues (b : Byte) : Bool := 0x80 ≤ b && b < 0xC0

/-- The line without its last character; nothing happens if there is no first byte of a character. -/
def withoutLast (line : Bytes) : Bytes :=
  match line.reverse.dropWhile continues with
  | [] => line
  | _ :: rest => rest.reverse

def press (line : Bytes) : Stroke → Bytes
  | .char b => line ++ [b]
  | .erase => withoutLast line
  | .kill => []

/-- The line after these keys -/
def edited (keys : List Stroke) : Bytes := keys.foldl press []

/-- What the driver writes to the terminal to take a character of one column back -/
def rubOut : Bytes := [0x08, 0x20, 0x08]

/-- What the driver writes for a key, when the line was this one; for lines of ASCII -/
def echoOf (line : Bytes) : Stroke → Bytes
  | .char b => [b]
  | .erase => if line = [] then [] else rubOut
  | .kill => (List.replicate line.length rubOut).flatten

/-- What the driver writes for keys, beginning with a line -/
def echoFrom : Bytes → List Stroke → Bytes
  | _, [] => []
  | line, k :: ks => echoOf line k ++ echoFrom (press line k) ks

def echoed (keys : List Stroke) : Bytes := echoFrom [] keys

/-- Keys whose line never gets longer than this -/
def Within (n : Nat) (keys : List Stroke) : Prop := ∀ ks, ks <+: keys → (edited ks).length ≤ n

/-- Keys for ASCII characters and corrections -/
def Ascii (keys : List Stroke) : Prop := ∀ k ∈ keys, ∀ b, k = .char b → 0x20 ≤ b ∧ b < 0x7F

/-! ## Reading -/

inductive Pressed where
  | key (k : Stroke)
  /-- return: the line can be read, with a line feed -/
  | enter
  /-- control-D: the line can be read as it is; if there is none, the reader finds the end of the input -/
  | eof
  deriving DecidableEq, Repr

/-- What is read byte by byte; `none` is the end of the input, after which more can come -/
def deliverFrom : Bytes → List Pressed → List (Option Byte)
  | _, [] => []
  | line, .key k :: ps => deliverFrom (press line k) ps
  | line, .enter :: ps => line.map some ++ some 0x0A :: deliverFrom [] ps
  | line, .eof :: ps => (if line = [] then [none] else line.map some) ++ deliverFrom [] ps

def deliver (ps : List Pressed) : List (Option Byte) := deliverFrom [] ps

/-- Lines, each with return at its end -/
def entering (typed : List (List Stroke)) : List Pressed := typed.flatMap fun keys => keys.map .key ++ [.enter]

/-- What is read before the input ends -/
def untilEnd (bs : List (Option Byte)) : Bytes := (bs.takeWhile Option.isSome).filterMap id

inductive PasswordRead where
  | waits
  | password (p : Bytes) (rest : List (Option Byte))
  deriving DecidableEq, Repr

/-- golang.org/x/term: readPasswordLine, with what is read so far. It reads with unix.Read, which returns no error at
the end of the input (only os.File makes that io.EOF), and goes on if nothing was read and there is no error. -/
def readPasswordLine : Bytes → List (Option Byte) → PasswordRead
  | _, [] => .waits
  | ret, none :: bs => readPasswordLine ret bs
  | ret, some b :: bs =>
    if b = 0x08 then readPasswordLine ret.dropLast bs
    else if b = 0x0A then .password ret bs
    else if b = 0x0D then readPasswordLine ret bs
    else readPasswordLine (ret ++ [b]) bs

/-- Passwords read one after the other -/
inductive PasswordsRead : List (Option Byte) → List Bytes → List (Option Byte) → Prop where
  | nil {bs} : PasswordsRead bs [] bs
  | cons {bs p bs' ps bs''} : readPasswordLine [] bs = .password p bs' → PasswordsRead bs' ps bs'' → PasswordsRead bs (p :: ps) bs''

end Verif.Spec
