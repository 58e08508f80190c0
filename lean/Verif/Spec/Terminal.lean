import Verif.Basic

/-!
# A character terminal

What a screen with the usual control sequences (ECMA-48, the DEC and SCO ones for saving the cursor) shows
after it was sent some bytes. Only what the prompts of the program send is distinguished: carriage return,
line feed, backspace, printing characters, and the sequences to save and restore the cursor, to go to the
previous line, to erase the rest of a line and to choose faint characters. Other control characters and
sequences (colours, bold) do nothing here. The terminal is in raw mode: a line feed only goes down.

Rows are numbered from the start of the scrollback, so nothing that was shown is forgotten by scrolling.
-/

namespace Verif.Spec

/-- A character on the screen -/
structure Cell where
  char : Byte
  faint : Bool := false
  deriving DecidableEq, Repr

def Cell.blank : Cell := ⟨0x20, false⟩

/-- Where the terminal is in a control sequence -/
inductive Esc where
  | ground
  | escape
  | csi (params : Bytes)
  deriving DecidableEq, Repr

structure Term where
  width : Nat
  height : Nat
  cell : Nat → Nat → Cell
  /-- the row at the top of the window -/
  top : Nat
  row : Nat
  col : Nat
  /-- The last column was written and the next character goes to the next row. -/
  wrap : Bool := false
  faint : Bool := false
  /-- row of the window, column, and whether the next character goes to the next row -/
  saved : Nat × Nat × Bool := (0, 0, false)
  /-- Terminals differ in whether restoring the cursor restores that the next character goes to the next row. -/
  restoresWrap : Bool := true
  esc : Esc := .ground

namespace Term

/-- The cells of a row from a column on become blank. -/
def clear (t : Term) (row col : Nat) : Term :=
  { t with cell := fun r c => if r = row ∧ col ≤ c then .blank else t.cell r c }

/-- A line feed; at the bottom of the window the screen scrolls. -/
def lineFeed (t : Term) : Term :=
  if t.row + 1 < t.top + t.height then { t with row := t.row + 1, wrap := false }
  else { clear t (t.row + 1) 0 with row := t.row + 1, top := t.top + 1, wrap := false }

/-- A printing character -/
def put (t : Term) (b : Byte) : Term :=
  let t := if t.wrap then { lineFeed t with col := 0 } else t
  let t := { t with cell := fun r c => if r = t.row ∧ c = t.col then ⟨b, t.faint⟩ else t.cell r c }
  if t.col + 1 < t.width then { t with col := t.col + 1 } else { t with wrap := true }

def save (t : Term) : Term := { t with saved := (t.row - t.top, t.col, t.wrap) }

def restore (t : Term) : Term := 
  { t with row := t.top + t.saved.1, col := t.saved.2.1, wrap := t.restoresWrap && t.saved.2.2 }

/-- A control sequence with its parameters and final character -/
def control (t : Term) (params : Bytes) (final : Byte) : Term :=
  if final = 0x73 then save t                                                                -- s
  else if final = 0x75 then restore t                                                        -- u
  else if final = 0x46 then { t with row := max t.top (t.row - 1), col := 0, wrap := false } -- F
  else if final = 0x4B ∧ (params = [] ∨ params = [0x30]) then clear t t.row t.col            -- K
  else if final = 0x6D ∧ params = [0x32] then { t with faint := true }                       -- m
  else if final = 0x6D ∧ params = [0x32, 0x32] then { t with faint := false }
  else t

/-- One byte sent to the terminal -/
def step (t : Term) (b : Byte) : Term :=
  match t.esc with
  | .ground =>
    if b = 0x1B then { t with esc := .escape }
    else if b = 0x0D then { t with col := 0, wrap := false }
    else if b = 0x0A then lineFeed t
    else if b = 0x08 then { t with col := t.col - 1, wrap := false }
    else if b < 0x20 ∨ b = 0x7F then t
    else put t b
  | .escape =>
    if b = 0x5B then { t with esc := .csi [] }
    else if b = 0x37 then { save t with esc := .ground }
    else if b = 0x38 then { restore t with esc := .ground }
    else { t with esc := .ground }
  | .csi params =>
    if 0x30 ≤ b ∧ b ≤ 0x3F then { t with esc := .csi (params ++ [b]) }
    else { control t params b with esc := .ground }

/-- Bytes sent to the terminal -/
def feed (t : Term) (out : Bytes) : Term := out.foldl step t

/-- A terminal that is not in the middle of a control sequence, with the cursor in the window, and at least two
rows and a certain number of columns. -/
structure Usable (t : Term) (columns : Nat) : Prop where
  esc : t.esc = .ground
  topRow : t.top ≤ t.row
  rowTop : t.row < t.top + t.height
  rows : 2 ≤ t.height
  columns : columns ≤ t.width

/-- The row starts with this text. -/
def Starts (t : Term) (row : Nat) (text : Bytes) : Prop :=
  ∀ c, c < text.length → t.cell row c = ⟨text.getD c 0, false⟩

/-- The row shows exactly these characters from its start, and nothing after them. -/
def Shows (t : Term) (row : Nat) (cells : List Cell) : Prop :=
  ∀ c, c < t.width → t.cell row c = cells.getD c .blank

end Term

/-- Characters shown normally -/
def plain (bs : Bytes) : List Cell := bs.map (fun b => ⟨b, false⟩)

/-- Characters shown faintly -/
def faintly (bs : Bytes) : List Cell := bs.map (fun b => ⟨b, true⟩)

/-- Outside of raw mode a line feed is sent to the terminal with a carriage return before it. -/
def cooked (out : Bytes) : Bytes := out.flatMap (fun b => if b = 0x0A then [0x0D, 0x0A] else [b])

end Verif.Spec
