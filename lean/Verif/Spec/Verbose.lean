import Verif.Spec.Export
import Verif.Spec.PhraseScreen
import Verif.Spec.Calendar
import Verif.Spec.Quoted
import Verif.Model.Cli.Output

/-! # What -verbose tells about a key and a phrase -/

namespace Verif.Spec

open Verif.Model (Crypto)

/-- Two hexadecimal digits in upper case for each byte -/
def upperHex (bs : Bytes) : Bytes :=
  bs.flatMap fun b => [(str "0123456789ABCDEF").getD (b.toNat / 16) 0, (str "0123456789ABCDEF").getD (b.toNat % 16) 0]

/-- The public data of a key, with user IDs quoted and times (in seconds) written out in given ways -/
def keyTable (C : Crypto) (quote : Bytes → Bytes) (time : Nat → Bytes) (seed second : Nat) (w : Wanted) :
    List (Bytes × Bytes) :=
  [(str "Master key Fingerprint", upperHex (edPublic C second (masterSeed C seed second)).fingerprint),
   (str "User ID", quote w.userID), (str "Created at", time second)] ++
  (w.expires.map fun d => (str "Expires at", time (second + d))).toList ++
  (w.encryption.map fun i => (str "Encryption subkey fingerprint",
    upperHex (ecdhPublic C second (subkeySeed C seed second "encryption" i)).fingerprint)).toList ++
  (w.authentication.map fun i => (str "Authentication subkey fingerprint",
    upperHex (edPublic C second (subkeySeed C seed second "authentication" i)).fingerprint)).toList ++
  (w.signing.map fun i => (str "Signing subkey fingerprint",
    upperHex (edPublic C second (subkeySeed C seed second "signing" i)).fingerprint)).toList

/-- The same with the user ID in quotes, such that it can be read back, and the times as dates -/
def KeyRows (C : Crypto) (seed second : Nat) (w : Wanted) (rows : List (Bytes × Bytes)) : Prop :=
  ∃ quote time, rows = keyTable C quote time seed second w ∧ Quoted (quote w.userID) w.userID ∧
    Denotes (time second) second ∧ ∀ d, w.expires = some d → Denotes (time (second + d)) (second + d)

/-- The same for a phrase, with or without password -/
def phraseTable (encrypted : Bool) : List (Bytes × Bytes) :=
  [(str "version", if encrypted then str "1" else str "0"), (str "era", str "0"),
   (str "encrypted", if encrypted then str "true" else str "false")]

/-- The length of the longest name in a table -/
def nameWidth : List (Bytes × Bytes) → Nat
  | [] => 0
  | row :: rows => max row.1.length (nameWidth rows)

/-- A row of a table on the screen: the name and a colon shown faintly, and the value in its column -/
def tableRow (width : Nat) (row : Bytes × Bytes) : List Cell :=
  faintly (row.1 ++ [0x3A]) ++ plain (List.replicate (width - row.1.length + 1) 0x20 ++ row.2)

open Term in
/-- The screen shows a table on consecutive rows, before an empty row. What stood on the screen above the cursor is
still there. -/
structure ShowsTable (t u : Term) (rows : List (Bytes × Bytes)) : Prop where
  ready : u.esc = .ground
  above : ∀ r c, r < t.row → u.cell r c = t.cell r c
  rows : ∃ row, t.row < row ∧ u.row = row + rows.length + 1 ∧
    (∀ i (hi : i < rows.length), Shows u (row + i) (tableRow (nameWidth rows) rows[i])) ∧
    Shows u (row + rows.length) []

/-- There is room for a table of printable characters. -/
structure TableRoom (t : Term) (rows : List (Bytes × Bytes)) : Prop where
  ready : t.esc = .ground
  normal : t.faint = false
  top : t.top ≤ t.row
  bottom : t.row < t.top + t.height
  blank : ∀ r c, t.row < r → t.cell r c = .blank
  printable : ∀ row ∈ rows, ∀ b ∈ row.1 ++ row.2, 0x20 ≤ b ∧ b < 0x7F
  wide : ∀ row ∈ rows, nameWidth rows + 2 + row.2.length < t.width

/-- The second list is the first with messages added. -/
inductive MoreMessages : List Model.Cli.Ev → List Model.Cli.Ev → Prop where
  | nil : MoreMessages [] []
  | same {a b : List Model.Cli.Ev} (e : Model.Cli.Ev) : MoreMessages a b → MoreMessages (e :: a) (e :: b)
  | added {a b : List Model.Cli.Ev} (text : Bytes) : MoreMessages a b → MoreMessages a (.err text :: b)

end Verif.Spec
