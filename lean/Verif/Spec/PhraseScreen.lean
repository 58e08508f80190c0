import Verif.Spec.Terminal

/-! # A phrase to be read off a screen -/

namespace Verif.Spec

/-- The row for a word: its number, a colon, and the word from the sixth column on -/
def numberedRow (n : Nat) (word : Bytes) : Bytes :=
  let label := str (toString n) ++ [0x3A]
  label ++ List.replicate (5 - label.length) 0x20 ++ word

/-- What stands on a row from the sixth column on, up to the first space -/
def Term.wordAt (t : Term) (row : Nat) : Bytes :=
  ((List.range (t.width - 5)).map (fun c => (t.cell row (5 + c)).char)).takeWhile (fun b => b != 0x20)

/-- The words that a person reads on `n` rows -/
def Term.wordsFrom (t : Term) (row n : Nat) : List Bytes := (List.range n).map (fun i => t.wordAt (row + i))

/-- The bytes sent to the terminal for some writes -/
def sent (texts : List Bytes) : Bytes := cooked texts.flatten

open Term in
/-- The screen shows these words: on consecutive rows, each with its number, before an empty row. What stood on the
screen above the cursor is still there. -/
structure ShowsPhrase (t u : Term) (words : List Bytes) : Prop where
  ready : u.esc = .ground
  above : ∀ r c, r < t.row → u.cell r c = t.cell r c
  rows : ∃ row, t.row < row ∧ row + words.length < u.row ∧ u.wordsFrom row words.length = words ∧
    (∀ i (hi : i < words.length), Shows u (row + i) (plain (numberedRow (i + 1) words[i]))) ∧
    Shows u (row + words.length) []

open Term in
/-- A screen for some words: ready for text, with nothing below the cursor, and wide enough -/
structure Room (t : Term) (words : List Bytes) : Prop where
  ready : t.esc = .ground
  normal : t.faint = false
  top : t.top ≤ t.row
  bottom : t.row < t.top + t.height
  blank : ∀ r c, t.row < r → t.cell r c = .blank
  wide : ∀ w ∈ words, 5 + w.length < t.width

end Verif.Spec
