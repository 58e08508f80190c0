import Verif.Spec.Session
import Verif.Spec.Keyboard

/-! # Somebody at a terminal, key by key -/

namespace Verif.Spec

open Verif.Model (WordList)
open Verif.Model.Cli

/-- What the driver gives to readers for these keys: a piece for each return, and for each control-D (for lines of less
than 4095 bytes) -/
def piecesFrom : Bytes → List Pressed → List Bytes
  | _, [] => []
  | line, .key k :: ps => piecesFrom (press line k) ps
  | line, .enter :: ps => (line ++ [0x0A]) :: piecesFrom [] ps
  | line, .eof :: ps => line :: piecesFrom [] ps

def piecesOf (ps : List Pressed) : List Bytes := piecesFrom [] ps

/-- Somebody enters these words, pressing the keys `keys` as long as the terminal is in raw mode and `pressed` as long as
it is not, of which the second list is left. In lines: with any corrections, and any lines that are not taken, the last
line completing the phrase. -/
inductive TypesPhrase (L : WordList) (offer : Bytes → Option Bytes) (env : Env) (input : InputFlags) :
    List Bytes → Bytes → List Pressed → List Pressed → Prop where
  | lines {typed : List (List Stroke)} {trimmed ws : List Bytes} {keys : Bytes} {rest : List Pressed} :
    input.inputWordFile = [] → lineByLine env input = true →
    (∀ ks ∈ typed, ∀ k ∈ ks, ∀ b, k = .char b → b ≠ 0x0A) → (∀ ks ∈ typed, (edited ks).length < 4095) →
    List.Forall₂ Trimmed (typed.map edited) trimmed →
    simpleWanted L.word (trimmed.map L.toLower) = some ws →
    simpleWanted L.word (trimmed.map L.toLower).dropLast = none →
    TypesPhrase L offer env input ws keys (entering typed ++ rest) rest
  | keys {s : Typing} {keys : Bytes} {rest : List Pressed} : input.inputWordFile = [] → lineByLine env input = false →
    Presses L.word offer keys .start s → s.Done → TypesPhrase L offer env input s.words keys rest rest

/-- Answers to password prompts, as lines with any corrections -/
def TypesAnswers (typed : List (List Stroke)) (lines : List Bytes) : Prop :=
  (∀ ks ∈ typed, ∀ k ∈ ks, ∀ b, k = .char b → 0x20 ≤ b) ∧ typed.map edited = lines

end Verif.Spec
