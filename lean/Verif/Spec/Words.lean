import Verif.Spec.Prompt
import Verif.Spec.Request

/-!
# The words that a command gets

Independent of the model, except that options and environment come in its records.
-/

namespace Verif.Spec

open Verif.Model (WordList)
open Verif.Model.Cli

/-- Without white space inside -/
def Solid (t : Bytes) : Prop := ∀ c ∈ whiteSpace, ¬ utf8 c <:+: t

/-- The words of a text, up to the first one whose end is not among the 65536 bytes from its beginning; the white
space behind a word counts. -/
inductive WordsIn : Bytes → List Bytes → Prop where
  | none {gap : Bytes} : Blank gap → WordsIn gap []
  | last {gap w : Bytes} : Blank gap → w ≠ [] → Solid w → w.length < 65536 → WordsIn (gap ++ w) [w]
  | next {gap w t : Bytes} {c : Nat} {ws : List Bytes} : Blank gap → w ≠ [] → Solid w → c ∈ whiteSpace →
    w.length + (utf8 c).length ≤ 65536 → WordsIn t ws → WordsIn (gap ++ (w ++ (utf8 c ++ t))) (w :: ws)
  | long {gap w t : Bytes} : Blank gap → Solid w → w.length = 65536 → WordsIn (gap ++ (w ++ t)) []

/-- What somebody has entered at the interactive prompt: the words submitted, the text typed of the next one, its
place (0 for the first), and the number of words that the last one submitted for the first place asks for. -/
structure Typing where
  words : List Bytes
  text : Bytes
  place : Int
  needs : Option Nat

/-- Nothing yet -/
def Typing.start : Typing := ⟨[], [], 0, none⟩

/-- There are as many words as needed, as far as the prompt can tell. -/
def Typing.Done (s : Typing) : Prop := ∃ n : Nat, s.needs = some n ∧ s.place = n

/-- What one key does at the interactive prompt, apart from CTRL+C and CTRL+D, which end it. `offer t` is the word
that the list offers to complete `t`. The left arrow drops the text and goes back one place, but takes no word
back. -/
inductive Press (word : Nat → Bytes) (offer : Bytes → Option Bytes) : Byte → Typing → Typing → Prop where
  | letter {c : Byte} {s : Typing} : 0x61 ≤ c → c ≤ 0x7A → Press word offer c s { s with text := s.text ++ [c] }
  | backspace {s : Typing} : Press word offer 127 s { s with text := s.text.dropLast }
  | left {s : Typing} : Press word offer 68 s { s with text := [], place := s.place - 1 }
  | tab {s : Typing} {w : Bytes} : offer s.text = some w → Press word offer 9 s { s with text := w }
  | first {c : Byte} {s : Typing} {w : Bytes} {n : Nat} : c = 13 ∨ c = 32 → offer s.text = some w → s.place = 0 →
    Needs word w n → Press word offer c s ⟨s.words ++ [w], [], 1, some n⟩
  | other {c : Byte} {s : Typing} {w : Bytes} : c = 13 ∨ c = 32 → offer s.text = some w → s.place ≠ 0 →
    Press word offer c s ⟨s.words ++ [w], [], s.place + 1, s.needs⟩
  | badVersion {c : Byte} {s : Typing} {w : Bytes} : c = 13 ∨ c = 32 → offer s.text = some w → s.place = 0 →
    (¬ ∃ n, Needs word w n) → Press word offer c s s
  | noWord {c : Byte} {s : Typing} : c = 9 ∨ c = 13 ∨ c = 32 → offer s.text = none → Press word offer c s s
  | ignored {c : Byte} {s : Typing} : ¬ (0x61 ≤ c ∧ c ≤ 0x7A) → c ∉ [3, 4, 9, 13, 32, 68, 127] →
    Press word offer c s s

/-- These keys lead from one state to another; the prompt ends when it is done. -/
inductive Presses (word : Nat → Bytes) (offer : Bytes → Option Bytes) : Bytes → Typing → Typing → Prop where
  | nil {s : Typing} : Presses word offer [] s s
  | cons {c : Byte} {cs : Bytes} {s s' s'' : Typing} : ¬ s.Done → Press word offer c s s' →
    Presses word offer cs s' s'' → Presses word offer (c :: cs) s s''

/-- How a prompt for words ends -/
inductive PromptEnd where
  | words (ws : List Bytes)
  | aborted
  | ended

/-- What the keys make of the interactive prompt -/
inductive ByKeys (word : Nat → Bytes) (offer : Bytes → Option Bytes) (keys : Bytes) : PromptEnd → Prop where
  | done {pre rest : Bytes} {s : Typing} : keys = pre ++ rest → Presses word offer pre .start s → s.Done →
    ByKeys word offer keys (.words s.words)
  | aborted {pre rest : Bytes} {c : Byte} {s : Typing} : keys = pre ++ c :: rest → c = 3 ∨ c = 4 →
    Presses word offer pre .start s → ¬ s.Done → ByKeys word offer keys .aborted
  | ended {s : Typing} : Presses word offer keys .start s → ¬ s.Done → ByKeys word offer keys .ended

/-- What the lines make of the simple prompt: lines are looked at without the white space around them and in lower
case; those that are no word are passed over, and so are words of an unknown version until there is a first word.
A line of 65536 bytes or more ends the input. -/
inductive ByLines (word : Nat → Bytes) (lower : Bytes → Bytes) (input : Bytes) : PromptEnd → Prop where
  | intro {ls trimmed : List Bytes} {r : PromptEnd} : Lines input ls →
    List.Forall₂ Trimmed (ls.takeWhile (fun l => decide (l.length < 65536))) trimmed →
    r = (match simpleWanted word (trimmed.map lower) with
      | none => .ended
      | some ws => .words ws) → ByLines word lower input r

/-- Whether the phrase is asked for line by line: if the user wants it, or if the terminal cannot give single keys -/
def lineByLine (env : Env) (input : InputFlags) : Bool := input.simple || env.rawError.isSome

/-- The words that recover and convert get: those of the file named, in lower case, if they can be a phrase; or else
those entered, line by line with the option -simple or if the terminal has no raw mode. -/
inductive Gets (L : WordList) (offer : Bytes → Option Bytes) (env : Env) (input : InputFlags) :
    List Bytes → Prop where
  | file {content : Bytes} {ts : List Bytes} : input.inputWordFile ≠ [] →
    env.fs.read input.inputWordFile = some content → WordsIn content ts → Complete L.word (ts.map L.toLower) →
    Gets L offer env input (ts.map L.toLower)
  | lines {ws : List Bytes} : input.inputWordFile = [] → input.simple = true ∨ env.rawError ≠ none →
    ByLines L.word L.toLower env.stdin (.words ws) → Gets L offer env input ws
  | keys {ws : List Bytes} : input.inputWordFile = [] → input.simple = false → env.rawError = none →
    ByKeys L.word offer env.stdin (.words ws) → Gets L offer env input ws

end Verif.Spec
