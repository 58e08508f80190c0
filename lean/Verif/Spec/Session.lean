import Verif.Model.Cli.Session
import Verif.Spec.Lines
import Verif.Spec.Password
import Verif.Spec.Words

/-! # What somebody types at one terminal -/

namespace Verif.Spec

open Verif.Model (WordList)
open Verif.Model.Cli

/-- Somebody enters these words, and then comes this: the words are in a file; or they are typed in lines, the last of
which completes the phrase; or with keys, the last of which completes it. -/
inductive Enters (L : WordList) (offer : Bytes → Option Bytes) (env : Env) (input : InputFlags) (c : Console) :
    List Bytes → List Bytes → Prop where
  | file {ws : List Bytes} : input.inputWordFile ≠ [] → Gets L offer env input ws → Enters L offer env input c ws c.pieces
  | lines {ls ws behind : List Bytes} : input.inputWordFile = [] → lineByLine env input = true →
    c.pieces = enteredLines ls ++ behind → (∀ l ∈ ls, 0x0A ∉ l ∧ l.length < 65536) →
    ByLines L.word L.toLower (enteredLines ls).flatten (.words ws) →
    (∀ fewer, fewer <+: ls → fewer ≠ ls → ByLines L.word L.toLower (enteredLines fewer).flatten .ended) →
    Enters L offer env input c ws behind
  | keys {s : Typing} : input.inputWordFile = [] → lineByLine env input = false →
    Presses L.word offer c.keys .start s → s.Done → Enters L offer env input c s.words c.pieces

/-- The lines are an answer with this password, if there is one to be given. -/
def AnswersWith (confirm : Bool) (password : Option Bytes) (lines : List Bytes) : Prop :=
  match password with
  | none => lines = []
  | some p => Accepted confirm lines p

end Verif.Spec
