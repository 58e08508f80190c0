import Verif.Model.Cli.Screen
import Verif.Spec.Keyboard

/-! # The simple prompt with corrections

`simpleShows` and `simpleShown` have the terminal driver echo the lines as they are read. Here it echoes the keys. -/

namespace Verif.Model.Cli

open Verif.Spec

/-- word_input.go:182-220: as `simpleShows`, with the keys of every line -/
def typedShows (L : WordList) (wordCount : Nat) :
    List Bytes → List (List Stroke) → Bytes × Option (Nat × List Bytes)
  | words, [] => (simplePrompt words, some (wordCount, words))
  | words, keys :: typed =>
    let (out, wordCount, words') := simpleRound L wordCount words (edited keys)
    let out := simplePrompt words ++ (echoed keys ++ str "\n") ++ out
    if words'.length < wordCount then
      let (out', st) := typedShows L wordCount words' typed
      (out ++ out', st)
    else (out, none)

/-- word_input.go:171-223 userInputMnemonicSimple: what was written, with the keys of every line -/
def typedShown (L : WordList) (typed : List (List Stroke)) : Bytes × Option (Nat × List Bytes) :=
  let (out, st) := typedShows L 1 [] typed
  (simpleHeader ++ out, st)

end Verif.Model.Cli
