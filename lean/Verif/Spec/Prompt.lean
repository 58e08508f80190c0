import Verif.Basic
import Mathlib.Data.List.Basic

/-!
# What a word prompt should return

Independent of the model. `word i` is the i-th word of the list.
-/

namespace Verif.Spec

/-- A word of the list. -/
def IsWord (word : Nat → Bytes) (w : Bytes) : Prop := ∃ j, j < 4096 ∧ word j = w

/-- The first word says how many words the phrase has: the top four bits of its index are the
version. -/
inductive Needs (word : Nat → Bytes) : Bytes → Nat → Prop where
  | plaintext (j : Nat) : j / 256 = 0 → Needs word (word j) 14
  | encrypted (j : Nat) : j / 256 = 1 → Needs word (word j) 16

/-- A complete phrase as far as a prompt can tell: words of the list, as many as the first one
asks for. -/
def Complete (word : Nat → Bytes) (ws : List Bytes) : Prop :=
  (∀ w ∈ ws, IsWord word w) ∧ ∃ w rest, ws = w :: rest ∧ Needs word w ws.length

open Classical in
/-- What the simple prompt should make of the entries: words not in the list are ignored, and so are
words of unknown version as long as there is no first word. `none`: the input ended too early. -/
noncomputable def simpleWanted (word : Nat → Bytes) (entries : List Bytes) : Option (List Bytes) :=
  let ws := (entries.filter (fun e => IsWord word e)).dropWhile (fun w => ¬ ∃ n, Needs word w n)
  match ws with
  | [] => none
  | w :: _ =>
    let size := if Needs word w 14 then 14 else 16
    if size ≤ ws.length then some (ws.take size) else none

/-- The lines of a text; the last one may lack its line feed. -/
inductive Lines : Bytes → List Bytes → Prop where
  | nil : Lines [] []
  | last {l : Bytes} : l ≠ [] → 0x0A ∉ l → Lines l [l]
  | cons {l t : Bytes} {ls : List Bytes} : 0x0A ∉ l → Lines t ls → Lines (l ++ 0x0A :: t) (l :: ls)

/-- What one key does at the interactive prompt, apart from the left arrow and from CTRL+C and CTRL+D, which
end it: `ws` are the words accepted, `t` is the text typed of the next one. `offer t` is the word that the
list offers to complete `t`, if there is one. The first word must be of a known version. -/
inductive Key (word : Nat → Bytes) (offer : Bytes → Option Bytes) : Byte → List Bytes × Bytes →
    List Bytes × Bytes → Prop where
  | letter {c ws t} : 0x61 ≤ c → c ≤ 0x7A → Key word offer c (ws, t) (ws, t ++ [c])
  | backspace {ws t} : Key word offer 127 (ws, t) (ws, t.dropLast)
  | tab {ws t w} : offer t = some w → Key word offer 9 (ws, t) (ws, w)
  | tabNothing {ws t} : offer t = none → Key word offer 9 (ws, t) (ws, t)
  | submit {c ws t w} : c = 13 ∨ c = 32 → offer t = some w → (ws = [] → ∃ n, Needs word w n) →
    Key word offer c (ws, t) (ws ++ [w], [])
  | badVersion {c ws t w} : c = 13 ∨ c = 32 → offer t = some w → ws = [] → (¬ ∃ n, Needs word w n) →
    Key word offer c (ws, t) (ws, t)
  | noWord {c ws t} : c = 13 ∨ c = 32 → offer t = none → Key word offer c (ws, t) (ws, t)
  | ignored {c ws t} : ¬ (0x61 ≤ c ∧ c ≤ 0x7A) → c ∉ [3, 4, 9, 13, 32, 68, 127] →
    Key word offer c (ws, t) (ws, t)

/-- The keys lead from one state to another; a complete phrase ends the prompt. -/
inductive Keys (word : Nat → Bytes) (offer : Bytes → Option Bytes) : Bytes → List Bytes × Bytes →
    List Bytes × Bytes → Prop where
  | nil {a} : Keys word offer [] a a
  | cons {c cs a b d} : ¬ Complete word a.1 → Key word offer c a b → Keys word offer cs b d →
    Keys word offer (c :: cs) a d

/-- The messages shown below the prompt -/
inductive IsMessage : Bytes → Prop where
  | noWord : IsMessage (str "No matching words found in the wordlist!")
  | badVersion {v : Nat} : 2 ≤ v → v < 16 →
    IsMessage (str ("invalid version number in recovery phrase: " ++ toString v))

/-- The text before the place where a word is typed -/
def promptFor (n : Int) : Bytes := str ("Word " ++ toString n ++ " >> ")

/-- What the row below the prompt tells after a key that leads from one state to the next: nothing, or a
message. -/
inductive Below (word : Nat → Bytes) (offer : Bytes → Option Bytes) : Byte → List Bytes × Bytes →
    List Bytes × Bytes → Option Bytes → Prop where
  | good {c ws t t'} : c ∉ [9, 13, 32] → (offer t' ≠ none ∨ t' = []) → Below word offer c (ws, t) (ws, t') none
  | hopeless {c ws t t'} : c ∉ [9, 13, 32] → offer t' = none → t' ≠ [] →
    Below word offer c (ws, t) (ws, t') (some (str "No matching words found in the wordlist!"))
  | enter {c ws t} : c = 9 ∨ c = 13 ∨ c = 32 → offer t = none → (c = 9 → t ≠ []) →
    Below word offer c (ws, t) (ws, t) (some (str "No matching words found in the wordlist!"))
  | tabEmpty {ws} : offer [] = none → Below word offer 9 (ws, []) (ws, []) none
  | version {c t i} : c = 13 ∨ c = 32 → i < 4096 → offer t = some (word i) → 2 ≤ i / 256 →
    Below word offer c ([], t) ([], t) (some (str ("invalid version number in recovery phrase: " ++ toString (i / 256))))

open Classical in
/-- The words that the simple prompt has accepted after these entries -/
noncomputable def accepted (word : Nat → Bytes) (entries : List Bytes) : List Bytes :=
  (entries.filter (fun e => IsWord word e)).dropWhile (fun w => ¬ ∃ n, Needs word w n)

end Verif.Spec
