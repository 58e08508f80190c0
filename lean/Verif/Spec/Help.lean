import Verif.Spec.Args
import Verif.Spec.Flags

/-!
# Help texts and the messages on malformed command lines

Independent of the model.
-/

namespace Verif.Spec

/-! ## What a terminal shows of a text: without the sequences from ESC to `m` that change colours -/

/-- `inside`: within such a sequence -/
def shownText : (inside : Bool) → Bytes → Bytes
  | _, [] => []
  | false, c :: s => if c = 0x1B then shownText true s else c :: shownText false s
  | true, c :: s => if c = 0x6D then shownText false s else shownText true s

def unstyled (s : Bytes) : Bytes := shownText false s

/-! ## Help -/

/-- An option in a help text. -/
structure Entry where
  name : Bytes
  placeholder : Bytes
  description : Bytes
  default : Option Bytes

structure Page where
  title : Bytes
  description : Bytes
  examples : List Bytes
  entries : List Entry

/-- The text cut into lines at spaces, each indented; spaces at the start of a line are dropped. -/
def LaidOut (indent : Nat) (text out : Bytes) : Prop :=
  ∃ groups : List (List Bytes), IsSpaced text groups.flatten ∧ (∀ g ∈ groups, g ≠ []) ∧
    out = List.intercalate [10] (groups.map fun g =>
      List.replicate indent 32 ++ List.intercalate [32] (g.dropWhile (fun w => w = [])))

/-- The text of an option: its name with the placeholder of its value, the description, the default. -/
def IsEntry (e : Entry) (out : Bytes) : Prop :=
  ∃ d, LaidOut 8 e.description d ∧
    out = str "  -" ++ e.name ++ str " " ++ e.placeholder ++ str "\n" ++ d ++
      (match e.default with
      | none => []
      | some v => str " (default " ++ v ++ str ")") ++ str "\n\n"

inductive AreEntries : List Entry → Bytes → Prop where
  | nil : AreEntries [] []
  | cons {e : Entry} {es : List Entry} {a b : Bytes} : IsEntry e a → AreEntries es b →
    AreEntries (e :: es) (a ++ b)

/-- The text is the page. -/
def IsPage (p : Page) (out : Bytes) : Prop :=
  ∃ d es, LaidOut 2 p.description d ∧ AreEntries p.entries es ∧
    out = p.title ++ str "\n\n" ++ d ++ str "\n\n" ++ str "Usage:\n" ++
      (p.examples.map fun e => str "  " ++ e ++ str "\n").flatten ++ str "\n" ++
      (if p.entries = [] then [] else str "Options:\n") ++ es

/-- The default shown for an option of a kind says that leaving the option out is the same as giving it the
value `v`. Nothing is shown for an empty string. -/
inductive Shows : Option Bytes → Kind → Bytes → Prop where
  | empty : Shows none .string []
  | string (v : Bytes) : v ≠ [] → Shows (some (str "\"" ++ v ++ str "\"")) .string v
  | other (k : Kind) (v : Bytes) : k ≠ .string → Shows (some v) k v

/-- Go's verb `%q` puts printable ASCII characters other than `"` and `\` in quotes as they are. -/
def QuotesPlainly (quote : Bytes → Bytes) : Prop :=
  ∀ s : Bytes, (∀ c ∈ s, 0x20 ≤ c ∧ c < 0x7F ∧ c ≠ 0x22 ∧ c ≠ 0x5C) →
    quote s = str "\"" ++ s ++ str "\""

/-! ## Malformed command lines -/

/-- Digits with underscores anywhere -/
inductive Loose (b : Nat) : Nat → Bytes → Nat → Prop where
  | done (n : Nat) : Loose b n [] n
  | digit {c : Byte} {d n m : Nat} {s : Bytes} : Digit c d → d < b → Loose b (n * b + d) s m →
    Loose b n (c :: s) m
  | underscore {n m : Nat} {s : Bytes} : Loose b n s m → Loose b n (0x5F :: s) m

/-- The prefix of a number with the base it means, and what follows -/
inductive Radix : Bytes → Nat → Bytes → Prop where
  | decimal {u : Bytes} : u.head? ≠ some 0x30 → Radix [] 10 u
  | octal (u : Bytes) : Radix (str "0") 8 u
  | octalO {p : Bytes} (u : Bytes) : p = str "0o" ∨ p = str "0O" → Radix p 8 u
  | binary {p : Bytes} (u : Bytes) : p = str "0b" ∨ p = str "0B" → Radix p 2 u
  | hex {p : Bytes} (u : Bytes) : p = str "0x" ∨ p = str "0X" → Radix p 16 u

/-- The text begins with digits that make 2^64 or more. -/
def Overflows (v : Bytes) : Prop :=
  ∃ p b u w n, v = p ++ (u ++ w) ∧ Radix p b (u ++ w) ∧ Loose b 0 u n ∧ 2 ^ 64 ≤ n

/-- Why the text is not a number below 2^64. -/
inductive NoNumber : Bytes → Bytes → Prop where
  | range {v : Bytes} : Overflows v → NoNumber v (str "value out of range")
  | syntaxError {v : Bytes} : ¬ Overflows v → (∀ n, ¬ IntLit v n) → NoNumber v (str "parse error")

/-- `Refused kind quote args message`: after some settings comes an argument that does not fit, and the
message says which and why. -/
inductive Refused (kind : Bytes → Option Kind) (quote : Bytes → Bytes) : List Bytes → Bytes → Prop where
  | badSyntax {dash t : Bytes} {args} : dash = str "---" ∨ dash = str "-=" ∨ dash = str "--=" →
    Refused kind quote ((dash ++ t) :: args) (str "bad flag syntax: " ++ dash ++ t)
  | unknown {dash name v : Bytes} {args} : dash = str "-" ∨ dash = str "--" →
    name ≠ [] → name.head? ≠ some 0x2D → 0x3D ∉ name → (v = [] ∨ ∃ w, v = str "=" ++ w) →
    kind name = none → name ≠ str "help" → name ≠ str "h" →
    Refused kind quote ((dash ++ name ++ v) :: args) (str "flag provided but not defined: -" ++ name)
  | boolean {dash name v : Bytes} {args} : dash = str "-" ∨ dash = str "--" → kind name = some .bool →
    (∀ x, ¬ Reads .bool v x) →
    Refused kind quote ((dash ++ name ++ str "=" ++ v) :: args)
      (str "invalid boolean value " ++ quote v ++ str " for -" ++ name ++ str ": parse error")
  | noValue {dash name : Bytes} {k : Kind} : dash = str "-" ∨ dash = str "--" → kind name = some k →
    k ≠ .bool → Refused kind quote [dash ++ name] (str "flag needs an argument: -" ++ name)
  | number {dash name v why : Bytes} {args} : dash = str "-" ∨ dash = str "--" → kind name = some .uint →
    NoNumber v why →
    Refused kind quote ((dash ++ name ++ str "=" ++ v) :: args)
      (str "invalid value " ++ quote v ++ str " for flag -" ++ name ++ str ": " ++ why)
  | numberNext {dash name v why : Bytes} {args} : dash = str "-" ∨ dash = str "--" →
    kind name = some .uint → NoNumber v why →
    Refused kind quote ((dash ++ name) :: v :: args)
      (str "invalid value " ++ quote v ++ str " for flag -" ++ name ++ str ": " ++ why)
  | equals {dash name v message : Bytes} {k : Kind} {x : Value} {args} :
    dash = str "-" ∨ dash = str "--" → kind name = some k → Reads k v x → Refused kind quote args message →
    Refused kind quote ((dash ++ name ++ str "=" ++ v) :: args) message
  | switch {dash name message : Bytes} {args} :
    dash = str "-" ∨ dash = str "--" → kind name = some .bool → Refused kind quote args message →
    Refused kind quote ((dash ++ name) :: args) message
  | next {dash name v message : Bytes} {k : Kind} {x : Value} {args} :
    dash = str "-" ∨ dash = str "--" → kind name = some k → k ≠ .bool → Reads k v x →
    Refused kind quote args message → Refused kind quote ((dash ++ name) :: v :: args) message

end Verif.Spec
