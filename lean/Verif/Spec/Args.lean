import Verif.Basic

/-!
# Command lines as documented by Go's package `flag`

Independent of the model. "-flag", "--flag" (the same), "-flag=x", "-flag x" (non-boolean flags only).
Parsing stops just before the first argument that is not a flag ("-" is not one) or after "--".
Integers are Go's integer literals.
-/

namespace Verif.Spec

inductive Kind where
  | bool | string | uint
  deriving DecidableEq

inductive Value where
  | bool (b : Bool)
  | string (s : Bytes)
  | uint (n : Nat)
  deriving DecidableEq

/-- The digit `c` has the value `d`. -/
inductive Digit : Byte → Nat → Prop where
  | decimal (d : Nat) : d < 10 → Digit (UInt8.ofNat (48 + d)) d
  | lower (d : Nat) : 10 ≤ d → d < 16 → Digit (UInt8.ofNat (87 + d)) d
  | upper (d : Nat) : 10 ≤ d → d < 16 → Digit (UInt8.ofNat (55 + d)) d

/-- `s` continues a number in base `b` of value `n` to one of value `m`; an underscore may stand before
every digit. -/
inductive Digits (b : Nat) : Nat → Bytes → Nat → Prop where
  | done (n : Nat) : Digits b n [] n
  | digit {c : Byte} {d n m : Nat} {s : Bytes} : Digit c d → d < b → Digits b (n * b + d) s m →
    Digits b n (c :: s) m
  | underscore {c : Byte} {d n m : Nat} {s : Bytes} : Digit c d → d < b → Digits b (n * b + d) s m →
    Digits b n (0x5F :: c :: s) m

/-- Go's integer literals. A leading 0 means octal. -/
inductive IntLit : Bytes → Nat → Prop where
  | decimal {c : Byte} {d m : Nat} {s : Bytes} : Digit c d → 0 < d → d < 10 → Digits 10 d s m →
    IntLit (c :: s) m
  | octal {m : Nat} {s : Bytes} : Digits 8 0 s m → IntLit (str "0" ++ s) m
  | octalO {p : Bytes} {m : Nat} {s : Bytes} : p = str "0o" ∨ p = str "0O" → s ≠ [] → Digits 8 0 s m →
    IntLit (p ++ s) m
  | binary {p : Bytes} {m : Nat} {s : Bytes} : p = str "0b" ∨ p = str "0B" → s ≠ [] → Digits 2 0 s m →
    IntLit (p ++ s) m
  | hex {p : Bytes} {m : Nat} {s : Bytes} : p = str "0x" ∨ p = str "0X" → s ≠ [] → Digits 16 0 s m →
    IntLit (p ++ s) m

/-- The text of a value -/
inductive Reads : Kind → Bytes → Value → Prop where
  | yes {s : Bytes} : s ∈ [str "1", str "t", str "T", str "true", str "TRUE", str "True"] →
    Reads .bool s (.bool true)
  | no {s : Bytes} : s ∈ [str "0", str "f", str "F", str "false", str "FALSE", str "False"] →
    Reads .bool s (.bool false)
  | string (s : Bytes) : Reads .string s (.string s)
  | uint {s : Bytes} {n : Nat} : IntLit s n → n < 2 ^ 64 → Reads .uint s (.uint n)

/-- An argument that is not a flag: empty, a single character, or not starting with a dash. -/
def NotFlag (s : Bytes) : Prop := ∀ c t, s ≠ 0x2D :: c :: t

/-- `CommandLine kind settings rest args`: the arguments `args` make the settings, in this order, and leave
`rest`. -/
inductive CommandLine (kind : Bytes → Option Kind) :
    List (Bytes × Value) → List Bytes → List Bytes → Prop where
  | nothing : CommandLine kind [] [] []
  | positional {s : Bytes} (rest : List Bytes) : NotFlag s → CommandLine kind [] (s :: rest) (s :: rest)
  | dashes (rest : List Bytes) : CommandLine kind [] rest (str "--" :: rest)
  | equals {dash name v : Bytes} {k : Kind} {x : Value} {settings rest args} :
    dash = str "-" ∨ dash = str "--" → kind name = some k → Reads k v x →
    CommandLine kind settings rest args →
    CommandLine kind ((name, x) :: settings) rest ((dash ++ name ++ str "=" ++ v) :: args)
  | switch {dash name : Bytes} {settings rest args} :
    dash = str "-" ∨ dash = str "--" → kind name = some .bool → CommandLine kind settings rest args →
    CommandLine kind ((name, .bool true) :: settings) rest ((dash ++ name) :: args)
  | next {dash name v : Bytes} {k : Kind} {x : Value} {settings rest args} :
    dash = str "-" ∨ dash = str "--" → kind name = some k → k ≠ .bool → Reads k v x →
    CommandLine kind settings rest args →
    CommandLine kind ((name, x) :: settings) rest ((dash ++ name) :: v :: args)

/-- The arguments ask for help: after some settings comes an undefined flag named `help` or `h`. -/
inductive AsksHelp (kind : Bytes → Option Kind) : List Bytes → Prop where
  | help {dash name v : Bytes} {args} : dash = str "-" ∨ dash = str "--" →
    name = str "help" ∨ name = str "h" → kind name = none → (v = [] ∨ ∃ w, v = str "=" ++ w) →
    AsksHelp kind ((dash ++ name ++ v) :: args)
  | equals {dash name v : Bytes} {k : Kind} {x : Value} {args} :
    dash = str "-" ∨ dash = str "--" → kind name = some k → Reads k v x → AsksHelp kind args →
    AsksHelp kind ((dash ++ name ++ str "=" ++ v) :: args)
  | switch {dash name : Bytes} {args} :
    dash = str "-" ∨ dash = str "--" → kind name = some .bool → AsksHelp kind args →
    AsksHelp kind ((dash ++ name) :: args)
  | next {dash name v : Bytes} {k : Kind} {x : Value} {args} :
    dash = str "-" ∨ dash = str "--" → kind name = some k → k ≠ .bool → Reads k v x →
    AsksHelp kind args → AsksHelp kind ((dash ++ name) :: v :: args)

/-- Names of flags do not contain `=` and do not begin with a dash; none is empty. -/
def GoodNames (kind : Bytes → Option Kind) : Prop :=
  ∀ name k, kind name = some k → name ≠ [] ∧ name.head? ≠ some 0x2D ∧ 0x3D ∉ name

/-! ## The documented options, in the order of the usage texts (by name) -/

def generateTable : List (Bytes × Kind) :=
  [(str "email", .string), (str "encrypt-keys", .bool), (str "encrypt-phrase", .bool), (str "name", .string),
   (str "only", .string), (str "out-word-file", .string), (str "ttl", .string),
   (str "unsafe-entropy", .string), (str "verbose", .bool)]

def recoverTable : List (Bytes × Kind) :=
  [(str "auth-index", .uint), (str "email", .string), (str "enc-index", .uint), (str "encrypt-keys", .bool),
   (str "in-word-file", .string), (str "name", .string), (str "only", .string), (str "self-cert", .bool),
   (str "sig-index", .uint), (str "simple", .bool), (str "ttl", .string), (str "verbose", .bool)]

def convertTable : List (Bytes × Kind) :=
  [(str "encrypt-phrase", .bool), (str "in-word-file", .string), (str "out-word-file", .string),
   (str "simple", .bool), (str "verbose", .bool)]

/-- The value of a flag after the settings: the last one made. -/
def lastOf (settings : List (Bytes × Value)) (name : Bytes) : Option Value :=
  (settings.reverse.find? (fun s => s.1 = name)).map Prod.snd

end Verif.Spec
