import Verif.Model.Cli.Commands

/-!
# Command lines: Go's package `flag` and the flags of the three subcommands

`flag.FlagSet.Parse` and `strconv.ParseBool`, `strconv.ParseUint(s, 0, 64)` are Go's standard library,
modelled here from its source; the flags are those registered by the AddFlags functions in
`/repo/cmd/mnemonikey`. What `Parse` assigns to variables is a list of assignments in order.
-/

namespace Verif.Model.Cli

open Verif.Model

inductive FlagKind where
  | bool | string | uint
  deriving DecidableEq, Repr

inductive FlagValue where
  | bool (b : Bool)
  | string (s : Bytes)
  | uint (n : Nat)
  deriving DecidableEq, Repr

/-- `strconv.ParseBool` -/
def parseBool (s : Bytes) : Option Bool :=
  if s ∈ [str "1", str "t", str "T", str "TRUE", str "true", str "True"] then some true
  else if s ∈ [str "0", str "f", str "F", str "FALSE", str "false", str "False"] then some false
  else none

/-- `strconv.lower` -/
def lowerCase (c : Byte) : Byte := c ||| 0x20

/-- The value of a digit in `strconv.ParseUint`, up to 35. -/
def digitVal (c : Byte) : Option Nat :=
  if 0x30 ≤ c ∧ c ≤ 0x39 then some (c - 0x30).toNat
  else if 0x61 ≤ lowerCase c ∧ lowerCase c ≤ 0x7A then some ((lowerCase c - 0x61).toNat + 10)
  else none

/-- The loop of `strconv.ParseUint(s, 0, 64)`: the value, if there is no error. -/
def uintLoop (base : Nat) : Nat → Bytes → Option Nat
  | n, [] => some n
  | n, c :: rest =>
    if c = 0x5F then uintLoop base n rest
    else match digitVal c with
      | none => none
      | some d =>
        if d ≥ base then none
        else if n * base + d < 2 ^ 64 then uintLoop base (n * base + d) rest else none

/-- What `strconv.underscoreOK` saw last: `^` at the start, `0` a digit or base prefix, `_`, `!`. -/
inductive Saw where
  | start | digit | underscore | other
  deriving DecidableEq, Repr

/-- The loop of `strconv.underscoreOK` -/
def underscoreLoop (hex : Bool) : Saw → Bytes → Bool
  | saw, [] => saw ≠ .underscore
  | saw, c :: rest =>
    if (0x30 ≤ c ∧ c ≤ 0x39) ∨ (hex = true ∧ 0x61 ≤ lowerCase c ∧ lowerCase c ≤ 0x66) then
      underscoreLoop hex .digit rest
    else if c = 0x5F then
      if saw ≠ .digit then false else underscoreLoop hex .underscore rest
    else if saw = .underscore then false
    else underscoreLoop hex .other rest

/-- The letter of a base prefix -/
def prefixLetter (s : Bytes) : Option Byte :=
  match s with
  | 0x30 :: c :: _ =>
    if lowerCase c = 0x62 ∨ lowerCase c = 0x6F ∨ lowerCase c = 0x78 then some (lowerCase c) else none
  | _ => none

/-- `strconv.underscoreOK`. Signs never get here: the digit loop has refused them. -/
def underscoreOK (s : Bytes) : Bool :=
  match prefixLetter s with
  | some c => underscoreLoop (c = 0x78) .digit (s.drop 2)
  | none => underscoreLoop false .start s

/-- The base and the digits of `strconv.ParseUint(s, 0, 64)` -/
def uintBase (s : Bytes) : Nat × Bytes :=
  match s with
  | 0x30 :: rest =>
    if s.length ≥ 3 then
      match prefixLetter s with
      | some c => (if c = 0x62 then 2 else if c = 0x6F then 8 else 16, s.drop 2)
      | none => (8, rest)
    else (8, rest)
  | _ => (10, s)

/-- `strconv.ParseUint(s, 0, 64)` -/
def parseUintAny (s : Bytes) : Option Nat :=
  if s = [] then none
  else match uintLoop (uintBase s).1 0 (uintBase s).2 with
    | none => none
    | some n => if 0x5F ∈ (uintBase s).2 ∧ underscoreOK s = false then none else some n

/-- `flag.Value.Set` of a boolValue, stringValue, uintValue -/
def setValue : FlagKind → Bytes → Option FlagValue
  | .bool, v => (parseBool v).map .bool
  | .string, v => some (.string v)
  | .uint, v => (parseUintAny v).map .uint

/-- What `FlagSet.parseOne` makes of an argument -/
inductive Arg where
  | positional
  | dashes
  | bad
  | flag (name : Bytes) (value : Option Bytes)
  deriving DecidableEq, Repr

/-- The name and value of a flag: cut at the first `=` after the first byte. -/
def cutValue (name : Bytes) : Bytes × Option Bytes :=
  match name with
  | [] => ([], none)
  | c :: rest =>
    match rest.dropWhile (· ≠ 0x3D) with
    | [] => (c :: rest, none)
    | _ :: value => (c :: rest.takeWhile (· ≠ 0x3D), some value)

/-- The first half of `FlagSet.parseOne` -/
def classify (s : Bytes) : Arg :=
  if s.length < 2 ∨ s.head? ≠ some 0x2D then .positional
  else if s = str "--" then .dashes
  else
    let name := s.drop (if s[1]? = some 0x2D then 2 else 1)
    if name = [] ∨ name.head? = some 0x2D ∨ name.head? = some 0x3D then .bad
    else .flag (cutValue name).1 (cutValue name).2

/-- Outcome of `FlagSet.Parse` with the assignments made -/
inductive ParsedArgs where
  | ok (settings : List (Bytes × FlagValue)) (rest : List Bytes)
  | help
  | failed
  deriving DecidableEq, Repr

def ParsedArgs.set (setting : Bytes × FlagValue) : ParsedArgs → ParsedArgs
  | .ok settings rest => .ok (setting :: settings) rest
  | .help => .help
  | .failed => .failed

/-- `FlagSet.Parse` on a set of flags -/
def parseArgs (formal : Bytes → Option FlagKind) : List Bytes → ParsedArgs
  | [] => .ok [] []
  | s :: args =>
    match classify s with
    | .positional => .ok [] (s :: args)
    | .dashes => .ok [] args
    | .bad => .failed
    | .flag name value =>
      match formal name, value with
      | none, _ => if name = str "help" ∨ name = str "h" then .help else .failed
      | some .bool, none => (parseArgs formal args).set (name, .bool true)
      | some kind, some v =>
        match setValue kind v with
        | none => .failed
        | some x => (parseArgs formal args).set (name, x)
      | some kind, none =>
        match args with
        | [] => .failed
        | v :: args =>
          match setValue kind v with
          | none => .failed
          | some x => (parseArgs formal args).set (name, x)

/-! ## The flags -/

inductive Cmd where
  | root | generate | recover | convert
  deriving DecidableEq, Repr

/-- common_opts.go:15-22 -/
def commonFlags : List (Bytes × FlagKind) := [(str "verbose", .bool)]

/-- common_opts.go:36-74 -/
def generateRecoverFlags : List (Bytes × FlagKind) :=
  [(str "name", .string), (str "email", .string), (str "ttl", .string), (str "encrypt-keys", .bool),
   (str "only", .string)]

/-- common_opts.go:113-130 -/
def recoverConvertFlags : List (Bytes × FlagKind) := [(str "simple", .bool), (str "in-word-file", .string)]

/-- common_opts.go:138-147 -/
def generateConvertFlags : List (Bytes × FlagKind) := [(str "out-word-file", .string)]

/-- generate.go:39-58, recover.go:44-76, convert.go:30-42; the root command has none (main.go:18-26). -/
def flagsOf : Cmd → List (Bytes × FlagKind)
  | .root => []
  | .generate => commonFlags ++ generateRecoverFlags ++ generateConvertFlags ++
      [(str "encrypt-phrase", .bool), (str "unsafe-entropy", .string)]
  | .recover => commonFlags ++ generateRecoverFlags ++ recoverConvertFlags ++
      [(str "self-cert", .bool), (str "enc-index", .uint), (str "auth-index", .uint),
       (str "sig-index", .uint)]
  | .convert => commonFlags ++ recoverConvertFlags ++ generateConvertFlags ++
      [(str "encrypt-phrase", .bool)]

def formal (cmd : Cmd) (name : Bytes) : Option FlagKind := (flagsOf cmd).lookup name

/-- common_opts.go:36-74, the defaults (generate.go:17 DefaultName) -/
def defaultKeyFlags : KeyFlags :=
  { name := str "anonymous", email := [], ttl := [], encryptKeys := false, only := [] }

def setKeyFlag (o : KeyFlags) : Bytes × FlagValue → KeyFlags
  | (name, .string v) =>
    if name = str "name" then { o with name := v }
    else if name = str "email" then { o with email := v }
    else if name = str "ttl" then { o with ttl := v }
    else if name = str "only" then { o with only := v }
    else o
  | (name, .bool b) => if name = str "encrypt-keys" then { o with encryptKeys := b } else o
  | _ => o

/-- common_opts.go:113-130 -/
def setInputFlag (o : InputFlags) : Bytes × FlagValue → InputFlags
  | (name, .string v) => if name = str "in-word-file" then { o with inputWordFile := v } else o
  | (name, .bool b) => if name = str "simple" then { o with simple := b } else o
  | _ => o

/-- generate.go:39-58 -/
def setGenerate (o : GenerateOptions) (s : Bytes × FlagValue) : GenerateOptions :=
  let o := { o with key := setKeyFlag o.key s }
  match s with
  | (name, .string v) =>
    if name = str "out-word-file" then { o with outputWordFile := v }
    else if name = str "unsafe-entropy" then { o with unsafeEntropy := v }
    else o
  | (name, .bool b) => if name = str "encrypt-phrase" then { o with encryptPhrase := b } else o
  | _ => o

def generateOptions (settings : List (Bytes × FlagValue)) : GenerateOptions :=
  settings.foldl setGenerate
    { key := defaultKeyFlags, outputWordFile := [], encryptPhrase := false, unsafeEntropy := [] }

/-- recover.go:44-76 -/
def setRecover (o : RecoverOptions) (s : Bytes × FlagValue) : RecoverOptions :=
  let o := { o with key := setKeyFlag o.key s, input := setInputFlag o.input s }
  match s with
  | (name, .bool b) => if name = str "self-cert" then { o with selfCert := b } else o
  | (name, .uint n) =>
    if name = str "enc-index" then { o with encIndex := n }
    else if name = str "auth-index" then { o with authIndex := n }
    else if name = str "sig-index" then { o with sigIndex := n }
    else o
  | _ => o

def recoverOptions (settings : List (Bytes × FlagValue)) : RecoverOptions :=
  settings.foldl setRecover
    { key := defaultKeyFlags, input := ⟨false, []⟩, selfCert := true, encIndex := 0, authIndex := 0
      sigIndex := 0 }

/-- convert.go:30-42 -/
def setConvert (o : ConvertOptions) (s : Bytes × FlagValue) : ConvertOptions :=
  let o := { o with input := setInputFlag o.input s }
  match s with
  | (name, .string v) => if name = str "out-word-file" then { o with outputWordFile := v } else o
  | (name, .bool b) => if name = str "encrypt-phrase" then { o with encryptPhrase := b } else o
  | _ => o

def convertOptions (settings : List (Bytes × FlagValue)) : ConvertOptions :=
  settings.foldl setConvert { input := ⟨false, []⟩, outputWordFile := [], encryptPhrase := false }

end Verif.Model.Cli
