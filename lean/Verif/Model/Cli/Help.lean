import Verif.Model.Cli.Errors

/-!
# What usage texts and refused command lines write to standard error

`/repo/cmd/mnemonikey/command.go` and the flags of the subcommands with their usage texts. From Go's
standard library: `flag.UnquoteUsage`, `flag.FlagSet.VisitAll`, the messages of `flag.FlagSet.Parse`,
the errors of `strconv.ParseUint`.
-/

namespace Verif.Model.Cli

open Verif.Model

/-- terminal.go:55 green -/
def green (s : Bytes) : Bytes := escapeCode ++ str "[32m" ++ s ++ escapeCode ++ str "[39m"

/-! ## The flags -/

/-- `flag.Flag`: name, type of Value, Usage, and DefValue -/
structure Flag where
  name : Bytes
  kind : FlagKind
  usage : Bytes
  default : Bytes

/-- `FlagSet.BoolVar`. DefValue is the text of the default. -/
def boolVar (name : String) (default : Bool) (usage : Bytes) : Flag :=
  ⟨str name, .bool, usage, if default then str "true" else str "false"⟩

/-- `FlagSet.StringVar` -/
def stringVar (name : String) (default : Bytes) (usage : Bytes) : Flag :=
  ⟨str name, .string, usage, default⟩

/-- `FlagSet.UintVar`. The three calls have the default 0. -/
def uintVar (name : String) (default : Nat) (usage : Bytes) : Flag :=
  ⟨str name, .uint, usage, str (toString default)⟩

/-- common_opts.go:17-24 CommonOptions.AddFlags -/
def commonTable : List Flag :=
  [boolVar "verbose" false (str "Print extra debugging information to stderr when building keys.")]

/-- common_opts.go:36-74 GenerateRecoverOptions.AddFlags; generate.go:17 DefaultName -/
def generateRecoverTable : List Flag :=
  [stringVar "name" (str "anonymous") (str "Display name for the PGP key user identifier."),
   stringVar "email" [] (str "Email for the PGP key user identifier."),
   stringVar "ttl" []
     (str "Set a time-to-live validity `period` on the exported key. Can be a number denominated in " ++
      str "days (d) weeks (w) months (m) or years (y) relative to the key creation time, such as " ++
      str "\"24d\" or \"2y\" after key creation."),
   boolVar "encrypt-keys" false
     (str "Encrypt the derived PGP private keys with a password when exporting them."),
   stringVar "only" []
     (str "Only output a subset key containing the given key `types` as PGP packets. A comma-delimited " ++
      str "list of the following possible values:  master | encryption | signing | authentication")]

/-- common_opts.go:113-130 RecoverConvertOptions.AddFlags -/
def recoverConvertTable : List Flag :=
  [boolVar "simple" false
     (str "Revert to a simpler terminal input mechanism for entering the recovery " ++
      str "phrase. Useful if the fancy terminal manipulation used by the default " ++
      str "input mode doesn't work on your system."),
   stringVar "in-word-file" []
     (str "Read the words of the mnemonic from this `file`. Words should be separated by whitespace " ++
      str "and the file should contain the exact words. Useful for debugging.")]

/-- common_opts.go:138-147 GenerateConvertOptions.AddFlags -/
def generateConvertTable : List Flag :=
  [stringVar "out-word-file" []
     (str "Write the words of the recovery phrase to this `file` in PLAIN TEXT. Useful for debugging. " ++
      str "Do not use this if you care about keeping your keys safe. Words will be separated by a " ++
      str "single space. The file will contain the exact words and nothing else.")]

/-- generate.go:39-58, recover.go:44-76, convert.go:30-42; the root command has none (main.go:18-26). In the
order of registration. -/
def flagTable : Cmd → List Flag
  | .root => []
  | .generate => commonTable ++ generateRecoverTable ++ generateConvertTable ++
      [boolVar "encrypt-phrase" false
         (str "Encrypt the exported recovery phrase with a password. The resulting phrase will " ++
          str "require the same password for later recovery."),
       stringVar "unsafe-entropy" []
         (bold (str "(UNSAFE)") ++
          str " Generate the key using seed entropy drawn directly from the given `file`. " ++
          str "Specify '-' to read entropy from standard input. " ++
          bold (str "You probably shouldn't use this flag."))]
  | .recover => commonTable ++ generateRecoverTable ++ recoverConvertTable ++
      [boolVar "self-cert" true
         (str "This flag decides if mnemonikey will output the master key's self-certification signature " ++
          str "or not. Set " ++ magenta (str "-self-cert=false") ++
          str " if you are importing keys into a keyring which " ++
          str "already has the master key, to avoid adding extra signatures to the key."),
       uintVar "enc-index" 0 (str "The `index` of the encryption subkey which will be recovered."),
       uintVar "auth-index" 0 (str "The `index` of the authentication subkey which will be recovered."),
       uintVar "sig-index" 0 (str "The `index` of the signing subkey which will be recovered.")]
  | .convert => commonTable ++ recoverConvertTable ++ generateConvertTable ++
      [boolVar "encrypt-phrase" false
         (str "If true, encrypt the recovery phrase with a new password. The resulting phrase will " ++
          str "require the same password for later recovery. If false, output a plaintext phrase.")]

/-- The Name fields: main.go:19, generate.go:29, recover.go:30, convert.go:21 -/
def commandName : Cmd → Bytes
  | .root => str "mnemonikey - https://github.com/kklash/mnemonikey"
  | .generate => str "mnemonikey generate"
  | .recover => str "mnemonikey recover"
  | .convert => str "mnemonikey convert"

/-- The UsageExamples fields: main.go:21-26, generate.go:31-38, recover.go:32-43, convert.go:23-29 -/
def examplesOf : Cmd → List Bytes
  | .root =>
    [str "mnemonikey <COMMAND> [help | --help | -h] [OPTIONS]\n",
     str "mnemonikey generate  - Generate a new OpenPGP private key and display its recovery phrase.",
     str "mnemonikey recover   - Recover an OpenPGP private key from a mnemonic recovery phrase.",
     str "mnemonikey convert   - Convert between mnemonic recovery phrase formats."]
  | .generate =>
    [str "mnemonikey generate",
     str "mnemonikey generate -name username",
     str "mnemonikey generate -name username -email bob@hotmail.com",
     str "mnemonikey generate -name username -only master,encryption",
     str "mnemonikey generate -ttl 2y",
     str "mnemonikey generate -ttl 17w"]
  | .recover =>
    [str "mnemonikey recover",
     str "mnemonikey recover -name myuser",
     str "mnemonikey recover -name=myuser -email someone@someplace.com",
     str "mnemonikey recover -name myuser -enc-index 3 -auth-index=2",
     str "mnemonikey recover -name myuser -only master",
     str "mnemonikey recover -name myuser -enc-index 3 -only master,encryption",
     str "mnemonikey recover -name myuser -auth-index 12 -only authentication -self-cert=false",
     str "mnemonikey recover -ttl 2y",
     str "mnemonikey recover -ttl=17w",
     str "mnemonikey recover -simple -name myuser"]
  | .convert =>
    [str "mnemonikey convert",
     str "mnemonikey convert -encrypt",
     str "mnemonikey convert -simple",
     str "mnemonikey convert -in-word-file /etc/words",
     str "mnemonikey convert -in-word-file /etc/words -out-word-file /etc/new-words"]

/-! ## Usage texts -/

/-- `flag.UnquoteUsage`: a name in back quotes, without them in the text; else a name for the type. -/
def unquoteUsage (f : Flag) : Bytes × Bytes :=
  let typeName := match f.kind with
    | .bool => []
    | .string => str "string"
    | .uint => str "uint"
  match f.usage.dropWhile (· ≠ 0x60) with
  | [] => (typeName, f.usage)
  | _ :: rest =>
    match rest.dropWhile (· ≠ 0x60) with
    | [] => (typeName, f.usage)
    | _ :: tail =>
      let name := rest.takeWhile (· ≠ 0x60)
      (name, f.usage.takeWhile (· ≠ 0x60) ++ name ++ tail)

/-- `<` on Go strings -/
def nameLess : Bytes → Bytes → Bool
  | _, [] => false
  | [], _ :: _ => true
  | a :: s, b :: t => a < b || (a = b && nameLess s t)

def insertFlag (f : Flag) : List Flag → List Flag
  | [] => [f]
  | g :: gs => if nameLess f.name g.name then f :: g :: gs else g :: insertFlag f gs

/-- `flag.sortFlags`: the flags by name, as FlagSet.VisitAll visits them -/
def sortFlags (fs : List Flag) : List Flag := fs.foldr insertFlag []

/-- Output of a function that may not come to its end: what it writes, and how it ends. -/
structure Printed where
  text : Bytes
  ends : Outcome Unit
  deriving DecidableEq, Repr

def Printed.andThen (a b : Printed) : Printed :=
  match a.ends with
  | .ok _ => ⟨a.text ++ b.text, b.ends⟩
  | _ => a

def Printed.say (text : Bytes) : Printed := ⟨text, .ok ()⟩

/-- A laid out text: as in `layoutOutcome`, 100 rounds decide. -/
def Printed.laid (after : Bytes) : Option (Res Bytes) → Printed
  | some (.ok text) => ⟨text ++ after, .ok ()⟩
  | o => ⟨[], layoutOutcome o⟩

/-- command.go:61-70, the default value of a flag -/
def defaultText (F : Fmt) (f : Flag) : Bytes :=
  let defaultString :=
    if f.kind = .string ∧ f.default ≠ [] then F.quote f.default else f.default
  if defaultString ≠ [] then cyan (str " (default " ++ bold defaultString ++ str ")") else []

/-- command.go:56-72, the function called for every flag -/
def printFlag (F : Fmt) (columns : Nat) (f : Flag) : Printed :=
  (Printed.say (str "  " ++ bold (magenta (str "-" ++ f.name)) ++ str " " ++
    green (unquoteUsage f).1 ++ str "\n")).andThen <|
  (Printed.laid [] (justifyOptionDescription 100 columns (faint (unquoteUsage f).2))).andThen <|
  (Printed.say (defaultText F f ++ str "\n\n"))

/-- command.go:49-73: the header comes with the first flag. -/
def printFlags (F : Fmt) (columns : Nat) (fs : List Flag) : Printed :=
  match fs with
  | [] => .say []
  | fs => (Printed.say (bold (str "Options:") ++ str "\n")).andThen <|
      fs.foldr (fun f p => (printFlag F columns f).andThen p) (.say [])

/-- command.go:41-47. Every command has examples. -/
def printExamples (examples : List Bytes) : Bytes :=
  if examples ≠ [] then
    bold (str "Usage:") ++ str "\n" ++
      (examples.map fun line => str "  " ++ line ++ str "\n").flatten ++ str "\n"
  else []

/-- command.go:35-74, the Usage function of a command: standard error. Every command has a description. -/
def help (F : Fmt) (columns : Nat) (cmd : Cmd) : Printed :=
  (Printed.say (bold (commandName cmd) ++ str "\n\n")).andThen <|
  (Printed.laid (str "\n\n") (justifyTerminalWidth 100 columns 2 (descriptionOf cmd))).andThen <|
  (Printed.say (printExamples (examplesOf cmd))).andThen <|
  printFlags F columns (sortFlags (flagTable cmd))

/-! ## Messages of `flag.FlagSet.Parse` -/

/-- The two errors of `strconv.ParseUint`, with the texts of `flag.numError` -/
def parseError : Bytes := str "parse error"
def rangeError : Bytes := str "value out of range"

/-- The loop of `strconv.ParseUint(s, 0, 64)`: an error ends it at once. -/
def uintLoopE (base : Nat) : Nat → Bytes → Except Bytes Nat
  | n, [] => .ok n
  | n, c :: rest =>
    if c = 0x5F then uintLoopE base n rest
    else match digitVal c with
      | none => .error parseError
      | some d =>
        if d ≥ base then .error parseError
        else if n * base + d < 2 ^ 64 then uintLoopE base (n * base + d) rest else .error rangeError

/-- `strconv.ParseUint(s, 0, 64)` -/
def parseUintAnyE (s : Bytes) : Except Bytes Nat :=
  if s = [] then .error parseError
  else match uintLoopE (uintBase s).1 0 (uintBase s).2 with
    | .error e => .error e
    | .ok n => if 0x5F ∈ (uintBase s).2 ∧ underscoreOK s = false then .error parseError else .ok n

/-- `flag.Value.Set` of a boolValue, stringValue, uintValue -/
def setValueE : FlagKind → Bytes → Except Bytes FlagValue
  | .bool, v => match parseBool v with
    | none => .error parseError
    | some b => .ok (.bool b)
  | .string, v => .ok (.string v)
  | .uint, v => match parseUintAnyE v with
    | .error e => .error e
    | .ok n => .ok (.uint n)

/-- Outcome of `FlagSet.Parse`, with the message of an error -/
inductive ParsedArgsE where
  | ok (settings : List (Bytes × FlagValue)) (rest : List Bytes)
  | help
  | failed (message : Bytes)
  deriving DecidableEq, Repr

def ParsedArgsE.set (setting : Bytes × FlagValue) : ParsedArgsE → ParsedArgsE
  | .ok settings rest => .ok (setting :: settings) rest
  | .help => .help
  | .failed message => .failed message

/-- Without the message -/
def ParsedArgsE.plain : ParsedArgsE → ParsedArgs
  | .ok settings rest => .ok settings rest
  | .help => .help
  | .failed _ => .failed

/-- `FlagSet.Parse` -/
def parseArgsE (F : Fmt) (formal : Bytes → Option FlagKind) : List Bytes → ParsedArgsE
  | [] => .ok [] []
  | s :: args =>
    match classify s with
    | .positional => .ok [] (s :: args)
    | .dashes => .ok [] args
    | .bad => .failed (str "bad flag syntax: " ++ s)
    | .flag name value =>
      match formal name, value with
      | none, _ =>
        if name = str "help" ∨ name = str "h" then .help
        else .failed (str "flag provided but not defined: -" ++ name)
      | some .bool, none => (parseArgsE F formal args).set (name, .bool true)
      | some kind, some v =>
        match setValueE kind v with
        | .error e =>
          .failed ((if kind = .bool then
            str "invalid boolean value " ++ F.quote v ++ str " for -" ++ name
            else str "invalid value " ++ F.quote v ++ str " for flag -" ++ name) ++ str ": " ++ e)
        | .ok x => (parseArgsE F formal args).set (name, x)
      | some kind, none =>
        match args with
        | [] => .failed (str "flag needs an argument: -" ++ name)
        | v :: args =>
          match setValueE kind v with
          | .error e =>
            .failed (str "invalid value " ++ F.quote v ++ str " for flag -" ++ name ++ str ": " ++ e)
          | .ok x => (parseArgsE F formal args).set (name, x)

/-! ## The process -/

/-- As `DoneE`, with the bytes that usage texts and refused command lines write to standard error. What a
subcommand itself writes is in `Output.lean` and comes before. -/
structure DoneH where
  written : Bytes
  ends : EndsE
  st : StE
  deriving DecidableEq, Repr

def printUsageH (F : Fmt) (columns : Nat) (cmd : Cmd) (written : Bytes) (ends : EndsE) (st : StE) : DoneH :=
  let p := help F columns cmd
  match p.ends with
  | .ok _ => ⟨written ++ p.text, ends, st⟩
  | .err e => ⟨written ++ p.text, .returns (some ⟨if isUsageErr e then .usage else .other, []⟩), st⟩
  | .panic _ => ⟨written ++ p.text, .exits 2, st⟩
  | .waits _ => ⟨written ++ p.text, .waits, st⟩
  | .loops => ⟨written ++ p.text, .loops, st⟩

/-- command.go:27-94 Run. `FlagSet.failf` writes the message on a line and then the usage text. -/
def runCommandH (F : Fmt) (columns : Nat) (cmd : Cmd)
    (execute : List (Bytes × FlagValue) → List Bytes → StE → DoneH) (args : List Bytes) (st : StE) : DoneH :=
  if args = [str "help"] then printUsageH F columns cmd [] (.returns none) st
  else
    match parseArgsE F (formal cmd) args with
    | .help => printUsageH F columns cmd [] (.exits 0) st
    | .failed message => printUsageH F columns cmd (message ++ str "\n") (.exits 2) st
    | .ok settings rest =>
      match execute settings rest st with
      | ⟨written, .returns (some ⟨.usage, text⟩), st⟩ =>
        printUsageH F columns cmd written (.returns (some ⟨.other, text⟩)) st
      | done => done

/-- A subcommand's Run -/
def runSubH (F : Fmt) (os : OsText) (L : WordList) (C : Crypto) (env : Env) (cmd : Cmd) (args : List Bytes)
    (st : StE) : DoneH :=
  runCommandH F env.columns cmd
    (fun settings _ st =>
      let r := programE F os L C env settings cmd st
      ⟨[], execEndsE r.1, r.2⟩)
    args st

/-- main.go:27-40 RootCommand.Execute -/
def rootExecuteH (F : Fmt) (os : OsText) (L : WordList) (C : Crypto) (env : Env) : List Bytes → StE → DoneH
  | [], st => ⟨[], .returns (some ⟨.usage, incorrectUsage ++ str ": missing subcommand"⟩), st⟩
  | name :: rest, st =>
    if name = str "help" then ⟨[], .returns (some ⟨.graceful, incorrectUsage⟩), st⟩
    else
      match subcommands name with
      | none => ⟨[], .returns (some ⟨.usage, incorrectUsage ++ str ": unknown subcommand " ++ F.quote name⟩), st⟩
      | some cmd => runSubH F os L C env cmd rest st

/-- main.go:43-49 main: what is written to standard error, apart from what a subcommand writes before it
ends; the status; and the state -/
def mainH (F : Fmt) (os : OsText) (L : WordList) (C : Crypto) (env : Env) (args : List Bytes) (st : StE) :
    Bytes × Status × StE :=
  let d := runCommandH F env.columns .root (fun _ rest => rootExecuteH F os L C env rest) args st
  (d.written ++
    (match d.ends with
    | .returns (some ⟨.usage, text⟩) => str "ERROR: " ++ text ++ str "\n"
    | .returns (some ⟨.other, text⟩) => str "ERROR: " ++ text ++ str "\n"
    | _ => []),
    match d.ends with
    | .exits code => .exited code
    | .returns none => .exited 0
    | .returns (some ⟨.graceful, _⟩) => .exited 0
    | .returns (some _) => .exited 1
    | .waits => .waits
    | .loops => .loops,
    d.st)

end Verif.Model.Cli
