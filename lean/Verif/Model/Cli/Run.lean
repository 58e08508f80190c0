import Verif.Model.Cli.Usage

/-!
# `/repo/cmd/mnemonikey/command.go` and `main.go`: the whole process

Of the usage texts only which command's text was printed is kept. A process prints the error returned
to main on standard error; this is in `Errors.lean`.
-/

namespace Verif.Model.Cli

open Verif.Model

/-- An error as far as `errors.Is` in command.go:84 and main.go:45 can tell. -/
inductive CmdErr where
  | usage      -- wraps ErrPrintUsage
  | graceful   -- wraps ErrPrintUsageGraceful
  | other
  deriving DecidableEq, Repr

/-- How a call of `Run` or `Execute` ends. -/
inductive Ends where
  | returns (err : Option CmdErr)
  | exits (code : Nat)
  | waits
  | loops
  deriving DecidableEq, Repr

/-- The usage errors: generate.go:78, recover.go:150, common_opts.go:98 -/
def isUsageErr (e : Err) : Bool := e = .badDuration || e = .badOnlyElement

def execEnds : Outcome Unit → Ends
  | .ok _ => .returns none
  | .err e => .returns (some (if isUsageErr e then .usage else .other))
  | .panic _ => .exits 2
  | .waits _ => .waits
  | .loops => .loops

/-- What `Run` or `Execute` has done: the commands whose usage was printed, how it ended, the state. -/
structure Done where
  printed : List Cmd
  ends : Ends
  st : St
  deriving DecidableEq, Repr

/-- Printing a usage text before ending as given -/
def printUsage (columns : Nat) (cmd : Cmd) (printed : List Cmd) (ends : Ends) (st : St) : Done :=
  match usage columns cmd with
  | .ok _ => ⟨printed ++ [cmd], ends, st⟩
  | o => ⟨printed, execEnds o, st⟩

/-- command.go:28-92 Run. `flag.ExitOnError` ends the process with status 0 after a request for help and
with status 2 after an error, both with the usage text. -/
def runCommand (columns : Nat) (cmd : Cmd)
    (execute : List (Bytes × FlagValue) → List Bytes → St → Done) (args : List Bytes) (st : St) : Done :=
  if args = [str "help"] then printUsage columns cmd [] (.returns none) st
  else
    match parseArgs (formal cmd) args with
    | .help => printUsage columns cmd [] (.exits 0) st
    | .failed => printUsage columns cmd [] (.exits 2) st
    | .ok settings rest =>
      match execute settings rest st with
      | ⟨printed, .returns (some .usage), st⟩ =>
        printUsage columns cmd printed (.returns (some .other)) st
      | done => done

/-- main.go:12-16 subcommands -/
def subcommands (name : Bytes) : Option Cmd :=
  if name = str "generate" then some .generate
  else if name = str "recover" then some .recover
  else if name = str "convert" then some .convert
  else none

/-- The Execute fields: generate.go:59-61, recover.go:77-79, convert.go:43-45. They do not look at the
positional arguments. -/
def program (L : WordList) (C : Crypto) (env : Env) (settings : List (Bytes × FlagValue)) :
    Cmd → Prog Unit
  | .root => pure ()
  | .generate => generateAndPrintKey L C env (generateOptions settings)
  | .recover => recoverAndPrintKey L C env (recoverOptions settings)
  | .convert => decodeAndConvertPhrase L C env (convertOptions settings)

/-- A subcommand's Run -/
def runSub (L : WordList) (C : Crypto) (env : Env) (cmd : Cmd) (args : List Bytes) (st : St) : Done :=
  runCommand env.columns cmd
    (fun settings _ st =>
      let r := program L C env settings cmd st
      ⟨[], execEnds r.1, r.2⟩)
    args st

/-- main.go:27-40 RootCommand.Execute -/
def rootExecute (L : WordList) (C : Crypto) (env : Env) : List Bytes → St → Done
  | [], st => ⟨[], .returns (some .usage), st⟩
  | name :: rest, st =>
    if name = str "help" then ⟨[], .returns (some .graceful), st⟩
    else
      match subcommands name with
      | none => ⟨[], .returns (some .usage), st⟩
      | some cmd => runSub L C env cmd rest st

/-- Where the process is -/
inductive Status where
  | exited (code : Nat)
  | waits     -- at a password prompt
  | loops     -- for ever
  deriving DecidableEq, Repr

/-- main.go:43-49 main: usage texts printed, status, and the state with the actions done -/
def main (L : WordList) (C : Crypto) (env : Env) (args : List Bytes) (st : St) :
    List Cmd × Status × St :=
  let d := runCommand env.columns .root (fun _ rest => rootExecute L C env rest) args st
  (d.printed,
    match d.ends with
    | .exits code => .exited code
    | .returns none => .exited 0
    | .returns (some .graceful) => .exited 0
    | .returns (some _) => .exited 1
    | .waits => .waits
    | .loops => .loops,
    d.st)

end Verif.Model.Cli
