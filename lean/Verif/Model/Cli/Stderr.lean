import Verif.Model.Cli.Help

/-!
# Everything that a process writes to standard error

`Output.lean` has what a subcommand writes, `Help.lean` what is written after it. Here both are one list of events, in
order. Not modelled: the trace that the Go runtime writes when the program panics.
-/

namespace Verif.Model.Cli

structure DoneV where
  events : List Ev
  ends : EndsE
  deriving DecidableEq, Repr

/-- command.go:35-74 flags.Usage, after these events -/
def printUsageV (F : Fmt) (columns : Nat) (cmd : Cmd) (events : List Ev) (ends : EndsE) : DoneV :=
  let p := help F columns cmd
  ⟨events ++ [.err p.text], match p.ends with
    | .ok _ => ends
    | .err e => .returns (some ⟨if isUsageErr e then .usage else .other, []⟩)
    | .panic _ => .exits 2
    | .waits _ => .waits
    | .loops => .loops⟩

/-- command.go:27-94 Run. A refused command line is reported on a line before the usage text. -/
def runCommandV (F : Fmt) (columns : Nat) (cmd : Cmd)
    (execute : List (Bytes × FlagValue) → List Bytes → DoneV) (args : List Bytes) : DoneV :=
  if args = [str "help"] then printUsageV F columns cmd [] (.returns none)
  else
    match parseArgsE F (formal cmd) args with
    | .help => printUsageV F columns cmd [] (.exits 0)
    | .failed message => printUsageV F columns cmd [.err (message ++ str "\n")] (.exits 2)
    | .ok settings rest =>
      match execute settings rest with
      | ⟨events, .returns (some ⟨.usage, text⟩)⟩ =>
        printUsageV F columns cmd events (.returns (some ⟨.other, text⟩))
      | done => done

/-- A subcommand's Run. The messages are those of `programV`, the error is that of `programE`. -/
def runSubV (F : Fmt) (os : OsText) (L : WordList) (C : Crypto) (env : Env) (cmd : Cmd) (args : List Bytes)
    (prompts : List (ResE Bytes)) (rnd : Bytes) : DoneV :=
  runCommandV F env.columns cmd
    (fun settings _ =>
      ⟨(programV F L C env settings cmd ⟨prompts.map ResE.plain, rnd, []⟩).2.events,
        execEndsE (programE F os L C env settings cmd ⟨prompts, rnd, []⟩).1⟩)
    args

/-- main.go:27-40 RootCommand.Execute -/
def rootExecuteV (F : Fmt) (os : OsText) (L : WordList) (C : Crypto) (env : Env) (prompts : List (ResE Bytes))
    (rnd : Bytes) : List Bytes → DoneV
  | [] => ⟨[], .returns (some ⟨.usage, incorrectUsage ++ str ": missing subcommand"⟩)⟩
  | name :: rest =>
    if name = str "help" then ⟨[], .returns (some ⟨.graceful, incorrectUsage⟩)⟩
    else
      match subcommands name with
      | none => ⟨[], .returns (some ⟨.usage, incorrectUsage ++ str ": unknown subcommand " ++ F.quote name⟩)⟩
      | some cmd => runSubV F os L C env cmd rest prompts rnd

/-- main.go:43-49 main -/
def mainV (F : Fmt) (os : OsText) (L : WordList) (C : Crypto) (env : Env) (args : List Bytes)
    (prompts : List (ResE Bytes)) (rnd : Bytes) : List Ev × Status :=
  let d := runCommandV F env.columns .root (fun _ rest => rootExecuteV F os L C env prompts rnd rest) args
  (d.events ++
    (match d.ends with
    | .returns (some ⟨.usage, text⟩) => [.err (str "ERROR: " ++ text ++ str "\n")]
    | .returns (some ⟨.other, text⟩) => [.err (str "ERROR: " ++ text ++ str "\n")]
    | _ => []),
    match d.ends with
    | .exits code => .exited code
    | .returns none => .exited 0
    | .returns (some ⟨.graceful, _⟩) => .exited 0
    | .returns (some _) => .exited 1
    | .waits => .waits
    | .loops => .loops)

end Verif.Model.Cli
