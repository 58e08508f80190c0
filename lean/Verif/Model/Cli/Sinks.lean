import Verif.Model.Cli.Concurrent

/-!
# Outputs that do not take everything

Standard output and standard error can refuse what is written to them, as a file does on a full disk. `Concurrent.lean` lets
every write succeed. The program looks at no result of a write to either (fmt.Println in generate.go:167, recover.go:201 and
word_input.go:241; eprint, eprintf and eprintln in word_input.go:24-26), so it makes the same moves all the same; here each move
comes with the answer of the output to the byte or the phrase that the move writes.

A call of Println is one call of os.File.Write, which goes on until everything is written or a write fails. After it has failed
nothing more of this text is written; a later call may succeed again.

If the reader of a pipe has gone, the Go runtime lets the process die from SIGPIPE at the first write (os/signal). This is a
process that makes no more moves. That nothing of a text was taken before is a special case of the above.
-/

namespace Verif.Model.Cli

open Verif.Model

structure Sinks where
  /-- the process, with the outputs as they would be if they had taken everything -/
  proc : Proc
  /-- the last Println of the main goroutine has failed -/
  failed : Bool
  /-- what standard output has taken -/
  out : Bytes
  /-- the phrases that standard error has taken; of the others it has taken a part, or nothing -/
  seen : List (List Bytes)

/-- A move, and whether the output takes what it writes -/
def Sinks.move (P : Prog Unit) (rnd : Bytes) (s : Sinks) (m : ProcMove) (takes : Bool) : Option Sinks :=
  (s.proc.move P rnd m).map fun proc =>
    let s' := { s with proc := proc }
    match m with
    | .act =>
      match (P.acts s.proc.sys.results rnd)[s.proc.done]? with
      | some (.stdout b) =>
        if takes ∧ ¬(s.proc.midPrint P rnd ∧ s.failed) then { s' with failed := false, out := s.out ++ [b] }
        else { s' with failed := true }
      | some (.showPhrase words) => if takes then { s' with seen := s.seen ++ [words] } else s'
      | _ => s'
    | .at _ .print => if takes then { s' with out := s.out ++ [0x0A] } else s'
    | _ => s'

def Sinks.run (P : Prog Unit) (rnd : Bytes) : Sinks → List (ProcMove × Bool) → Option Sinks
  | s, [] => some s
  | s, (m, takes) :: ms =>
    match s.move P rnd m takes with
    | none => none
    | some s' => s'.run P rnd ms

def Sinks.start (fs : FS) : Sinks := ⟨.start fs, false, [], []⟩

end Verif.Model.Cli
