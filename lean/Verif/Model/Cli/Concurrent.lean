import Verif.Model.Cli.Password
import Verif.Model.Cli.Run

/-!
# The process with all its goroutines

The main goroutine runs a subcommand; every call of userInputPassword (word_input.go:230-291) starts a
reader and a restorer goroutine, which may go on after the call has returned. A schedule is a list of
moves. What the main goroutine does next is given by its program and by what the calls have returned so
far.
-/

namespace Verif.Model.Cli

open Verif.Model

structure Proc where
  /-- the calls of userInputPassword and the terminal -/
  sys : Sys
  /-- how many of its actions the main goroutine has done -/
  done : Nat
  world : World

/-- What has been returned to the main goroutine: a call is over when its deferred cancel has run
(word_input.go:232). -/
def Sys.results (s : Sys) : List (Res Bytes) :=
  s.prompts.filterMap (fun p => if p.cancelled then p.returned else none)

inductive ProcMove where
  /-- the main goroutine does its next action -/
  | act
  /-- the main goroutine calls userInputPassword -/
  | begin
  /-- the main goroutine calls userInputPassword, which fails at once -/
  | refused (e : Err)
  /-- a move of one of the calls -/
  | at (k : Nat) (m : Move)
  deriving DecidableEq, Repr

def isStdout : Act → Bool
  | .stdout _ => true
  | _ => false

/-- The main goroutine is in the middle of its fmt.Println(pgpArmorKey) (generate.go:167, recover.go:201;
no command has another one). It is one call of os.Stdout.Write, which holds the write lock of the file
descriptor until all bytes are written; another Println waits. -/
def Proc.midPrint (P : Prog Unit) (rnd : Bytes) (s : Proc) : Bool :=
  ((P.acts s.sys.results rnd).take s.done).getLast?.any isStdout &&
    ((P.acts s.sys.results rnd).drop s.done).head?.any isStdout

def Proc.move (P : Prog Unit) (rnd : Bytes) (s : Proc) : ProcMove → Option Proc
  | .act =>
    if s.sys.prompts.all (·.cancelled) then
      match (P.acts s.sys.results rnd)[s.done]? with
      | none => none
      | some a => some { s with done := s.done + 1, world := s.world.step a }
    else none
  | .begin =>
    match P.outcome s.sys.results rnd with
    | .waits confirm =>
      if s.done = (P.acts s.sys.results rnd).length then
        (s.sys.move (.begin confirm)).map (fun sys => { s with sys := sys })
      else none
    | _ => none
  | .refused e =>
    match P.outcome s.sys.results rnd with
    | .waits confirm =>
      if s.done = (P.acts s.sys.results rnd).length then
        (s.sys.move (.refused confirm e)).map (fun sys => { s with sys := sys })
      else none
    | _ => none
  | .at k m =>
    if m = .print ∧ s.midPrint P rnd then none
    else (s.sys.move (.at k m)).map (fun sys =>
      -- word_input.go:241: a line feed on standard output
      { s with sys := sys, world := if m = .print then s.world.step (.stdout 0x0A) else s.world })

def Proc.run (P : Prog Unit) (rnd : Bytes) : Proc → List ProcMove → Option Proc
  | s, [] => some s
  | s, m :: ms =>
    match s.move P rnd m with
    | none => none
    | some s' => s'.run P rnd ms

def Proc.start (fs : FS) : Proc := ⟨.start, 0, ⟨fs, none, [], []⟩⟩

/-- The main goroutine has come to the end of its program. -/
def Proc.Finished (P : Prog Unit) (rnd : Bytes) (s : Proc) (o : Outcome Unit) : Prop :=
  s.sys.prompts.all (·.cancelled) = true ∧ s.done = (P.acts s.sys.results rnd).length ∧
    P.outcome s.sys.results rnd = o ∧ ∀ confirm, o ≠ .waits confirm

end Verif.Model.Cli
