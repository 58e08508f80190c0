import Verif.Model.Cli.Run

/-!
# Several processes on one machine

Processes of the program share the files; each has its own open file and its own output. A process looks at the files at
one moment: generate.go:202 (os.Stat of the word file) or recover.go:208 (a word file that is read, in one piece). Until
then it does nothing to the outside world, so the model lets it start at that moment. convert looks twice at the same path
(convert.go:49, convert.go:79); since no process removes a file, it is there the second time if it was there the first time,
and `env.fs` stands for both. A process that is killed makes no more moves.
-/

namespace Verif.Model.Cli

open Verif.Model

structure Job where
  /-- everything that the process does to the outside world, and how it ends: main.go:43-49 -/
  acts : List Act
  status : Status
  /-- how many of the actions it has done -/
  done : Nat := 0
  handle : Option (Nat × Nat) := none
  stdout : Bytes := []
  shown : List (List Bytes) := []

structure Machine where
  fs : FS
  jobs : List Job

inductive MachineMove where
  /-- a process starts; the files in `env` do not count, but those that are there -/
  | start (env : Env) (args : List Bytes) (prompts : List (Res Bytes)) (rnd : Bytes)
  /-- the process with this number does its next action -/
  | act (k : Nat)

/-- The process as main.go:43-49 determines it -/
def newJob (L : WordList) (C : Crypto) (env : Env) (args : List Bytes) (prompts : List (Res Bytes)) (rnd : Bytes) : Job :=
  let r := main L C env args ⟨prompts, rnd, []⟩
  { acts := r.2.2.acts, status := r.2.1 }

def Job.world (j : Job) (fs : FS) : World := ⟨fs, j.handle, j.stdout, j.shown⟩

def Machine.move (L : WordList) (C : Crypto) (m : Machine) : MachineMove → Machine
  | .start env args prompts rnd => { m with jobs := m.jobs ++ [newJob L C { env with fs := m.fs } args prompts rnd] }
  | .act k =>
    match m.jobs[k]? with
    | none => m
    | some j =>
      match j.acts[j.done]? with
      | none => m
      | some a =>
        let w := (j.world m.fs).step a
        { fs := w.fs
          jobs := m.jobs.set k { j with done := j.done + 1, handle := w.handle, stdout := w.stdout, shown := w.shown } }

def Machine.run (L : WordList) (C : Crypto) (m : Machine) (ms : List MachineMove) : Machine :=
  ms.foldl (Machine.move L C) m

end Verif.Model.Cli
