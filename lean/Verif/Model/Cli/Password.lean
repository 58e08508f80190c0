import Verif.Basic

/-!
# `/repo/cmd/mnemonikey/word_input.go`: userInputPassword

A transition system. One call of userInputPassword has three threads: the caller (`select`), the reader
goroutine and the restorer goroutine. A schedule is a list of moves; `Sys.move` gives the state after a
move, or `none` when the move is not possible. The process may make several calls one after the other;
goroutines of earlier calls may still be running.

The terminal is its echo flag. `term.ReadPassword` (golang.org/x/term, external) saves the terminal state,
switches echo off, reads a line, and restores what it saved. `signal.NotifyContext` makes the context done
when an interrupt arrives or its cancel function is called.
-/

namespace Verif.Model.Cli

/-- word_input.go:248-278, where the reader goroutine is. `saved` is the echo flag that ReadPassword will
restore. -/
inductive Reader where
  | start                                   -- before line 251
  | reading (saved : Bool)                  -- in ReadPassword, line 251
  | confirmStart (pass1 : Bytes)            -- before line 264
  | confirming (pass1 : Bytes) (saved : Bool)  -- in ReadPassword, line 264
  | sending (pass1 : Bytes)                 -- blocked at line 275
  | done
  deriving DecidableEq, Repr

/-- word_input.go:239-243, where the restorer goroutine is. -/
inductive Restorer where
  | absent     -- not started
  | waiting    -- line 240
  | woken      -- before line 241
  | printed    -- before line 242
  | done
  deriving DecidableEq, Repr

/-- One call of userInputPassword. -/
structure Prompt where
  confirm : Bool
  /-- word_input.go:234 oldState: the echo flag -/
  oldState : Bool
  /-- `ctx.Done()` is closed -/
  ctxDone : Bool
  reader : Reader
  restorer : Restorer
  /-- the buffered errChan -/
  errChan : Option Err
  /-- the value returned; `none` while in the select statement -/
  returned : Option (Res Bytes)
  /-- the deferred cancel has run -/
  cancelled : Bool
  /-- the lines typed so far (or read errors), with the echo flag at that moment; for specifications -/
  typed : List (Res Bytes × Bool)
  deriving DecidableEq, Repr

structure Sys where
  echo : Bool
  /-- newlines printed to standard output by restorers (line 241) -/
  newlines : Nat
  /-- the calls so far, in order -/
  prompts : List Prompt
  deriving DecidableEq, Repr

/-- The moves of one call. -/
inductive Move where
  | enterRead               -- the reader enters ReadPassword
  | line (r : Res Bytes)    -- ReadPassword returns
  | interrupt               -- SIGINT is delivered
  | receive                 -- the select statement takes the password
  | receiveErr              -- the select statement takes the error
  | receiveDone             -- the select statement sees the context done
  | cancel                  -- the deferred cancel runs
  | wake                    -- the restorer sees the context done
  | print                   -- it prints a newline
  | restore                 -- it restores the terminal
  deriving DecidableEq, Repr

/-- word_input.go:252-275: what the reader does after a line for the first prompt -/
def afterFirst (confirm : Bool) : Bytes → Reader
  | [] => .start                                -- 257-260
  | p => if confirm then .confirmStart p else .sending p

/-- word_input.go:265-275: after the repetition -/
def afterSecond (pass1 pass2 : Bytes) : Reader := if pass1 = pass2 then .sending pass1 else .start

/-- One move of one call: the call, the echo flag and the newlines after it. -/
def Prompt.move (p : Prompt) (echo : Bool) (newlines : Nat) : Move → Option (Prompt × Bool × Nat)
  | .enterRead =>
    match p.reader with
    | .start => some ({ p with reader := .reading echo }, false, newlines)
    | .confirmStart q => some ({ p with reader := .confirming q echo }, false, newlines)
    | _ => none
  | .line r =>
    let p' := { p with typed := p.typed ++ [(r, echo)] }
    match p.reader, r with
    | .reading saved, .ok l =>
      some ({ p' with reader := afterFirst p.confirm l }, saved, newlines)
    | .confirming q saved, .ok l =>
      some ({ p' with reader := afterSecond q l }, saved, newlines)
    | .reading saved, .err e => some ({ p' with reader := .done, errChan := some e }, saved, newlines)
    | .confirming _ saved, .err e => some ({ p' with reader := .done, errChan := some e }, saved, newlines)
    | _, _ => none
  | .interrupt => some ({ p with ctxDone := true }, echo, newlines)
  | .receive =>
    match p.returned, p.reader with
    | none, .sending q => some ({ p with reader := .done, returned := some (.ok q) }, echo, newlines)
    | _, _ => none
  | .receiveErr =>
    match p.returned, p.errChan with
    | none, some e =>
      some ({ p with errChan := none, returned := some (.err e) }, echo, newlines)
    | _, _ => none
  | .receiveDone =>
    match p.returned, p.ctxDone with
    | none, true => some ({ p with returned := some (.err .aborted) }, echo, newlines)
    | _, _ => none
  | .cancel =>
    match p.returned, p.cancelled with
    | some _, false => some ({ p with cancelled := true, ctxDone := true }, echo, newlines)
    | _, _ => none
  | .wake =>
    match p.restorer, p.ctxDone with
    | .waiting, true => some ({ p with restorer := .woken }, echo, newlines)
    | _, _ => none
  | .print =>
    match p.restorer with
    | .woken => some ({ p with restorer := .printed }, echo, newlines + 1)
    | _ => none
  | .restore =>
    match p.restorer with
    | .printed => some ({ p with restorer := .done }, p.oldState, newlines)
    | _ => none

/-- word_input.go:230-278: a call begins, and `term.GetState` succeeds. -/
def Prompt.begin (confirm echo : Bool) : Prompt :=
  { confirm := confirm, oldState := echo, ctxDone := false, reader := .start, restorer := .waiting,
    errChan := none, returned := none, cancelled := false, typed := [] }

/-- word_input.go:234-237: `term.GetState` fails, and the call is over before any goroutine was started. -/
def Prompt.refused (confirm echo : Bool) (e : Err) : Prompt :=
  { confirm := confirm, oldState := echo, ctxDone := true, reader := .done, restorer := .absent,
    errChan := none, returned := some (.err e), cancelled := true, typed := [] }

/-- The moves of the process: a new call, once the last one has returned, which may fail at once, or a move
of call `k`. An interrupt is delivered to the call that is running (earlier ones have stopped listening). -/
inductive SysMove where
  | begin (confirm : Bool)
  | refused (confirm : Bool) (e : Err)
  | at (k : Nat) (m : Move)
  deriving DecidableEq, Repr

def Sys.move (s : Sys) : SysMove → Option Sys
  | .begin confirm =>
    if s.prompts.all (·.cancelled) then
      some { s with prompts := s.prompts ++ [Prompt.begin confirm s.echo] }
    else none
  | .refused confirm e =>
    if s.prompts.all (·.cancelled) then
      some { s with prompts := s.prompts ++ [Prompt.refused confirm s.echo e] }
    else none
  | .at k m =>
    match s.prompts[k]? with
    | none => none
    | some p =>
      if m = .interrupt ∧ p.cancelled then none
      else
        match p.move s.echo s.newlines m with
        | none => none
        | some (p', echo, newlines) =>
          some { echo := echo, newlines := newlines, prompts := s.prompts.set k p' }

/-- A schedule. -/
def Sys.run : Sys → List SysMove → Option Sys
  | s, [] => some s
  | s, m :: ms =>
    match s.move m with
    | none => none
    | some s' => s'.run ms

/-- The process starts on a terminal with echo. -/
def Sys.start : Sys := ⟨true, 0, []⟩

end Verif.Model.Cli
