import Verif.Proofs.PasswordRows
import Verif.Spec.Liveness
import Verif.Model.Cli.Output

/-!
# The dialogue at a password prompt (C84)
-/

namespace Verif.Props

open Verif.Model Verif.Model.Cli Verif.Spec Verif.Proofs

/-! ## C84 What a password prompt tells the person at the terminal -/

/-- In every schedule of any number of calls: what a call has said on standard error, with the request it is about to
make, is the dialogue for the lines typed at it, and after a failed read that was taken note of the end of the row. -/
theorem c84_dialogue (sched : List SysMove) (s : Sys) (h : Sys.start.run sched = some s) (k : Nat)
    (p : Prompt) (hp : s.prompts[k]? = some p) (hr : p.restorer ≠ .absent) :
    saidBy k (Sys.start.said sched) ++ pending p =
      dialogue p.confirm (p.typed.map Prod.fst) ++ parting (readFailed (p.typed.map Prod.fst)) p.errChan :=
  ((told_start h).talk k p hp).said hr

/-- A call that could not look at the terminal says nothing at all. -/
theorem c84_refused (sched : List SysMove) (s : Sys) (h : Sys.start.run sched = some s) (k : Nat)
    (p : Prompt) (hp : s.prompts[k]? = some p) (hr : p.restorer = .absent) :
    saidBy k (Sys.start.said sched) = [] ∧ newlinesBy k (Sys.start.said sched) = 0 := by
  refine ⟨(((told_start h).talk k p hp).refused hr).1, ?_⟩
  rw [(told_start h).lf k p hp]
  simp [fed, hr]

/-- While a line is read, the person was told exactly the dialogue so far, which ends with the request for this line. -/
theorem c84_asked (sched : List SysMove) (s : Sys) (h : Sys.start.run sched = some s) (k : Nat)
    (p : Prompt) (hp : s.prompts[k]? = some p) (ht : AtTerminal p) :
    saidBy k (Sys.start.said sched) = dialogue p.confirm (p.typed.map Prod.fst) ∧
      ((∃ e, p.reader = .reading e) → (saidBy k (Sys.start.said sched)).getLast? = some .ask) ∧
      ((∃ q e, p.reader = .confirming q e) → (saidBy k (Sys.start.said sched)).getLast? = some .again) := by
  have t := (told_start h).talk k p hp
  have inv := (told_start h).inv p (List.mem_of_getElem? hp)
  have hd : p.reader ≠ .done := by
    rcases ht with ⟨e, he⟩ | ⟨q, e, he⟩ <;> rw [he] <;> simp
  have hab : p.restorer ≠ .absent := fun ha => hd (t.refused ha).2.1
  have hpend : pending p = [] := by
    rcases ht with ⟨e, he⟩ | ⟨q, e, he⟩ <;> simp [pending, he]
  have e := t.said hab
  rw [hpend, List.append_nil, t.clean hd] at e
  have e' : saidBy k (Sys.start.said sched) = dialogue p.confirm (p.typed.map Prod.fst) := by simpa [parting] using e
  refine ⟨e', ?_, ?_⟩
  · rintro ⟨b, hb⟩
    have := inv.reader
    unfold ReaderOk at this
    rw [hb] at this
    obtain ⟨ls, hl, hf⟩ := this
    obtain ⟨pre, hpre⟩ := dialogue_failed hf
    have h0 := hpre []
    rw [List.append_nil] at h0
    unfold Proofs.Lines at hl
    rw [e', hl, h0]
    simp [dialogue]
  · rintro ⟨q, b, hb⟩
    have := inv.reader
    unfold ReaderOk at this
    rw [hb] at this
    obtain ⟨hc, hq, ls, hl, hf⟩ := this
    obtain ⟨pre, hpre⟩ := dialogue_failed hf
    have h0 := hpre [.ok q]
    unfold Proofs.Lines at hl
    rw [List.map_append, List.map_singleton] at hl
    rw [e', hl, h0]
    cases q with
    | nil => exact absurd rfl hq
    | cons x q => simp [dialogue, hc]

/-- A call that returned a password had said exactly the dialogue for the lines typed: after the last request no
remark follows, and before it every attempt that failed had its remark. -/
theorem c84_returned (sched : List SysMove) (s : Sys) (h : Sys.start.run sched = some s) (k : Nat)
    (p : Prompt) (hp : s.prompts[k]? = some p) (q : Bytes) (hq : p.returned = some (.ok q)) :
    saidBy k (Sys.start.said sched) = dialogue p.confirm (p.typed.map Prod.fst) ∧
      (saidBy k (Sys.start.said sched)).getLast? = some (if p.confirm then .again else .ask) := by
  have t := (told_start h).talk k p hp
  have inv := (told_start h).inv p (List.mem_of_getElem? hp)
  obtain ⟨hd, ls, hl, hne, before, hf, rfl⟩ := inv.result q hq
  unfold Proofs.Lines at hl
  have hclean : ∀ l : List Bytes, readFailed (l.map .ok) = false := by
    intro l
    induction l with
    | nil => rfl
    | cons x l ih => simpa [readFailed] using ih
  have hpend : pending p = [] := by simp [pending, hd]
  obtain ⟨pre, hpre⟩ := dialogue_failed hf
  have hlast : ∃ pre', dialogue p.confirm (p.typed.map Prod.fst) = pre' ++ [if p.confirm then .again else .ask] := by
    rw [hl, List.map_append, hpre]
    cases q with
    | nil => exact absurd rfl hne
    | cons x q =>
      cases p.confirm
      · exact ⟨pre, by simp [dialogue]⟩
      · exact ⟨pre ++ [.ask], by simp [dialogue]⟩
  have hab : p.restorer ≠ .absent := by
    intro ha
    have ht := (t.refused ha).2.2.2.2
    rw [ht] at hl
    cases hc : p.confirm <;> simp [hc] at hl
  have e := t.said hab
  rw [hpend, List.append_nil, hl, hclean] at e
  have e' : saidBy k (Sys.start.said sched) = dialogue p.confirm (p.typed.map Prod.fst) := by
    rw [hl]
    simpa [parting] using e
  obtain ⟨pre', hp'⟩ := hlast
  exact ⟨e', by rw [e', hp']; simp⟩

/-- On standard output a call writes one line feed, when its context is done, and never another. -/
theorem c84_newline (sched : List SysMove) (s : Sys) (h : Sys.start.run sched = some s) (k : Nat)
    (p : Prompt) (hp : s.prompts[k]? = some p) :
    newlinesBy k (Sys.start.said sched) = if p.restorer = .printed ∨ p.restorer = .done then 1 else 0 := by
  rw [(told_start h).lf k p hp]
  unfold fed
  cases p.restorer <;> simp

/-- Nothing that is written tells more about the lines than which are empty and which are equal: whoever types other
lines with the same equalities, at the same times, sees the same. -/
theorem c84_secret (f : Bytes → Bytes) (hf : Function.Injective f) (h0 : f [] = []) (sched : List SysMove) (s : Sys)
    (h : Sys.start.run sched = some s) :
    ∃ s', Sys.start.run (sched.map (renameMove f)) = some s' ∧
      Sys.start.said (sched.map (renameMove f)) = Sys.start.said sched ∧ s'.echo = s.echo ∧ s'.newlines = s.newlines := by
  obtain ⟨h1, h2⟩ := rename_run hf h0 sched Sys.start
  have e : renameSys f Sys.start = Sys.start := rfl
  rw [e, h] at h1
  rw [e] at h2
  exact ⟨_, h1, h2, rfl, rfl⟩

/-- On the screen every message of a dialogue is a row of its own, in order, and the cursor stands after the last
request; what was there before is not touched. After a line feed the cursor is at the start of an empty row. -/
theorem c84_screen (t : Term) (row : Nat) (ht : EmptyFrom t row) (prompt : Bytes) (hb : ∀ b ∈ prompt, 0x20 ≤ b ∧ b < 0x7F)
    (hp : prompt.length < t.width) (hw : 41 < t.width) (confirm : Bool) (lines : List (Res Bytes)) :
    let msgs := dialogue confirm lines
    let u := t.feed (sent (msgs.map (Msg.text prompt)))
    ShowsRows t u (msgs.map (Msg.row prompt)) ∧ AtEnd t u (msgs.map (Msg.row prompt)) ∧
      ShowsRows t (u.feed (sent [str "\n"])) (msgs.map (Msg.row prompt)) ∧
      EmptyFrom (u.feed (sent [str "\n"])) (row + msgs.length) := by
  intro msgs u
  obtain ⟨done, last, e, o⟩ := rows_dialogue (t := t) ⟨hb, hp, hw⟩ confirm lines.length lines (Nat.le_refl _) t []
    (.self (fresh_emptyFrom ht))
  rw [List.nil_append] at o
  have e1 : msgs.map (Msg.row prompt) = done ++ [last] := e
  have e2 : sent [str "\n"] = cooked (str "\n") := by simp [sent]
  have e3 : msgs.length = (done ++ [last]).length := by rw [← e1, List.length_map]
  rw [e1, e2, e3, ← ht.at_row]
  exact ⟨o.shows.1, o.shows.2, o.lf.shows, o.lf.emptyFrom⟩

/-- The schedule in which two confirmed prompts are answered without a mistake; `between` happens after the first. -/
def twice (q1 q2 : Bytes) (between : List SysMove) : List SysMove :=
  [.begin true, .at 0 .enterRead, .at 0 (.line (.ok q1)), .at 0 .enterRead, .at 0 (.line (.ok q1)), .at 0 .receive,
    .at 0 .cancel] ++ between ++
  [.begin true, .at 1 .enterRead, .at 1 (.line (.ok q2)), .at 1 .enterRead, .at 1 (.line (.ok q2)), .at 1 .receive]

theorem said_late (x y : Byte) (q1 q2 : Bytes) :
    (∃ s, Sys.start.run (twice (x :: q1) (y :: q2) []) = some s) ∧
      Sys.start.said (twice (x :: q1) (y :: q2) []) = [(0, .ask), (0, .again), (1, .ask), (1, .again)] := by
  simp [twice, Sys.start, Sys.run, Sys.said, Sys.says, Sys.move, Prompt.move, Prompt.says, Prompt.begin, afterFirst, afterSecond]

theorem said_early (x y : Byte) (q1 q2 : Bytes) :
    (∃ s, Sys.start.run (twice (x :: q1) (y :: q2) [.at 0 .wake, .at 0 .print]) = some s) ∧
      Sys.start.said (twice (x :: q1) (y :: q2) [.at 0 .wake, .at 0 .print]) =
        [(0, .ask), (0, .again), (0, .newline), (1, .ask), (1, .again)] := by
  simp [twice, Sys.start, Sys.run, Sys.said, Sys.says, Sys.move, Prompt.move, Prompt.says, Prompt.begin, afterFirst, afterSecond]

/-- The two prompts of `generate -encrypt-keys -encrypt-phrase`: nothing but the restorer of the first call ends the
row of its last request. Whatever the passwords, there is a schedule in which it comes too late, and the second prompt
stands on the row of the first call's last request; and one in which every request has its own row. -/
theorem c84_same_row (q1 q2 : Bytes) (h1 : q1 ≠ []) (h2 : q2 ≠ []) (t : Term) (row : Nat) (ht : EmptyFrom t row)
    (prompt : Nat → Bytes) (hb : ∀ k, ∀ b ∈ prompt k, 0x20 ≤ b ∧ b < 0x7F) (hp : ∀ k, 28 + (prompt k).length < t.width) :
    (∃ between s, Sys.start.run (twice q1 q2 between) = some s ∧
      ShowsRows t (t.feed (sent (texts prompt (Sys.start.said (twice q1 q2 between)))))
        [faintly (prompt 0), faintly (str "Repeat password to confirm: ") ++ faintly (prompt 1),
          faintly (str "Repeat password to confirm: ")]) ∧
    (∃ between s, Sys.start.run (twice q1 q2 between) = some s ∧
      ShowsRows t (t.feed (sent (texts prompt (Sys.start.said (twice q1 q2 between)))))
        [faintly (prompt 0), faintly (str "Repeat password to confirm: "), faintly (prompt 1),
          faintly (str "Repeat password to confirm: ")]) := by
  cases q1 with
  | nil => exact absurd rfl h1
  | cons x q1 =>
  cases q2 with
  | nil => exact absurd rfl h2
  | cons y q2 =>
  have l0 := hp 0
  have l1 := hp 1
  have l28 : (str "Repeat password to confirm: ").length = 28 := by decide +kernel
  have o1 := (Complete.self (fresh_emptyFrom ht)).ask (hb 0) (by omega)
  have o2 := o1.again printing_again (by omega)
  constructor
  · obtain ⟨⟨s, hs⟩, he⟩ := said_late x y q1 q2
    refine ⟨[], s, hs, ?_⟩
    rw [he]
    have o3 := o2.more (hb 1) (by simp only [faintly, List.length_map]; omega)
    have o4 := o3.again printing_again (by omega)
    have := o4.shows.1
    simpa [texts, sent_cons, sent_nil, text_ask, text_newline, text_again, feed_append] using this
  · obtain ⟨⟨s, hs⟩, he⟩ := said_early x y q1 q2
    refine ⟨_, s, hs, ?_⟩
    rw [he]
    have o3 := o2.lf.ask (hb 1) (by omega)
    have o4 := o3.again printing_again (by omega)
    have := o4.shows.1
    simpa [texts, sent_cons, sent_nil, text_ask, text_newline, text_again, feed_append] using this

/-- The schedule in which someone presses CTRL+C at the first request; `between` happens before the error is printed. -/
def aborting (confirm : Bool) (between : List SysMove) : List SysMove :=
  [.begin confirm, .at 0 .enterRead, .at 0 .interrupt, .at 0 .receiveDone, .at 0 .cancel] ++ between

theorem aborting_late (confirm : Bool) :
    (∃ s, Sys.start.run (aborting confirm []) = some s ∧ s.prompts.map (·.returned) = [some (.err .aborted)]) ∧
      Sys.start.said (aborting confirm []) = [(0, .ask)] := by
  simp [aborting, Sys.start, Sys.run, Sys.said, Sys.says, Sys.move, Prompt.move, Prompt.says, Prompt.begin]

theorem aborting_early (confirm : Bool) :
    (∃ s, Sys.start.run (aborting confirm [.at 0 .wake, .at 0 .print]) = some s ∧
      s.prompts.map (·.returned) = [some (.err .aborted)]) ∧
      Sys.start.said (aborting confirm [.at 0 .wake, .at 0 .print]) = [(0, .ask), (0, .newline)] := by
  simp [aborting, Sys.start, Sys.run, Sys.said, Sys.says, Sys.move, Prompt.move, Prompt.says, Prompt.begin]

/-- CTRL+C at a password prompt: the call returns "aborted", and main.go:46 prints it. Nothing but the restorer ends the
row of the request. There is a schedule in which it comes too late, and the error stands on the row of the request; and
one in which the error has its own row. -/
theorem c84_aborted (confirm : Bool) (t : Term) (row : Nat) (ht : EmptyFrom t row)
    (prompt : Nat → Bytes) (hb : ∀ b ∈ prompt 0, 0x20 ≤ b ∧ b < 0x7F) (hp : 14 + (prompt 0).length < t.width) :
    (∃ between s, Sys.start.run (aborting confirm between) = some s ∧
      s.prompts.map (·.returned) = [some (.err .aborted)] ∧
      ShowsRows t (t.feed (sent (texts prompt (Sys.start.said (aborting confirm between)) ++ [str "ERROR: aborted\n"])))
        [faintly (prompt 0) ++ plain (str "ERROR: aborted")]) ∧
    (∃ between s, Sys.start.run (aborting confirm between) = some s ∧
      s.prompts.map (·.returned) = [some (.err .aborted)] ∧
      ShowsRows t (t.feed (sent (texts prompt (Sys.start.said (aborting confirm between)) ++ [str "ERROR: aborted\n"])))
        [faintly (prompt 0), plain (str "ERROR: aborted")]) := by
  have hl : (str "ERROR: aborted").length = 14 := by decide +kernel
  have hpr : ∀ b ∈ str "ERROR: aborted", Printing b := printing_str (by decide)
  have he : str "ERROR: aborted\n" = str "ERROR: aborted" ++ str "\n" := by decide +kernel
  have o1 := (Complete.self (fresh_emptyFrom ht)).ask hb (by omega)
  rw [he]
  constructor
  · obtain ⟨⟨s, hs, hr⟩, hm⟩ := aborting_late confirm
    refine ⟨[], s, hs, hr, ?_⟩
    rw [hm]
    have := (o1.text hpr (by simp only [faintly, List.length_map]; omega)).lf.shows
    simpa [texts, sent_cons, sent_nil, text_ask, cooked_append, feed_append] using this
  · obtain ⟨⟨s, hs, hr⟩, hm⟩ := aborting_early confirm
    refine ⟨_, s, hs, hr, ?_⟩
    rw [hm]
    have := ((Complete.open o1.lf).text hpr (by simp; omega)).lf.shows
    simpa [texts, sent_cons, sent_nil, text_ask, text_newline, cooked_append, feed_append] using this

/-- An empty line, a password not repeated, then one that was: the dialogue, and the second request under way -/
example : ∃ s p, Sys.start.run [.begin true, .at 0 .enterRead, .at 0 (.line (.ok [])), .at 0 .enterRead,
      .at 0 (.line (.ok (str "ab"))), .at 0 .enterRead, .at 0 (.line (.ok (str "ac"))), .at 0 .enterRead,
      .at 0 (.line (.ok (str "pw"))), .at 0 .enterRead] = some s ∧ s.prompts[0]? = some p ∧ AtTerminal p ∧
    p.restorer ≠ .absent ∧ dialogue p.confirm (p.typed.map Prod.fst) =
      [.ask, .empty, .ask, .again, .mismatch, .ask, .again] :=
  ⟨_, _, rfl, rfl, .inr ⟨_, _, rfl⟩, by decide, by decide +kernel⟩

/-- A read that failed -/
example : ∃ s p, Sys.start.run [.begin false, .at 0 .enterRead, .at 0 (.line (.err .stdinRead)), .at 0 .receiveErr] = some s ∧
    s.prompts[0]? = some p ∧ Sys.start.said [.begin false, .at 0 .enterRead, .at 0 (.line (.err .stdinRead)), .at 0 .receiveErr] =
      [(0, .ask), (0, .blank)] :=
  ⟨_, _, rfl, rfl, by decide⟩

/-- A call refused at once -/
example : ∃ s p, Sys.start.run [.refused true .stdinRead] = some s ∧ s.prompts[0]? = some p ∧ p.restorer = .absent :=
  ⟨_, _, rfl, rfl, rfl⟩

/-- A password accepted -/
example : ∃ s p, Sys.start.run (twice (str "a") (str "b") []) = some s ∧ s.prompts[1]? = some p ∧
    p.returned = some (.ok (str "b")) :=
  ⟨_, _, rfl, rfl, by decide +kernel⟩

/-- Longer lines in place of shorter ones -/
example : Function.Injective (fun l : Bytes => l ++ l) ∧ (fun l : Bytes => l ++ l) [] = [] := by
  refine ⟨fun a b h => ?_, rfl⟩
  have h' : a ++ a = b ++ b := h
  have hl : a.length = b.length := by
    have := congrArg List.length h'
    simp at this
    omega
  exact (List.append_inj h' hl).1

/-- A terminal of eighty columns, and the prompts of `generate` -/
example : ∃ t : Term, t.width = 80 ∧ EmptyFrom t 0 ∧ (∀ b ∈ keyPasswordPrompt, 0x20 ≤ b ∧ b < 0x7F) ∧
    (∀ b ∈ phrasePasswordPrompt, 0x20 ≤ b ∧ b < 0x7F) ∧ (∀ b ∈ decryptPrompt, 0x20 ≤ b ∧ b < 0x7F) ∧
    28 + keyPasswordPrompt.length < 80 ∧ 28 + phrasePasswordPrompt.length < 80 ∧ 28 + decryptPrompt.length < 80 :=
  ⟨{ width := 80, height := 24, cell := fun _ _ => .blank, top := 0, row := 0, col := 0 }, rfl,
    ⟨rfl, ⟨rfl, rfl⟩, ⟨rfl, rfl⟩, ⟨by decide, by decide⟩, fun _ _ _ => rfl⟩, by decide +kernel, by decide +kernel,
    by decide +kernel, by decide +kernel, by decide +kernel, by decide +kernel⟩

end Verif.Props
