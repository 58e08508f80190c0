import Verif.Proofs.CliPassword
import Mathlib.Tactic.Common

/-!
# Password prompts (C53, C54, C61)
-/

namespace Verif.Props

open Verif.Model.Cli Verif.Spec Verif.Proofs

/-! ## C53 Password prompt returns only confirmed, non-empty passwords -/

/-- In every schedule: if call `k` has returned a password, then the lines typed are acceptable with
exactly that password, and no read failed. -/
theorem c53_returned (sched : List SysMove) (s : Sys) (h : Sys.start.run sched = some s) (k : Nat)
    (p : Prompt) (hp : s.prompts[k]? = some p) (q : Bytes) (hq : p.returned = some (.ok q)) :
    ∃ ls, p.typed.map Prod.fst = ls.map .ok ∧ Accepted p.confirm ls q := by
  have := reachable_inv h p (List.mem_of_getElem? hp)
  exact (this.result q hq).2

/-- The same in plain terms: the password is not empty, is the last line typed, and with confirmation
was typed twice in a row. -/
theorem c53_confirmed (sched : List SysMove) (s : Sys) (h : Sys.start.run sched = some s) (k : Nat)
    (p : Prompt) (hp : s.prompts[k]? = some p) (q : Bytes) (hq : p.returned = some (.ok q)) :
    q ≠ [] ∧ (∃ before, p.typed.map Prod.fst = before ++ [.ok q]) ∧
    (p.confirm = true → ∃ before, p.typed.map Prod.fst = before ++ [.ok q, .ok q]) ∧
    ∀ r ∈ p.typed, ∃ l, r.1 = .ok l := by
  obtain ⟨ls, h1, h2, before, -, h3⟩ := c53_returned sched s h k p hp q hq
  rw [h1, h3]
  refine ⟨h2, ?_, ?_, ?_⟩
  · cases p.confirm
    · exact ⟨before.map .ok, by simp⟩
    · exact ⟨(before ++ [q]).map .ok, by simp⟩
  · intro hc
    rw [hc]
    exact ⟨before.map .ok, by simp⟩
  · intro r hr
    have : r.1 ∈ ls.map Res.ok := by rw [← h1]; exact List.mem_map_of_mem hr
    obtain ⟨l, -, e⟩ := List.mem_map.mp this
    exact ⟨l, e.symm⟩

/-- A read error never yields a password, nor do lines that are not acceptable, whatever interrupts
arrive; and nothing panics. -/
theorem c53_no_password (sched : List SysMove) (s : Sys) (h : Sys.start.run sched = some s) (k : Nat)
    (p : Prompt) (hp : s.prompts[k]? = some p)
    (hno : (∃ r ∈ p.typed, ∃ e, r.1 = .err e) ∨
      ∀ ls q, p.typed.map Prod.fst = ls.map .ok → ¬ Accepted p.confirm ls q)
    (r : Res Bytes) (hr : p.returned = some r) : ∃ e, r = .err e := by
  cases r with
  | ok q =>
    exfalso
    rcases hno with ⟨t, ht, e, he⟩ | hno
    · obtain ⟨-, -, -, hall⟩ := c53_confirmed sched s h k p hp q hr
      obtain ⟨l, hl⟩ := hall t ht
      rw [hl] at he; cases he
    · obtain ⟨ls, h1, h2⟩ := c53_returned sched s h k p hp q hr
      exact hno ls q h1 h2
  | err e => exact ⟨e, rfl⟩
  | panic x => exact absurd hr ((reachable_inv h p (List.mem_of_getElem? hp)).noPanic x)

/-- An interrupt can end a call at any time, with an error. -/
theorem c53_interrupt (sched : List SysMove) (s : Sys) (h : Sys.start.run sched = some s) (k : Nat)
    (p : Prompt) (hp : s.prompts[k]? = some p) (hr : p.returned = none) :
    ∃ s' p', s.run [.at k .interrupt, .at k .receiveDone] = some s' ∧ s'.prompts[k]? = some p' ∧
      p'.returned = some (.err .aborted) := by
  have hlt : k < s.prompts.length := (List.getElem?_eq_some_iff.mp hp).1
  have hc : p.cancelled = false := by
    have := (reachable_inv h p (List.mem_of_getElem? hp)).cancelled
    cases hcc : p.cancelled with
    | false => rfl
    | true => exact absurd hr (this hcc)
  refine ⟨⟨s.echo, s.newlines, s.prompts.set k
      { p with ctxDone := true, returned := some (.err .aborted) }⟩,
    { p with ctxDone := true, returned := some (.err .aborted) }, ?_, ?_, rfl⟩
  · have hg := (List.getElem?_eq_some_iff.mp hp).2
    simp [Sys.run, Sys.move, hg, hc, Prompt.move, hr, hlt]
  · simp [hlt]

/-- Someone types the lines at the call numbered 0. -/
def types (ls : List Bytes) : List SysMove :=
  ls.flatMap (fun l => [.at 0 .enterRead, .at 0 (.line (.ok l))])

theorem types_append (a b : List Bytes) : types (a ++ b) = types a ++ types b := by
  simp [types]

/-- The first call with some lines typed. -/
def typing (confirm : Bool) (reader : Reader) (ls : List Bytes) : Sys :=
  ⟨true, 0, [{ Prompt.begin confirm true with
    reader := reader, typed := ls.map (fun l => (.ok l, false)) }]⟩

theorem types_failed (confirm : Bool) (ls : List Bytes) (h : Failed confirm ls) :
    (typing confirm .start []).run (types ls) = some (typing confirm .start ls) := by
  induction h with
  | nil => rfl
  | empty ls _ ih =>
    rw [types_append]
    refine run_append_some ih ?_
    simp [types, typing, Sys.run, Sys.move, Prompt.move, Prompt.begin, afterFirst]
  | mismatch ls a b hc _ ha hab ih =>
    rw [types_append]
    refine run_append_some ih ?_
    cases a with
    | nil => exact absurd rfl ha
    | cons x a =>
      simp [types, typing, Sys.run, Sys.move, Prompt.move, Prompt.begin, afterFirst, afterSecond, hc, hab]

/-- Typing acceptable lines makes the prompt return the password; no line is echoed. -/
theorem c53_typed (confirm : Bool) (ls : List Bytes) (q : Bytes) (h : Accepted confirm ls q) :
    ∃ s p, Sys.start.run (.begin confirm :: types ls ++ [.at 0 .receive]) = some s ∧
      s.prompts = [p] ∧ p.returned = some (.ok q) ∧ p.typed = ls.map (fun l => (.ok l, false)) ∧
      s.echo = true := by
  obtain ⟨hq, before, hf, rfl⟩ := h
  have hb : Sys.start.run [.begin confirm] = some (typing confirm .start []) := rfl
  have h1 := run_append_some hb (types_failed confirm before hf)
  cases q with
  | nil => exact absurd rfl hq
  | cons x q =>
    cases confirm
    · refine ⟨⟨true, 0, [{ Prompt.begin false true with
          reader := .done, returned := some (.ok (x :: q))
          typed := (before ++ [x :: q]).map (fun l => (.ok l, false)) }]⟩, _, ?_, rfl, rfl, rfl, rfl⟩
      simp only [Bool.false_eq_true, if_false]
      rw [types_append, ← List.cons_append, List.append_assoc]
      refine run_append_some h1 ?_
      simp [types, typing, Sys.run, Sys.move, Prompt.move, Prompt.begin, afterFirst]
    · refine ⟨⟨true, 0, [{ Prompt.begin true true with
          reader := .done, returned := some (.ok (x :: q))
          typed := (before ++ [x :: q, x :: q]).map (fun l => (.ok l, false)) }]⟩, _, ?_, rfl, rfl, rfl,
          rfl⟩
      simp only [if_true]
      rw [types_append, ← List.cons_append, List.append_assoc]
      refine run_append_some h1 ?_
      simp [types, typing, Sys.run, Sys.move, Prompt.move, Prompt.begin, afterFirst, afterSecond]

/-- An empty line, two different ones, then the password twice. -/
example : Accepted true [[], str "ab", str "ac", str "pw", str "pw"] (str "pw") :=
  ⟨by decide, [[], str "ab", str "ac"],
    .mismatch [[]] _ _ rfl (.empty [] .nil) (by decide) (by decide), by decide⟩

/-- A read error, then the end. -/
example : ∃ s p, Sys.start.run [.begin true, .at 0 .enterRead, .at 0 (.line (.ok (str "pw"))),
      .at 0 .enterRead, .at 0 (.line (.err .stdinRead)), .at 0 .receiveErr] = some s ∧
    s.prompts[0]? = some p ∧ p.returned = some (.err .stdinRead) ∧
    (∃ r ∈ p.typed, ∃ e, r.1 = .err e) := by
  refine ⟨_, _, rfl, rfl, rfl, (.err .stdinRead, false), by simp, .stdinRead, rfl⟩

/-! ## C54 Terminal restore can race with a later prompt -/

/-- Two confirmed prompts, as in `generate -encrypt-keys -encrypt-phrase`: whatever the passwords, there
is a schedule in which the second password is read, both times it is typed, while the terminal echoes. -/
theorem c54_race (q₁ q₂ : Bytes) (h₁ : q₁ ≠ []) (h₂ : q₂ ≠ []) :
    ∃ sched s p, Sys.start.run sched = some s ∧ (∀ k, SysMove.at k .interrupt ∉ sched) ∧
      s.prompts.length = 2 ∧ s.prompts[1]? = some p ∧ p.returned = some (.ok q₂) ∧
      (.ok q₂, true) ∈ p.typed ∧ (∀ p₀, s.prompts[0]? = some p₀ → p₀.returned = some (.ok q₁)) := by
  refine ⟨[.begin true, .at 0 .enterRead, .at 0 (.line (.ok q₁)), .at 0 .enterRead,
    .at 0 (.line (.ok q₁)), .at 0 .receive, .at 0 .cancel, .begin true, .at 0 .wake, .at 0 .print,
    .at 1 .enterRead, .at 0 .restore, .at 1 (.line (.ok q₂)), .at 1 .enterRead,
    .at 1 (.line (.ok q₂)), .at 1 .receive],
    ⟨true, 1, [⟨true, true, true, .done, .done, none, some (.ok q₁), true,
        [(.ok q₁, false), (.ok q₁, false)]⟩,
      ⟨true, true, false, .done, .waiting, none, some (.ok q₂), false,
        [(.ok q₂, true), (.ok q₂, false)]⟩]⟩, _, ?_, ?_, rfl, rfl, rfl, by simp, by simp⟩
  · cases q₁ with
    | nil => exact absurd rfl h₁
    | cons x q₁ =>
      cases q₂ with
      | nil => exact absurd rfl h₂
      | cons y q₂ =>
        simp [Sys.start, Sys.run, Sys.move, Prompt.move, Prompt.begin, afterFirst, afterSecond]
  · simp

/-- The repair: a new call begins only after the goroutines of the earlier ones have ended. -/
def Waits : Sys → List SysMove → Prop
  | _, [] => True
  | s, m :: ms =>
    ((∀ k x, m ≠ .at k x) → ∀ p ∈ s.prompts, p.reader = .done ∧ (p.restorer = .done ∨ p.restorer = .absent)) ∧
      ∀ s', s.move m = some s' → Waits s' ms

/-- An earlier call, ended in every respect. -/
def Finished (p : Prompt) : Prop :=
  p.reader = .done ∧ (p.restorer = .done ∨ p.restorer = .absent) ∧ p.cancelled = true ∧ p.returned ≠ none

/-- The last call. -/
structure LastOk (p : Prompt) (echo : Bool) : Prop where
  old : p.oldState = true
  reading : match p.reader with
    | .reading saved => echo = false ∧ saved = true ∧ p.returned = none
    | .confirming _ saved => echo = false ∧ saved = true ∧ p.returned = none
    | _ => echo = true
  running : p.returned = none → p.ctxDone = false
  result : p.returned ≠ none → p.reader = .done
  error : p.errChan ≠ none → p.reader = .done
  context : p.ctxDone = false → p.restorer = .waiting
  cancelled : p.cancelled = true → p.returned ≠ none

def Hidden (p : Prompt) : Prop := ∀ t ∈ p.typed, t.2 = false

/-- No earlier call does anything, and the last one is as it should be. -/
def Quiet (s : Sys) : Prop :=
  (s.prompts = [] ∧ s.echo = true) ∨
    ∃ old p, s.prompts = old ++ [p] ∧ (∀ o ∈ old, Finished o ∧ Hidden o) ∧ LastOk p s.echo ∧ Hidden p

theorem finished_stuck {p : Prompt} (h : Finished p) (e : Bool) (n : Nat) (m : Move)
    (hm : m ≠ .interrupt) : p.move e n m = none := by
  obtain ⟨h1, h2, h3, h4⟩ := h
  obtain ⟨r, hr⟩ := Option.ne_none_iff_exists'.mp h4
  rcases h2 with h2 | h2 <;> cases m <;> simp [Prompt.move, h1, h2, h3, hr] at hm ⊢

theorem lastOk_move {p p' : Prompt} {e e' : Bool} {n n' : Nat} {m : Move} (h : LastOk p e)
    (ht : Hidden p) (hi : m ≠ .interrupt) (hm : p.move e n m = some (p', e', n')) :
    LastOk p' e' ∧ Hidden p' := by
  obtain ⟨h1, h2, h3, h4, h5, h6, h7⟩ := h
  obtain ⟨confirm, oldState, ctxDone, reader, restorer, errChan, returned, cancelled, typed⟩ := p
  unfold Prompt.move at hm
  dsimp only at h1 h2 h3 h4 h5 h6 h7
  subst h1
  have hsnoc : ∀ (r : Res Bytes), ∀ t ∈ typed ++ [(r, false)], t.2 = false := by
    intro r t htt
    rcases List.mem_append.mp htt with htt | htt
    · exact ht t htt
    · rw [List.mem_singleton.mp htt]
  cases m with
  | enterRead =>
    dsimp only at hm
    cases reader <;> simp only [reduceCtorEq, Option.some.injEq, Prod.mk.injEq] at hm <;>
      obtain ⟨rfl, rfl, -⟩ := hm <;> dsimp only at h2 <;> subst h2 <;>
      refine ⟨⟨rfl, ⟨rfl, rfl, ?_⟩, h3, ?_, ?_, h6, h7⟩, ht⟩
    · by_contra hc; exact absurd (h4 hc) (by simp)
    · intro hc; exact absurd (h4 hc) (by simp)
    · intro hc; exact absurd (h5 hc) (by simp)
    · by_contra hc; exact absurd (h4 hc) (by simp)
    · intro hc; exact absurd (h4 hc) (by simp)
    · intro hc; exact absurd (h5 hc) (by simp)
  | line r =>
    dsimp only at hm
    cases reader <;> cases r <;> simp only [reduceCtorEq, Option.some.injEq, Prod.mk.injEq] at hm
    · rename_i saved l
      obtain ⟨rfl, rfl, -⟩ := hm
      dsimp only at h2
      obtain ⟨rfl, rfl, rfl⟩ := h2
      refine ⟨⟨rfl, ?_, h3, by simp, ?_, h6, h7⟩, hsnoc _⟩
      · cases l with
        | nil => rfl
        | cons x l => cases confirm <;> rfl
      · intro hc; exact absurd (h5 hc) (by simp)
    · obtain ⟨rfl, rfl, -⟩ := hm
      dsimp only at h2
      obtain ⟨rfl, rfl, rfl⟩ := h2
      exact ⟨⟨rfl, rfl, h3, by simp, by simp, h6, h7⟩, hsnoc _⟩
    · rename_i q saved l
      obtain ⟨rfl, rfl, -⟩ := hm
      dsimp only at h2
      obtain ⟨rfl, rfl, rfl⟩ := h2
      refine ⟨⟨rfl, ?_, h3, by simp, ?_, h6, h7⟩, hsnoc _⟩
      · dsimp only
        unfold afterSecond
        by_cases hql : q = l <;> simp [hql]
      · intro hc; exact absurd (h5 hc) (by simp)
    · obtain ⟨rfl, rfl, -⟩ := hm
      dsimp only at h2
      obtain ⟨rfl, rfl, rfl⟩ := h2
      exact ⟨⟨rfl, rfl, h3, by simp, by simp, h6, h7⟩, hsnoc _⟩
  | interrupt => exact absurd rfl hi
  | receive =>
    dsimp only at hm
    cases returned <;> cases reader <;>
      simp only [reduceCtorEq, Option.some.injEq, Prod.mk.injEq] at hm
    obtain ⟨rfl, rfl, -⟩ := hm
    exact ⟨⟨rfl, h2, by simp, by simp, by simp, h6, by simp⟩, ht⟩
  | receiveErr =>
    dsimp only at hm
    cases returned <;> cases errChan <;>
      simp only [reduceCtorEq, Option.some.injEq, Prod.mk.injEq] at hm
    obtain ⟨rfl, rfl, -⟩ := hm
    have hd := h5 (by simp)
    subst hd
    exact ⟨⟨rfl, h2, by simp, fun _ => rfl, by simp, h6, by simp⟩, ht⟩
  | receiveDone =>
    dsimp only at hm
    cases returned <;> cases ctxDone <;>
      simp only [reduceCtorEq, Option.some.injEq, Prod.mk.injEq] at hm
    exact absurd (h3 rfl) (by simp)
  | cancel =>
    dsimp only at hm
    cases returned <;> cases cancelled <;>
      simp only [reduceCtorEq, Option.some.injEq, Prod.mk.injEq] at hm
    obtain ⟨rfl, rfl, -⟩ := hm
    exact ⟨⟨rfl, h2, by simp, h4, h5, by simp, by simp⟩, ht⟩
  | wake =>
    dsimp only at hm
    cases restorer <;> cases ctxDone <;>
      simp only [reduceCtorEq, Option.some.injEq, Prod.mk.injEq] at hm
    obtain ⟨rfl, rfl, -⟩ := hm
    exact ⟨⟨rfl, h2, h3, h4, h5, by simp, h7⟩, ht⟩
  | print =>
    dsimp only at hm
    cases restorer <;> simp only [reduceCtorEq, Option.some.injEq, Prod.mk.injEq] at hm
    obtain ⟨rfl, rfl, -⟩ := hm
    refine ⟨⟨rfl, h2, h3, h4, h5, ?_, h7⟩, ht⟩
    intro hc
    exact absurd (h6 hc) (by simp)
  | restore =>
    dsimp only at hm
    cases restorer <;> simp only [reduceCtorEq, Option.some.injEq, Prod.mk.injEq] at hm
    obtain ⟨rfl, rfl, -⟩ := hm
    have hctx : ctxDone = true := by
      cases ctxDone
      · exact absurd (h6 rfl) (by simp)
      · rfl
    have hret : returned ≠ none := by
      intro hc; rw [h3 hc] at hctx; cases hctx
    have hdone := h4 hret
    subst hdone
    refine ⟨⟨rfl, rfl, h3, h4, h5, ?_, h7⟩, ht⟩
    intro hc
    exact absurd (h6 hc) (by simp)

theorem quiet_move {s s' : Sys} {m : SysMove} (h : Quiet s)
    (hw : (∀ k x, m ≠ .at k x) → ∀ p ∈ s.prompts, p.reader = .done ∧ (p.restorer = .done ∨ p.restorer = .absent))
    (hi : ∀ k, m ≠ .at k .interrupt) (hm : s.move m = some s') : Quiet s' := by
  unfold Sys.move at hm
  cases m with
  | begin c =>
    dsimp only at hm
    split at hm
    · rename_i hall
      cases hm
      have hw := hw (by simp)
      have hbegin : ∀ e : Bool, e = true → LastOk (Prompt.begin c e) e := by
        rintro e rfl
        exact ⟨rfl, rfl, fun _ => rfl, fun hc => absurd rfl hc, fun hc => absurd rfl hc, fun _ => rfl,
          fun hc => by cases hc⟩
      right
      rcases h with ⟨h1, h2⟩ | ⟨old, p, h1, h2, h3, h4⟩
      · exact ⟨[], _, by rw [h1], by simp, hbegin _ h2, by intro t ht; cases ht⟩
      · refine ⟨old ++ [p], _, by rw [h1], ?_, hbegin _ ?_, by intro t ht; cases ht⟩
        · intro o ho
          rcases List.mem_append.mp ho with ho | ho
          · exact h2 o ho
          · rw [List.mem_singleton.mp ho]
            obtain ⟨ha, hb⟩ := hw p (by rw [h1]; simp)
            have hc : p.cancelled = true := by
              have := List.all_eq_true.mp hall p (by rw [h1]; simp)
              simpa using this
            exact ⟨⟨ha, hb, hc, h3.cancelled hc⟩, h4⟩
        · have ha := (hw p (by rw [h1]; simp)).1
          have := h3.reading
          rw [ha] at this
          exact this
    · cases hm
  | refused c er =>
    dsimp only at hm
    split at hm
    · rename_i hall
      cases hm
      have hw := hw (by simp)
      have hbegin : ∀ e : Bool, e = true → LastOk (Prompt.refused c e er) e := by
        rintro e rfl
        exact ⟨rfl, rfl, fun hc => (by cases hc), fun _ => rfl, fun hc => absurd rfl hc, fun hc => (by cases hc),
          fun _ => by simp [Prompt.refused]⟩
      right
      rcases h with ⟨h1, h2⟩ | ⟨old, p, h1, h2, h3, h4⟩
      · exact ⟨[], _, by rw [h1], by simp, hbegin _ h2, by intro t ht; cases ht⟩
      · refine ⟨old ++ [p], _, by rw [h1], ?_, hbegin _ ?_, by intro t ht; cases ht⟩
        · intro o ho
          rcases List.mem_append.mp ho with ho | ho
          · exact h2 o ho
          · rw [List.mem_singleton.mp ho]
            obtain ⟨ha, hb⟩ := hw p (by rw [h1]; simp)
            have hc : p.cancelled = true := by
              have := List.all_eq_true.mp hall p (by rw [h1]; simp)
              simpa using this
            exact ⟨⟨ha, hb, hc, h3.cancelled hc⟩, h4⟩
        · have ha := (hw p (by rw [h1]; simp)).1
          have := h3.reading
          rw [ha] at this
          exact this
    · cases hm
  | «at» k m =>
    have hi' : m ≠ .interrupt := fun hc => hi k (by rw [hc])
    dsimp only at hm
    split at hm
    · cases hm
    · rename_i p hp
      split at hm
      · cases hm
      · split at hm
        · cases hm
        · rename_i p' e' n' hmove
          cases hm
          rcases h with ⟨h1, -⟩ | ⟨old, q, h1, h2, h3, h4⟩
          · rw [h1] at hp; simp at hp
          · rw [h1] at hp
            rcases Nat.lt_or_ge k old.length with hk | hk
            · rw [List.getElem?_append_left hk] at hp
              have := finished_stuck (h2 p (List.mem_of_getElem? hp)).1 s.echo s.newlines m hi'
              rw [this] at hmove
              cases hmove
            · rw [List.getElem?_append_right hk] at hp
              have hk0 : k = old.length := by
                have := (List.getElem?_eq_some_iff.mp hp).1
                simp at this
                omega
              subst hk0
              simp only [Nat.sub_self, List.getElem?_cons_zero, Option.some.injEq] at hp
              subst hp
              obtain ⟨ha, hb⟩ := lastOk_move h3 h4 hi' hmove
              right
              refine ⟨old, p', ?_, h2, ha, hb⟩
              simp [h1]

theorem quiet_run : ∀ (ms : List SysMove) (s s' : Sys), Quiet s → Waits s ms →
    (∀ k, SysMove.at k .interrupt ∉ ms) → s.run ms = some s' → Quiet s'
  | [], s, s', h, _, _, hr => by cases hr; exact h
  | m :: ms, s, s', h, hw, hi, hr => by
    rw [Sys.run] at hr
    split at hr
    · cases hr
    · rename_i s₁ hm
      exact quiet_run ms s₁ s'
        (quiet_move h hw.1 (fun k hc => hi k (by simp [hc])) hm) (hw.2 s₁ hm)
        (fun k hc => hi k (List.mem_cons_of_mem _ hc)) hr

/-- If every call waits for the goroutines of the earlier ones, then without interrupts no line of any
password is ever echoed, and the terminal echoes again whenever no password is being read. -/
theorem c54_waiting (sched : List SysMove) (s : Sys) (h : Sys.start.run sched = some s)
    (hw : Waits Sys.start sched) (hi : ∀ k, SysMove.at k .interrupt ∉ sched) :
    (∀ p ∈ s.prompts, ∀ t ∈ p.typed, t.2 = false) ∧
    ((∀ p ∈ s.prompts, p.returned ≠ none) → s.echo = true) := by
  rcases quiet_run sched _ s (.inl ⟨rfl, rfl⟩) hw hi h with ⟨h1, h2⟩ | ⟨old, p, h1, h2, h3, h4⟩
  · rw [h1]
    exact ⟨by simp, fun _ => h2⟩
  · rw [h1]
    constructor
    · intro q hq
      rcases List.mem_append.mp hq with hq | hq
      · exact (h2 q hq).2
      · rw [List.mem_singleton.mp hq]; exact h4
    · intro hall
      have hd := h3.result (hall p (by simp))
      have := h3.reading
      rw [hd] at this
      exact this

/-- In particular the first password of a process is never echoed unless it is interrupted. -/
theorem c54_first (c : Bool) (moves : List Move) (hi : Move.interrupt ∉ moves) (s : Sys)
    (h : Sys.start.run (.begin c :: moves.map (.at 0)) = some s) :
    ∀ p ∈ s.prompts, ∀ t ∈ p.typed, t.2 = false := by
  have hw : ∀ s₁, Waits s₁ (moves.map (.at 0)) := by
    clear h hi
    induction moves with
    | nil => intro s₁; trivial
    | cons m moves ih =>
      intro s₁
      refine ⟨?_, fun s₂ _ => ih s₂⟩
      intro hc
      exact absurd rfl (hc 0 m)
  refine (c54_waiting _ s h (And.intro (fun _ p hp => nomatch hp) (fun s' _ => hw s')) ?_).1
  intro k hc
  rcases List.mem_cons.mp hc with hc | hc
  · cases hc
  · obtain ⟨m, hm, e⟩ := List.mem_map.mp hc
    cases e
    exact hi hm

/-- A waiting schedule with two passwords. -/
def waitingSchedule : List SysMove :=
  [.begin false, .at 0 .enterRead, .at 0 (.line (.ok (str "a"))),
    .at 0 .receive, .at 0 .cancel, .at 0 .wake, .at 0 .print, .at 0 .restore,
    .begin false, .at 1 .enterRead, .at 1 (.line (.ok (str "b"))), .at 1 .receive]

example : Waits Sys.start waitingSchedule ∧ (∀ k, SysMove.at k .interrupt ∉ waitingSchedule) ∧
    ∃ s, Sys.start.run waitingSchedule = some s ∧
      s.prompts.map (·.returned) = [some (.ok (str "a")), some (.ok (str "b"))] ∧
      s.prompts.map (·.typed) = [[(.ok (str "a"), false)], [(.ok (str "b"), false)]] := by
  refine ⟨?_, by simp [waitingSchedule], _, rfl, rfl, rfl⟩
  have ea : str "a" = [0x61] := by decide +kernel
  have eb : str "b" = [0x62] := by decide +kernel
  simp [waitingSchedule, Waits, Sys.start, Sys.move, Prompt.move, Prompt.begin, afterFirst, ea, eb]

/-! ## C61 Interrupted and finished prompts leave clean-up behind -/

/-- Wherever a password is being read, an interrupt can make the call return before echo is restored:
the caller then ends the process, and the terminal is left without echo. -/
theorem c61_echo_left_off (confirm : Bool) (ls : List Bytes) (h : Failed confirm ls) :
    ∃ s p, Sys.start.run (.begin confirm :: types ls ++
        [.at 0 .enterRead, .at 0 .interrupt, .at 0 .receiveDone, .at 0 .cancel]) = some s ∧
      s.prompts = [p] ∧ p.returned = some (.err .aborted) ∧ p.cancelled = true ∧ s.echo = false := by
  have hb : Sys.start.run [.begin confirm] = some (typing confirm .start []) := rfl
  have h1 := run_append_some hb (types_failed confirm ls h)
  refine ⟨⟨false, 0, [{ Prompt.begin confirm true with
    reader := .reading true, ctxDone := true, returned := some (.err .aborted), cancelled := true
    typed := ls.map (fun l => (.ok l, false)) }]⟩, _, ?_, rfl, rfl, rfl, rfl⟩
  refine run_append_some h1 ?_
  simp [typing, Sys.run, Sys.move, Prompt.move, Prompt.begin]

/-- After the call has returned, standard output (where the key goes) may or may not get a blank line
from the restorer first. -/
theorem c61_stray_newline (q : Bytes) (hq : q ≠ []) :
    (∃ sched s, Sys.start.run sched = some s ∧ s.prompts.map (·.returned) = [some (.ok q)] ∧
      s.prompts.map (·.cancelled) = [true] ∧ s.newlines = 0) ∧
    (∃ sched s, Sys.start.run sched = some s ∧ s.prompts.map (·.returned) = [some (.ok q)] ∧
      s.prompts.map (·.cancelled) = [true] ∧ s.newlines = 1) := by
  cases q with
  | nil => exact absurd rfl hq
  | cons x q =>
    constructor
    · refine ⟨[.begin false, .at 0 .enterRead, .at 0 (.line (.ok (x :: q))), .at 0 .receive,
        .at 0 .cancel], ⟨true, 0, [⟨false, true, true, .done, .waiting, none, some (.ok (x :: q)), true,
        [(.ok (x :: q), false)]⟩]⟩, ?_, rfl, rfl, rfl⟩
      simp [Sys.start, Sys.run, Sys.move, Prompt.move, Prompt.begin, afterFirst]
    · refine ⟨[.begin false, .at 0 .enterRead, .at 0 (.line (.ok (x :: q))), .at 0 .receive,
        .at 0 .cancel, .at 0 .wake, .at 0 .print], ⟨true, 1, [⟨false, true, true, .done, .printed, none,
        some (.ok (x :: q)), true, [(.ok (x :: q), false)]⟩]⟩, ?_, rfl, rfl, rfl⟩
      simp [Sys.start, Sys.run, Sys.move, Prompt.move, Prompt.begin, afterFirst]

end Verif.Props
