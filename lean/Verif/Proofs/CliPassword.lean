import Verif.Model.Cli.Password
import Verif.Spec.Password
import Mathlib.Tactic.Common

/-!
# Invariants of the password prompt
-/

namespace Verif.Proofs

open Verif.Model.Cli Verif.Spec

/-- The lines read, as far as no read failed. -/
def Lines (p : Prompt) (ls : List Bytes) : Prop := p.typed.map Prod.fst = ls.map .ok

/-- What the reader's place says about the lines read. -/
def ReaderOk (p : Prompt) : Prop :=
  match p.reader with
  | .start => ∃ ls, Lines p ls ∧ Failed p.confirm ls
  | .reading _ => ∃ ls, Lines p ls ∧ Failed p.confirm ls
  | .confirmStart q =>
    p.confirm = true ∧ q ≠ [] ∧ ∃ ls, Lines p (ls ++ [q]) ∧ Failed p.confirm ls
  | .confirming q _ =>
    p.confirm = true ∧ q ≠ [] ∧ ∃ ls, Lines p (ls ++ [q]) ∧ Failed p.confirm ls
  | .sending q => ∃ ls, Lines p ls ∧ Accepted p.confirm ls q
  | .done => True

structure PromptInv (p : Prompt) : Prop where
  reader : ReaderOk p
  result : ∀ q, p.returned = some (.ok q) →
    p.reader = .done ∧ ∃ ls, Lines p ls ∧ Accepted p.confirm ls q
  noPanic : ∀ x, p.returned ≠ some (.panic x)
  cancelled : p.cancelled = true → p.returned ≠ none

theorem lines_snoc {p : Prompt} {ls : List Bytes} {l : Bytes} {echo : Bool} (h : Lines p ls)
    {p' : Prompt} (hp : p'.typed = p.typed ++ [(.ok l, echo)]) : Lines p' (ls ++ [l]) := by
  unfold Lines at *
  simp [hp, h]

theorem promptInv_begin (confirm echo : Bool) : PromptInv (Prompt.begin confirm echo) where
  reader := ⟨[], rfl, .nil⟩
  result := by intro q h; cases h
  noPanic := by intro x h; cases h
  cancelled := by intro h; cases h

theorem promptInv_refused (confirm echo : Bool) (e : Err) : PromptInv (Prompt.refused confirm echo e) where
  reader := trivial
  result := by intro q h; cases h
  noPanic := by intro x h; cases h
  cancelled := by simp [Prompt.refused]

theorem promptInv_move {p p' : Prompt} {e e' : Bool} {n n' : Nat} {m : Move} (h : PromptInv p)
    (hm : p.move e n m = some (p', e', n')) : PromptInv p' := by
  obtain ⟨h1, h2, h3, h4⟩ := h
  obtain ⟨confirm, oldState, ctxDone, reader, restorer, errChan, returned, cancelled, typed⟩ := p
  unfold Prompt.move at hm
  dsimp only at h1 h2 h3 h4
  cases m with
  | enterRead =>
    dsimp only at hm
    cases reader <;> simp only [reduceCtorEq, Option.some.injEq, Prod.mk.injEq] at hm <;>
      obtain ⟨rfl, -, -⟩ := hm
    · exact ⟨h1, fun q hq => absurd (h2 q hq).1 (by simp), h3, h4⟩
    · exact ⟨h1, fun q hq => absurd (h2 q hq).1 (by simp), h3, h4⟩
  | line r =>
    dsimp only at hm
    cases reader <;> cases r <;> simp only [reduceCtorEq, Option.some.injEq, Prod.mk.injEq] at hm
    · rename_i saved l
      obtain ⟨rfl, -, -⟩ := hm
      obtain ⟨ls, hl, hf⟩ := h1
      refine ⟨?_, fun q hq => absurd (h2 q hq).1 (by simp), h3, h4⟩
      unfold ReaderOk
      dsimp only
      cases l with
      | nil => exact ⟨ls ++ [[]], lines_snoc hl rfl, .empty ls hf⟩
      | cons x l =>
        unfold afterFirst
        cases confirm
        · exact ⟨_, lines_snoc hl rfl, by simp, ls, hf, rfl⟩
        · exact ⟨rfl, by simp, ls, lines_snoc hl rfl, hf⟩
    · obtain ⟨rfl, -, -⟩ := hm
      exact ⟨trivial, fun q hq => absurd (h2 q hq).1 (by simp), h3, h4⟩
    · rename_i q saved l
      obtain ⟨rfl, -, -⟩ := hm
      obtain ⟨hc, hq, ls, hl, hf⟩ := h1
      refine ⟨?_, fun q hq => absurd (h2 q hq).1 (by simp), h3, h4⟩
      unfold ReaderOk afterSecond
      dsimp only
      dsimp only at hc
      by_cases hql : q = l
      · subst hql
        simp only [if_true]
        refine ⟨_, lines_snoc hl rfl, hq, ls, hf, ?_⟩
        simp [hc]
      · simp only [hql, if_false]
        refine ⟨_, lines_snoc hl rfl, ?_⟩
        have := Failed.mismatch ls q l hc hf hq hql
        simpa using this
    · obtain ⟨rfl, -, -⟩ := hm
      exact ⟨trivial, fun q hq => absurd (h2 q hq).1 (by simp), h3, h4⟩
  | interrupt =>
    simp only [Option.some.injEq, Prod.mk.injEq] at hm
    obtain ⟨rfl, -, -⟩ := hm
    exact ⟨h1, h2, h3, h4⟩
  | receive =>
    dsimp only at hm
    cases returned <;> cases reader <;>
      simp only [reduceCtorEq, Option.some.injEq, Prod.mk.injEq] at hm
    obtain ⟨rfl, -, -⟩ := hm
    refine ⟨trivial, ?_, by simp, by simp⟩
    intro q' hq'
    simp only [Option.some.injEq, Res.ok.injEq] at hq'
    subst hq'
    exact ⟨rfl, h1⟩
  | receiveErr =>
    dsimp only at hm
    cases returned <;> cases errChan <;>
      simp only [reduceCtorEq, Option.some.injEq, Prod.mk.injEq] at hm
    obtain ⟨rfl, -, -⟩ := hm
    exact ⟨h1, by simp, by simp, by simp⟩
  | receiveDone =>
    dsimp only at hm
    cases returned <;> cases ctxDone <;>
      simp only [reduceCtorEq, Option.some.injEq, Prod.mk.injEq] at hm
    obtain ⟨rfl, -, -⟩ := hm
    exact ⟨h1, by simp, by simp, by simp⟩
  | cancel =>
    dsimp only at hm
    cases returned <;> cases cancelled <;>
      simp only [reduceCtorEq, Option.some.injEq, Prod.mk.injEq] at hm
    obtain ⟨rfl, -, -⟩ := hm
    exact ⟨h1, h2, h3, by simp⟩
  | wake =>
    dsimp only at hm
    cases restorer <;> cases ctxDone <;>
      simp only [reduceCtorEq, Option.some.injEq, Prod.mk.injEq] at hm
    obtain ⟨rfl, -, -⟩ := hm
    exact ⟨h1, h2, h3, h4⟩
  | print =>
    dsimp only at hm
    cases restorer <;> simp only [reduceCtorEq, Option.some.injEq, Prod.mk.injEq] at hm
    obtain ⟨rfl, -, -⟩ := hm
    exact ⟨h1, h2, h3, h4⟩
  | restore =>
    dsimp only at hm
    cases restorer <;> simp only [reduceCtorEq, Option.some.injEq, Prod.mk.injEq] at hm
    obtain ⟨rfl, -, -⟩ := hm
    exact ⟨h1, h2, h3, h4⟩

theorem sysInv_move {s s' : Sys} {m : SysMove} (h : ∀ p ∈ s.prompts, PromptInv p)
    (hm : s.move m = some s') : ∀ p ∈ s'.prompts, PromptInv p := by
  unfold Sys.move at hm
  cases m with
  | begin confirm =>
    dsimp only at hm
    split at hm
    · cases hm
      intro p hp
      rcases List.mem_append.mp hp with hp | hp
      · exact h p hp
      · rw [List.mem_singleton.mp hp]
        exact promptInv_begin confirm s.echo
    · cases hm
  | refused confirm e =>
    dsimp only at hm
    split at hm
    · cases hm
      intro p hp
      rcases List.mem_append.mp hp with hp | hp
      · exact h p hp
      · rw [List.mem_singleton.mp hp]
        exact promptInv_refused confirm s.echo e
    · cases hm
  | «at» k m =>
    dsimp only at hm
    split at hm
    · cases hm
    · rename_i p hp
      split at hm
      · cases hm
      · split at hm
        · cases hm
        · rename_i p' e' n' hmove
          cases hm
          intro q hq
          rcases List.mem_or_eq_of_mem_set hq with hq | rfl
          · exact h q hq
          · exact promptInv_move (h p (List.mem_of_getElem? hp)) hmove

theorem sysInv_run : ∀ (ms : List SysMove) (s s' : Sys), (∀ p ∈ s.prompts, PromptInv p) →
    s.run ms = some s' → ∀ p ∈ s'.prompts, PromptInv p
  | [], s, s', h, hr => by cases hr; exact h
  | m :: ms, s, s', h, hr => by
    rw [Sys.run] at hr
    split at hr
    · cases hr
    · rename_i s₁ hm
      exact sysInv_run ms s₁ s' (sysInv_move h hm) hr

theorem reachable_inv {ms : List SysMove} {s : Sys} (h : Sys.start.run ms = some s) :
    ∀ p ∈ s.prompts, PromptInv p :=
  sysInv_run ms _ s (by intro p hp; cases hp) h

theorem run_append_some {a b : List SysMove} : ∀ {s t u : Sys}, s.run a = some t →
    t.run b = some u → s.run (a ++ b) = some u := by
  induction a with
  | nil => intro s t u h1 h2; cases h1; exact h2
  | cons m a ih =>
    intro s t u h1 h2
    rw [Sys.run] at h1
    rw [List.cons_append, Sys.run]
    split at h1
    · cases h1
    · exact ih h1 h2

end Verif.Proofs
