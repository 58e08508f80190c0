import Verif.Proofs.CliPassword
import Verif.Proofs.Page
import Verif.Spec.PasswordScreen
import Verif.Spec.PhraseScreen

/-! # The dialogue at a password prompt -/

namespace Verif.Proofs

open Verif.Model Verif.Model.Cli Verif.Spec

/-! ## The dialogue line by line -/

/-- Failed attempts are over and done with. -/
theorem dialogue_failed {c : Bool} {ls : List Bytes} (h : Failed c ls) :
    ∃ pre, ∀ rest, dialogue c (ls.map .ok ++ rest) = pre ++ dialogue c rest := by
  induction h with
  | nil => exact ⟨[], fun _ => rfl⟩
  | empty ls _ ih =>
    obtain ⟨pre, ih⟩ := ih
    refine ⟨pre ++ [.ask, .empty], fun rest => ?_⟩
    have := ih (.ok [] :: rest)
    simpa [dialogue] using this
  | mismatch ls a b hc _ ha hab ih =>
    obtain ⟨pre, ih⟩ := ih
    refine ⟨pre ++ [.ask, .again, .mismatch], fun rest => ?_⟩
    have := ih (.ok a :: .ok b :: rest)
    cases a with
    | nil => exact absurd rfl ha
    | cons x xs =>
      simpa [dialogue, hc, Ne.symm hab] using this

theorem readFailed_snoc (ls : List (Res Bytes)) (r : Res Bytes) :
    readFailed (ls ++ [r]) = (readFailed ls || readFailed [r]) := by
  induction ls with
  | nil => simp [readFailed]
  | cons x ls ih => cases x <;> simp [readFailed, ih]

theorem append_two {α : Type} (l : List α) (a b : α) : l ++ [a] ++ [b] = l ++ [a, b] := by simp

/-- What the call has said on standard error so far. Only a reader that is done has met an error. -/
structure Talk (p : Prompt) (msgs : List Msg) : Prop where
  refused : p.restorer = .absent → msgs = [] ∧ p.reader = .done ∧ p.errChan = none ∧ p.returned ≠ none ∧ p.typed = []
  said : p.restorer ≠ .absent → msgs ++ pending p = dialogue p.confirm (p.typed.map Prod.fst) ++
    parting (readFailed (p.typed.map Prod.fst)) p.errChan
  clean : p.reader ≠ .done → readFailed (p.typed.map Prod.fst) = false
  err : p.errChan ≠ none → readFailed (p.typed.map Prod.fst) = true

theorem talk_move {p p' : Prompt} {e e' : Bool} {n n' : Nat} {m : Move} {msgs : List Msg} (inv : PromptInv p)
    (h : Talk p msgs) (hm : p.move e n m = some (p', e', n')) :
    Talk p' (msgs ++ (p.says m).filter (· != .newline)) := by
  obtain ⟨h1, h2, h3, h4⟩ := h
  have h5 := inv.reader
  obtain ⟨confirm, oldState, ctxDone, reader, restorer, errChan, returned, cancelled, typed⟩ := p
  unfold Prompt.move at hm
  dsimp only at h1 h2 h3 h4 h5
  cases m with
  | enterRead =>
    dsimp only at hm
    cases reader <;> simp only [reduceCtorEq, Option.some.injEq, Prod.mk.injEq] at hm <;>
      obtain ⟨rfl, -, -⟩ := hm
    · refine ⟨fun h => absurd (h1 h).2.1 (by simp), fun h => ?_, fun _ => h3 (by simp), h4⟩
      have := h2 h
      simpa [pending, Prompt.says] using this
    · refine ⟨fun h => absurd (h1 h).2.1 (by simp), fun h => ?_, fun _ => h3 (by simp), h4⟩
      have := h2 h
      simpa [pending, Prompt.says] using this
  | line r =>
    dsimp only at hm
    have he : reader ≠ .done → errChan = none := by
      intro hd
      by_contra hne
      rw [h3 hd] at h4
      exact absurd (h4 hne) (by simp)
    cases reader <;> cases r <;> simp only [reduceCtorEq, Option.some.injEq, Prod.mk.injEq] at hm
    · rename_i saved l
      obtain ⟨rfl, -, -⟩ := hm
      obtain ⟨ls, hl, hf⟩ := h5
      obtain ⟨pre, hpre⟩ := dialogue_failed hf
      have hl' : typed.map Prod.fst = ls.map .ok := hl
      have hn := he (by simp)
      have hc := h3 (by simp)
      have p0 := hpre []
      have p1 := hpre [.ok l]
      rw [List.append_nil] at p0
      refine ⟨fun h => absurd (h1 h).2.1 (by simp), fun h => ?_, fun _ => ?_, fun h => absurd hn h⟩
      · have t := h2 h
        rw [hl', p0, ← hl', hc] at t
        simp only [List.map_append, List.map_cons, List.map_nil, hn]
        rw [readFailed_snoc, hc, hl', p1]
        cases l with
        | nil => 
          simp [pending, dialogue, parting] at t
          simp [pending, Prompt.says, afterFirst, dialogue, parting, readFailed, t]
        | cons x l =>
          simp [pending, dialogue, parting] at t
          cases confirm <;> simp [pending, Prompt.says, afterFirst, dialogue, parting, readFailed, t]
      · simp only [List.map_append, List.map_cons, List.map_nil]
        rw [readFailed_snoc, hc]
        rfl
    · rename_i saved er
      obtain ⟨rfl, -, -⟩ := hm
      obtain ⟨ls, hl, hf⟩ := h5
      obtain ⟨pre, hpre⟩ := dialogue_failed hf
      have hl' : typed.map Prod.fst = ls.map .ok := hl
      have hn := he (by simp)
      have hc := h3 (by simp)
      have p0 := hpre []
      have p1 := hpre [.err er]
      rw [List.append_nil] at p0
      refine ⟨fun h => absurd (h1 h).2.1 (by simp), fun h => ?_, fun h => absurd rfl h, fun _ => ?_⟩
      · have t := h2 h
        rw [hl', p0, ← hl', hc] at t
        simp only [List.map_append, List.map_cons, List.map_nil]
        rw [readFailed_snoc, hc, hl', p1]
        simp [pending, dialogue, parting] at t
        simp [pending, Prompt.says, dialogue, parting, readFailed, t]
      · simp only [List.map_append, List.map_cons, List.map_nil]
        rw [readFailed_snoc]
        simp [readFailed]
    · rename_i q saved l
      obtain ⟨rfl, -, -⟩ := hm
      obtain ⟨hcc, hq, ls, hl, hf⟩ := h5
      obtain ⟨pre, hpre⟩ := dialogue_failed hf
      have hl' : typed.map Prod.fst = ls.map .ok ++ [.ok q] := by
        have : typed.map Prod.fst = (ls ++ [q]).map .ok := hl
        simpa using this
      have hn := he (by simp)
      have hc := h3 (by simp)
      have p0 := hpre [.ok q]
      have p1 := hpre [.ok q, .ok l]
      cases q with
      | nil => exact absurd rfl hq
      | cons x q =>
      dsimp only at hcc
      subst hcc
      refine ⟨fun h => absurd (h1 h).2.1 (by simp), fun h => ?_, fun _ => ?_, fun h => absurd hn h⟩
      · have t := h2 h
        rw [hl', p0, ← hl', hc] at t
        simp only [List.map_append, List.map_cons, List.map_nil, hn]
        rw [readFailed_snoc, hc, hl', append_two, p1]
        simp [pending, dialogue, parting] at t
        by_cases hql : x :: q = l
        · subst hql
          simp [pending, Prompt.says, afterSecond, dialogue, parting, readFailed, t]
        · have hql' : ¬ l = x :: q := fun e => hql e.symm
          simp [pending, Prompt.says, afterSecond, dialogue, parting, readFailed, t, hql, hql']
      · simp only [List.map_append, List.map_cons, List.map_nil]
        rw [readFailed_snoc, hc]
        rfl
    · rename_i q saved er
      obtain ⟨rfl, -, -⟩ := hm
      obtain ⟨hcc, hq, ls, hl, hf⟩ := h5
      obtain ⟨pre, hpre⟩ := dialogue_failed hf
      have hl' : typed.map Prod.fst = ls.map .ok ++ [.ok q] := by
        have : typed.map Prod.fst = (ls ++ [q]).map .ok := hl
        simpa using this
      have hn := he (by simp)
      have hc := h3 (by simp)
      have p0 := hpre [.ok q]
      have p1 := hpre [.ok q, .err er]
      cases q with
      | nil => exact absurd rfl hq
      | cons x q =>
      dsimp only at hcc
      subst hcc
      refine ⟨fun h => absurd (h1 h).2.1 (by simp), fun h => ?_, fun h => absurd rfl h, fun _ => ?_⟩
      · have t := h2 h
        rw [hl', p0, ← hl', hc] at t
        simp only [List.map_append, List.map_cons, List.map_nil]
        rw [readFailed_snoc, hc, hl', append_two, p1]
        simp [pending, dialogue, parting] at t
        simp [pending, Prompt.says, dialogue, parting, readFailed, t]
      · simp only [List.map_append, List.map_cons, List.map_nil]
        rw [readFailed_snoc]
        simp [readFailed]
  | interrupt =>
    simp only [Option.some.injEq, Prod.mk.injEq] at hm
    obtain ⟨rfl, -, -⟩ := hm
    exact (List.append_nil msgs).symm ▸ ⟨h1, h2, h3, h4⟩
  | receive =>
    dsimp only at hm
    cases returned <;> cases reader <;>
      simp only [reduceCtorEq, Option.some.injEq, Prod.mk.injEq] at hm
    obtain ⟨rfl, -, -⟩ := hm
    refine ⟨fun h => absurd (h1 h).2.1 (by simp), fun h => ?_, by simp, h4⟩
    have := h2 h
    simpa [pending, Prompt.says] using this
  | receiveErr =>
    dsimp only at hm
    cases returned <;> cases errChan <;>
      simp only [reduceCtorEq, Option.some.injEq, Prod.mk.injEq] at hm
    obtain ⟨rfl, -, -⟩ := hm
    have hf := h4 (by simp)
    have hd : reader = .done := by
      by_contra hd
      rw [h3 hd] at hf
      exact absurd hf (by simp)
    subst hd
    refine ⟨fun h => absurd (h1 h).2.2.1 (by simp), fun h => ?_, h3, by simp⟩
    have := h2 h
    dsimp only
    rw [hf] at this ⊢
    simp [pending, parting] at this
    simp [pending, parting, Prompt.says, this]
  | receiveDone =>
    dsimp only at hm
    cases returned <;> cases ctxDone <;>
      simp only [reduceCtorEq, Option.some.injEq, Prod.mk.injEq] at hm
    obtain ⟨rfl, -, -⟩ := hm
    refine (List.append_nil msgs).symm ▸ ⟨fun h => absurd rfl (h1 h).2.2.2.1, h2, h3, h4⟩
  | cancel =>
    dsimp only at hm
    cases returned <;> cases cancelled <;>
      simp only [reduceCtorEq, Option.some.injEq, Prod.mk.injEq] at hm
    obtain ⟨rfl, -, -⟩ := hm
    exact (List.append_nil msgs).symm ▸ ⟨h1, h2, h3, h4⟩
  | wake =>
    dsimp only at hm
    cases restorer <;> cases ctxDone <;>
      simp only [reduceCtorEq, Option.some.injEq, Prod.mk.injEq] at hm
    obtain ⟨rfl, -, -⟩ := hm
    exact (List.append_nil msgs).symm ▸ ⟨by simp, fun _ => h2 (by simp), h3, h4⟩
  | print =>
    dsimp only at hm
    cases restorer <;> simp only [reduceCtorEq, Option.some.injEq, Prod.mk.injEq] at hm
    obtain ⟨rfl, -, -⟩ := hm
    exact (List.append_nil msgs).symm ▸ ⟨by simp, fun _ => h2 (by simp), h3, h4⟩
  | restore =>
    dsimp only at hm
    cases restorer <;> simp only [reduceCtorEq, Option.some.injEq, Prod.mk.injEq] at hm
    obtain ⟨rfl, -, -⟩ := hm
    exact (List.append_nil msgs).symm ▸ ⟨by simp, fun _ => h2 (by simp), h3, h4⟩

/-- The line feed of the restorer -/
def fed (p : Prompt) : Nat :=
  match p.restorer with
  | .printed => 1
  | .done => 1
  | _ => 0

theorem fed_move {p p' : Prompt} {e e' : Bool} {n n' : Nat} {m : Move}
    (hm : p.move e n m = some (p', e', n')) : fed p' = fed p + (p.says m).count .newline := by
  obtain ⟨confirm, oldState, ctxDone, reader, restorer, errChan, returned, cancelled, typed⟩ := p
  unfold Prompt.move at hm
  cases m with
  | enterRead =>
    dsimp only at hm
    cases reader <;> simp only [reduceCtorEq, Option.some.injEq, Prod.mk.injEq] at hm <;>
      obtain ⟨rfl, -, -⟩ := hm <;> simp [fed, Prompt.says]
  | line r =>
    dsimp only at hm
    cases reader <;> cases r <;> simp only [reduceCtorEq, Option.some.injEq, Prod.mk.injEq] at hm <;>
      obtain ⟨rfl, -, -⟩ := hm <;> simp [fed, Prompt.says] <;> split <;> simp
  | interrupt =>
    simp only [Option.some.injEq, Prod.mk.injEq] at hm
    obtain ⟨rfl, -, -⟩ := hm
    simp [fed, Prompt.says]
  | receive =>
    dsimp only at hm
    cases returned <;> cases reader <;>
      simp only [reduceCtorEq, Option.some.injEq, Prod.mk.injEq] at hm
    obtain ⟨rfl, -, -⟩ := hm
    simp [fed, Prompt.says]
  | receiveErr =>
    dsimp only at hm
    cases returned <;> cases errChan <;>
      simp only [reduceCtorEq, Option.some.injEq, Prod.mk.injEq] at hm
    obtain ⟨rfl, -, -⟩ := hm
    simp [fed, Prompt.says]
  | receiveDone =>
    dsimp only at hm
    cases returned <;> cases ctxDone <;>
      simp only [reduceCtorEq, Option.some.injEq, Prod.mk.injEq] at hm
    obtain ⟨rfl, -, -⟩ := hm
    simp [fed, Prompt.says]
  | cancel =>
    dsimp only at hm
    cases returned <;> cases cancelled <;>
      simp only [reduceCtorEq, Option.some.injEq, Prod.mk.injEq] at hm
    obtain ⟨rfl, -, -⟩ := hm
    simp [fed, Prompt.says]
  | wake =>
    dsimp only at hm
    cases restorer <;> cases ctxDone <;>
      simp only [reduceCtorEq, Option.some.injEq, Prod.mk.injEq] at hm
    obtain ⟨rfl, -, -⟩ := hm
    simp [fed, Prompt.says]
  | print =>
    dsimp only at hm
    cases restorer <;> simp only [reduceCtorEq, Option.some.injEq, Prod.mk.injEq] at hm
    obtain ⟨rfl, -, -⟩ := hm
    simp [fed, Prompt.says]
  | restore =>
    dsimp only at hm
    cases restorer <;> simp only [reduceCtorEq, Option.some.injEq, Prod.mk.injEq] at hm
    obtain ⟨rfl, -, -⟩ := hm
    simp [fed, Prompt.says]

/-! ## All calls -/

/-- What was said is what the state says. -/
structure Told (s : Sys) (said : List (Nat × Msg)) : Prop where
  inv : ∀ p ∈ s.prompts, PromptInv p
  talk : ∀ k p, s.prompts[k]? = some p → Talk p (saidBy k said)
  lf : ∀ k p, s.prompts[k]? = some p → newlinesBy k said = fed p
  who : ∀ x ∈ said, x.1 < s.prompts.length

theorem saidBy_append (k : Nat) (a b : List (Nat × Msg)) : saidBy k (a ++ b) = saidBy k a ++ saidBy k b := by
  simp [saidBy]

theorem newlinesBy_append (k : Nat) (a b : List (Nat × Msg)) : newlinesBy k (a ++ b) = newlinesBy k a + newlinesBy k b := by
  simp [newlinesBy]

theorem saidBy_none {k : Nat} {a : List (Nat × Msg)} (h : ∀ x ∈ a, x.1 ≠ k) : saidBy k a = [] ∧ newlinesBy k a = 0 := by
  constructor
  · unfold saidBy
    rw [List.map_eq_nil_iff, List.filter_eq_nil_iff]
    intro x hx
    simp [h x hx]
  · unfold newlinesBy
    rw [List.count_eq_zero]
    intro hx
    exact h _ hx rfl

theorem saidBy_own (k : Nat) (ms : List Msg) :
    saidBy k (ms.map (fun x => (k, x))) = ms.filter (· != .newline) ∧
      newlinesBy k (ms.map (fun x => (k, x))) = ms.count .newline := by
  induction ms with
  | nil => exact ⟨rfl, rfl⟩
  | cons m ms ih =>
    obtain ⟨i1, i2⟩ := ih
    unfold saidBy newlinesBy at *
    constructor
    · cases m <;> simp [i1]
    · cases m <;> simp [i2]

theorem others_own {k j : Nat} (h : k ≠ j) (ms : List Msg) : ∀ x ∈ ms.map (fun x => (k, x)), x.1 ≠ j := by
  intro x hx
  obtain ⟨_, _, rfl⟩ := List.mem_map.mp hx
  exact h

theorem talk_begin (confirm echo : Bool) : Talk (Prompt.begin confirm echo) [] where
  refused := by intro h; cases h
  said := fun _ => by simp [Prompt.begin, pending, dialogue, readFailed, parting]
  clean := fun _ => rfl
  err := fun h => absurd rfl h

theorem talk_refused (confirm echo : Bool) (e : Err) : Talk (Prompt.refused confirm echo e) [] where
  refused := fun _ => ⟨rfl, rfl, rfl, by simp [Prompt.refused], rfl⟩
  said := fun h => absurd rfl h
  clean := fun h => absurd rfl h
  err := fun h => absurd rfl h

theorem told_more {s : Sys} {said : List (Nat × Msg)} (h : Told s said) {p : Prompt} (hi : PromptInv p)
    (ht : Talk p []) (hf : fed p = 0) : Told { s with prompts := s.prompts ++ [p] } said where
  inv := by
    intro q hq
    rcases List.mem_append.mp hq with hq | hq
    · exact h.inv q hq
    · rw [List.mem_singleton.mp hq]; exact hi
  talk := by
    intro k q hq
    dsimp only at hq
    rw [List.getElem?_append] at hq
    split at hq
    · exact h.talk k q hq
    · rename_i hk
      have : p = q := by
        exact (List.mem_singleton.mp (List.mem_of_getElem? hq)).symm
      subst this
      rw [(saidBy_none (fun x hx => by have := h.who x hx; omega)).1]
      exact ht
  lf := by
    intro k q hq
    dsimp only at hq
    rw [List.getElem?_append] at hq
    split at hq
    · exact h.lf k q hq
    · rename_i hk
      have : p = q := by
        exact (List.mem_singleton.mp (List.mem_of_getElem? hq)).symm
      subst this
      rw [(saidBy_none (fun x hx => by have := h.who x hx; omega)).2, hf]
  who := by
    intro x hx
    have := h.who x hx
    simp
    omega

theorem told_move {s s' : Sys} {m : SysMove} {said : List (Nat × Msg)} (h : Told s said) (hm : s.move m = some s') :
    Told s' (said ++ s.says m) := by
  have hi := sysInv_move h.inv hm
  unfold Sys.move at hm
  cases m with
  | begin confirm =>
    dsimp only at hm
    split at hm
    · cases hm
      rw [show s.says _ = [] from rfl, List.append_nil]
      exact told_more h (promptInv_begin _ _) (talk_begin _ _) rfl
    · cases hm
  | refused confirm e =>
    dsimp only at hm
    split at hm
    · cases hm
      rw [show s.says _ = [] from rfl, List.append_nil]
      exact told_more h (promptInv_refused _ _ _) (talk_refused _ _ _) rfl
    · cases hm
  | «at» k m =>
    dsimp only at hm
    split at hm
    · cases hm
    · rename_i p hp
      split at hm
      · cases hm
      · split at hm
        · cases hm
        · rename_i p' e' n' hmove
          cases hm
          have hk : k < s.prompts.length := (List.getElem?_eq_some_iff.mp hp).1
          have es : s.says (.at k m) = (p.says m).map (fun x => (k, x)) := by simp [Sys.says, hp]
          rw [es]
          refine ⟨hi, ?_, ?_, ?_⟩
          · intro j q hq
            rw [saidBy_append]
            dsimp only at hq
            by_cases hj : k = j
            · subst hj
              rw [List.getElem?_set_self hk, Option.some.injEq] at hq
              subst hq
              rw [(saidBy_own k _).1]
              exact talk_move (h.inv p (List.mem_of_getElem? hp)) (h.talk k p hp) hmove
            · rw [List.getElem?_set_ne hj] at hq
              rw [(saidBy_none (others_own hj _)).1, List.append_nil]
              exact h.talk j q hq
          · intro j q hq
            rw [newlinesBy_append]
            dsimp only at hq
            by_cases hj : k = j
            · subst hj
              rw [List.getElem?_set_self hk, Option.some.injEq] at hq
              subst hq
              rw [(saidBy_own k _).2, fed_move hmove, h.lf k p hp]
            · rw [List.getElem?_set_ne hj] at hq
              rw [(saidBy_none (others_own hj _)).2, Nat.add_zero]
              exact h.lf j q hq
          · intro x hx
            rw [List.length_set]
            rcases List.mem_append.mp hx with hx | hx
            · exact h.who x hx
            · obtain ⟨_, _, rfl⟩ := List.mem_map.mp hx
              exact hk

theorem told_run : ∀ (ms : List SysMove) (s s' : Sys) (said : List (Nat × Msg)), Told s said →
    s.run ms = some s' → Told s' (said ++ s.said ms)
  | [], s, s', said, h, hr => by
    cases hr
    rw [Sys.said, List.append_nil]
    exact h
  | m :: ms, s, s', said, h, hr => by
    rw [Sys.run] at hr
    rw [Sys.said]
    split at hr
    · cases hr
    · rename_i s₁ hm
      rw [hm]
      dsimp only
      rw [← List.append_assoc]
      exact told_run ms s₁ s' _ (told_move h hm) hr

theorem told_start {ms : List SysMove} {s : Sys} (h : Sys.start.run ms = some s) : Told s (Sys.start.said ms) := by
  have := told_run ms Sys.start s [] ⟨by simp [Sys.start], by simp [Sys.start], by simp [Sys.start], by simp⟩ h
  simpa using this

/-! ## Other lines -/

def renameReader (f : Bytes → Bytes) : Reader → Reader
  | .start => .start
  | .reading b => .reading b
  | .confirmStart q => .confirmStart (f q)
  | .confirming q b => .confirming (f q) b
  | .sending q => .sending (f q)
  | .done => .done

def renameRes (f : Bytes → Bytes) : Res Bytes → Res Bytes
  | .ok l => .ok (f l)
  | r => r

def renamePrompt (f : Bytes → Bytes) (p : Prompt) : Prompt :=
  { p with
    reader := renameReader f p.reader
    returned := p.returned.map (renameRes f)
    typed := p.typed.map (fun x => (renameRes f x.1, x.2)) }

def renameSys (f : Bytes → Bytes) (s : Sys) : Sys := { s with prompts := s.prompts.map (renamePrompt f) }

def renameAt (f : Bytes → Bytes) : Move → Move
  | .line (.ok l) => .line (.ok (f l))
  | m => m

theorem rename_prompt_move {f : Bytes → Bytes} (hf : Function.Injective f) (h0 : f [] = []) (p : Prompt) (e : Bool)
    (n : Nat) (m : Move) :
    (renamePrompt f p).move e n (renameAt f m) = (p.move e n m).map (fun x => (renamePrompt f x.1, x.2)) ∧
      (renamePrompt f p).says (renameAt f m) = p.says m := by
  have hn : ∀ l, f l = [] ↔ l = [] := fun l => ⟨fun h => hf (h.trans h0.symm), fun h => by rw [h, h0]⟩
  obtain ⟨confirm, oldState, ctxDone, reader, restorer, errChan, returned, cancelled, typed⟩ := p
  cases m with
  | enterRead => cases reader <;> simp [renamePrompt, renameReader, renameAt, Prompt.move, Prompt.says]
  | line r =>
    cases reader <;> cases r <;> simp [renamePrompt, renameReader, renameAt, Prompt.move, Prompt.says, renameRes, hn]
    · rename_i saved l
      cases l with
      | nil => rw [h0]; rfl
      | cons x l =>
        have : f (x :: l) ≠ [] := fun h => by simpa using (hn _).1 h
        cases hx : f (x :: l) with
        | nil => exact absurd hx this
        | cons y m =>
          unfold afterFirst
          cases confirm <;> simp [hx]
    · rename_i q saved l
      unfold afterSecond
      by_cases h : q = l
      · subst h; simp
      · have : f q ≠ f l := fun h' => h (hf h')
        simp [h, this]
  | interrupt => simp [renamePrompt, renameAt, Prompt.move, Prompt.says]
  | receive => cases returned <;> cases reader <;> simp [renamePrompt, renameReader, renameAt, Prompt.move, Prompt.says, renameRes]
  | receiveErr => cases returned <;> cases errChan <;> simp [renamePrompt, renameAt, Prompt.move, Prompt.says, renameRes]
  | receiveDone => cases returned <;> cases ctxDone <;> simp [renamePrompt, renameAt, Prompt.move, Prompt.says, renameRes]
  | cancel => cases returned <;> cases cancelled <;> simp [renamePrompt, renameAt, Prompt.move, Prompt.says]
  | wake => cases restorer <;> cases ctxDone <;> simp [renamePrompt, renameAt, Prompt.move, Prompt.says]
  | print => cases restorer <;> simp [renamePrompt, renameAt, Prompt.move, Prompt.says]
  | restore => cases restorer <;> simp [renamePrompt, renameAt, Prompt.move, Prompt.says]

theorem rename_at (f : Bytes → Bytes) (k : Nat) (m : Move) : renameMove f (.at k m) = .at k (renameAt f m) := by
  cases m with
  | line r => cases r <;> rfl
  | _ => rfl

theorem rename_move {f : Bytes → Bytes} (hf : Function.Injective f) (h0 : f [] = []) (s : Sys) (m : SysMove) :
    (renameSys f s).move (renameMove f m) = (s.move m).map (renameSys f) ∧
      (renameSys f s).says (renameMove f m) = s.says m := by
  have hall : (renameSys f s).prompts.all (·.cancelled) = s.prompts.all (·.cancelled) := by
    simp only [renameSys, List.all_map]
    rfl
  cases m with
  | begin c =>
    refine ⟨?_, rfl⟩
    unfold Sys.move
    simp only [renameMove, hall]
    split <;> simp [renameSys, renamePrompt, Prompt.begin, renameReader]
  | refused c e =>
    refine ⟨?_, rfl⟩
    unfold Sys.move
    simp only [renameMove, hall]
    split <;> simp [renameSys, renamePrompt, Prompt.refused, renameReader, renameRes]
  | «at» k m =>
    rw [rename_at]
    have hg : (renameSys f s).prompts[k]? = (s.prompts[k]?).map (renamePrompt f) := by simp [renameSys]
    unfold Sys.move Sys.says
    dsimp only
    rw [hg]
    cases hp : s.prompts[k]? with
    | none => exact ⟨rfl, rfl⟩
    | some p =>
      obtain ⟨h1, h2⟩ := rename_prompt_move hf h0 p s.echo s.newlines m
      simp only [Option.map_some, h2, and_true]
      have hi : (renameAt f m = .interrupt ∧ (renamePrompt f p).cancelled = true) ↔ (m = .interrupt ∧ p.cancelled = true) := by
        cases m with
        | line r => cases r <;> simp [renameAt]
        | _ => simp [renameAt, renamePrompt]
      by_cases h : m = .interrupt ∧ p.cancelled = true
      · rw [if_pos h, if_pos (hi.2 h)]; rfl
      · rw [if_neg h, if_neg (fun h' => h (hi.1 h'))]
        have e1 : (renameSys f s).echo = s.echo := rfl
        have e2 : (renameSys f s).newlines = s.newlines := rfl
        rw [e1, e2, h1]
        cases p.move s.echo s.newlines m with
        | none => rfl
        | some x => simp [renameSys, List.map_set]

theorem rename_run {f : Bytes → Bytes} (hf : Function.Injective f) (h0 : f [] = []) :
    ∀ (ms : List SysMove) (s : Sys), (renameSys f s).run (ms.map (renameMove f)) = (s.run ms).map (renameSys f) ∧
      (renameSys f s).said (ms.map (renameMove f)) = s.said ms
  | [], _ => ⟨rfl, rfl⟩
  | m :: ms, s => by
    obtain ⟨h1, h2⟩ := rename_move hf h0 s m
    rw [List.map_cons, Sys.run, Sys.run, Sys.said, Sys.said, h1, h2]
    cases s.move m with
    | none => exact ⟨rfl, rfl⟩
    | some s' =>
      obtain ⟨i1, i2⟩ := rename_run hf h0 ms s'
      exact ⟨i1, by simp only [Option.map_some]; rw [i2]⟩

end Verif.Proofs
