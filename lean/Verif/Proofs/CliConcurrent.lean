import Verif.Model.Cli.Concurrent
import Verif.Proofs.CliPassword
import Verif.Proofs.CliCommands
import Verif.Spec.Output

/-!
# Invariant of the process with all its goroutines
-/

namespace Verif.Proofs

open Verif.Model Verif.Model.Cli Verif.Spec

/-- Nothing is done before the last password has been given. -/
def Patient (P : Prog Unit) : Prop :=
  ∀ rs rnd confirm, P.outcome rs rnd = .waits confirm → P.acts rs rnd = []

/-- Whatever is written to standard output is written in one piece. -/
def PrintsOnce (P : Prog Unit) : Prop :=
  ∀ rs rnd, ∃ (a : List Act) (b : Bytes) (c : List Act), P.acts rs rnd = a ++ b.map .stdout ++ c ∧ a.all (!isStdout ·) = true ∧
    c.all (!isStdout ·) = true

/-! ## one call -/

/-- The call has written its line feed. -/
def hasPrinted (p : Prompt) : Bool := p.restorer = .printed || p.restorer = .done

def resultOf (p : Prompt) : Option (Res Bytes) := if p.cancelled then p.returned else none

theorem results_eq (s : Sys) : s.results = s.prompts.filterMap resultOf := rfl

structure MoveFacts (p p' : Prompt) (n n' : Nat) (m : Move) : Prop where
  confirm : p'.confirm = p.confirm
  old : p.cancelled = true → p.returned ≠ none → p'.cancelled = true ∧ p'.returned = p.returned
  cur : p.cancelled = false → m ≠ .cancel → p'.cancelled = false
  cancel : p.cancelled = false → m = .cancel → p'.cancelled = true ∧ p'.returned ≠ none
  print : m = .print → n' = n + 1 ∧ hasPrinted p = false ∧ hasPrinted p' = true
  quiet : m ≠ .print → n' = n ∧ hasPrinted p' = hasPrinted p

set_option linter.unnecessarySeqFocus false in
theorem move_facts {p p' : Prompt} {e e' : Bool} {n n' : Nat} {m : Move}
    (h : p.move e n m = some (p', e', n')) : MoveFacts p p' n n' m := by
  obtain ⟨confirm, oldState, ctxDone, reader, restorer, errChan, returned, cancelled, typed⟩ := p
  cases m <;> simp only [Prompt.move] at h
  case line r =>
    cases reader <;> cases r <;> simp only [reduceCtorEq, Option.some.injEq, Prod.mk.injEq] at h <;>
      obtain ⟨rfl, rfl, rfl⟩ := h <;> constructor <;> simp +contextual [hasPrinted]
  case interrupt =>
    simp only [Option.some.injEq, Prod.mk.injEq] at h
    obtain ⟨rfl, rfl, rfl⟩ := h; constructor <;> simp +contextual [hasPrinted]
  case enterRead =>
    cases reader <;> simp only [reduceCtorEq, Option.some.injEq, Prod.mk.injEq] at h <;>
      obtain ⟨rfl, rfl, rfl⟩ := h <;> constructor <;> simp +contextual [hasPrinted]
  case receive =>
    cases returned <;> cases reader <;> simp only [reduceCtorEq, Option.some.injEq, Prod.mk.injEq] at h <;>
      obtain ⟨rfl, rfl, rfl⟩ := h <;> constructor <;> simp +contextual [hasPrinted]
  case receiveErr =>
    cases returned <;> cases errChan <;> simp only [reduceCtorEq, Option.some.injEq, Prod.mk.injEq] at h <;>
      obtain ⟨rfl, rfl, rfl⟩ := h <;> constructor <;> simp +contextual [hasPrinted]
  case receiveDone =>
    cases returned <;> cases ctxDone <;> simp only [reduceCtorEq, Option.some.injEq, Prod.mk.injEq] at h <;>
      obtain ⟨rfl, rfl, rfl⟩ := h <;> constructor <;> simp +contextual [hasPrinted]
  case cancel =>
    cases returned <;> cases cancelled <;> simp only [reduceCtorEq, Option.some.injEq, Prod.mk.injEq] at h <;>
      obtain ⟨rfl, rfl, rfl⟩ := h <;> constructor <;> simp +contextual [hasPrinted]
  case wake =>
    cases restorer <;> cases ctxDone <;> simp only [reduceCtorEq, Option.some.injEq, Prod.mk.injEq] at h <;>
      obtain ⟨rfl, rfl, rfl⟩ := h <;> constructor <;> simp +contextual [hasPrinted]
  case print =>
    cases restorer <;> simp only [reduceCtorEq, Option.some.injEq, Prod.mk.injEq] at h <;>
      obtain ⟨rfl, rfl, rfl⟩ := h <;> constructor <;> simp +contextual [hasPrinted]
  case restore =>
    cases restorer <;> simp only [reduceCtorEq, Option.some.injEq, Prod.mk.injEq] at h <;>
      obtain ⟨rfl, rfl, rfl⟩ := h <;> constructor <;> simp +contextual [hasPrinted]

/-! ## the process -/

/-- What the main goroutine alone would have left behind after `k` of its actions -/
def aloneAfter (P : Prog Unit) (rnd : Bytes) (fs : FS) (rs : List (Res Bytes)) (k : Nat) : World :=
  (World.mk fs none [] []).run ((P.acts rs rnd).take k)

structure ProcInv (P : Prog Unit) (rnd : Bytes) (fs : FS) (s : Proc) (olds : List Prompt)
    (cur : Option Prompt) : Prop where
  reach : ∃ ms, Sys.start.run ms = some s.sys
  prompts : s.sys.prompts = olds ++ cur.toList
  over : ∀ p ∈ olds, p.cancelled = true ∧ p.returned ≠ none
  now : ∀ p, cur = some p → p.cancelled = false ∧ s.done = 0 ∧
    P.outcome (olds.filterMap resultOf) rnd = .waits p.confirm
  asked : ∀ k p, olds[k]? = some p →
    P.outcome ((olds.filterMap resultOf).take k) rnd = .waits p.confirm
  done : s.done ≤ (P.acts (olds.filterMap resultOf) rnd).length
  newlines : s.sys.newlines = s.sys.prompts.countP hasPrinted
  world : ∃ out, s.world = { aloneAfter P rnd fs (olds.filterMap resultOf) s.done with stdout := out } ∧
    ∃ i j, i + j = s.sys.newlines ∧
      out = List.replicate i 0x0A ++ (aloneAfter P rnd fs (olds.filterMap resultOf) s.done).stdout ++
        List.replicate j 0x0A ∧
      (j ≠ 0 → ((P.acts (olds.filterMap resultOf) rnd).drop s.done).all (!isStdout ·) = true)

theorem results_olds {olds : List Prompt} {cur : Option Prompt} (h : ∀ p, cur = some p → p.cancelled = false) :
    (olds ++ cur.toList).filterMap resultOf = olds.filterMap resultOf := by
  rw [List.filterMap_append]
  cases cur with
  | none => simp
  | some p => simp [resultOf, h p rfl]

theorem results_length {olds : List Prompt} (h : ∀ p ∈ olds, p.cancelled = true ∧ p.returned ≠ none) :
    (olds.filterMap resultOf).length = olds.length := by
  induction olds with
  | nil => rfl
  | cons p olds ih =>
    obtain ⟨h1, h2⟩ := h p (by simp)
    obtain ⟨r, hr⟩ := Option.ne_none_iff_exists'.mp h2
    have : resultOf p = some r := by unfold resultOf; rw [if_pos h1, hr]
    rw [List.filterMap_cons_some this, List.length_cons, ih (fun q hq => h q (by simp [hq])), List.length_cons]

theorem procInv_start (P : Prog Unit) (rnd : Bytes) (fs : FS) :
    ProcInv P rnd fs (.start fs) [] none where
  reach := ⟨[], rfl⟩
  prompts := rfl
  over := by simp
  now := by simp
  asked := by simp
  done := Nat.zero_le _
  newlines := rfl
  world := ⟨[], by simp [aloneAfter, World.run, Proc.start], 0, 0, rfl,
    by simp [aloneAfter, World.run, Proc.start], by simp⟩

/-- Standard output after an action of the main goroutine -/
def ownOut (out : Bytes) : Act → Bytes
  | .stdout b => out ++ [b]
  | _ => out

theorem step_stdout (w : World) (out : Bytes) (a : Act) :
    ({ w with stdout := out } : World).step a =
      { w.step a with stdout := ownOut out a } := by
  cases a with
  | openTrunc p perm => simp only [World.step]; cases w.fs.dir p <;> rfl
  | write b => obtain ⟨fs, handle, o, sh⟩ := w; cases handle <;> rfl
  | stdout b => rfl
  | showPhrase ws => rfl

theorem step_own (w : World) (a : Act) :
    (w.step a).stdout = ownOut w.stdout a := by
  cases a with
  | openTrunc p perm => simp only [World.step]; cases w.fs.dir p <;> rfl
  | write b => obtain ⟨fs, handle, o, sh⟩ := w; cases handle <;> rfl
  | stdout b => rfl
  | showPhrase ws => rfl

theorem run_quiet : ∀ (as : List Act) (w : World), as.all (!isStdout ·) = true → (w.run as).stdout = w.stdout
  | [], _, _ => rfl
  | a :: as, w, h => by
    rw [List.all_cons, Bool.and_eq_true] at h
    rw [run_cons, run_quiet as _ h.2, step_own]
    cases a <;> first | rfl | simp [isStdout] at h

/-- Once something has been printed, and the main goroutine is not printing, it prints nothing more. -/
theorem prints_over {acts : List Act} {w : World} {k : Nat}
    (h : ∃ (a : List Act) (b : Bytes) (c : List Act), acts = a ++ b.map .stdout ++ c ∧ a.all (!isStdout ·) = true ∧
      c.all (!isStdout ·) = true)
    (hw : (w.run (acts.take k)).stdout ≠ w.stdout)
    (hmid : ((acts.take k).getLast?.any isStdout && (acts.drop k).head?.any isStdout) = false) :
    (acts.drop k).all (!isStdout ·) = true := by
  obtain ⟨a, b, c, rfl, ha, hc⟩ := h
  have hka : a.length < k := by
    by_contra hk
    refine hw (run_quiet _ _ ?_)
    rw [List.append_assoc, List.take_append_of_le_length (by omega)]
    rw [List.all_eq_true] at ha ⊢
    exact fun x hx => ha x (List.mem_of_mem_take hx)
  by_cases hkb : k < a.length + b.length
  · exfalso
    obtain ⟨d, hd⟩ : ∃ d, k = a.length + (d + 1) := ⟨k - a.length - 1, by omega⟩
    have htake : (a ++ b.map Act.stdout ++ c).take k = a ++ (b.map Act.stdout).take (d + 1) := by
      rw [List.append_assoc, hd, List.take_length_add_append,
        List.take_append_of_le_length (by simp; omega)]
    have hdrop : (a ++ b.map Act.stdout ++ c).drop k = (b.map Act.stdout).drop (d + 1) ++ c := by
      rw [List.append_assoc, hd, List.drop_length_add_append,
        List.drop_append_of_le_length (by simp; omega)]
    rw [htake, hdrop] at hmid
    have h1 : d < b.length := by omega
    have h2 : d + 1 < b.length := by omega
    rw [List.take_add_one, List.getElem?_map, List.getElem?_eq_getElem h1,
      List.drop_eq_getElem_cons (by simpa using h2)] at hmid
    simp [isStdout, List.getLast?_append] at hmid
  · rw [List.all_eq_true] at hc ⊢
    intro x hx
    refine hc x ?_
    rw [List.drop_append, List.drop_of_length_le (by simp; omega), List.nil_append] at hx
    exact List.mem_of_mem_drop hx

theorem countP_set {p p' : Prompt} {a b : List Prompt} :
    ((a ++ p :: b).set a.length p') = a ++ p' :: b := by simp

theorem procInv_move {P : Prog Unit} (hP : Patient P) (hO : PrintsOnce P) {rnd : Bytes} {fs : FS} {s s' : Proc}
    {m : ProcMove} {olds : List Prompt} {cur : Option Prompt} (h : ProcInv P rnd fs s olds cur)
    (hm : s.move P rnd m = some s') : ∃ olds' cur', ProcInv P rnd fs s' olds' cur' := by
  have hres : s.sys.results = olds.filterMap resultOf := by
    rw [results_eq, h.prompts, results_olds (fun p hp => (h.now p hp).1)]
  have hidle : s.sys.prompts.all (·.cancelled) = true → cur = none := by
    intro ha
    cases hc : cur with
    | none => rfl
    | some p =>
      rw [h.prompts, hc, List.all_append] at ha
      simp [(h.now p hc).1] at ha
  cases m with
  | act =>
    simp only [Proc.move] at hm
    split at hm
    · rename_i ha
      have hc := hidle ha
      subst hc
      rw [hres] at hm
      split at hm
      · cases hm
      · rename_i a hget
        cases hm
        obtain ⟨out, hw, i, j, hij, hout, hrest⟩ := h.world
        have hk : s.done < (P.acts (olds.filterMap resultOf) rnd).length := by
          by_contra hc
          rw [List.getElem?_eq_none (by omega)] at hget
          cases hget
        have htake : (P.acts (olds.filterMap resultOf) rnd).take (s.done + 1) =
            (P.acts (olds.filterMap resultOf) rnd).take s.done ++ [a] := by
          rw [List.take_add_one, hget]; rfl
        have hstep : aloneAfter P rnd fs (olds.filterMap resultOf) (s.done + 1) =
            (aloneAfter P rnd fs (olds.filterMap resultOf) s.done).step a := by
          unfold aloneAfter
          rw [htake, World.run, List.foldl_append]
          rfl
        refine ⟨olds, none, h.reach, h.prompts, h.over, by simp, h.asked, by dsimp only; omega, h.newlines,
          ownOut out a, ?_, ?_⟩
        · dsimp only
          rw [hstep, hw]; exact step_stdout _ _ _
        · dsimp only
          have hdrop : (P.acts (olds.filterMap resultOf) rnd).drop s.done =
              a :: (P.acts (olds.filterMap resultOf) rnd).drop (s.done + 1) := by
            rw [List.drop_eq_getElem_cons hk]
            rw [List.getElem?_eq_getElem hk] at hget
            rw [Option.some.inj hget]
          refine ⟨i, j, hij, ?_, fun hj => ?_⟩
          · rw [hstep, step_own]
            cases a with
            | stdout b =>
              have hj : j = 0 := by
                by_contra hj
                have := hrest hj
                rw [hdrop] at this
                simp [isStdout] at this
              subst hj
              simp [ownOut, hout]
            | openTrunc p perm => exact hout
            | write b => exact hout
            | showPhrase ws => exact hout
          · have := hrest hj
            rw [hdrop, List.all_cons, Bool.and_eq_true] at this
            exact this.2
    · cases hm
  | begin =>
    simp only [Proc.move] at hm
    rw [hres] at hm
    split at hm
    · rename_i confirm hout
      split at hm
      · rename_i hd
        rw [Option.map_eq_some_iff] at hm
        obtain ⟨sys, hsys, rfl⟩ := hm
        have hreach : ∃ ms, Sys.start.run ms = some sys := by
          obtain ⟨ms, hms⟩ := h.reach
          exact ⟨ms ++ [.begin confirm], run_append_some hms (by rw [Sys.run, hsys]; rfl)⟩
        simp only [Sys.move] at hsys
        split at hsys
        · rename_i ha
          have hc := hidle ha
          subst hc
          cases hsys
          have h0 : s.done = 0 := by rw [hd, hP _ _ _ hout]; rfl
          refine ⟨olds, some (Prompt.begin confirm s.sys.echo), hreach, ?_, h.over, ?_, h.asked, h.done, ?_,
            h.world⟩
          · dsimp only
            rw [h.prompts]; simp
          · intro p hp
            cases hp
            exact ⟨rfl, h0, hout⟩
          · dsimp only
            rw [h.newlines, List.countP_append]
            rfl
        · cases hsys
      · cases hm
    · cases hm
  | refused e =>
    simp only [Proc.move] at hm
    rw [hres] at hm
    split at hm
    · rename_i confirm hout
      split at hm
      · rename_i hd
        rw [Option.map_eq_some_iff] at hm
        obtain ⟨sys, hsys, rfl⟩ := hm
        have hreach : ∃ ms, Sys.start.run ms = some sys := by
          obtain ⟨ms, hms⟩ := h.reach
          exact ⟨ms ++ [.refused confirm e], run_append_some hms (by rw [Sys.run, hsys]; rfl)⟩
        simp only [Sys.move] at hsys
        split at hsys
        · rename_i ha
          have hc := hidle ha
          subst hc
          cases hsys
          have h0 : s.done = 0 := by rw [hd, hP _ _ _ hout]; rfl
          have hlen := results_length h.over
          refine ⟨olds ++ [Prompt.refused confirm s.sys.echo e], none, hreach, ?_, ?_, by simp, ?_, ?_, ?_, ?_⟩
          · dsimp only
            rw [h.prompts]; simp
          · intro q hq
            rcases List.mem_append.mp hq with hq | hq
            · exact h.over q hq
            · rw [List.mem_singleton.mp hq]; exact ⟨rfl, by simp [Prompt.refused]⟩
          · intro j q hq
            rw [List.filterMap_append]
            rcases Nat.lt_or_ge j olds.length with hj | hj
            · rw [List.getElem?_append_left hj] at hq
              rw [List.take_append_of_le_length (by omega)]
              exact h.asked j q hq
            · rw [List.getElem?_append_right hj] at hq
              obtain ⟨h0, hq⟩ := List.getElem?_eq_some_iff.mp hq
              simp at h0
              have : j = olds.length := by omega
              subst this
              simp at hq
              subst hq
              rw [← hlen, List.take_left' rfl]
              exact hout
          · dsimp only; rw [h0]; exact Nat.zero_le _
          · dsimp only
            rw [h.newlines, List.countP_append]
            rfl
          · obtain ⟨out, hw, i, j, hij, hout', -⟩ := h.world
            have hempty : ∀ rs, aloneAfter P rnd fs rs s.done = ⟨fs, none, [], []⟩ := by
              intro rs; rw [h0]; simp [aloneAfter]
            rw [hempty] at hw hout'
            dsimp only
            rw [hempty]
            refine ⟨out, hw, s.sys.newlines, 0, rfl, ?_, by simp⟩
            rw [hout', ← hij]
            simp
        · cases hsys
      · cases hm
    · cases hm
  | «at» k m =>
    simp only [Proc.move] at hm
    split at hm
    · cases hm
    rename_i hlock
    rw [Option.map_eq_some_iff] at hm
    obtain ⟨sys, hsys, rfl⟩ := hm
    have hreach : ∃ ms, Sys.start.run ms = some sys := by
      obtain ⟨ms, hms⟩ := h.reach
      exact ⟨ms ++ [.at k m], run_append_some hms (by rw [Sys.run, hsys]; rfl)⟩
    simp only [Sys.move] at hsys
    split at hsys
    · cases hsys
    rename_i p hp
    split at hsys
    · cases hsys
    split at hsys
    · cases hsys
    rename_i p' echo' n' hmove
    cases hsys
    have hf := move_facts hmove
    obtain ⟨a, b, hab, hk⟩ : ∃ a b, s.sys.prompts = a ++ p :: b ∧ a.length = k := by
      obtain ⟨hlt, hget⟩ := List.getElem?_eq_some_iff.mp hp
      exact ⟨s.sys.prompts.take k, s.sys.prompts.drop (k + 1),
        by rw [← hget]; simp, by rw [List.length_take]; omega⟩
    have hset : s.sys.prompts.set k p' = a ++ p' :: b := by rw [hab, ← hk, countP_set]
    have hcount : n' = (s.sys.prompts.set k p').countP hasPrinted := by
      have h0 := h.newlines
      rw [hab, List.countP_append, List.countP_cons] at h0
      rw [hset, List.countP_append, List.countP_cons]
      by_cases hpm : m = .print
      · obtain ⟨e1, e2, e3⟩ := hf.print hpm
        rw [e2] at h0; rw [e1, e3, h0]; simp; omega
      · obtain ⟨e1, e2⟩ := hf.quiet hpm
        rw [e1, e2, h0]
    -- the world, for results that did not matter to it
    have hworld : ∀ rs, (rs = olds.filterMap resultOf ∨ s.done = 0) →
        ∃ out, (if m = .print then s.world.step (.stdout 0x0A) else s.world) =
          { aloneAfter P rnd fs rs s.done with stdout := out } ∧
          ∃ i j, i + j = n' ∧
            out = List.replicate i 0x0A ++ (aloneAfter P rnd fs rs s.done).stdout ++
              List.replicate j 0x0A ∧
            (j ≠ 0 → ((P.acts rs rnd).drop s.done).all (!isStdout ·) = true) := by
      intro rs hrs
      obtain ⟨out, hw, i, j, hij, hout, hrest⟩ := h.world
      by_cases h0 : s.done = 0
      · -- nothing of the main goroutine's yet
        have hempty : ∀ rs, aloneAfter P rnd fs rs s.done = ⟨fs, none, [], []⟩ := by
          intro rs; rw [h0]; simp [aloneAfter]
        rw [hempty] at hw hout
        rw [hempty]
        have hout' : out = List.replicate (i + j) 0x0A := by rw [hout]; simp
        by_cases hpm : m = .print
        · refine ⟨out ++ [0x0A], ?_, n', 0, rfl, ?_, by simp⟩
          · rw [if_pos hpm, hw]; rfl
          · rw [(hf.print hpm).1, ← hij, hout', List.replicate_succ']; simp
        · refine ⟨out, by rw [if_neg hpm, hw], n', 0, rfl, ?_, by simp⟩
          rw [(hf.quiet hpm).1, ← hij, hout']; simp
      · have hrs : rs = olds.filterMap resultOf := hrs.resolve_right h0
        subst hrs
        by_cases hpm : m = .print
        · by_cases hdone : (aloneAfter P rnd fs (olds.filterMap resultOf) s.done).stdout = []
          · refine ⟨out ++ [0x0A], ?_, n', 0, rfl, ?_, by simp⟩
            · rw [if_pos hpm, hw]; rfl
            · rw [(hf.print hpm).1, ← hij, hout, hdone, List.replicate_succ']; simp
          · refine ⟨out ++ [0x0A], ?_, i, j + 1, ?_, ?_, fun _ => ?_⟩
            · rw [if_pos hpm, hw]; rfl
            · rw [(hf.print hpm).1]; omega
            · rw [hout, List.replicate_succ']; simp
            · refine prints_over (hO _ _) hdone ?_
              rw [← hres]
              cases hmid : s.midPrint P rnd with
              | false => exact hmid
              | true => exact absurd ⟨hpm, hmid⟩ hlock
        · refine ⟨out, by rw [if_neg hpm, hw], i, j, ?_, hout, hrest⟩
          rw [(hf.quiet hpm).1]; exact hij
    have hpr := h.prompts
    rw [hab] at hpr
    by_cases hold : k < olds.length
    · -- a call that is over
      have ha : ∃ b', olds = a ++ p :: b' ∧ b = b' ++ cur.toList := by
        have h1 : olds[k]? = some p := by
          have := hp
          rwa [h.prompts, List.getElem?_append_left hold] at this
        obtain ⟨hlt, hget⟩ := List.getElem?_eq_some_iff.mp h1
        have h2 : olds = olds.take k ++ p :: olds.drop (k + 1) := by rw [← hget]; simp
        have h3 : a = olds.take k := by
          have := congrArg (List.take k) hpr
          rw [List.take_append_of_le_length (by omega), List.take_append_of_le_length (by omega), ← hk,
            List.take_length] at this
          rw [← hk]; exact this
        refine ⟨olds.drop (k + 1), by rw [h3]; exact h2, ?_⟩
        have : a ++ p :: b = a ++ p :: (olds.drop (k + 1) ++ cur.toList) := by
          rw [hpr]
          conv_lhs => rw [h2]
          rw [h3]; simp
        have := List.append_cancel_left this
        exact (List.cons.inj this).2
      obtain ⟨b', hob, rfl⟩ := ha
      have hpo := h.over p (by rw [hob]; simp)
      obtain ⟨hc', hr'⟩ := hf.old hpo.1 hpo.2
      have hro : resultOf p' = resultOf p := by unfold resultOf; rw [hc', hpo.1, hr']
      have hfm : (a ++ p' :: b').filterMap resultOf = olds.filterMap resultOf := by
        rw [hob, List.filterMap_append, List.filterMap_append, List.filterMap_cons, List.filterMap_cons, hro]
      refine ⟨a ++ p' :: b', cur, hreach, ?_, ?_, ?_, ?_, ?_, hcount, ?_⟩
      · dsimp only; rw [hset]; simp
      · intro q hq
        rcases List.mem_append.mp hq with hq | hq
        · exact h.over q (by rw [hob]; simp [hq])
        · rcases List.mem_cons.mp hq with rfl | hq
          · exact ⟨hc', by rw [hr']; exact hpo.2⟩
          · exact h.over q (by rw [hob]; simp [hq])
      · rw [hfm]; exact h.now
      · rw [hfm]
        intro j q hq
        by_cases hj : j = a.length
        · subst hj
          rw [List.getElem?_append_right le_rfl] at hq
          simp at hq
          subst hq
          rw [hf.confirm]
          exact h.asked _ p (by rw [hob]; simp)
        · refine h.asked j q ?_
          rw [hob]
          rcases Nat.lt_or_gt_of_ne hj with hj | hj
          · rw [List.getElem?_append_left hj] at hq ⊢; exact hq
          · rw [List.getElem?_append_right (by omega)] at hq ⊢
            obtain ⟨i, hi⟩ : ∃ i, j - a.length = i + 1 := ⟨j - a.length - 1, by omega⟩
            rw [hi] at hq ⊢
            exact hq
      · rw [hfm]; exact h.done
      · rw [hfm]; exact hworld _ (.inl rfl)
    · -- the call that is running
      have hcur : cur = some p ∧ a = olds ∧ b = [] := by
        cases hc : cur with
        | none =>
          rw [hc] at hpr
          have := congrArg List.length hpr
          simp at this
          omega
        | some q =>
          rw [hc] at hpr
          have hlen := congrArg List.length hpr
          simp at hlen
          obtain ⟨e1, e2⟩ := List.append_inj hpr (by omega)
          simp at e2
          exact ⟨by rw [e2.1], e1, e2.2⟩
      obtain ⟨rfl, rfl, rfl⟩ := hcur
      obtain ⟨hc0, hd0, hwait⟩ := h.now p rfl
      by_cases hmc : m = .cancel
      · obtain ⟨hc', hr'⟩ := hf.cancel hc0 hmc
        have hlen := results_length h.over
        refine ⟨a ++ [p'], none, hreach, ?_, ?_, by simp, ?_, ?_, hcount, hworld _ (.inr hd0)⟩
        · dsimp only; rw [hset]; simp
        · intro q hq
          rcases List.mem_append.mp hq with hq | hq
          · exact h.over q hq
          · rw [List.mem_singleton.mp hq]; exact ⟨hc', hr'⟩
        · intro j q hq
          rw [List.filterMap_append]
          rcases Nat.lt_or_ge j a.length with hj | hj
          · rw [List.getElem?_append_left hj] at hq
            rw [List.take_append_of_le_length (by omega)]
            exact h.asked j q hq
          · rw [List.getElem?_append_right hj] at hq
            obtain ⟨h0, hq⟩ := List.getElem?_eq_some_iff.mp hq
            simp at h0
            have : j = a.length := by omega
            subst this
            simp at hq
            subst hq
            rw [← hlen, List.take_left', hf.confirm]
            · exact hwait
            · rfl
        · dsimp only; rw [hd0]; exact Nat.zero_le _
      · have hc' := hf.cur hc0 hmc
        refine ⟨a, some p', hreach, ?_, h.over, ?_, h.asked, h.done, hcount, hworld _ (.inl rfl)⟩
        · dsimp only; rw [hset]; simp
        · intro q hq
          cases hq
          exact ⟨hc', hd0, by rw [hf.confirm]; exact hwait⟩

theorem procInv_run {P : Prog Unit} (hP : Patient P) (hO : PrintsOnce P) {rnd : Bytes} {fs : FS} :
    ∀ (ms : List ProcMove) {s s' : Proc} {olds : List Prompt} {cur : Option Prompt},
      ProcInv P rnd fs s olds cur → s.run P rnd ms = some s' → ∃ olds' cur', ProcInv P rnd fs s' olds' cur'
  | [], s, s', olds, cur, h, hr => by cases hr; exact ⟨_, _, h⟩
  | m :: ms, s, s', olds, cur, h, hr => by
    rw [Proc.run] at hr
    split at hr
    · cases hr
    · rename_i s₁ hm
      obtain ⟨o, c, h'⟩ := procInv_move hP hO h hm
      exact procInv_run hP hO ms h' hr

/-! ## the commands -/

/-- Up to a password prompt nothing is done. -/
def Still {α : Type} (x : Prog α) : Prop := ∀ st c, (x st).1 = .waits c → (x st).2.acts = st.acts

/-- All password prompts are of this kind. -/
def AsksOnly (b : Bool) {α : Type} (x : Prog α) : Prop := ∀ st c, (x st).1 = .waits c → c = b

def NeverAsks {α : Type} (x : Prog α) : Prop := ∀ st c, (x st).1 ≠ .waits c

theorem still_of_quiet {α : Type} {x : Prog α} (h : Quiet x) : Still x := fun st _ _ => h st

theorem NeverAsks.still {α : Type} {x : Prog α} (h : NeverAsks x) : Still x :=
  fun st c hc => absurd hc (h st c)

theorem NeverAsks.asks {α : Type} {x : Prog α} (h : NeverAsks x) (b : Bool) : AsksOnly b x :=
  fun st c hc => absurd hc (h st c)

theorem bind_waits {α β : Type} {x : Prog α} {f : α → Prog β} {st : St} {c : Bool}
    (h : ((x >>= f) st).1 = .waits c) :
    ((x st).1 = .waits c ∧ (x >>= f) st = (.waits c, (x st).2)) ∨
    ∃ a st1, x st = (.ok a, st1) ∧ (x >>= f) st = f a st1 ∧ (f a st1).1 = .waits c := by
  change (Prog.bind x f st).1 = _ at h
  change _ ∨ ∃ a st1, _ ∧ Prog.bind x f st = _ ∧ _
  change (_ ∧ Prog.bind x f st = _) ∨ _
  unfold Prog.bind at h ⊢
  rcases hx : x st with ⟨o, st1⟩
  rw [hx] at h
  cases o with
  | ok a => exact .inr ⟨a, st1, rfl, rfl, h⟩
  | waits c' => cases h; exact .inl ⟨rfl, rfl⟩
  | err e => cases h
  | panic p => cases h
  | loops => cases h

theorem still_bind {α β : Type} {x : Prog α} {f : α → Prog β} (hx : Quiet x) (hf : ∀ a, Still (f a)) :
    Still (x >>= f) := by
  intro st c h
  rcases bind_waits h with ⟨-, e⟩ | ⟨a, st1, h1, e, h2⟩
  · rw [e]; exact hx st
  · rw [e, hf a st1 c h2]
    have := hx st
    rw [h1] at this
    exact this

theorem asks_bind {b : Bool} {α β : Type} {x : Prog α} {f : α → Prog β} (hx : AsksOnly b x)
    (hf : ∀ a, AsksOnly b (f a)) : AsksOnly b (x >>= f) := by
  intro st c h
  rcases bind_waits h with ⟨h1, -⟩ | ⟨a, st1, -, -, h2⟩
  · exact hx st c h1
  · exact hf a st1 c h2

theorem neverAsks_bind {α β : Type} {x : Prog α} {f : α → Prog β} (hx : NeverAsks x)
    (hf : ∀ a, NeverAsks (f a)) : NeverAsks (x >>= f) := by
  intro st c h
  rcases bind_waits h with ⟨h1, -⟩ | ⟨a, st1, -, -, h2⟩
  · exact hx st c h1
  · exact hf a st1 c h2

theorem neverAsks_lift {α : Type} (r : Res α) : NeverAsks (lift r) := by
  intro st c h; cases r <;> cases h

theorem neverAsks_pure {α : Type} (a : α) : NeverAsks (pure a : Prog α) := by
  intro st c h; cases h

theorem neverAsks_random {α : Type} (f : Bytes → Res (α × Bytes)) : NeverAsks (random f) := by
  intro st c h
  unfold random at h
  split at h <;> cases h

theorem neverAsks_emit (as : List Act) : NeverAsks (emit as) := by intro st c h; cases h

theorem neverAsks_printMnemonic (env : Env) (ws : List Bytes) : NeverAsks (printMnemonic env ws) := by
  intro st c h
  unfold printMnemonic at h
  dsimp only at h
  split at h <;> cases h

theorem neverAsks_save (env : Env) (ws : List Bytes) (p : Bytes) : NeverAsks (save env ws p) :=
  neverAsks_bind (neverAsks_emit _) (fun _ => neverAsks_lift _)

theorem neverAsks_generateEnd (env : Env) (out key : Bytes) (ws : List Bytes) :
    NeverAsks (generateEnd env out key ws) := by
  unfold generateEnd
  by_cases h : out = []
  · rw [if_neg (by simp [h]), if_pos h]
    exact neverAsks_bind (neverAsks_emit _) (fun _ => neverAsks_printMnemonic _ _)
  · rw [if_pos h, if_neg h]
    exact neverAsks_bind (neverAsks_save _ _ _) (fun _ => neverAsks_bind (neverAsks_emit _)
      (fun _ => neverAsks_pure _))

theorem neverAsks_seedOf (env : Env) (u : Bytes) : NeverAsks (seedOf env u) := by
  unfold seedOf
  split
  · exact neverAsks_lift _
  · exact neverAsks_random _

theorem neverAsks_exportKey (C : Crypto) (mnk : Mnemonikey) (m s : Bool) (p : Bytes) :
    NeverAsks (exportKey C mnk m s p) := by
  unfold exportKey
  split <;> exact neverAsks_random _

theorem asks_password (b : Bool) : AsksOnly b (userInputPassword b) := by
  intro st c h
  unfold userInputPassword at h
  split at h <;> cases h
  rfl

theorem asks_keyPassword (b : Bool) : AsksOnly true (keyPassword b) := by
  unfold keyPassword
  split
  · exact asks_password true
  · exact (neverAsks_pure _).asks _

theorem generate_asks (L : WordList) (C : Crypto) (env : Env) (opts : GenerateOptions) :
    AsksOnly true (generateAndPrintKey L C env opts) := by
  unfold generateAndPrintKey
  refine asks_bind ((neverAsks_lift _).asks _) fun ttl => ?_
  refine asks_bind ((neverAsks_lift _).asks _) fun ms => ?_
  obtain ⟨master, subkeys⟩ := ms
  dsimp only
  refine asks_bind ((neverAsks_seedOf _ _).asks _) fun seed => ?_
  refine asks_bind ((neverAsks_lift _).asks _) fun mnk => ?_
  refine asks_bind (asks_keyPassword _) fun pw => ?_
  refine asks_bind ((neverAsks_exportKey _ _ _ _ _).asks _) fun key => ?_
  refine asks_bind ?_ fun words => (neverAsks_generateEnd env opts.outputWordFile key words).asks _
  split
  · exact asks_bind (asks_password true) fun p => (neverAsks_random _).asks _
  · exact (neverAsks_lift _).asks _

theorem generate_patient (L : WordList) (C : Crypto) (env : Env) (opts : GenerateOptions) :
    Patient (generateAndPrintKey L C env opts) := by
  suffices h : Still (generateAndPrintKey L C env opts) from fun rs rnd c hc => h ⟨rs, rnd, []⟩ c hc
  unfold generateAndPrintKey
  refine still_bind (quiet_lift _) fun ttl => ?_
  refine still_bind (quiet_lift _) fun ms => ?_
  obtain ⟨master, subkeys⟩ := ms
  dsimp only
  refine still_bind (quiet_seedOf _ _) fun seed => ?_
  refine still_bind (quiet_lift _) fun mnk => ?_
  refine still_bind (quiet_keyPassword _) fun pw => ?_
  refine still_bind (quiet_exportKey _ _ _ _ _) fun key => ?_
  refine still_bind ?_ fun words => (neverAsks_generateEnd env opts.outputWordFile key words).still
  split
  · exact quiet_bind (quiet_password true) fun p => quiet_random _
  · exact quiet_lift _

theorem recover_patient (L : WordList) (C : Crypto) (env : Env) (opts : RecoverOptions) :
    Patient (recoverAndPrintKey L C env opts) := by
  suffices h : Still (recoverAndPrintKey L C env opts) from fun rs rnd c hc => h ⟨rs, rnd, []⟩ c hc
  unfold recoverAndPrintKey
  refine still_bind (quiet_lift _) fun ttl => ?_
  split
  · exact (neverAsks_lift _).still
  refine still_bind (quiet_lift _) fun ms => ?_
  obtain ⟨master, subkeys⟩ := ms
  dsimp only
  refine still_bind (quiet_decode _ _ _ _) fun sd => ?_
  obtain ⟨seed, dm⟩ := sd
  dsimp only
  refine still_bind (quiet_lift _) fun mnk => ?_
  refine still_bind (quiet_keyPassword _) fun pw => ?_
  exact still_bind (quiet_exportKey _ _ _ _ _) fun key => (neverAsks_emit _).still

theorem convert_patient (L : WordList) (C : Crypto) (env : Env) (opts : ConvertOptions) :
    Patient (decodeAndConvertPhrase L C env opts) := by
  suffices h : Still (decodeAndConvertPhrase L C env opts) from fun rs rnd c hc => h ⟨rs, rnd, []⟩ c hc
  unfold decodeAndConvertPhrase
  refine still_bind (quiet_decode _ _ _ _) fun sd => ?_
  obtain ⟨seed, dm⟩ := sd
  dsimp only
  refine still_bind ?_ fun words => ?_
  · split
    · exact quiet_bind (quiet_password true) fun p => quiet_random _
    · exact quiet_lift _
  · split
    · exact (neverAsks_printMnemonic _ _).still
    · exact (neverAsks_save _ _ _).still

theorem saveMnemonic_quiet (fs : FS) (env : SaveEnv) (ws : List Bytes) (p : Bytes) :
    (saveMnemonic fs env ws p).1.all (!isStdout ·) = true := by
  unfold saveMnemonic
  have hw : ∀ bs : Bytes, (bs.map Act.write).all (!isStdout ·) = true := by
    intro bs; simp [isStdout]
  dsimp only
  split
  · rfl
  · split
    · rfl
    · split
      · rfl
      · split
        · rw [List.all_cons, hw]; rfl
        · rw [List.all_cons, hw]; rfl

theorem generate_printsOnce {L : WordList} (hL : L.Lawful) {C : Crypto} (hC : C.Lawful) (env : Env)
    (opts : GenerateOptions) : PrintsOnce (generateAndPrintKey L C env opts) := by
  intro rs rnd
  unfold Prog.acts
  rcases generate_cases hL hC env opts ⟨rs, rnd, []⟩ with ⟨-, ha⟩ |
    ⟨mnk, o, master, keyPw, pw, key, words, st1, ha, g, e⟩
  · rw [ha]; exact ⟨[], [], [], by simp, rfl, rfl⟩
  rw [e]
  by_cases h : opts.outputWordFile = []
  · rw [h, generateEnd_shown, ha]
    exact ⟨[], _, [.showPhrase words], rfl, rfl, rfl⟩
  · rcases generateEnd_file (env := env) (key := key) (ws := words) h st1 with ⟨-, e2⟩ | ⟨-, e2⟩
    · rw [e2]
      dsimp only
      rw [ha]
      exact ⟨_, _, [], by rw [List.append_nil], by simpa using saveMnemonic_quiet _ _ _ _, rfl⟩
    · rw [e2, ha]
      exact ⟨_, [], [], by simp, saveMnemonic_quiet env.fs env.save words opts.outputWordFile, rfl⟩

theorem recover_printsOnce (L : WordList) (C : Crypto) (env : Env) (opts : RecoverOptions) :
    PrintsOnce (recoverAndPrintKey L C env opts) := by
  intro rs rnd
  unfold Prog.acts
  rcases recover_cases (L := L) (C := C) env opts ⟨rs, rnd, []⟩ with ⟨-, ha⟩ |
    ⟨ttl, master, subkeys, ws, dm, s, mnk, keyPw, key, -, -, -, -, -, -, -, -, -, ha⟩
  · rw [ha]; exact ⟨[], [], [], by simp, rfl, rfl⟩
  · rw [ha]; exact ⟨[], _, [], by rw [List.append_nil], rfl, rfl⟩

theorem convert_printsOnce (L : WordList) (C : Crypto) (env : Env) (opts : ConvertOptions) :
    PrintsOnce (decodeAndConvertPhrase L C env opts) := by
  intro rs rnd
  unfold Prog.acts
  rcases convert_cases (L := L) (C := C) env opts ⟨rs, rnd, []⟩ with ⟨-, ha⟩ |
    ⟨ws, dm, s, words, st1, hin, -, -, -, ha, e⟩
  · rw [ha]; exact ⟨[], [], [], by simp, rfl, rfl⟩
  · rw [e]
    split
    · rw [printMnemonic_run]
      dsimp only
      rw [ha]
      exact ⟨[.showPhrase words], [], [], rfl, rfl, rfl⟩
    · by_cases hs : (saveMnemonic env.fs env.save words opts.input.inputWordFile).2 = .ok ()
      · rw [save_ok hs]
        dsimp only
        rw [ha]
        exact ⟨_, [], [], by simp, saveMnemonic_quiet env.fs env.save words opts.input.inputWordFile, rfl⟩
      · rw [(save_fails hs st1).1]
        dsimp only
        rw [ha]
        exact ⟨_, [], [], by simp, saveMnemonic_quiet env.fs env.save words opts.input.inputWordFile, rfl⟩

/-! ## which prompt a password comes from -/

/-- A program that has come through uses up a first part of the prompts, and nothing depends on the
rest. -/
def Local {α : Type} (x : Prog α) : Prop := ∀ st a st1, x st = (.ok a, st1) →
  ∃ used, st.prompts = used ++ st1.prompts ∧
    ∀ ps, x { st with prompts := used ++ ps } = (.ok a, { st1 with prompts := ps })

theorem local_lift {α : Type} (r : Res α) : Local (lift r) := by
  intro st a st1 h
  obtain ⟨rfl, h2⟩ := lift_run h
  have := h2 a rfl
  subst this
  exact ⟨[], rfl, fun ps => rfl⟩

theorem local_pure {α : Type} (a : α) : Local (pure a : Prog α) := by
  intro st b st1 h
  cases h
  exact ⟨[], rfl, fun ps => rfl⟩

theorem local_random {α : Type} (f : Bytes → Res (α × Bytes)) : Local (random f) := by
  intro st a st1 h
  obtain ⟨h1, h2⟩ := random_run h
  unfold random at h ⊢
  split at h <;> cases h
  rename_i hf
  exact ⟨[], rfl, fun ps => by rw [hf]; rfl⟩

theorem local_password (b : Bool) : Local (userInputPassword b) := by
  intro st a st1 h
  unfold userInputPassword at h ⊢
  split at h <;> cases h
  rename_i rest hp
  exact ⟨[.ok a], hp, fun ps => rfl⟩

theorem local_bind {α β : Type} {x : Prog α} {f : α → Prog β} (hx : Local x) (hf : ∀ a, Local (f a)) :
    Local (x >>= f) := by
  intro st b st2 h
  rcases bind_run x f st with ⟨a, st1, h1, e⟩ | ⟨o, st1, h1, -, o', e, hfail⟩
  swap
  · rw [e] at h; cases h; exact absurd rfl (hfail _)
  rw [e] at h
  obtain ⟨u1, p1, k1⟩ := hx _ _ _ h1
  obtain ⟨u2, p2, k2⟩ := hf _ _ _ _ h
  refine ⟨u1 ++ u2, by rw [p1, p2, List.append_assoc], fun ps => ?_⟩
  have := k1 (u2 ++ ps)
  rw [List.append_assoc, bind_run_ok this]
  exact k2 ps

theorem passwordLoop_local {C : Crypto} {dm : DecodedMnemonic} {s : Seed} :
    ∀ {ps rest : List (Res Bytes)}, passwordLoop C dm ps = (.ok s, rest) →
      ∃ used, ps = used ++ rest ∧ ∀ qs, passwordLoop C dm (used ++ qs) = (.ok s, qs)
  | [], _, h => by cases h
  | .err _ :: _, _, h => by cases h
  | .panic _ :: _, _, h => by cases h
  | .ok p :: ps, rest, h => by
    rw [passwordLoop] at h
    split at h
    · rename_i hd
      obtain ⟨used, hu, hk⟩ := passwordLoop_local h
      refine ⟨.ok p :: used, by rw [hu]; rfl, fun qs => ?_⟩
      rw [List.cons_append, passwordLoop, hd]
      exact hk qs
    · cases h
    · cases h
    · rename_i s' hs
      cases h
      refine ⟨[.ok p], rfl, fun qs => ?_⟩
      rw [List.cons_append, List.nil_append, passwordLoop, hs]

theorem local_askSeed (C : Crypto) (dm : DecodedMnemonic) : Local (askSeed C dm) := by
  intro st a st1 h
  unfold askSeed at h ⊢
  rw [Prod.mk.injEq] at h
  obtain ⟨h1, rfl⟩ := h
  have h2 : seedLoop C dm st.prompts = (.ok a, (seedLoop C dm st.prompts).2) := Prod.ext h1 rfl
  generalize hrest : (seedLoop C dm st.prompts).2 = rest at h2
  unfold seedLoop at h2 ⊢
  by_cases he : dm.encrypted = true
  · rw [if_pos he] at h2
    obtain ⟨used, hu, hk⟩ := passwordLoop_local h2
    refine ⟨used, by rw [hu], fun ps => ?_⟩
    rw [if_pos he]
    dsimp only
    rw [hk]
  · rw [if_neg he] at h2
    split at h2 <;> cases h2
    rename_i hd
    refine ⟨[], rfl, fun ps => ?_⟩
    rw [if_neg he]
    rfl

theorem local_decode (L : WordList) (C : Crypto) (env : Env) (opts : InputFlags) :
    Local (decodeMnemonicFromInput L C env opts) :=
  local_bind (local_lift _) fun _ => local_bind (local_lift _) fun dm =>
    local_bind (local_askSeed C dm) fun _ => local_pure _

end Verif.Proofs
