import Verif.Model.Cli.Sinks
import Verif.Proofs.CliConcurrent

/-!
# Invariant of a process whose outputs do not take everything
-/

namespace Verif.Proofs

open Verif.Model Verif.Model.Cli Verif.Spec

def isPrint : ProcMove → Bool
  | .at _ .print => true
  | _ => false

/-- What a move does that is not an action of the main goroutine -/
theorem move_other {P : Prog Unit} (hP : Patient P) {rnd : Bytes} {fs : FS} {s s' : Proc} {m : ProcMove}
    {olds : List Prompt} {cur : Option Prompt} (h : ProcInv P rnd fs s olds cur) (hm : s.move P rnd m = some s')
    (hne : m ≠ .act) :
    s'.done = s.done ∧ (s.done = 0 ∨ s'.sys.results = s.sys.results) ∧
      s'.sys.newlines = s.sys.newlines + (if isPrint m then 1 else 0) ∧
      (isPrint m → s.midPrint P rnd = false) := by
  cases m with
  | act => exact absurd rfl hne
  | begin =>
    simp only [Proc.move] at hm
    split at hm
    · rename_i confirm hout
      split at hm
      · rename_i hd
        rw [Option.map_eq_some_iff] at hm
        obtain ⟨sys, hsys, rfl⟩ := hm
        simp only [Sys.move] at hsys
        split at hsys
        · cases hsys
          exact ⟨rfl, .inl (by rw [hd, hP _ _ _ hout]; rfl), rfl, by simp [isPrint]⟩
        · cases hsys
      · cases hm
    · cases hm
  | refused e =>
    simp only [Proc.move] at hm
    split at hm
    · rename_i confirm hout
      split at hm
      · rename_i hd
        rw [Option.map_eq_some_iff] at hm
        obtain ⟨sys, hsys, rfl⟩ := hm
        simp only [Sys.move] at hsys
        split at hsys
        · cases hsys
          exact ⟨rfl, .inl (by rw [hd, hP _ _ _ hout]; rfl), rfl, by simp [isPrint]⟩
        · cases hsys
      · cases hm
    · cases hm
  | «at» k m =>
    simp only [Proc.move] at hm
    split at hm
    · cases hm
    · rename_i hmid
      rw [Option.map_eq_some_iff] at hm
      obtain ⟨sys, hsys, rfl⟩ := hm
      simp only [Sys.move] at hsys
      split at hsys
      · cases hsys
      · rename_i p hp
        split at hsys
        · cases hsys
        · split at hsys
          · cases hsys
          · rename_i p' e' n' hpm
            cases hsys
            have f := move_facts hpm
            refine ⟨rfl, ?_, ?_, ?_⟩
            · rcases Nat.eq_zero_or_pos s.done with h0 | h0
              · exact .inl h0
              · right
                have hcur : cur = none := by
                  cases hc : cur with
                  | none => rfl
                  | some q => have := (h.now q hc).2.1; omega
                have hold : p ∈ olds := by
                  have := List.mem_of_getElem? hp
                  rw [h.prompts, hcur] at this
                  simpa using this
                obtain ⟨o1, o2⟩ := h.over p hold
                obtain ⟨g1, g2⟩ := f.old o1 o2
                have hr : resultOf p' = resultOf p := by unfold resultOf; rw [g1, o1, g2]
                rw [results_eq, results_eq]
                dsimp only
                obtain ⟨hk, hk'⟩ := List.getElem?_eq_some_iff.1 hp
                rw [List.set_eq_take_append_cons_drop, if_pos hk]
                conv_rhs => rw [← List.take_append_drop k s.sys.prompts, List.drop_eq_getElem_cons hk, hk']
                rw [List.filterMap_append, List.filterMap_append, List.filterMap_cons, List.filterMap_cons, hr]
            · cases hmp : isPrint (.at k m) with
              | true =>
                have : m = .print := by cases m <;> simp_all [isPrint]
                dsimp only
                rw [if_pos rfl]
                exact (f.print this).1
              | false =>
                have : m ≠ .print := by rintro rfl; simp [isPrint] at hmp
                dsimp only
                rw [if_neg (by simp)]
                exact (f.quiet this).1
            · intro hmp
              have : m = .print := by cases m <;> simp_all [isPrint]
              by_contra hc
              exact hmid ⟨this, by simpa using hc⟩

theorem sinks_proc {P : Prog Unit} {rnd : Bytes} {s s' : Sinks} {m : ProcMove} {t : Bool}
    (h : s.move P rnd m t = some s') : s.proc.move P rnd m = some s'.proc := by
  unfold Sinks.move at h
  rw [Option.map_eq_some_iff] at h
  obtain ⟨p, hp, h⟩ := h
  rw [hp, ← h]
  dsimp only
  congr 1
  split
  · split
    · split <;> rfl
    · split <;> rfl
    · rfl
  · split <;> rfl
  · rfl

theorem sinks_some {P : Prog Unit} {rnd : Bytes} {s : Sinks} {m : ProcMove} {p : Proc} (t : Bool)
    (h : s.proc.move P rnd m = some p) : ∃ s', s.move P rnd m t = some s' := by
  unfold Sinks.move
  rw [h]
  exact ⟨_, rfl⟩

theorem sinks_run_proc {P : Prog Unit} {rnd : Bytes} : ∀ (ms : List (ProcMove × Bool)) {s s' : Sinks},
    s.run P rnd ms = some s' → s.proc.run P rnd (ms.map (·.1)) = some s'.proc
  | [], s, s', h => by cases h; rfl
  | (m, t) :: ms, s, s', h => by
    rw [Sinks.run] at h
    split at h
    · cases h
    · rename_i s1 h1
      rw [List.map_cons, Proc.run, sinks_proc h1]
      exact sinks_run_proc ms h

/-- The text that the main goroutine has printed so far -/
def printed (P : Prog Unit) (rnd : Bytes) (fs : FS) (s : Proc) : Bytes :=
  (aloneAfter P rnd fs s.sys.results s.done).stdout

structure SinkInv (P : Prog Unit) (rnd : Bytes) (fs : FS) (s : Sinks) : Prop where
  out : ∃ i t j, s.out = List.replicate i 0x0A ++ t ++ List.replicate j 0x0A ∧ i + j ≤ s.proc.sys.newlines ∧
    t <+: printed P rnd fs s.proc ∧
    (j ≠ 0 → ((P.acts s.proc.sys.results rnd).drop s.proc.done).all (!isStdout ·) = true) ∧
    (s.proc.midPrint P rnd = true → s.failed = false → t = printed P rnd fs s.proc)

theorem printed_zero {P : Prog Unit} {rnd : Bytes} {fs : FS} {s : Proc} (h : s.done = 0) : printed P rnd fs s = [] := by
  unfold printed aloneAfter
  rw [h]; rfl

theorem mid_zero {P : Prog Unit} {rnd : Bytes} {s : Proc} (h : s.done = 0) : s.midPrint P rnd = false := by
  unfold Proc.midPrint
  rw [h]; rfl

theorem lf_lf (i j : Nat) : List.replicate i (0x0A : Byte) ++ [] ++ List.replicate j 0x0A = List.replicate (i + j) 0x0A ++ [] ++
    List.replicate 0 0x0A := by
  simp [List.replicate_append_replicate]

/-- A move of another goroutine, before its line feed is counted -/
theorem sinkInv_quiet {P : Prog Unit} {rnd : Bytes} {fs : FS} {s : Sinks} {p : Proc} (h : SinkInv P rnd fs s)
    (hd : p.done = s.proc.done) (hr : s.proc.done = 0 ∨ p.sys.results = s.proc.sys.results)
    (hn : s.proc.sys.newlines ≤ p.sys.newlines) : SinkInv P rnd fs { s with proc := p } := by
  obtain ⟨i, t, j, h1, h2, h3, h4, h5⟩ := h.out
  rcases hr with h0 | hr
  · have h0' : p.done = 0 := by rw [hd, h0]
    rw [printed_zero h0, List.prefix_nil] at h3
    refine ⟨i + j, [], 0, ?_, ?_, List.nil_prefix, by simp, ?_⟩
    · dsimp only
      rw [h1, h3, lf_lf]
    · dsimp only; omega
    · intro hm
      dsimp only at hm
      rw [mid_zero h0'] at hm
      cases hm
  · have hp : printed P rnd fs p = printed P rnd fs s.proc := by unfold printed; rw [hr, hd]
    have hmid : p.midPrint P rnd = s.proc.midPrint P rnd := by unfold Proc.midPrint; rw [hr, hd]
    refine ⟨i, t, j, h1, by dsimp only; omega, by rw [hp]; exact h3, ?_, ?_⟩
    · dsimp only; rw [hr, hd]; exact h4
    · dsimp only; rw [hp, hmid]; exact h5

theorem sinkInv_move {P : Prog Unit} (hP : Patient P) (hO : PrintsOnce P) {rnd : Bytes} {fs : FS} {s s' : Sinks}
    {m : ProcMove} {takes : Bool} {olds : List Prompt} {cur : Option Prompt} (hi : ProcInv P rnd fs s.proc olds cur)
    (h : SinkInv P rnd fs s) (hm : s.move P rnd m takes = some s') : SinkInv P rnd fs s' := by
  have hpm := sinks_proc hm
  by_cases hact : m = .act
  · subst hact
    have hpm' := hpm
    simp only [Proc.move] at hpm'
    split at hpm'
    · split at hpm'
      · cases hpm'
      · rename_i a hget
        have hs' : s'.proc = { s.proc with done := s.proc.done + 1, world := s.proc.world.step a } := (Option.some.inj hpm').symm
        have hres : s'.proc.sys = s.proc.sys := by rw [hs']
        have hdone : s'.proc.done = s.proc.done + 1 := by rw [hs']
        obtain ⟨i, t, j, h1, h2, h3, h4, h5⟩ := h.out
        have hk : s.proc.done < (P.acts s.proc.sys.results rnd).length := (List.getElem?_eq_some_iff.1 hget).1
        have htake : (P.acts s.proc.sys.results rnd).take (s.proc.done + 1) =
            (P.acts s.proc.sys.results rnd).take s.proc.done ++ [a] := by
          rw [List.take_add_one, hget]; rfl
        have hdrop : (P.acts s.proc.sys.results rnd).drop s.proc.done =
            a :: (P.acts s.proc.sys.results rnd).drop (s.proc.done + 1) := by
          rw [List.drop_eq_getElem_cons hk]
          rw [List.getElem?_eq_getElem hk] at hget
          rw [Option.some.inj hget]
        have hpr : printed P rnd fs s'.proc = ownOut (printed P rnd fs s.proc) a := by
          unfold printed
          rw [hres, hdone, ← step_own]
          unfold aloneAfter
          rw [htake, World.run, List.foldl_append]
          rfl
        have hmid' : isStdout a = false → s'.proc.midPrint P rnd = false := by
          intro ha
          unfold Proc.midPrint
          rw [hres, hdone, htake, List.getLast?_concat]
          simp [ha]
        have hj4 : j ≠ 0 → ((P.acts s'.proc.sys.results rnd).drop s'.proc.done).all (!isStdout ·) = true := by
          intro hj
          have := h4 hj
          rw [hdrop, List.all_cons, Bool.and_eq_true] at this
          rw [hres, hdone]
          exact this.2
        have other : isStdout a = false → s'.out = s.out → SinkInv P rnd fs s' := by
          intro ha ho
          have : ownOut (printed P rnd fs s.proc) a = printed P rnd fs s.proc := by
            cases a <;> first | rfl | simp [isStdout] at ha
          refine ⟨i, t, j, by rw [ho, h1], by rw [hres]; exact h2, by rw [hpr, this]; exact h3, hj4, ?_⟩
          intro hmm
          rw [hmid' ha] at hmm
          cases hmm
        unfold Sinks.move at hm
        rw [hpm] at hm
        have hm := Option.some.inj hm
        dsimp only at hm
        rw [hget] at hm
        cases a with
        | openTrunc q perm => exact other rfl (by rw [← hm])
        | write b => exact other rfl (by rw [← hm])
        | showPhrase ws => exact other rfl (by rw [← hm]; dsimp only; split <;> rfl)
        | stdout b =>
          dsimp only at hm
          have hj : j = 0 := by
            by_contra hj
            have := h4 hj
            rw [hdrop] at this
            simp [isStdout] at this
          subst hj
          rw [List.replicate_zero, List.append_nil] at h1
          split at hm
          · rename_i ht
            have hwhole : t = printed P rnd fs s.proc := by
              cases hmp : s.proc.midPrint P rnd with
              | true =>
                refine h5 hmp ?_
                cases hf : s.failed with
                | false => rfl
                | true => exact absurd ⟨hmp, hf⟩ ht.2
              | false =>
                by_cases hp : printed P rnd fs s.proc = []
                · rw [hp, List.prefix_nil] at h3
                  rw [h3, hp]
                · exfalso
                  have := prints_over (w := ⟨fs, none, [], []⟩) (k := s.proc.done) (hO s.proc.sys.results rnd) hp hmp
                  rw [hdrop] at this
                  simp [isStdout] at this
            refine ⟨i, t ++ [b], 0, ?_, by rw [hres]; exact h2, ?_, by simp, ?_⟩
            · rw [← hm, h1]; simp
            · rw [hpr, hwhole]; exact List.prefix_refl _
            · intro _ _
              rw [hpr, hwhole]; rfl
          · refine ⟨i, t, 0, ?_, by rw [hres]; exact h2, ?_, by simp, ?_⟩
            · rw [← hm, h1]; simp
            · rw [hpr]; exact h3.trans (List.prefix_append _ _)
            · intro _ hf
              rw [← hm] at hf
              cases hf
    · cases hpm'
  · obtain ⟨g1, g2, g3, g4⟩ := move_other hP hi hpm hact
    have hq := sinkInv_quiet h g1 g2 (by omega)
    unfold Sinks.move at hm
    rw [hpm] at hm
    have hm := Option.some.inj hm
    dsimp only at hm
    cases hmp : isPrint m with
    | false =>
      have : s' = { s with proc := s'.proc } := by
        rw [← hm]
        split
        · exact absurd rfl hact
        · simp [isPrint] at hmp
        · rfl
      rw [this]
      exact hq
    | true =>
      obtain ⟨k, rfl⟩ : ∃ k, m = .at k .print := by
        cases m with
        | «at» k mv => cases mv <;> simp_all [isPrint]
        | _ => simp [isPrint] at hmp
      dsimp only at hm
      split at hm
      · have hmid := g4 hmp
        rw [if_pos hmp] at g3
        have hp' : s'.proc = s'.proc := rfl
        obtain ⟨i, t, j, h1, h2, h3, h4, h5⟩ := h.out
        have hout : s'.out = s.out ++ [0x0A] := by rw [← hm]
        rcases g2 with h0 | hr
        · rw [printed_zero h0, List.prefix_nil] at h3
          refine ⟨i + j + 1, [], 0, ?_, by omega, List.nil_prefix, by simp, ?_⟩
          · rw [hout, h1, h3, lf_lf, List.replicate_succ']
            simp
          · intro hmm
            rw [mid_zero (g1.trans h0)] at hmm
            cases hmm
        · have hpr : printed P rnd fs s'.proc = printed P rnd fs s.proc := by unfold printed; rw [hr, g1]
          have hmid' : s'.proc.midPrint P rnd = s.proc.midPrint P rnd := by unfold Proc.midPrint; rw [hr, g1]
          by_cases hp : printed P rnd fs s.proc = []
          · rw [hp, List.prefix_nil] at h3
            refine ⟨i + j + 1, [], 0, ?_, by omega, List.nil_prefix, by simp, ?_⟩
            · rw [hout, h1, h3, lf_lf, List.replicate_succ']
              simp
            · intro _ _
              rw [hpr, hp]
          · have hover := prints_over (w := ⟨fs, none, [], []⟩) (k := s.proc.done) (hO s.proc.sys.results rnd) hp hmid
            refine ⟨i, t, j + 1, ?_, by omega, by rw [hpr]; exact h3, fun _ => ?_, ?_⟩
            · rw [hout, h1, List.replicate_succ']
              simp
            · rw [hr, g1]; exact hover
            · intro hmm
              rw [hmid', hmid] at hmm
              cases hmm
      · rw [← hm]
        exact hq

theorem sinkInv_run {P : Prog Unit} (hP : Patient P) (hO : PrintsOnce P) {rnd : Bytes} {fs : FS} :
    ∀ (ms : List (ProcMove × Bool)) {s s' : Sinks} {olds : List Prompt} {cur : Option Prompt},
      ProcInv P rnd fs s.proc olds cur → SinkInv P rnd fs s → s.run P rnd ms = some s' → SinkInv P rnd fs s'
  | [], s, s', olds, cur, _, h, hr => by cases hr; exact h
  | (m, t) :: ms, s, s', olds, cur, hi, h, hr => by
    rw [Sinks.run] at hr
    split at hr
    · cases hr
    · rename_i s1 h1
      obtain ⟨o, c, hi'⟩ := procInv_move hP hO hi (sinks_proc h1)
      exact sinkInv_run hP hO ms hi' (sinkInv_move hP hO hi h h1) hr

theorem sinkInv_start (P : Prog Unit) (rnd : Bytes) (fs : FS) : SinkInv P rnd fs (.start fs) :=
  ⟨0, [], 0, rfl, Nat.zero_le _, List.nil_prefix, by simp, fun h => by rw [mid_zero rfl] at h; cases h⟩

end Verif.Proofs
