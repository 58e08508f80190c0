import Verif.Proofs.Liveness
import Verif.Props.Failure

/-!
# Commands with password prompts neither hang nor spin (C83)
-/

namespace Verif.Props

open Verif.Model Verif.Model.Cli Verif.Spec Verif.Proofs

/-- Nothing ever blocks the command but the person at the terminal: at every point of every schedule, the
command is at its end; or the main goroutine or the call that is running can make a move of its own; or
the reader of the call that is running is in ReadPassword, and goes on whatever line is typed, and even if
reading fails. Goroutines of earlier calls, stuck or not, are never waited for. -/
theorem c83_never_stuck {L : WordList} (hL : L.Lawful) {C : Crypto} (hC : C.Lawful) (env : Env)
    (P : Prog Unit) (hP : IsCommand L C env P) (rnd : Bytes) (ms : List ProcMove) (s : Proc)
    (h : (Proc.start env.fs).run P rnd ms = some s) :
    (∃ o, s.Finished P rnd o) ∨
    (∃ m s', s.move P rnd m = some s' ∧ (m = .act ∨ m = .begin ∨
      ∃ x ∈ [Move.enterRead, .receive, .receiveErr, .cancel], m = .at (s.sys.prompts.length - 1) x)) ∨
    ∃ p, s.sys.prompts.getLast? = some p ∧ p.returned = none ∧ AtTerminal p ∧
      ∀ r : Res Bytes, (∀ x, r ≠ .panic x) →
        ∃ s', s.move P rnd (.at (s.sys.prompts.length - 1) (.line r)) = some s' := by
  obtain ⟨olds, cur, hi, hr⟩ := command_inv hL hC hP h
  cases cur with
  | none =>
    have hp : s.sys.prompts = olds := by rw [hi.prompts]; simp
    have hall : s.sys.prompts.all (·.cancelled) = true := by
      rw [hp, List.all_eq_true]
      intro p hp
      simp [(hi.over p hp).1]
    by_cases hd : s.done < (P.acts s.sys.results rnd).length
    · obtain ⟨a, ha⟩ : ∃ a, (P.acts s.sys.results rnd)[s.done]? = some a := ⟨_, List.getElem?_eq_getElem hd⟩
      refine .inr (.inl ⟨.act, { s with done := s.done + 1, world := s.world.step a }, ?_, .inl rfl⟩)
      simp only [Proc.move, if_pos hall, ha]
    · have hd' : s.done = (P.acts s.sys.results rnd).length := by
        have := hi.done
        rw [← hr] at this
        omega
      cases ho : P.outcome s.sys.results rnd with
      | waits c =>
        refine .inr (.inl ⟨.begin, { s with
          sys := { s.sys with prompts := s.sys.prompts ++ [Prompt.begin c s.sys.echo] } }, ?_, .inr (.inl rfl)⟩)
        simp only [Proc.move, ho, if_pos hd', Sys.move, if_pos hall, Option.map_some]
      | ok a => exact .inl ⟨_, hall, hd', ho, by simp⟩
      | err a => exact .inl ⟨_, hall, hd', ho, by simp⟩
      | panic a => exact .inl ⟨_, hall, hd', ho, by simp⟩
      | loops => exact .inl ⟨_, hall, hd', ho, by simp⟩
  | some p =>
    have hp : s.sys.prompts = olds ++ [p] := by rw [hi.prompts]; simp
    have hk : s.sys.prompts.length - 1 = olds.length := by rw [hp]; simp
    have hg : s.sys.prompts[olds.length]? = some p := by rw [hp]; simp
    have hc := (hi.now p rfl).1
    have hlive : Live p := live_run ms h (by intro p hp; cases hp) p (by rw [hp]; simp)
    rw [hk]
    have own : ∀ x, x ∈ [Move.enterRead, .receive, .receiveErr, .cancel] →
        (p.move s.sys.echo s.sys.newlines x).isSome = true → ∃ m s', s.move P rnd m = some s' ∧
          (m = .act ∨ m = .begin ∨
            ∃ x ∈ [Move.enterRead, .receive, .receiveErr, .cancel], m = .at olds.length x) := by
      intro x hx hs
      obtain ⟨⟨p', e, n⟩, hm⟩ := Option.isSome_iff_exists.1 hs
      have h1 : x ≠ .print := by rintro rfl; simp at hx
      have h2 : x ≠ .interrupt := by rintro rfl; simp at hx
      refine ⟨.at olds.length x, { s with sys := ⟨e, n, s.sys.prompts.set olds.length p'⟩ }, ?_,
        .inr (.inr ⟨x, hx, rfl⟩)⟩
      simp only [Proc.move, h1, false_and, if_false, Sys.move, hg, h2, hm, Option.map_some]
    cases hret : p.returned with
    | some r => exact .inr (.inl (own .cancel (by simp) (by simp [Prompt.move, hret, hc])))
    | none =>
      have line : inside p.reader = 1 → ∀ r : Res Bytes, (∀ x, r ≠ .panic x) →
          ∃ s', s.move P rnd (.at olds.length (.line r)) = some s' := by
        intro hin r hr
        have hs : (p.move s.sys.echo s.sys.newlines (.line r)).isSome = true := by
          cases hread : p.reader <;> rw [hread] at hin <;> simp only [inside, reduceCtorEq] at hin
          all_goals
            cases r with
            | ok l => simp [Prompt.move, hread]
            | err e => simp [Prompt.move, hread]
            | panic x => exact absurd rfl (hr x)
        obtain ⟨⟨p', e, n⟩, hm⟩ := Option.isSome_iff_exists.1 hs
        refine ⟨{ s with sys := ⟨e, n, s.sys.prompts.set olds.length p'⟩ }, ?_⟩
        simp [Proc.move, Sys.move, hg, hm]
      cases hread : p.reader with
      | start => exact .inr (.inl (own .enterRead (by simp) (by simp [Prompt.move, hread])))
      | confirmStart q => exact .inr (.inl (own .enterRead (by simp) (by simp [Prompt.move, hread])))
      | sending q => exact .inr (.inl (own .receive (by simp) (by simp [Prompt.move, hread, hret])))
      | done =>
        obtain ⟨e, he⟩ := Option.ne_none_iff_exists'.1 (hlive.error hread hret)
        exact .inr (.inl (own .receiveErr (by simp) (by simp [Prompt.move, hret, he])))
      | reading e =>
        exact .inr (.inr ⟨p, by rw [hp]; simp, hret, .inl ⟨e, hread⟩, line (by rw [hread]; rfl)⟩)
      | confirming q e =>
        exact .inr (.inr ⟨p, by rw [hp]; simp, hret, .inr ⟨q, e, hread⟩, line (by rw [hread]; rfl)⟩)

theorem command_clean {L : WordList} {C : Crypto} {env : Env} {P : Prog Unit} (hP : IsCommand L C env P) :
    WaitsClean P := by
  cases hP with
  | generate opts => exact generate_clean L C env opts
  | recover opts => exact recover_clean L C env opts
  | convert opts => exact convert_clean L C env opts

theorem sum_le_of {α : Type} (f g : α → Nat) : ∀ (l : List α), (∀ x ∈ l, f x ≤ g x) → (l.map f).sum ≤ (l.map g).sum
  | [], _ => le_rfl
  | x :: l, h => by
    simp only [List.map_cons, List.sum_cons]
    have := h x (by simp)
    have := sum_le_of f g l (fun y hy => h y (by simp [hy]))
    omega

/-- The command asks for at most one password more than lines have been typed. -/
theorem prompts_le {L : WordList} (hL : L.Lawful) {C : Crypto} (hC : C.Lawful) {env : Env}
    {P : Prog Unit} (hP : IsCommand L C env P) {rnd : Bytes} {ms : List ProcMove} {s : Proc}
    (h : (Proc.start env.fs).run P rnd ms = some s) :
    s.sys.prompts.length ≤ (s.sys.prompts.map (·.typed.length)).sum + 1 := by
  obtain ⟨olds, cur, hi, hr⟩ := command_inv hL hC hP h
  obtain ⟨sched, hs⟩ := hi.reach
  -- a call that returned a password had a line
  have typed : ∀ p ∈ s.sys.prompts, ∀ q, p.returned = some (.ok q) → 1 ≤ p.typed.length := by
    intro p hp q hq
    obtain ⟨k, hk⟩ := List.mem_iff_getElem?.1 hp
    obtain ⟨-, ⟨before, e⟩, -⟩ := c53_confirmed sched _ hs k p hk q hq
    have := congrArg List.length e
    simp at this
    omega
  -- the calls before one that was asked for gave passwords
  have firsts : ∀ front : List Prompt, (∀ p ∈ front, p ∈ olds) →
      (∃ c, P.outcome (front.filterMap resultOf) rnd = .waits c) →
      front.length ≤ (front.map (·.typed.length)).sum := by
    intro front hf ⟨c, hw⟩
    have hok := command_clean hP _ _ hw
    have : (front.map (fun _ => 1)).sum ≤ (front.map (·.typed.length)).sum := by
      refine sum_le_of _ _ _ fun p hp => ?_
      have hov := hi.over p (hf p hp)
      obtain ⟨r, hr⟩ := Option.ne_none_iff_exists'.1 hov.2
      obtain ⟨q, rfl⟩ := hok r (List.mem_filterMap.2 ⟨p, hp, by unfold resultOf; rw [if_pos hov.1, hr]⟩)
      exact typed p (by rw [hi.prompts]; simp [hf p hp]) q hr
    simpa using this
  rw [hi.prompts]
  cases cur with
  | some p =>
    have := firsts olds (fun p hp => hp) ⟨_, (hi.now p rfl).2.2⟩
    simp
    omega
  | none =>
    rcases List.eq_nil_or_concat olds with rfl | ⟨front, p, rfl⟩
    · simp
    · have hask := hi.asked front.length p (by simp)
      have hlen : ((front.concat p).filterMap resultOf).take front.length = front.filterMap resultOf := by
        rw [List.concat_eq_append, List.filterMap_append]
        refine List.take_left' (results_length fun y hy => hi.over y (by simp [hy]))
      rw [hlen] at hask
      have := firsts front (fun p hp => by simp [hp]) ⟨_, hask⟩
      simp
      omega

/-- No schedule lets the program go round in circles: in any schedule, of the moves that need nobody there
are at most eight for each line typed, seven more, and the actions of the main goroutine. Interrupts, however
many, add nothing. -/
theorem c83_bounded {L : WordList} (hL : L.Lawful) {C : Crypto} (hC : C.Lawful) (env : Env)
    (P : Prog Unit) (hP : IsCommand L C env P) (rnd : Bytes) (ms : List ProcMove) (s : Proc)
    (h : (Proc.start env.fs).run P rnd ms = some s) :
    ms.countP ownMove ≤ 8 * ms.countP lineMove + 7 + (P.acts s.sys.results rnd).length := by
  obtain ⟨h1, h2⟩ := run_count ms h
  have h3 := prompts_le hL hC hP h
  obtain ⟨olds, cur, hi, hr⟩ := command_inv hL hC hP h
  have hd := hi.done
  rw [← hr] at hd
  have hw : (s.sys.prompts.map weight).sum ≤ (s.sys.prompts.map (fun p => 7 + p.typed.length)).sum := by
    refine sum_le_of _ _ _ fun p _ => ?_
    unfold weight
    have ha : inside p.reader ≤ 1 := by cases p.reader <;> simp [inside]
    have hb := Bool.toNat_le p.returned.isSome
    have hc := Bool.toNat_le p.cancelled
    have hd : stage p.restorer ≤ 3 := by cases p.restorer <;> simp [stage]
    omega
  have hs : (s.sys.prompts.map (fun p => 7 + p.typed.length)).sum =
      7 * s.sys.prompts.length + (s.sys.prompts.map (·.typed.length)).sum := by
    generalize s.sys.prompts = l
    induction l with
    | nil => rfl
    | cons x l ih => simp only [List.map_cons, List.sum_cons, List.length_cons, ih]; omega
  simp only [Proc.start, Sys.start, List.map_nil, List.sum_nil, Nat.zero_add] at h1 h2
  omega

theorem need_run {P : Prog Unit} {rnd : Bytes} {k : Nat} {q : Bytes} (hq : q ≠ []) :
    ∀ (ms : List ProcMove) {s s' : Proc}, s.run P rnd ms = some s' →
    (∀ r, .at k (.line r) ∈ ms → r = .ok q) → ∀ p, s.sys.prompts[k]? = some p → Live p →
    ∃ p', s'.sys.prompts[k]? = some p' ∧ need q p' + ms.countP (lineAt k) = need q p
  | [], s, s', h, _, p, hp, _ => by cases h; exact ⟨p, hp, by simp⟩
  | m :: ms, s, s', h, hl, p, hp, hlive => by
    obtain ⟨t, hm, hr⟩ := proc_run_cons h
    have hl' : ∀ r, .at k (.line r) ∈ ms → r = .ok q := fun r hr => hl r (List.mem_cons_of_mem _ hr)
    rw [List.countP_cons]
    rcases proc_move_cases hm with ⟨rfl, e1, -⟩ | ⟨rfl, -, -, c, e1⟩ | ⟨c, er, rfl, -, -, e1⟩ |
      ⟨j, x, y, y', a, b, e, n, rfl, -, hj, e2, hx, e1⟩
    · obtain ⟨p', h1, h2⟩ := need_run hq ms hr hl' p (by rw [e1]; exact hp) hlive
      exact ⟨p', h1, by simpa [lineAt] using h2⟩
    · obtain ⟨p', h1, h2⟩ := need_run hq ms hr hl' p (by
        rw [e1]
        exact (List.getElem?_append_left (List.getElem?_eq_some_iff.1 hp).1).trans hp) hlive
      exact ⟨p', h1, by simpa [lineAt] using h2⟩
    · obtain ⟨p', h1, h2⟩ := need_run hq ms hr hl' p (by
        rw [e1]
        exact (List.getElem?_append_left (List.getElem?_eq_some_iff.1 hp).1).trans hp) hlive
      exact ⟨p', h1, by simpa [lineAt] using h2⟩
    · by_cases hjk : j = k
      · subst hjk
        have hy : y = p := by
          rw [e2, ← hj] at hp
          simpa using hp
        subst hy
        have hc := move_count (k := j) hx
        have hn := hc.need q hq hlive (by rintro r rfl; exact hl r (by simp))
        obtain ⟨p', h1, h2⟩ := need_run hq ms hr hl' y' (by rw [e1, ← hj]; simp) (hc.live hlive)
        refine ⟨p', h1, ?_⟩
        rw [← hn, ← h2]
        have : lineAt j (.at j x) = lineMove (.at j x) := by cases x <;> simp [lineAt, lineMove]
        rw [this]
        unfold lines
        cases lineMove (.at j x)
        · simp
        · simp; omega
      · have hne : lineAt k (.at j x) = false := by cases x <;> simp [lineAt, hjk]
        obtain ⟨p', h1, h2⟩ := need_run hq ms hr hl' p (by
          rw [e1]
          rw [e2] at hp
          rw [← hp]
          dsimp only
          rw [List.getElem?_append, List.getElem?_append]
          split
          · rfl
          · rw [List.getElem?_cons, List.getElem?_cons]
            rw [if_neg (by omega), if_neg (by omega)]) hlive
        exact ⟨p', h1, by rw [hne]; simpa using h2⟩

theorem at_move {P : Prog Unit} {rnd : Bytes} {s : Proc} {k : Nat} {p p' : Prompt} {x : Move} {e : Bool} {n : Nat}
    (hk : s.sys.prompts[k]? = some p) (hm : p.move s.sys.echo s.sys.newlines x = some (p', e, n))
    (h1 : x ≠ .print) (h2 : x ≠ .interrupt) :
    ∃ s', s.move P rnd (.at k x) = some s' ∧ s'.sys.prompts[k]? = some p' := by
  refine ⟨{ s with sys := ⟨e, n, s.sys.prompts.set k p'⟩ }, ?_, ?_⟩
  · simp [Proc.move, Sys.move, hk, hm, h1, h2]
  · simp [(List.getElem?_eq_some_iff.1 hk).1]

theorem returns_from {P : Prog Unit} {rnd : Bytes} {k : Nat} {q : Bytes} (hq : q ≠ []) : ∀ (n : Nat) (s : Proc)
    (p : Prompt), s.sys.prompts[k]? = some p → p.returned = none → p.cancelled = false → p.errChan = none →
    Live p → 2 * need q p + (1 - inside p.reader) ≤ n →
    ∃ ms' s' p' r, s.run P rnd ms' = some s' ∧ (∀ m ∈ ms', Helpful k q m) ∧
      s'.sys.prompts[k]? = some p' ∧ p'.cancelled = true ∧ p'.returned = some (.ok r) ∧
      (r = q ∨ p.reader = .sending r) := by
  intro n
  induction n with
  | zero =>
    intro s p _ h1 _ h2 h3 h4
    cases hread : p.reader <;> simp [need, hread, inside] at h4
    all_goals split at h4 <;> omega
  | succ n ih =>
    intro s p hk h1 hc h2 h3 h4
    -- one move, then the rest
    have step : ∀ x p' e n', Helpful k q (.at k x) → x ≠ .print → x ≠ .interrupt →
        p.move s.sys.echo s.sys.newlines x = some (p', e, n') → p'.returned = none → p'.cancelled = false →
        p'.errChan = none → 2 * need q p' + (1 - inside p'.reader) ≤ n →
        (∀ r, p'.reader = .sending r → r = q) →
        ∃ ms' s' p' r, s.run P rnd ms' = some s' ∧ (∀ m ∈ ms', Helpful k q m) ∧
          s'.sys.prompts[k]? = some p' ∧ p'.cancelled = true ∧ p'.returned = some (.ok r) ∧
          (r = q ∨ p.reader = .sending r) := by
      intro x p' e n' hx hx1 hx2 hm g1 g2 g3 g4 g5
      obtain ⟨t, ht, htk⟩ := at_move (P := P) (rnd := rnd) hk hm hx1 hx2
      obtain ⟨ms', s', p'', r, r1, r2, r3, r4, r5, r6⟩ := ih t p' htk g1 g2 g3
        ((move_count (k := k) hm).live h3) g4
      refine ⟨.at k x :: ms', s', p'', r, by rw [Proc.run, ht]; exact r1, ?_, r3, r4, r5, .inl ?_⟩
      · intro m hm
        rcases List.mem_cons.1 hm with rfl | hm
        · exact hx
        · exact r2 m hm
      · rcases r6 with r6 | r6
        · exact r6
        · exact g5 r r6
    cases hread : p.reader with
    | start =>
      refine step .enterRead { p with reader := .reading s.sys.echo } false s.sys.newlines (by simp [Helpful])
        (by simp) (by simp) (by simp [Prompt.move, hread]) h1 hc h2 ?_ (by simp) |> fun h => by simpa [hread] using h
      simp [need, hread, inside] at h4 ⊢
      omega
    | confirmStart q0 =>
      refine step .enterRead { p with reader := .confirming q0 s.sys.echo } false s.sys.newlines
        (by simp [Helpful]) (by simp) (by simp) (by simp [Prompt.move, hread]) h1 hc h2 ?_ (by simp) |>
        fun h => by simpa [hread] using h
      simp [need, hread, inside] at h4 ⊢
      omega
    | reading e =>
      refine step (.line (.ok q))
        { p with typed := p.typed ++ [(.ok q, s.sys.echo)], reader := afterFirst p.confirm q } e s.sys.newlines (by simp [Helpful])
        (by simp) (by simp) (by simp [Prompt.move, hread]) h1 hc h2 ?_ ?_ |> fun h => by simpa [hread] using h
      · cases q with
        | nil => exact absurd rfl hq
        | cons x q =>
          cases hcf : p.confirm <;> simp [need, hread, inside, hcf, afterFirst] at h4 ⊢ <;> omega
      · cases q with
        | nil => exact absurd rfl hq
        | cons x q => cases hcf : p.confirm <;> simp [afterFirst]
    | confirming q0 e =>
      have hcf := h3.confirm q0 (.inr ⟨e, hread⟩)
      refine step (.line (.ok q))
        { p with typed := p.typed ++ [(.ok q, s.sys.echo)], reader := afterSecond q0 q } e s.sys.newlines (by simp [Helpful])
        (by simp) (by simp) (by simp [Prompt.move, hread]) h1 hc h2 ?_ ?_ |> fun h => by simpa [hread] using h
      · unfold afterSecond
        by_cases hqq : q0 = q <;> simp [need, hread, inside, hcf, hqq] at h4 ⊢ <;> omega
      · unfold afterSecond
        by_cases hqq : q0 = q <;> simp [hqq]
    | sending r =>
      obtain ⟨t, ht, htk⟩ := at_move (P := P) (rnd := rnd) (x := .receive) hk
        (show _ = some ({ p with reader := .done, returned := some (.ok r) }, s.sys.echo, s.sys.newlines) by
          simp [Prompt.move, hread, h1]) (by simp) (by simp)
      obtain ⟨u, hu, huk⟩ := at_move (P := P) (rnd := rnd) (x := .cancel) htk
        (show _ = some ({ p with reader := .done, returned := some (.ok r), cancelled := true, ctxDone := true },
          t.sys.echo, t.sys.newlines) by simp [Prompt.move, hc]) (by simp) (by simp)
      refine ⟨[.at k .receive, .at k .cancel], u, _, r, ?_, by simp [Helpful], huk, rfl, rfl, .inr (by simp)⟩
      simp [Proc.run, ht, hu]
    | done => exact absurd h2 (h3.error hread h1)

/-- Whoever types one and the same password, not empty, whenever a call asks, is asked at most three times
more. -/
theorem c83_three_lines (P : Prog Unit) (rnd : Bytes) (fs : FS) (ms ms' : List ProcMove) (s s' : Proc)
    (h : (Proc.start fs).run P rnd ms = some s) (h' : s.run P rnd ms' = some s') (k : Nat)
    (hk : k < s.sys.prompts.length) (q : Bytes) (hq : q ≠ [])
    (hline : ∀ r, .at k (.line r) ∈ ms' → r = .ok q) :
    ms'.countP (lineAt k) ≤ 3 := by
  have hg : s.sys.prompts[k]? = some s.sys.prompts[k] := List.getElem?_eq_getElem hk
  have hlive := live_run ms h (by intro p hp; cases hp) _ (List.mem_of_getElem? hg)
  obtain ⟨p', -, h2⟩ := need_run hq ms' h' hline _ hg hlive
  have : need q s.sys.prompts[k] ≤ 3 := by
    unfold need
    split <;> (try split) <;> omega
  omega

/-- And it does give a password: wherever a call stands that has not returned, unless reading failed,
typing that password at its prompts and letting the call go on makes it return it (or the one it has already
accepted). -/
theorem c83_returns (P : Prog Unit) (rnd : Bytes) (fs : FS) (ms : List ProcMove) (s : Proc)
    (h : (Proc.start fs).run P rnd ms = some s) (k : Nat) (p : Prompt) (hk : s.sys.prompts[k]? = some p)
    (hret : p.returned = none) (herr : p.errChan = none) (q : Bytes) (hq : q ≠ []) :
    ∃ ms' s' p' r, s.run P rnd ms' = some s' ∧ (∀ m ∈ ms', Helpful k q m) ∧
      s'.sys.prompts[k]? = some p' ∧ p'.cancelled = true ∧ p'.returned = some (.ok r) ∧
      (r = q ∨ p.reader = .sending r) :=
  returns_from hq _ s p hk hret
    (by
      by_contra hc
      exact over_run ms h (by intro p hp; cases hp) p (List.mem_of_getElem? hk) (by simpa using hc) hret) herr
    (live_run ms h (by intro p hp; cases hp) _ (List.mem_of_getElem? hk)) le_rfl

/-- If nobody presses ctrl-C, the terminal echoes again and no goroutine is left in ReadPassword or
elsewhere in the reader whenever no call is running, in particular at the end; nobody needs to wait for the
restorers. -/
theorem c83_left_alone {P : Prog Unit} {rnd : Bytes} {fs : FS} {ms : List ProcMove} {s : Proc}
    (h : (Proc.start fs).run P rnd ms = some s) (hi : ∀ k, .at k .interrupt ∉ ms)
    (hall : ∀ p ∈ s.sys.prompts, p.cancelled = true) :
    s.sys.echo = true ∧ ∀ p ∈ s.sys.prompts, p.reader = .done :=
  calm_over (calm_run ms h hi ⟨fun _ hp => (by cases hp), fun _ hp => (by cases hp), .inl rfl⟩)
    (by simpa using hall)

/-! ## examples -/

/-- A schedule of generate -encrypt-phrase: the second line is not the first. -/
def mistyped : List ProcMove := [.begin, .at 0 .enterRead, .at 0 (.line (.ok [1])), .at 0 .enterRead,
  .at 0 (.line (.ok [2])), .at 0 .enterRead]

/-- It is possible; its reader is at the terminal again, nothing has returned, and echo is off. -/
example :
    ((Proc.start sampleFS).run (sampleGenerate (str "new") true) sampleRandom mistyped).map (fun s =>
      (s.sys.prompts, s.sys.echo)) =
      some ([{ Prompt.begin true true with reader := .reading true, typed := [(.ok [1], false), (.ok [2], false)] }],
        false) := by
  decide +kernel

/-- From there, typing a password twice ends the call without an interrupt, and echo is on. -/
example :
    ((Proc.start sampleFS).run (sampleGenerate (str "new") true) sampleRandom (mistyped ++
      [.at 0 (.line (.ok [3])), .at 0 .enterRead, .at 0 (.line (.ok [3])), .at 0 .receive, .at 0 .cancel])).map
      (fun s => (s.sys.prompts.map (·.returned), s.sys.prompts.map (·.cancelled), s.sys.echo)) =
      some ([some (.ok [3])], [true], true) := by
  decide +kernel

/-- Three lines are sometimes needed: at the repetition of another password. -/
example :
    ((Proc.start sampleFS).run (sampleGenerate (str "new") true) sampleRandom (mistyped.take 4 ++
      [.at 0 (.line (.ok [3])), .at 0 .enterRead, .at 0 (.line (.ok [3])), .at 0 .enterRead,
        .at 0 (.line (.ok [3])), .at 0 .receive])).map
      (fun s => s.sys.prompts.map (·.returned)) = some [some (.ok [3])] := by
  decide +kernel

/-- After an interrupt a reader may be left in ReadPassword without echo when every call is over. -/
example :
    ((Proc.start sampleFS).run (sampleGenerate (str "new") true) sampleRandom
      [.begin, .at 0 .enterRead, .at 0 .interrupt, .at 0 .receiveDone, .at 0 .cancel]).map
      (fun s => (s.sys.prompts.map (fun p => (p.reader, p.cancelled)), s.sys.echo)) =
      some ([(.reading true, true)], false) := by
  decide +kernel

end Verif.Props
