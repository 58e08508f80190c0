import Verif.Proofs.CliConcurrent
import Verif.Props.Password
import Verif.Props.Process

/-!
# All goroutines together (C68, C69)
-/

namespace Verif.Props

open Verif.Model Verif.Model.Cli Verif.Spec Verif.Proofs

/-- The three subcommands that do something. -/
inductive IsCommand (L : WordList) (C : Crypto) (env : Env) : Prog Unit → Prop where
  | generate (opts) : IsCommand L C env (generateAndPrintKey L C env opts)
  | recover (opts) : IsCommand L C env (recoverAndPrintKey L C env opts)
  | convert (opts) : IsCommand L C env (decodeAndConvertPhrase L C env opts)

theorem command_inv {L : WordList} (hL : L.Lawful) {C : Crypto} (hC : C.Lawful) {env : Env}
    {P : Prog Unit} (hP : IsCommand L C env P) {rnd : Bytes} {ms : List ProcMove} {s : Proc}
    (h : (Proc.start env.fs).run P rnd ms = some s) :
    ∃ olds cur, ProcInv P rnd env.fs s olds cur ∧ s.sys.results = olds.filterMap resultOf := by
  have h2 : Patient P ∧ PrintsOnce P := by
    cases hP with
    | generate opts => exact ⟨generate_patient L C env opts, generate_printsOnce hL hC env opts⟩
    | recover opts => exact ⟨recover_patient L C env opts, recover_printsOnce L C env opts⟩
    | convert opts => exact ⟨convert_patient L C env opts, convert_printsOnce L C env opts⟩
  obtain ⟨olds, cur, hi⟩ := procInv_run h2.1 h2.2 ms (procInv_start P rnd env.fs) h
  exact ⟨olds, cur, hi, by rw [results_eq, hi.prompts, results_olds (fun p hp => (hi.now p hp).1)]⟩

/-! ## C68 Every schedule does what the command alone would do -/

/-- At every point of every schedule: the files and what has been shown are those the command alone would
have left behind after some of its actions, given the passwords returned so far; standard output too,
except for line feeds around it, at most one for each password prompt. -/
theorem c68_refines {L : WordList} (hL : L.Lawful) {C : Crypto} (hC : C.Lawful) (env : Env)
    (P : Prog Unit) (hP : IsCommand L C env P) (rnd : Bytes) (ms : List ProcMove) (s : Proc)
    (h : (Proc.start env.fs).run P rnd ms = some s) :
    let alone := (atStart env.fs).run ((P.acts s.sys.results rnd).take s.done)
    s.done ≤ (P.acts s.sys.results rnd).length ∧
    s.world.fs = alone.fs ∧ s.world.shown = alone.shown ∧
    ∃ n, n ≤ s.sys.prompts.length ∧ Framed n s.world.stdout alone.stdout := by
  obtain ⟨olds, cur, hi, hr⟩ := command_inv hL hC hP h
  rw [hr]
  obtain ⟨out, hw, i, j, hij, hout, -⟩ := hi.world
  refine ⟨hi.done, by rw [hw]; rfl, by rw [hw]; rfl, s.sys.newlines, ?_, i, j, hij, ?_⟩
  · rw [hi.newlines]; exact List.countP_le_length
  · rw [hw]; exact hout

/-- What is returned to the command is a password, which is not empty, or an error; nothing panics. -/
theorem c68_results {L : WordList} (hL : L.Lawful) {C : Crypto} (hC : C.Lawful) (env : Env)
    (P : Prog Unit) (hP : IsCommand L C env P) (rnd : Bytes) (ms : List ProcMove) (s : Proc)
    (h : (Proc.start env.fs).run P rnd ms = some s) :
    ∀ r ∈ s.sys.results, (∃ q, q ≠ [] ∧ r = .ok q) ∨ ∃ e, r = .err e := by
  obtain ⟨olds, cur, hi, -⟩ := command_inv hL hC hP h
  obtain ⟨sched, hs⟩ := hi.reach
  intro r hr
  rw [results_eq, List.mem_filterMap] at hr
  obtain ⟨p, hp, hr⟩ := hr
  unfold resultOf at hr
  split at hr
  · obtain ⟨k, hk⟩ := List.mem_iff_getElem?.mp hp
    cases r with
    | ok q => exact .inl ⟨q, (c53_confirmed sched _ hs k p hk q hr).1, rfl⟩
    | err e => exact .inr ⟨e, rfl⟩
    | panic x => exact absurd hr ((reachable_inv hs p hp).noPanic x)
  · cases hr

theorem framed_nil {n : Nat} {out : Bytes} (h : Framed n out []) : out = List.replicate n 0x0A := by
  obtain ⟨i, j, rfl, rfl⟩ := h
  simp

/-- However the goroutines are scheduled: when the command fails, standard output holds at most a line feed
for each password prompt. -/
theorem c68_failed {L : WordList} (hL : L.Lawful) {C : Crypto} (hC : C.Lawful) (env : Env)
    (hwf : env.fs.Wf) (P : Prog Unit) (hP : IsCommand L C env P) (rnd : Bytes) (ms : List ProcMove)
    (s : Proc) (h : (Proc.start env.fs).run P rnd ms = some s) (e : Err)
    (hend : s.Finished P rnd (.err e)) :
    ∃ n, n ≤ s.sys.prompts.length ∧ s.world.stdout = List.replicate n 0x0A := by
  obtain ⟨-, -, -, n, hn, hf⟩ := c68_refines hL hC env P hP rnd ms s h
  obtain ⟨-, hd, ho, -⟩ := hend
  rw [hd, List.take_length] at hf
  refine ⟨n, hn, framed_nil ?_⟩
  suffices hs : ((atStart env.fs).run (P.acts s.sys.results rnd)).stdout = [] by rwa [hs] at hf
  cases hP with
  | generate opts =>
    by_cases hw : opts.outputWordFile = []
    · unfold Prog.outcome at ho
      unfold Prog.acts
      rcases generate_cases hL hC env opts ⟨s.sys.results, rnd, []⟩ with ⟨-, ha⟩ |
        ⟨mnk, o, master, keyPw, pw, key, words, st1, ha, g, e1⟩
      · rw [ha]; rfl
      · exfalso
        rw [e1, hw] at ho
        unfold generateEnd at ho
        rw [if_neg (by simp), if_pos rfl] at ho
        change ((printKey (env.armor key) >>= fun _ => printMnemonic env words) st1).1 = _ at ho
        rw [bind_run_ok (printKey_run (env.armor key) st1)] at ho
        exact printMnemonic_no_err env words _ e ho
    · exact (c49_all_or_nothing hL hC env hwf opts hw s.sys.results rnd).1 (by rw [ho]; simp)
  | recover opts =>
    unfold Prog.outcome at ho
    unfold Prog.acts
    rcases recover_cases (L := L) (C := C) env opts ⟨s.sys.results, rnd, []⟩ with
      ⟨-, ha⟩ | ⟨ttl, master, subkeys, ws, dm, s, mnk, keyPw, key, -, -, -, -, -, -, -, -, hok, -⟩
    · rw [ha]; rfl
    · rw [hok] at ho; cases ho
  | convert opts =>
    have := (c56_no_file L C env opts s.sys.results rnd
      ((decodeAndConvertPhrase L C env opts).acts s.sys.results rnd).length).2
    rwa [List.take_length] at this

theorem generate_prints {L : WordList} (hL : L.Lawful) {C : Crypto} (hC : C.Lawful) (env : Env)
    (hwf : env.fs.Wf) (opts : GenerateOptions) (rs : List (Res Bytes)) (rnd : Bytes)
    (ho : (generateAndPrintKey L C env opts).outcome rs rnd = .ok ()) :
    ∃ mnk o master keyPw phrasePw key words,
      Generated L C env opts rs mnk o master keyPw phrasePw key words ∧
      ((atStart env.fs).run ((generateAndPrintKey L C env opts).acts rs rnd)).stdout =
        env.armor key ++ [0x0A] ∧
      (if opts.outputWordFile = [] then
        ((atStart env.fs).run ((generateAndPrintKey L C env opts).acts rs rnd)).shown = [words]
      else ((atStart env.fs).run ((generateAndPrintKey L C env opts).acts rs rnd)).fs.read
        opts.outputWordFile = some (phraseText words)) := by
  unfold Prog.outcome at ho
  unfold Prog.acts
  rcases generate_cases hL hC env opts ⟨rs, rnd, []⟩ with ⟨hf, -⟩ |
    ⟨mnk, o, master, keyPw, pw, key, words, st1, ha, g, e⟩
  · exact absurd ho (hf _)
  refine ⟨mnk, o, master, keyPw, pw, key, words, g, ?_⟩
  rw [e] at ho ⊢
  by_cases hw : opts.outputWordFile = []
  · rw [if_pos hw, hw, generateEnd_shown, ha]
    rw [List.nil_append, run_append, run_stdout]
    exact ⟨rfl, rfl⟩
  · rw [if_neg hw]
    rcases generateEnd_file (env := env) (key := key) (ws := words) hw st1 with ⟨hs, e2⟩ | ⟨hf, -⟩
    swap
    · exact absurd ho (hf _)
    rw [e2]
    dsimp only
    rw [ha, List.nil_append, run_append, run_stdout]
    refine ⟨?_, (c47_round_trip hL (atStart env.fs) hwf env.save words _ hs).2.1⟩
    dsimp only
    rw [run_quiet _ _ (saveMnemonic_quiet env.fs env.save words opts.outputWordFile)]
    rfl

/-- However the goroutines are scheduled: when the command succeeds, standard output holds exactly one
armored key and its line feed, in one piece, between at most a line feed for each password prompt; convert
writes no key. -/
theorem c68_succeeded {L : WordList} (hL : L.Lawful) {C : Crypto} (hC : C.Lawful) (env : Env)
    (hwf : env.fs.Wf) (P : Prog Unit) (hP : IsCommand L C env P) (rnd : Bytes) (ms : List ProcMove)
    (s : Proc) (h : (Proc.start env.fs).run P rnd ms = some s) (hend : s.Finished P rnd (.ok ())) :
    ∃ n, n ≤ s.sys.prompts.length ∧
      ((∃ opts, P = decodeAndConvertPhrase L C env opts) ∧ s.world.stdout = List.replicate n 0x0A ∨
      ∃ mnk key, IsExport C mnk key ∧ Framed n s.world.stdout (env.armor key ++ [0x0A])) := by
  obtain ⟨-, -, -, n, hn, hf⟩ := c68_refines hL hC env P hP rnd ms s h
  obtain ⟨-, hd, ho, -⟩ := hend
  rw [hd, List.take_length] at hf
  refine ⟨n, hn, ?_⟩
  cases hP with
  | generate opts =>
    obtain ⟨mnk, o, master, keyPw, pw, key, words, g, h1, -⟩ :=
      generate_prints hL hC env hwf opts s.sys.results rnd ho
    rw [h1] at hf
    exact .inr ⟨mnk, key, isExport_of g.exported, hf⟩
  | recover opts =>
    unfold Prog.outcome at ho
    unfold Prog.acts at hf
    rcases recover_cases (L := L) (C := C) env opts ⟨s.sys.results, rnd, []⟩ with
      ⟨hfail, -⟩ | ⟨ttl, master, subkeys, ws, dm, s, mnk, keyPw, key, -, -, -, -, -, -, -, he, -, ha⟩
    · exact absurd ho (hfail _)
    · rw [ha, List.nil_append, run_stdout] at hf
      exact .inr ⟨mnk, key, isExport_of he, hf⟩
  | convert opts =>
    have := (c56_no_file L C env opts s.sys.results rnd
      ((decodeAndConvertPhrase L C env opts).acts s.sys.results rnd).length).2
    rw [List.take_length] at this
    rw [this] at hf
    exact .inl ⟨⟨opts, rfl⟩, framed_nil hf⟩

/-! ### every run of the command alone is a schedule -/

theorem proc_run_append {P : Prog Unit} {rnd : Bytes} : ∀ {ms ms' : List ProcMove} {s s' s'' : Proc},
    s.run P rnd ms = some s' → s'.run P rnd ms' = some s'' → s.run P rnd (ms ++ ms') = some s''
  | [], _, _, _, _, h, h' => by cases h; exact h'
  | m :: ms, ms', s, s', s'', h, h' => by
    rw [Proc.run] at h
    rw [List.cons_append, Proc.run]
    split at h
    · cases h
    · exact proc_run_append h h'

/-- Call `k` is answered with this password. -/
def answered (k : Nat) (confirm : Bool) (q : Bytes) : List ProcMove :=
  .begin :: [.at k .enterRead, .at k (.line (.ok q))] ++
    (if confirm then [.at k .enterRead, .at k (.line (.ok q))] else []) ++
    [.at k .receive, .at k .cancel]

/-- How such a call ends -/
def answeredPrompt (confirm echo : Bool) (q : Bytes) : Prompt :=
  { Prompt.begin confirm echo with
    ctxDone := true, reader := .done, returned := some (.ok q), cancelled := true
    typed := (if confirm then [q, q] else [q]).map (fun l => (.ok l, false)) }

theorem answered_run {P : Prog Unit} (hP : Patient P) {rnd : Bytes} {s : Proc} {confirm : Bool} {q : Bytes}
    (hq : q ≠ []) (hall : s.sys.prompts.all (·.cancelled) = true) (hd : s.done = 0)
    (ho : P.outcome s.sys.results rnd = .waits confirm) :
    s.run P rnd (answered s.sys.prompts.length confirm q) = some { s with
      sys := { s.sys with prompts := s.sys.prompts ++ [answeredPrompt confirm s.sys.echo q] } } := by
  have hacts := hP _ _ _ ho
  obtain ⟨sys, done, world⟩ := s
  obtain ⟨echo, newlines, prompts⟩ := sys
  dsimp only at *
  subst hd
  cases q with
  | nil => exact absurd rfl hq
  | cons x q =>
    unfold answered
    rw [List.cons_append, List.cons_append, Proc.run]
    simp only [Proc.move, ho, hacts, List.length_nil, if_true]
    rw [Sys.move, if_pos hall]
    cases confirm
    · simp [Proc.run, Proc.move, Sys.move, Prompt.move, Prompt.begin, afterFirst, answeredPrompt]
    · simp [Proc.run, Proc.move, Sys.move, Prompt.move, Prompt.begin, afterFirst, afterSecond,
        answeredPrompt]

theorem refused_run {P : Prog Unit} (hP : Patient P) {rnd : Bytes} {s : Proc} {confirm : Bool} {e : Err}
    (hall : s.sys.prompts.all (·.cancelled) = true) (hd : s.done = 0)
    (ho : P.outcome s.sys.results rnd = .waits confirm) :
    s.run P rnd [.refused e] = some { s with
      sys := { s.sys with prompts := s.sys.prompts ++ [Prompt.refused confirm s.sys.echo e] } } := by
  have hacts := hP _ _ _ ho
  obtain ⟨sys, done, world⟩ := s
  dsimp only at *
  subst hd
  simp only [Proc.run, Proc.move, ho, hacts, List.length_nil, if_true]
  rw [Sys.move, if_pos hall]
  rfl

theorem asked_run {P : Prog Unit} (hP : Patient P) (rnd : Bytes) (fs : FS) : ∀ (n : Nat) (rs : List (Res Bytes)),
    rs.length = n → (∀ r ∈ rs, (∃ q, q ≠ [] ∧ r = .ok q) ∨ ∃ e, r = .err e) →
    (∀ k < rs.length, ∃ c, P.outcome (rs.take k) rnd = .waits c) →
    ∃ ms s, (Proc.start fs).run P rnd ms = some s ∧ s.sys.results = rs ∧
      s.sys.prompts.all (·.cancelled) = true ∧ s.done = 0 ∧ s.world = (Proc.start fs).world ∧
      s.sys.newlines = 0 := by
  intro n
  induction n with
  | zero =>
    intro rs hl _ _
    have : rs = [] := List.length_eq_zero_iff.mp hl
    subst this
    exact ⟨[], _, rfl, rfl, rfl, rfl, rfl, rfl⟩
  | succ n ih =>
    intro rs hl hne hw
    obtain ⟨init, r, rfl⟩ : ∃ init r, rs = init ++ [r] := by
      have : rs ≠ [] := by intro h; rw [h] at hl; cases hl
      exact ⟨rs.dropLast, rs.getLast this, (List.dropLast_append_getLast this).symm⟩
    have hlen : init.length = n := by simpa using hl
    obtain ⟨ms, s, h1, h2, h3, h4, h5, h6⟩ := ih init hlen (fun x hx => hne x (by simp [hx])) (by
      intro k hk
      obtain ⟨c, hc⟩ := hw k (by simp; omega)
      rw [List.take_append_of_le_length (by omega)] at hc
      exact ⟨c, hc⟩)
    obtain ⟨c, hc⟩ := hw init.length (by simp)
    rw [List.take_left, ← h2] at hc
    rcases hne r (by simp) with ⟨q, hq, rfl⟩ | ⟨e, rfl⟩
    · refine ⟨_, _, proc_run_append h1 (answered_run hP hq h3 h4 hc), ?_, ?_, h4, h5, h6⟩
      · dsimp only
        rw [results_eq] at h2 ⊢
        dsimp only
        rw [List.filterMap_append, h2]
        simp [resultOf, answeredPrompt]
      · dsimp only
        rw [List.all_append, h3]
        rfl
    · refine ⟨_, _, proc_run_append h1 (refused_run (e := e) hP h3 h4 hc), ?_, ?_, h4, h5, h6⟩
      · dsimp only
        rw [results_eq] at h2 ⊢
        dsimp only
        rw [List.filterMap_append, h2]
        simp [resultOf, Prompt.refused]
      · dsimp only
        rw [List.all_append, h3]
        rfl

theorem acts_run {P : Prog Unit} {rnd : Bytes} {s : Proc} (hall : s.sys.prompts.all (·.cancelled) = true)
    (h0 : s.done = 0) : ∀ n, n ≤ (P.acts s.sys.results rnd).length →
    s.run P rnd (List.replicate n .act) = some { s with
      done := n, world := s.world.run ((P.acts s.sys.results rnd).take n) } := by
  intro n
  induction n with
  | zero => intro _; obtain ⟨sys, done, world⟩ := s; cases h0; rfl
  | succ n ih =>
    intro hn
    rw [List.replicate_succ']
    refine proc_run_append (ih (by omega)) ?_
    have hlt : n < (P.acts s.sys.results rnd).length := by omega
    simp only [Proc.run, Proc.move, if_pos hall]
    rw [List.getElem?_eq_getElem hlt, List.take_add_one, List.getElem?_eq_getElem hlt, run_append]
    rfl

/-- Conversely, whatever the command alone would do when its prompts return passwords or errors, some schedule
does, and nothing else is written to standard output. -/
theorem c68_realised {L : WordList} {C : Crypto} (env : Env) (P : Prog Unit)
    (hP : IsCommand L C env P) (rnd : Bytes) (rs : List (Res Bytes))
    (hne : ∀ r ∈ rs, (∃ q, q ≠ [] ∧ r = .ok q) ∨ ∃ e, r = .err e)
    (hw : ∀ k < rs.length, ∃ c, P.outcome (rs.take k) rnd = .waits c) (o : Outcome Unit)
    (ho : P.outcome rs rnd = o) (hno : ∀ c, o ≠ .waits c) :
    ∃ ms s, (Proc.start env.fs).run P rnd ms = some s ∧ s.Finished P rnd o ∧
      s.sys.results = rs ∧ s.world = (atStart env.fs).run (P.acts rs rnd) := by
  have hpat : Patient P := by
    cases hP with
    | generate opts => exact generate_patient L C env opts
    | recover opts => exact recover_patient L C env opts
    | convert opts => exact convert_patient L C env opts
  obtain ⟨ms, s, h1, h2, h3, h4, h5, -⟩ := asked_run hpat rnd env.fs _ rs rfl hne hw
  refine ⟨_, _, proc_run_append h1 (acts_run h3 h4 _ le_rfl), ⟨h3, rfl, ?_, hno⟩, h2, ?_⟩
  · dsimp only
    rw [h2, ho]
  · dsimp only
    rw [List.take_length, h2, h5]
    rfl

/-! ## C69 Passwords that encrypt were typed twice -/

/-- A password prompt has been answered with it: it was typed twice in a row, the same both times, and
not empty. -/
def TypedTwice (s : Sys) (q : Bytes) : Prop :=
  q ≠ [] ∧ ∃ p ∈ s.prompts, p.returned = some (.ok q) ∧
    ∃ before, p.typed.map Prod.fst = before ++ [.ok q, .ok q]

/-- `key` is an export of `mnk` under this password -/
def ExportedUnder (C : Crypto) (mnk : Mnemonikey) (password key : Bytes) : Prop :=
  ∃ r r', mnk.encodePGP C password r = .ok (key, r') ∨
    ∃ cert, mnk.encodeSubkeysPGP C password cert r = .ok (key, r')

theorem exportedUnder_of {C : Crypto} {mnk : Mnemonikey} {m c : Bool} {p key : Bytes}
    (h : Exported C mnk m c p key) : ExportedUnder C mnk p key := by
  obtain ⟨r, r', h⟩ := h
  cases m
  · exact ⟨r, r', .inr ⟨c, by simpa using h⟩⟩
  · exact ⟨r, r', .inl (by simpa using h)⟩

theorem results_get : ∀ {olds : List Prompt}, (∀ p ∈ olds, p.cancelled = true ∧ p.returned ≠ none) →
    ∀ k : Nat, (olds.filterMap resultOf)[k]? = olds[k]?.bind (·.returned)
  | [], _, k => by simp
  | p :: olds, h, k => by
    obtain ⟨h1, h2⟩ := h p (by simp)
    obtain ⟨r, hr⟩ := Option.ne_none_iff_exists'.mp h2
    have : resultOf p = some r := by unfold resultOf; rw [if_pos h1, hr]
    rw [List.filterMap_cons_some this]
    cases k with
    | zero => simp [hr]
    | succ k => simpa using results_get (fun q hq => h q (by simp [hq])) k

/-- A password returned by a prompt that asks twice -/
theorem typed_twice {L : WordList} (hL : L.Lawful) {C : Crypto} (hC : C.Lawful) {env : Env}
    {P : Prog Unit} (hP : IsCommand L C env P) {rnd : Bytes} {ms : List ProcMove} {s : Proc}
    (h : (Proc.start env.fs).run P rnd ms = some s) {k : Nat} {q : Bytes}
    (hk : s.sys.results[k]? = some (.ok q))
    (ho : ∀ c, P.outcome (s.sys.results.take k) rnd = .waits c → c = true) : TypedTwice s.sys q := by
  obtain ⟨olds, cur, hi, hr⟩ := command_inv hL hC hP h
  rw [hr] at hk ho
  obtain ⟨sched, hs⟩ := hi.reach
  have hlt : k < olds.length := by
    rw [← results_length hi.over]
    exact (List.getElem?_eq_some_iff.mp hk).1
  have hget : olds[k]? = some olds[k] := List.getElem?_eq_getElem hlt
  have hret : olds[k].returned = some (.ok q) := by
    rw [results_get hi.over, hget] at hk
    exact hk
  have hpk : s.sys.prompts[k]? = some olds[k] := by
    rw [hi.prompts, List.getElem?_append_left hlt, hget]
  obtain ⟨h1, -, h2, -⟩ := c53_confirmed sched _ hs k _ hpk q hret
  exact ⟨h1, olds[k], List.mem_of_getElem? hpk, hret, h2 (ho _ (hi.asked k _ hget))⟩

/-- generate -encrypt-keys, under every schedule: the key printed is protected with a password that was
typed twice. -/
theorem c69_generate_key {L : WordList} (hL : L.Lawful) {C : Crypto} (hC : C.Lawful) (env : Env)
    (hwf : env.fs.Wf) (opts : GenerateOptions) (henc : opts.key.encryptKeys = true) (rnd : Bytes)
    (ms : List ProcMove) (s : Proc)
    (h : (Proc.start env.fs).run (generateAndPrintKey L C env opts) rnd ms = some s)
    (hend : s.Finished (generateAndPrintKey L C env opts) rnd (.ok ())) :
    ∃ mnk key q n, TypedTwice s.sys q ∧ ExportedUnder C mnk q key ∧
      Framed n s.world.stdout (env.armor key ++ [0x0A]) := by
  have hP := IsCommand.generate (L := L) (C := C) (env := env) opts
  obtain ⟨-, -, -, n, -, hf⟩ := c68_refines hL hC env _ hP rnd ms s h
  obtain ⟨-, hd, ho, -⟩ := hend
  rw [hd, List.take_length] at hf
  obtain ⟨mnk, o, master, keyPw, pw, key, words, g, h1, -⟩ :=
    generate_prints hL hC env hwf opts s.sys.results rnd ho
  rw [h1] at hf
  refine ⟨mnk, key, keyPw, n, ?_, exportedUnder_of g.exported, hf⟩
  obtain ⟨rest, hrest⟩ := g.prompted
  rw [if_pos henc] at hrest
  exact typed_twice hL hC hP h (k := 0) (by rw [hrest]; rfl)
    (fun c hc => generate_asks L C env opts _ c hc)

/-- generate -encrypt-phrase, under every schedule: a password that was typed twice opens the phrase shown
or saved, and brings back the key printed. -/
theorem c69_generate_phrase {L : WordList} (hL : L.Lawful) {C : Crypto} (hC : C.Lawful) (env : Env)
    (hwf : env.fs.Wf) (opts : GenerateOptions) (henc : opts.encryptPhrase = true) (rnd : Bytes)
    (ms : List ProcMove) (s : Proc)
    (h : (Proc.start env.fs).run (generateAndPrintKey L C env opts) rnd ms = some s)
    (hend : s.Finished (generateAndPrintKey L C env opts) rnd (.ok ())) :
    ∃ mnk o key words q n, TypedTwice s.sys q ∧ recoverEncrypted L C words q (some o) = .ok mnk ∧
      IsExport C mnk key ∧ Framed n s.world.stdout (env.armor key ++ [0x0A]) ∧
      (opts.outputWordFile = [] → s.world.shown = [words]) ∧
      (opts.outputWordFile ≠ [] →
        s.world.fs.read opts.outputWordFile = some (phraseText words)) := by
  have hP := IsCommand.generate (L := L) (C := C) (env := env) opts
  obtain ⟨-, hfs, hsh, n, -, hf⟩ := c68_refines hL hC env _ hP rnd ms s h
  obtain ⟨-, hd, ho, -⟩ := hend
  rw [hd, List.take_length] at hf hfs hsh
  obtain ⟨mnk, o, master, keyPw, pw, key, words, g, h1, h2⟩ :=
    generate_prints hL hC env hwf opts s.sys.results rnd ho
  rw [h1] at hf
  obtain ⟨rest, hrest⟩ := g.prompted
  have hpw := g.phraseMode
  rw [henc] at hpw
  obtain ⟨q, rfl⟩ := Option.isSome_iff_exists.mp hpw
  obtain ⟨dm, f⟩ := g.phrase
  refine ⟨mnk, o, key, words, q, n, ?_, ?_, isExport_of g.exported, hf, ?_, ?_⟩
  · cases hk : opts.key.encryptKeys
    · rw [hk] at hrest
      exact typed_twice hL hC hP h (k := 0) (by rw [hrest]; rfl)
        (fun c hc => generate_asks L C env opts _ c hc)
    · rw [hk] at hrest
      exact typed_twice hL hC hP h (k := 1) (by rw [hrest]; rfl)
        (fun c hc => generate_asks L C env opts _ c hc)
  · unfold recoverEncrypted
    rw [f.decodes, Res.bind_ok]
    have h2 := f.seed
    rw [Option.getD_some] at h2
    rw [h2, Res.bind_ok]
    exact f.again
  · intro hw
    rw [if_pos hw] at h2
    rw [hsh, h2]
  · intro hw
    rw [if_neg hw] at h2
    rw [hfs, h2]

/-- Where recover gets the password for the key -/
theorem recover_password {L : WordList} {C : Crypto} {env : Env} {opts : RecoverOptions}
    (henc : opts.key.encryptKeys = true) {rs : List (Res Bytes)} {rnd : Bytes}
    (ho : (recoverAndPrintKey L C env opts).outcome rs rnd = .ok ()) :
    ∃ (k : Nat) (keyPw : Bytes) (mnk : Mnemonikey) (master : Bool) (key : Bytes),
      rs[k]? = some (.ok keyPw) ∧
      (recoverAndPrintKey L C env opts).outcome (rs.take k) rnd = .waits true ∧
      Exported C mnk master opts.selfCert keyPw key ∧
      (recoverAndPrintKey L C env opts).acts rs rnd = (env.armor key ++ str "\n").map .stdout := by
  unfold Prog.outcome at ho
  unfold recoverAndPrintKey at ho
  rcases bind_run (lift (ttlOf opts.key.ttl)) _ ⟨rs, rnd, []⟩ with
    ⟨ttl, st1, h1, e⟩ | ⟨o, st1, h1, -, o', e, hf⟩
  swap
  · rw [e] at ho; exact absurd ho (hf _)
  rw [e] at ho
  clear e
  obtain ⟨rfl, g1⟩ := lift_run h1
  have httl := g1 _ rfl
  by_cases hi : IndexTooLarge opts
  · rw [if_pos hi] at ho; cases ho
  rw [if_neg hi] at ho
  rcases bind_run (lift (decodeOnlyKeyTypes opts.key.only)) _ ⟨rs, rnd, []⟩ with
    ⟨⟨master, subkeys⟩, st2, h2, e⟩ | ⟨o, st2, h2, -, o', e, hf⟩
  swap
  · rw [e] at ho; exact absurd ho (hf _)
  rw [e] at ho; clear e
  obtain ⟨rfl, g2⟩ := lift_run h2
  have honly := g2 _ rfl
  dsimp only at ho
  rcases bind_run (decodeMnemonicFromInput L C env opts.input) _ ⟨rs, rnd, []⟩ with
    ⟨⟨s, dm⟩, st3, h3, e⟩ | ⟨o, st3, h3, -, o', e, hf⟩
  swap
  · rw [e] at ho; exact absurd ho (hf _)
  rw [e] at ho; clear e
  obtain ⟨used, hu, hk⟩ := local_decode L C env opts.input _ _ _ h3
  dsimp only at hu hk ho
  have q3 : st3.acts = [] := by have := quiet_decode L C env opts.input ⟨rs, rnd, []⟩; rwa [h3] at this
  rcases bind_run (lift (new C s dm.creation (some (recoveredOptions opts ttl subkeys)))) _ st3 with
    ⟨mnk, st4, h4, e⟩ | ⟨o, st4, h4, -, o', e, hf⟩
  swap
  · erw [e] at ho; exact absurd ho (hf _)
  erw [e] at ho; clear e
  obtain ⟨rfl, g4⟩ := lift_run h4
  have hnew := g4 _ rfl
  rcases bind_run (keyPassword opts.key.encryptKeys) _ st4 with ⟨keyPw, st5, h5, e⟩ | ⟨o, st5, h5, -, o', e, hf⟩
  swap
  · rw [e] at ho; exact absurd ho (hf _)
  rw [e] at ho; clear e
  have hpw := (keyPassword_run h5).1
  have q5 : st5.acts = [] := by
    have := quiet_keyPassword opts.key.encryptKeys st4; rw [h5] at this; exact this.trans q3
  rw [if_pos henc] at hpw
  rcases bind_run (exportKey C mnk master opts.selfCert keyPw) _ st5 with
    ⟨key, st6, h6, e⟩ | ⟨o, st6, h6, -, o', e, hf⟩
  swap
  · rw [e] at ho; exact absurd ho (hf _)
  clear e
  have q6 : st6.acts = [] := by
    have := quiet_exportKey C mnk master opts.selfCert keyPw st5; rw [h6] at this; exact this.trans q5
  have hstart : ∀ ps x st', decodeMnemonicFromInput L C env opts.input ⟨ps, rnd, []⟩ = (.ok (s, dm), x) →
      lift (new C s dm.creation (some (recoveredOptions opts ttl subkeys))) x = (.ok mnk, st') →
      recoverAndPrintKey L C env opts ⟨ps, rnd, []⟩ = (do
        let password ← keyPassword opts.key.encryptKeys
        let key ← exportKey C mnk master opts.selfCert password
        printKey (env.armor key) : Prog Unit) st' := by
    intro ps x st' hx hl
    unfold recoverAndPrintKey
    rw [httl, bind_run_ok (lift_ok ttl _), if_neg hi, honly, bind_run_ok (lift_ok _ _)]
    dsimp only
    rw [bind_run_ok hx]
    dsimp only
    unfold recoveredOptions at hl
    rw [bind_run_ok hl]
  refine ⟨used.length, keyPw, mnk, master, key, ?_, ?_, (exportKey_run h6).1, ?_⟩
  · rw [hu, hpw]; simp
  · unfold Prog.outcome
    have h0 : rs.take used.length = used ++ [] := by rw [hu]; simp
    rw [h0, hstart _ _ _ (hk []) (by rw [hnew]; rfl), henc]
    rfl
  · unfold Prog.acts
    rw [hstart _ _ _ h3 h4, bind_run_ok h5, bind_run_ok h6, printKey_run, q6]
    rfl

/-- recover -encrypt-keys, under every schedule: the same. -/
theorem c69_recover_key {L : WordList} (hL : L.Lawful) {C : Crypto} (hC : C.Lawful) (env : Env)
    (opts : RecoverOptions) (henc : opts.key.encryptKeys = true) (rnd : Bytes)
    (ms : List ProcMove) (s : Proc)
    (h : (Proc.start env.fs).run (recoverAndPrintKey L C env opts) rnd ms = some s)
    (hend : s.Finished (recoverAndPrintKey L C env opts) rnd (.ok ())) :
    ∃ mnk key q n, TypedTwice s.sys q ∧ ExportedUnder C mnk q key ∧
      Framed n s.world.stdout (env.armor key ++ [0x0A]) := by
  have hP := IsCommand.recover (L := L) (C := C) (env := env) opts
  obtain ⟨-, -, -, n, -, hf⟩ := c68_refines hL hC env _ hP rnd ms s h
  obtain ⟨-, hd, ho, -⟩ := hend
  rw [hd, List.take_length] at hf
  obtain ⟨k, keyPw, mnk, master, key, h1, h2, h3, h4⟩ := recover_password henc ho
  rw [h4, run_stdout] at hf
  refine ⟨mnk, key, keyPw, n, ?_, exportedUnder_of h3, hf⟩
  refine typed_twice hL hC hP h h1 (fun c hc => ?_)
  rw [h2] at hc
  cases hc; rfl

/-- Where convert gets the password for the new phrase -/
theorem convert_password {L : WordList} {C : Crypto} {env : Env} {opts : ConvertOptions}
    (henc : opts.encryptPhrase = true) (hfile : opts.input.inputWordFile = []) {rs : List (Res Bytes)}
    {rnd : Bytes} (ho : (decodeAndConvertPhrase L C env opts).outcome rs rnd = .ok ()) :
    ∃ (k : Nat) (pw : Bytes) (ws : List Bytes) (dm : DecodedMnemonic) (p : Bytes) (s : Seed)
      (words : List Bytes) (r r' : Bytes),
      rs[k]? = some (.ok pw) ∧
      (decodeAndConvertPhrase L C env opts).outcome (rs.take k) rnd = .waits true ∧
      inputWords L env opts.input = .ok ws ∧ decodeMnemonic L ws = .ok dm ∧
      dm.decryptSeed C.toPhraseCrypto p = .ok s ∧ (dm.encrypted = true → .ok p ∈ rs) ∧
      encodeMnemonicEncrypted L C.toPhraseCrypto s dm.creationOffset pw r = .ok (words, r') ∧
      (decodeAndConvertPhrase L C env opts).acts rs rnd = [.showPhrase words] := by
  unfold Prog.outcome at ho
  unfold decodeAndConvertPhrase at ho
  rcases bind_run (decodeMnemonicFromInput L C env opts.input) _ ⟨rs, rnd, []⟩ with
    ⟨⟨s, dm⟩, st3, h3, e⟩ | ⟨o, st3, h3, -, o', e, hf⟩
  swap
  · rw [e] at ho; exact absurd ho (hf _)
  rw [e] at ho; clear e
  obtain ⟨used, hu, hk⟩ := local_decode L C env opts.input _ _ _ h3
  obtain ⟨ws, hin, hd, hl, -, q3⟩ := decode_run_inv h3
  obtain ⟨p, hp, hpm⟩ := seedLoop_ok hl
  dsimp only at hu hk ho hd hp hpm q3
  rw [if_pos henc] at ho
  rcases bind_run (userInputPassword true >>= fun p =>
        random (encodeMnemonicEncrypted L C.toPhraseCrypto s dm.creationOffset p)) _ st3 with
    ⟨words, st7, h7, e⟩ | ⟨o, st7, h7, -, o', e, hf⟩
  swap
  · rw [e] at ho; exact absurd ho (hf _)
  have q7 : st7.acts = [] := by
    have := quiet_bind (quiet_password true) (fun p =>
        quiet_random (encodeMnemonicEncrypted L C.toPhraseCrypto s dm.creationOffset p)) st3
    rw [h7] at this; exact this.trans q3
  have h7' := h7
  rcases bind_run (userInputPassword true) (fun p =>
        random (encodeMnemonicEncrypted L C.toPhraseCrypto s dm.creationOffset p)) st3 with
      ⟨pw, st8, h8, e8⟩ | ⟨o, st8, h8, -, o', e8, hf⟩
  swap
  · rw [e8] at h7; cases h7; exact absurd rfl (hf _)
  rw [e8] at h7
  obtain ⟨p8, -, -⟩ := password_run h8
  refine ⟨used.length, pw, ws, dm, p, s, words, st8.rnd, st7.rnd, ?_, ?_, hin, hd, hp, hpm, (random_run h7).1, ?_⟩
  · rw [hu, p8]; simp
  · unfold Prog.outcome
    have h0 : rs.take used.length = used ++ [] := by rw [hu]; simp
    rw [h0]
    unfold decodeAndConvertPhrase
    rw [bind_run_ok (hk [])]
    dsimp only
    rw [if_pos henc]
    rfl
  · unfold Prog.acts
    unfold decodeAndConvertPhrase
    rw [bind_run_ok h3]
    dsimp only
    rw [if_pos henc, bind_run_ok h7', if_pos hfile, printMnemonic_run, q7]
    rfl

/-- A phrase encrypted anew opens with the new password. -/
theorem encrypted_opens {L : WordList} (hL : L.Lawful) {C : Crypto} (hC : C.Lawful) {ws words : List Bytes}
    {dm : DecodedMnemonic} {p pw r r' : Bytes} {s : Seed} (hd : decodeMnemonic L ws = .ok dm)
    (hp : dm.decryptSeed C.toPhraseCrypto p = .ok s)
    (hw : encodeMnemonicEncrypted L C.toPhraseCrypto s dm.creationOffset pw r = .ok (words, r')) :
    ∃ dm', decodeMnemonic L words = .ok dm' ∧ dm'.encrypted = true ∧ dm'.creation = dm.creation ∧
      dm'.decryptSeed C.toPhraseCrypto pw = .ok s := by
  have ho : dm.creationOffset < 2 ^ 31 := by
    rcases c03_decode_total hL ws with ⟨e, he⟩ | ⟨dm', h', -, -, ho, -⟩
    · rw [hd] at he; cases he
    · rw [hd] at h'; cases h'; exact ho
  have hs : ∃ n : Nat, n < 2 ^ 128 ∧ s = ⟨0, (n : Int)⟩ := by
    rcases c11_seed_access hL C.toPhraseCrypto ws dm hd with ⟨-, he, -⟩ | ⟨-, -, x, hx, -, hall⟩
    · obtain ⟨e0, salt, v, off, -, h1, h2⟩ := c10_password_check hL hC.phrase ws dm hd he p
      by_cases hv : verifyOf (Spec.phraseKey C.toPhraseCrypto p salt off) = v
      · obtain ⟨n, hn, h3⟩ := h2 hv
        rw [hp] at h3
        cases h3
        exact ⟨n, hn, rfl⟩
      · rw [h1 hv] at hp; cases hp
    · rw [hall p] at hp
      cases hp
      exact ⟨x, hx, rfl⟩
  obtain ⟨n, hn, rfl⟩ := hs
  have hpne : pw ≠ [] := by
    rintro rfl
    simp [encodeMnemonicEncrypted, eraCheck, eraLatest] at hw
  have hr : 3 ≤ r.length := by
    by_contra hlt
    rw [c09_short_random L C.toPhraseCrypto n _ pw hpne r (by omega)] at hw
    cases hw
  obtain ⟨ws2, rest2, dm2, hw2, hd2, -, he2, ho2, hs2⟩ := c09_encrypted_round_trip hL hC.phrase n
    dm.creationOffset hn ho pw hpne r hr
  rw [hw] at hw2
  cases hw2
  exact ⟨dm2, hd2, he2, by simp only [DecodedMnemonic.creation, ho2], hs2⟩

/-- convert -encrypt-phrase, under every schedule: the one phrase shown opens with a password that was
typed twice, and holds the seed and creation time of the phrase entered. -/
theorem c69_convert_phrase {L : WordList} (hL : L.Lawful) {C : Crypto} (hC : C.Lawful) (env : Env)
    (opts : ConvertOptions) (henc : opts.encryptPhrase = true) (rnd : Bytes) (ms : List ProcMove) (s : Proc)
    (h : (Proc.start env.fs).run (decodeAndConvertPhrase L C env opts) rnd ms = some s)
    (hend : s.Finished (decodeAndConvertPhrase L C env opts) rnd (.ok ())) :
    ∃ ws dm p seed words dm' q, Gets L (offer L) env opts.input ws ∧ decodeMnemonic L ws = .ok dm ∧
      dm.decryptSeed C.toPhraseCrypto p = .ok seed ∧ (dm.encrypted = true → .ok p ∈ s.sys.results) ∧
      s.world.shown = [words] ∧
      decodeMnemonic L words = .ok dm' ∧ dm'.creation = dm.creation ∧ TypedTwice s.sys q ∧
      dm'.encrypted = true ∧ dm'.decryptSeed C.toPhraseCrypto q = .ok seed := by
  have hP := IsCommand.convert (L := L) (C := C) (env := env) opts
  obtain ⟨-, -, hsh, -⟩ := c68_refines hL hC env _ hP rnd ms s h
  obtain ⟨-, hd, ho, -⟩ := hend
  rw [hd, List.take_length] at hsh
  have hfile : opts.input.inputWordFile = [] := by
    by_contra hne
    exact (c56_in_file L C env opts hne s.sys.results rnd).1 ho
  obtain ⟨k, pw, ws, dm, p, seed, words, r, r', h1, h2, h3, h4, h5, h5m, h6, h7⟩ :=
    convert_password henc hfile ho
  obtain ⟨dm', e1, e2, e3, e4⟩ := encrypted_opens hL hC h4 h5 h6
  refine ⟨ws, dm, p, seed, words, dm', pw, (gets_iff hL).1 h3, h4, h5, h5m, ?_, e1, e3, ?_, e2, e4⟩
  · rw [hsh, h7]; rfl
  · refine typed_twice hL hC hP h h1 (fun c hc => ?_)
    rw [h2] at hc
    cases hc; rfl

/-- A phrase was entered, and it is open: it is not encrypted, or one of these prompts returned a password
that decrypts it. -/
def Opened (L : WordList) (C : Crypto) (env : Env) (input : InputFlags) (results : List (Res Bytes)) : Prop :=
  ∃ ws dm, Gets L (offer L) env input ws ∧ decodeMnemonic L ws = .ok dm ∧
    (dm.encrypted = false ∨
      ∃ q seed, .ok q ∈ results ∧ dm.decryptSeed C.toPhraseCrypto q = .ok seed)

theorem asks_passwordLoop (C : Crypto) (dm : DecodedMnemonic) : ∀ (ps : List (Res Bytes)) (c : Bool),
    (passwordLoop C dm ps).1 = .waits c → c = false
  | [], c, h => by cases h; rfl
  | .err _ :: _, c, h => by cases h
  | .panic _ :: _, c, h => by cases h
  | .ok p :: ps, c, h => by
    rw [passwordLoop] at h
    split at h
    · exact asks_passwordLoop C dm ps c h
    · cases h
    · cases h
    · cases h

theorem asks_decode (L : WordList) (C : Crypto) (env : Env) (opts : InputFlags) :
    AsksOnly false (decodeMnemonicFromInput L C env opts) := by
  unfold decodeMnemonicFromInput
  refine asks_bind ((neverAsks_lift _).asks _) fun ws => ?_
  refine asks_bind ((neverAsks_lift _).asks _) fun dm => ?_
  refine asks_bind (fun st c h => ?_) fun s => (neverAsks_pure _).asks _
  unfold askSeed seedLoop at h
  dsimp only at h
  split at h
  · exact asks_passwordLoop C dm _ c h
  · split at h <;> cases h

/-- The phrase is open before recover or convert asks for anything else. -/
theorem decode_opened {L : WordList} (hL : L.Lawful) {C : Crypto} {env : Env} {opts : InputFlags} {st st1 : St}
    {r : Seed × DecodedMnemonic} (h : decodeMnemonicFromInput L C env opts st = (.ok r, st1)) :
    Opened L C env opts st.prompts := by
  obtain ⟨ws, h1, h2, h3, -, -⟩ := decode_run_inv h
  refine ⟨ws, r.2, (gets_iff hL).1 h1, h2, ?_⟩
  cases he : r.2.encrypted with
  | false => exact .inl rfl
  | true =>
    unfold seedLoop at h3
    rw [if_pos he] at h3
    obtain ⟨p, hp, hs⟩ := passwordLoop_ok h3
    exact .inr ⟨p, _, hp, hs⟩

theorem recover_asks {L : WordList} (hL : L.Lawful) {C : Crypto} {env : Env} {opts : RecoverOptions} {st : St}
    (h : (recoverAndPrintKey L C env opts st).1 = .waits true) :
    opts.key.encryptKeys = true ∧ Opened L C env opts.input st.prompts := by
  unfold recoverAndPrintKey at h
  rcases bind_waits h with ⟨h1, -⟩ | ⟨ttl, st1, h1, -, g1⟩
  · exact absurd h1 (neverAsks_lift _ _ _)
  clear h
  obtain ⟨rfl, -⟩ := lift_run h1
  split at g1
  · exact absurd g1 (neverAsks_lift _ _ _)
  rcases bind_waits g1 with ⟨h2, -⟩ | ⟨⟨master, subkeys⟩, st2, h2, -, h⟩
  · exact absurd h2 (neverAsks_lift _ _ _)
  clear g1
  obtain ⟨rfl, -⟩ := lift_run h2
  dsimp only at h
  rcases bind_waits h with ⟨h3, -⟩ | ⟨⟨s, dm⟩, st3, h3, -, h⟩
  · exact absurd (asks_decode L C env opts.input _ _ h3) (by decide)
  refine ⟨?_, decode_opened hL h3⟩
  dsimp only at h
  rcases bind_waits h with ⟨h4, -⟩ | ⟨mnk, st4, -, -, h⟩
  · exact absurd h4 (neverAsks_lift _ _ _)
  rcases bind_waits h with ⟨h5, -⟩ | ⟨pw, st5, -, -, h⟩
  · unfold keyPassword at h5
    by_contra hne
    rw [if_neg hne] at h5
    exact absurd h5 (neverAsks_pure _ _ _)
  exact absurd h (neverAsks_bind (neverAsks_exportKey _ _ _ _ _) (fun _ => neverAsks_emit _) _ _)

theorem convert_asks {L : WordList} (hL : L.Lawful) {C : Crypto} {env : Env} {opts : ConvertOptions} {st : St}
    (h : (decodeAndConvertPhrase L C env opts st).1 = .waits true) :
    opts.encryptPhrase = true ∧ Opened L C env opts.input st.prompts := by
  unfold decodeAndConvertPhrase at h
  rcases bind_waits h with ⟨h3, -⟩ | ⟨⟨s, dm⟩, st3, h3, -, h⟩
  · exact absurd (asks_decode L C env opts.input _ _ h3) (by decide)
  refine ⟨?_, decode_opened hL h3⟩
  dsimp only at h
  rcases bind_waits h with ⟨h4, -⟩ | ⟨words, st4, -, -, h⟩
  · by_contra hne
    rw [if_neg hne] at h4
    exact absurd h4 (neverAsks_lift _ _ _)
  · split at h
    · exact absurd h (neverAsks_printMnemonic _ _ _ _)
    · exact absurd h (neverAsks_save _ _ _ _ _)

/-- What a prompt asks for, in any schedule, follows from the results of the prompts before it. -/
theorem prompt_asked {L : WordList} (hL : L.Lawful) {C : Crypto} (hC : C.Lawful) {env : Env}
    {P : Prog Unit} (hP : IsCommand L C env P) {rnd : Bytes} {ms : List ProcMove} {s : Proc}
    (h : (Proc.start env.fs).run P rnd ms = some s) {k : Nat} {p : Prompt}
    (hk : s.sys.prompts[k]? = some p) : P.outcome (s.sys.results.take k) rnd = .waits p.confirm := by
  obtain ⟨olds, cur, hi, hr⟩ := command_inv hL hC hP h
  rw [hr]
  rw [hi.prompts, List.getElem?_append] at hk
  split at hk
  · exact hi.asked k p hk
  · rename_i hlt
    have hlen := results_length hi.over
    cases hc : cur with
    | none => rw [hc] at hk; simp at hk
    | some q =>
      rw [hc] at hk
      have hk' := List.mem_of_getElem? hk
      simp only [Option.toList_some, List.mem_singleton] at hk'
      rw [List.take_of_length_le (by omega), hk']
      exact (hi.now q hc).2.2

/-- A password that opens an existing phrase is asked for once: recover and convert ask for a password twice
only if it is to encrypt the key or the new phrase, and only when the phrase entered is already open. -/
theorem c69_asked_once {L : WordList} (hL : L.Lawful) {C : Crypto} (hC : C.Lawful) (env : Env) (rnd : Bytes)
    (ms : List ProcMove) (s : Proc) (k : Nat) (p : Prompt) (hk : s.sys.prompts[k]? = some p)
    (hp : p.confirm = true) :
    (∀ opts, (Proc.start env.fs).run (recoverAndPrintKey L C env opts) rnd ms = some s →
      opts.key.encryptKeys = true ∧ Opened L C env opts.input (s.sys.results.take k)) ∧
    ∀ opts, (Proc.start env.fs).run (decodeAndConvertPhrase L C env opts) rnd ms = some s →
      opts.encryptPhrase = true ∧ Opened L C env opts.input (s.sys.results.take k) := by
  constructor
  · intro opts h
    have := prompt_asked hL hC (IsCommand.recover opts) h hk
    rw [hp] at this
    exact recover_asks hL this
  · intro opts h
    have := prompt_asked hL hC (IsCommand.convert opts) h hk
    rw [hp] at this
    exact convert_asks hL this

/-! ## examples -/

/-- generate with an encrypted phrase: it waits for a password, and with one it succeeds. -/
example :
    (∀ k < [str "pw"].length, ∃ c, (sampleGenerate (str "new") true).outcome (([str "pw"].take k).map .ok)
      sampleRandom = .waits c) ∧
    (sampleGenerate (str "new") true).outcome ([str "pw"].map .ok) sampleRandom = .ok () := by
  refine ⟨fun k hk => ⟨true, ?_⟩, by decide +kernel⟩
  have : k = 0 := by simp at hk; exact hk
  subst this
  decide +kernel

open Verif.Instances

/-- There is a schedule of that run to its end; the phrase in the file opens under what was typed twice. -/
example : ∃ ms s q words mnk o, (Proc.start sampleFS).run (sampleGenerate (str "new") true) sampleRandom ms = some s ∧
    s.Finished (sampleGenerate (str "new") true) sampleRandom (.ok ()) ∧ s.world.stdout ≠ [] ∧
    TypedTwice s.sys q ∧ s.world.fs.read (str "new") = some (phraseText words) ∧
    recoverEncrypted toyWordList toyCrypto words q (some o) = .ok mnk := by
  obtain ⟨ms, s, h, hend, -, hw⟩ := c68_realised sampleEnv _ (.generate _) sampleRandom [.ok [1]]
    (by intro r hr; rw [List.mem_singleton] at hr; exact .inl ⟨[1], by simp, hr⟩)
    (by
      intro k hk
      have : k = 0 := by simp at hk; exact hk
      subst this
      exact ⟨true, by decide +kernel⟩) _
    (show (sampleGenerate (str "new") true).outcome [.ok [1]] sampleRandom = .ok () by decide +kernel) (by simp)
  obtain ⟨mnk, o, key, words, q, n, h1, h2, -, -, -, h5⟩ := c69_generate_phrase toyWordList_lawful toyCrypto_lawful
    sampleEnv sampleFS_wf _ rfl sampleRandom ms s h hend
  refine ⟨ms, s, q, words, mnk, o, h, hend, ?_, h1, h5 (by decide), h2⟩
  rw [hw]
  show (afterGenerate (str "new") true [.ok [1]]).stdout ≠ []
  decide +kernel

/-- An interrupt at the prompt: the command fails, and the restorer goroutine prints a line feed after that. -/
example :
    (((Proc.start sampleFS).run (sampleGenerate (str "new") true) sampleRandom
      [.begin, .at 0 .enterRead, .at 0 .interrupt, .at 0 .receiveDone, .at 0 .cancel, .at 0 .wake, .at 0 .print]).map
      fun s => (s.world.stdout, s.sys.results, s.done, s.sys.prompts.map (·.cancelled))) =
      some ([0x0A], [.err .aborted], 0, [true]) ∧
    (sampleGenerate (str "new") true).outcome [.err .aborted] sampleRandom = .err .aborted ∧
    (sampleGenerate (str "new") true).acts [.err .aborted] sampleRandom = [] := by
  decide +kernel

/-- The phrase of a run of generate as it is typed, one word in a line -/
def retypedPhrase : Bytes :=
  (((afterGenerate (str "new") false []).fs.read (str "new")).getD []).map (fun b => if b = 0x20 then 0x0A else b)

/-- convert with -encrypt-phrase of that phrase: a schedule of it, and what the phrase shown opens with -/
example : ∃ ms s q words dm seed, (Proc.start sampleFS).run (decodeAndConvertPhrase toyWordList toyCrypto
      { sampleEnv with stdin := retypedPhrase } ⟨⟨true, []⟩, [], true⟩) sampleRandom ms = some s ∧
    TypedTwice s.sys q ∧ s.world.shown = [words] ∧ decodeMnemonic toyWordList words = .ok dm ∧
    dm.encrypted = true ∧ dm.decryptSeed toyCrypto.toPhraseCrypto q = .ok seed := by
  obtain ⟨ms, s, h, hend, -, -⟩ := c68_realised { sampleEnv with stdin := retypedPhrase } _
    (.convert (L := toyWordList) (C := toyCrypto) ⟨⟨true, []⟩, [], true⟩) sampleRandom [.ok [1]]
    (by intro r hr; rw [List.mem_singleton] at hr; exact .inl ⟨[1], by simp, hr⟩)
    (by
      intro k hk
      have : k = 0 := by simp at hk; exact hk
      subst this
      exact ⟨true, by decide +kernel⟩) (.ok ()) (by decide +kernel) (by simp)
  obtain ⟨-, -, -, seed, words, dm, q, -, -, -, -, h1, h2, -, h3, h4, h5⟩ := c69_convert_phrase toyWordList_lawful
    toyCrypto_lawful _ _ rfl sampleRandom ms s h hend
  exact ⟨ms, s, q, words, dm, seed, h, h3, h1, h2, h4, h5⟩

end Verif.Props
