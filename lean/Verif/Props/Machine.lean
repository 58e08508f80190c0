import Verif.Proofs.Machine

/-!
# C99: several processes on one machine

`SavesTo args p` says that the command line is one of generate with word file `p`; `FindsThere` that every process told
to write `p` finds it there (and so refuses, C47).
-/

namespace Verif.Props

open Verif.Model Verif.Model.Cli Verif.Spec Verif.Proofs Verif.Instances

/-- However many processes run, at the same time or one after the other, are killed or go on: a file that is there when
none is running keeps its contents and its permissions. -/
theorem c99_kept {L : WordList} (hL : L.Lawful) {C : Crypto} (hC : C.Lawful) (fs : FS) (hwf : fs.Wf)
    (ms : List MachineMove) (p : Bytes) (i : Nat) (h : fs.dir p = some i) :
    let fs' := ((Machine.mk fs []).run L C ms).fs
    fs'.dir p = some i ∧ fs'.data i = fs.data i ∧ fs'.mode i = fs.mode i := by
  have hk := kept_run hL hC ms (kept_start fs)
  obtain ⟨h1, h2⟩ := hk.data i (hwf p i h)
  exact ⟨(hk.dir p (by rw [h]; simp)).trans h, h1, h2⟩

/-- A process that saves its phrase in `p` leaves the same in `p`, prints and shows the same as if it were alone,
whatever other processes do at the same time, if all others that are told to write `p` find it there. -/
theorem c99_undisturbed {L : WordList} (hL : L.Lawful) {C : Crypto} (hC : C.Lawful) (fs : FS) (hwf : fs.Wf)
    (before after : List MachineMove) (env : Env) (args : List Bytes) (prompts : List (Res Bytes)) (rnd : Bytes)
    (p : Bytes) (hp : SavesTo args p) (hnew : fs.read p = none) :
    let m := (Machine.mk fs []).run L C before
    let start : MachineMove := .start env args prompts rnd
    FindsThere L C ⟨fs, []⟩ p before → FindsThere L C (m.move L C start) p after →
    let m' := (Machine.mk fs []).run L C (before ++ start :: after)
    let job := newJob L C { env with fs := m.fs } args prompts rnd
    ∃ j, m'.jobs[m.jobs.length]? = some j ∧ j.acts = job.acts ∧ j.status = job.status ∧
      let alone := (atStart m.fs).run (job.acts.take j.done)
      m'.fs.read p = alone.fs.read p ∧ j.stdout = alone.stdout ∧ j.shown = alone.shown := by
  intro m start hbefore hafter m' job
  have hm' : m' = (m.move L C start).run L C after := run_split L C _ _ _
  have hmv : m.move L C start = { m with jobs := m.jobs ++ [job] } := rfl
  have hacts : ∀ q perm, Act.openTrunc q perm ∈ job.acts → q = p := fun q perm hq => opens_own hL hC _ _ _ _ hp hq
  have hlast : (m.jobs ++ [job])[m.jobs.length]? = some job := by simp
  have hsound : Sound ⟨fs, []⟩ := ⟨hwf, by simp⟩
  have hd := (read_none fs p).1 hnew
  have hmiss : Missing p m := missing_finds hL hC before hbefore ⟨hsound, hd, by simp⟩
  have hown : Owns p m.jobs.length m.fs job.acts job.status (m.move L C start) := by
    rw [hmv]
    refine ⟨sound_move (mv := start) hmiss.sound, ⟨job, hlast, rfl, rfl, rfl, rfl, ?_⟩, fun k' j hk' hj => ?_,
      fun q i hq hi => ?_⟩
    · exact .inl ⟨rfl, rfl, hmiss.dir, hmiss.dir⟩
    · have hj' : j ∈ m.jobs := by
        change (m.jobs ++ [job])[k']? = some j at hj
        have := (List.getElem?_eq_some_iff.1 hj).1
        rw [List.length_append, List.length_singleton] at this
        rw [List.getElem?_append_left (by omega)] at hj
        exact List.mem_of_getElem? hj
      refine ⟨hmiss.acts j hj', fun i n hi hc => ?_⟩
      change m.fs.dir p = some i at hc
      rw [hmiss.dir] at hc; cases hc
    · intro hc
      change m.fs.dir p = some i at hc
      rw [hmiss.dir] at hc; cases hc
  have := owns_run hL hC hacts after hafter hown
  rw [← hm'] at this
  obtain ⟨j, h1, h2, h3, h4, h5, h6⟩ := this.job
  refine ⟨j, h1, h2, h3, ?_, h4, h5⟩
  rcases h6 with ⟨-, -, a3, a4⟩ | ⟨i, i', n, -, -, a3, a4, a5⟩
  · rw [(read_none _ _).2 a3, (read_none _ _).2 a4]
  · unfold FS.read
    rw [a3, a4, Option.map_some, Option.map_some, a5]

/-- So as soon as it has printed anything of the key, `p` holds the phrase that brings the key back, and goes on to do so
for ever. -/
theorem c99_saved {L : WordList} (hL : L.Lawful) {C : Crypto} (hC : C.Lawful) (fs : FS) (hwf : fs.Wf)
    (before after : List MachineMove) (env : Env) (args : List Bytes) (prompts : List (Res Bytes)) (rnd : Bytes)
    (settings : List (Bytes × FlagValue)) (hmeans : Means args (.run .generate settings))
    (hout : (generateOptions settings).outputWordFile ≠ [])
    (hnew : fs.read (generateOptions settings).outputWordFile = none) :
    let opts := generateOptions settings
    let m := (Machine.mk fs []).run L C before
    let start : MachineMove := .start env args prompts rnd
    FindsThere L C ⟨fs, []⟩ opts.outputWordFile before → FindsThere L C (m.move L C start) opts.outputWordFile after →
    let m' := (Machine.mk fs []).run L C (before ++ start :: after)
    ∃ j, m'.jobs[m.jobs.length]? = some j ∧ j.shown = [] ∧ (j.stdout ≠ [] → ∃ words mnk o key,
      m'.fs.read opts.outputWordFile = some (phraseText words) ∧ Complete L.word words ∧
      BringsBack L C words opts.encryptPhrase prompts o mnk ∧
      Trimmed opts.key.name o.name ∧ Trimmed opts.key.email o.email ∧
      IsExport C mnk key ∧ j.stdout <+: env.armor key ++ [0x0A]) := by
  intro opts m start hbefore hafter m'
  obtain ⟨j, h1, h2, h3, h4, h5, h6⟩ := c99_undisturbed hL hC fs hwf before after env args prompts rnd
    opts.outputWordFile ⟨settings, hmeans, rfl, hout⟩ hnew hbefore hafter
  have hacts : (newJob L C { env with fs := m.fs } args prompts rnd).acts =
      (generateAndPrintKey L C { env with fs := m.fs } opts).acts prompts rnd := by
    unfold newJob
    dsimp only
    rw [c58_status L C _ _ args _ hmeans, answer_acts]
    rfl
  rw [hacts] at h4 h5 h6
  have hm : Sound m := sound_run before ⟨hwf, by simp⟩
  obtain ⟨g1, -, g2⟩ := c49_saved_first hL hC { env with fs := m.fs } hm.wf opts hout prompts rnd j.done
  refine ⟨j, h1, h6.trans g1, fun hne => ?_⟩
  rw [h5] at hne
  obtain ⟨words, mnk, o, key, k1, k2, k3, k4, k5, k6, k7⟩ := g2 hne
  exact ⟨words, mnk, o, key, h4.trans k1, k2, k3, k4, k5, k6, by rw [h5]; exact k7⟩

/-- Once generate has ended with success, recover prints the same key from the file at any later time, whatever processes
have been running since then. -/
theorem c99_recovers {L : WordList} (hL : L.Lawful) {C : Crypto} (hC : C.Lawful) (fs : FS) (hwf : fs.Wf)
    (before after : List MachineMove) (env : Env) (args : List Bytes) (prompts : List (Res Bytes)) (rnd : Bytes)
    (settings : List (Bytes × FlagValue)) (hmeans : Means args (.run .generate settings))
    (hout : (generateOptions settings).outputWordFile ≠ []) (hk : (generateOptions settings).key.encryptKeys = false)
    (hnew : fs.read (generateOptions settings).outputWordFile = none) :
    let opts := generateOptions settings
    let m := (Machine.mk fs []).run L C before
    let start : MachineMove := .start env args prompts rnd
    FindsThere L C ⟨fs, []⟩ opts.outputWordFile before → FindsThere L C (m.move L C start) opts.outputWordFile after →
    let m' := (Machine.mk fs []).run L C (before ++ start :: after)
    ∃ j, m'.jobs[m.jobs.length]? = some j ∧ (j.done = j.acts.length → j.status = .exited 0 → ∃ words,
      m'.fs.read opts.outputWordFile = some (phraseText words) ∧
      ∀ (env2 : Env) (args2 : List Bytes) (prompts2 : List (Res Bytes)) (rnd2 : Bytes)
        (settings2 : List (Bytes × FlagValue)), Means args2 (.run .recover settings2) →
        let ropts := recoverOptions settings2
        env2.armor = env.armor → ropts.key = opts.key → ropts.input.inputWordFile = opts.outputWordFile →
        ropts.selfCert = true → ropts.encIndex = 0 → ropts.authIndex = 0 → ropts.sigIndex = 0 →
        (opts.encryptPhrase = true → ∃ (wrong : List Bytes) (pw : Bytes) (rest : List (Res Bytes)),
          prompts2 = wrong.map .ok ++ .ok pw :: rest ∧
          prompts.head? = some (.ok pw) ∧ ∀ p ∈ wrong, WrongPassword L C words p) →
        let r := newJob L C { env2 with fs := m'.fs } args2 prompts2 rnd2
        r.status = .exited 0 ∧ ((atStart m'.fs).run r.acts).stdout = j.stdout) := by
  intro opts m start hbefore hafter m'
  obtain ⟨j, h1, h2, h3, h4, h5, h6⟩ := c99_undisturbed hL hC fs hwf before after env args prompts rnd
    opts.outputWordFile ⟨settings, hmeans, rfl, hout⟩ hnew hbefore hafter
  have hmain := c58_status L C { env with fs := m.fs } ⟨prompts, rnd, []⟩ args _ hmeans
  have hacts : (newJob L C { env with fs := m.fs } args prompts rnd).acts =
      (generateAndPrintKey L C { env with fs := m.fs } opts).acts prompts rnd := by
    unfold newJob
    dsimp only
    rw [hmain, answer_acts]
    rfl
  refine ⟨j, h1, fun hdone hst => ?_⟩
  have hok : (generateAndPrintKey L C { env with fs := m.fs } opts).outcome prompts rnd = .ok () := by
    rw [h3] at hst
    unfold newJob at hst
    dsimp only at hst
    rw [hmain] at hst
    exact answer_zero L C _ _ _ _ hst
  rw [hdone, h2, List.take_length, hacts] at h4 h5 h6
  have hm : Sound m := sound_run before ⟨hwf, by simp⟩
  obtain ⟨words, k1, k2⟩ := c60_same_key hL hC { env with fs := m.fs } hm.wf opts hout hk prompts rnd hok
  refine ⟨words, h4.trans k1, ?_⟩
  intro env2 args2 prompts2 rnd2 settings2 hmeans2 ropts a1 a2 a3 a4 a5 a6 a7 a8
  obtain ⟨b1, b2⟩ := k2 { env2 with fs := m'.fs } ropts prompts2 rnd2 h4 a1 a2 a3 a4 a5 a6 a7 a8
  have hmain2 := c58_status L C { env2 with fs := m'.fs } ⟨prompts2, rnd2, []⟩ args2 _ hmeans2
  have hprog : (program L C { env2 with fs := m'.fs } settings2 .recover ⟨prompts2, rnd2, []⟩).1 = .ok () := b1
  refine ⟨?_, ?_⟩
  · show (main L C { env2 with fs := m'.fs } args2 ⟨prompts2, rnd2, []⟩).2.1 = .exited 0
    rw [hmain2]
    unfold answer
    dsimp only
    rw [← Prod.mk.eta (p := program L C { env2 with fs := m'.fs } settings2 .recover ⟨prompts2, rnd2, []⟩), hprog]
  · rw [h5, ← b2]
    show ((atStart m'.fs).run (main L C { env2 with fs := m'.fs } args2 ⟨prompts2, rnd2, []⟩).2.2.acts).stdout = _
    rw [hmain2, answer_acts]
    rfl

/-- A process that saves its phrase with success, alone -/
theorem saver_alone {L : WordList} (hL : L.Lawful) {C : Crypto} (hC : C.Lawful) (env : Env) (hwf : env.fs.Wf)
    (args : List Bytes) (prompts : List (Res Bytes)) (rnd : Bytes) (p : Bytes) (hp : SavesTo args p)
    (hst : (newJob L C env args prompts rnd).status = .exited 0) :
    let w := (atStart env.fs).run (newJob L C env args prompts rnd).acts
    w.shown = [] ∧ ∃ words, w.fs.read p = some (phraseText words) := by
  obtain ⟨settings, hmeans, rfl, hout⟩ := hp
  have hmain := c58_status L C env ⟨prompts, rnd, []⟩ args _ hmeans
  have hacts : (newJob L C env args prompts rnd).acts =
      (generateAndPrintKey L C env (generateOptions settings)).acts prompts rnd := by
    unfold newJob
    dsimp only
    rw [hmain, answer_acts]
    rfl
  have hok : (generateAndPrintKey L C env (generateOptions settings)).outcome prompts rnd = .ok () := by
    unfold newJob at hst
    dsimp only at hst
    rw [hmain] at hst
    exact answer_zero L C _ _ _ _ hst
  rw [hacts]
  obtain ⟨mnk, key, -, hkey⟩ := (c49_all_or_nothing hL hC env hwf (generateOptions settings) hout prompts rnd).2 hok
  have := c49_saved_first hL hC env hwf (generateOptions settings) hout prompts rnd
    ((generateAndPrintKey L C env (generateOptions settings)).acts prompts rnd).length
  rw [List.take_length] at this
  obtain ⟨g1, -, g2⟩ := this
  refine ⟨g1, ?_⟩
  obtain ⟨words, mnk, o, key, k1, -⟩ := g2 (by rw [hkey]; simp)
  exact ⟨words, k1⟩

/-- But two processes with the same word file that look for it at the same time both find it missing. If the second
writes after the first has ended, both succeed, both keys are printed, and the file holds the second phrase only; the
first has not been shown, and no other file has it. -/
theorem c99_lost {L : WordList} (hL : L.Lawful) {C : Crypto} (hC : C.Lawful) (fs : FS) (hwf : fs.Wf) (p : Bytes)
    (hnew : fs.read p = none) (env1 env2 : Env) (args1 args2 : List Bytes) (prompts1 prompts2 : List (Res Bytes))
    (rnd1 rnd2 : Bytes) (h1 : SavesTo args1 p) (h2 : SavesTo args2 p) :
    let job1 := newJob L C { env1 with fs := fs } args1 prompts1 rnd1
    let job2 := newJob L C { env2 with fs := fs } args2 prompts2 rnd2
    job1.status = .exited 0 → job2.status = .exited 0 →
    let m := (Machine.mk fs []).run L C ([.start env1 args1 prompts1 rnd1, .start env2 args2 prompts2 rnd2] ++
      List.replicate job1.acts.length (.act 0) ++ List.replicate job2.acts.length (.act 1))
    let alone1 := (atStart fs).run job1.acts
    let alone2 := (atStart fs).run job2.acts
    ∃ j1 j2, m.jobs = [j1, j2] ∧
      j1.done = j1.acts.length ∧ j1.status = .exited 0 ∧ j1.stdout = alone1.stdout ∧ j1.shown = [] ∧
      j2.done = j2.acts.length ∧ j2.status = .exited 0 ∧ j2.stdout = alone2.stdout ∧ j2.shown = [] ∧
      (∃ words, alone2.fs.read p = some (phraseText words) ∧ m.fs.read p = some (phraseText words)) ∧
      ∀ q, q ≠ p → m.fs.read q = fs.read q := by
  intro job1 job2 hs1 hs2 m alone1 alone2
  have hd := (read_none fs p).1 hnew
  obtain ⟨a1, words1, -⟩ := saver_alone hL hC { env1 with fs := fs } hwf args1 prompts1 rnd1 p h1 hs1
  obtain ⟨a2, words2, b2⟩ := saver_alone hL hC { env2 with fs := fs } hwf args2 prompts2 rnd2 p h2 hs2
  have hm : m = (Machine.mk fs []).run L C ([.start env1 args1 prompts1 rnd1, .start env2 args2 prompts2 rnd2] ++
      List.replicate job1.acts.length (.act 0) ++ List.replicate job2.acts.length (.act 1)) := rfl
  rw [run_split, run_split] at hm
  have e0 : (Machine.mk fs []).run L C [.start env1 args1 prompts1 rnd1, .start env2 args2 prompts2 rnd2] =
      ⟨fs, [job1, job2]⟩ := rfl
  rw [e0, run_job L C 0 job1.acts.length (m := ⟨fs, [job1, job2]⟩) (j := job1) rfl (by
    show 0 + _ ≤ _; omega)] at hm
  have d1 : job1.done = 0 := rfl
  have d2 : job2.done = 0 := rfl
  have w1 : job1.world fs = atStart fs := rfl
  simp only [d1, List.drop_zero, List.take_length, w1, List.set_cons_zero, Nat.zero_add] at hm
  rw [run_job L C 1 job2.acts.length (j := job2) rfl (by show 0 + _ ≤ _; omega)] at hm
  simp only [d2, List.drop_zero, List.take_length, List.set_cons_succ, List.set_cons_zero, Nat.zero_add] at hm
  have w2 : job2.world ((atStart fs).run job1.acts).fs = atStart alone1.fs := rfl
  rw [w2] at hm
  have hrep : Repeats p ((atStart alone1.fs).run job2.acts) alone2 :=
    repeats_run job2.acts ⟨rfl, rfl, .inl ⟨rfl, rfl, hd⟩⟩ fun q perm hq => opens_own hL hC _ _ _ _ h2 hq
  obtain ⟨r1, r2, r3⟩ := hrep
  have hread : m.fs.read p = alone2.fs.read p := by
    rw [hm]
    rcases r3 with ⟨-, -, c3⟩ | ⟨i, i', n, -, -, c1, c2, c3⟩
    · rw [(read_none _ _).2 c3] at b2
      cases b2
    · show ((atStart alone1.fs).run job2.acts).fs.read p = _
      unfold FS.read
      rw [c1, c2, Option.map_some, Option.map_some, c3]
  have hjobs := congrArg Machine.jobs hm
  refine ⟨_, _, hjobs, rfl, hs1, rfl, a1, rfl, hs2, r1, r2.trans a2, ⟨words2, b2, hread.trans b2⟩, fun q hq => ?_⟩
  have hk : Kept fs m := kept_run hL hC _ (kept_start fs)
  by_cases hq' : fs.dir q = none
  · rw [(read_none fs q).2 hq', read_none, hm]
    show ((atStart alone1.fs).run job2.acts).fs.dir q = none
    rw [run_dir job2.acts _ fun perm hc => hq (opens_own hL hC _ _ _ _ h2 hc)]
    show ((atStart fs).run job1.acts).fs.dir q = none
    rw [run_dir job1.acts _ fun perm hc => hq (opens_own hL hC _ _ _ _ h1 hc)]
    exact hq'
  · obtain ⟨i, hi⟩ := Option.ne_none_iff_exists'.1 hq'
    unfold FS.read
    rw [hk.dir q hq', hi, Option.map_some, Option.map_some, (hk.data i (hwf q i hi)).1]

/-! ## examples -/

/-- `mnemonikey generate -out-word-file new` -/
def saveNew : List Bytes := [str "generate", str "-out-word-file", str "new"]

theorem saveNew_means : Means saveNew (.run .generate [(str "out-word-file", .string (str "new"))]) :=
  .positional (by decide) (.positional _ ((classify_positional _).1 (by decide)))
    (.run (positional := []) .generate (by decide) ((c63_accepted .generate _ _ _).1 (by decide +kernel)))

theorem saveNew_saves : SavesTo saveNew (str "new") := ⟨_, saveNew_means, rfl, by decide⟩

/-- One run of it, with these random bytes -/
def saveNewRun (b : Byte) : MachineMove := .start sampleEnv saveNew [] (List.replicate 40 b)

theorem findsThere_append {L : WordList} {C : Crypto} {m : Machine} {p : Bytes} : ∀ {as bs : List MachineMove},
    FindsThere L C m p as → FindsThere L C (m.run L C as) p bs → FindsThere L C m p (as ++ bs) := by
  intro as bs h1 h2 pre mv post e hn
  rcases List.append_eq_append_iff.1 e with ⟨cs, rfl, e'⟩ | ⟨cs, rfl, e'⟩
  · rw [run_split]
    exact h2 cs mv post e' hn
  · cases cs with
    | nil =>
      rw [List.append_nil] at h2
      exact h2 [] mv post e'.symm hn
    | cons c cs =>
      cases e'
      exact h1 pre mv cs rfl hn

theorem findsThere_acts {L : WordList} {C : Crypto} {m : Machine} {p : Bytes} (n k : Nat) :
    FindsThere L C m p (List.replicate n (.act k)) := by
  intro pre mv post e hn
  have : mv ∈ List.replicate n (MachineMove.act k) := by rw [e]; simp
  rw [List.eq_of_mem_replicate this] at hn
  exact hn.elim

/-- C99: the first has opened the file and written three bytes when the second starts, which is refused; the first goes
on. -/
def inTurn : List MachineMove :=
  List.replicate 4 (.act 0) ++ ([saveNewRun 8] ++ List.replicate 60 (.act 0))

theorem inTurn_finds :
    FindsThere toyWordList toyCrypto ((Machine.mk sampleFS []).move toyWordList toyCrypto (saveNewRun 7)) (str "new")
      inTurn := by
  refine findsThere_append (findsThere_acts 4 0) (findsThere_append ?_ (findsThere_acts _ 0))
  intro pre mv post e _
  cases pre with
  | nil => decide +kernel
  | cons a pre => simp at e

example :
    let m := (Machine.mk sampleFS []).run toyWordList toyCrypto (saveNewRun 7 :: inTurn)
    (m.jobs.map fun j => (decide (j.done = j.acts.length), j.status, decide (j.stdout = []))) =
      [(true, .exited 0, false), (true, .exited 1, true)] := by
  decide +kernel

example := c99_saved toyWordList_lawful toyCrypto_lawful sampleFS sampleFS_wf [] inTurn sampleEnv saveNew []
  (List.replicate 40 7) _ saveNew_means (by decide) (by decide) (findsThere_acts 0 0) inTurn_finds

example := c99_recovers toyWordList_lawful toyCrypto_lawful sampleFS sampleFS_wf [] inTurn sampleEnv saveNew []
  (List.replicate 40 7) _ saveNew_means (by decide) rfl (by decide) (findsThere_acts 0 0) inTurn_finds

/-- Two runs that look at the same time: the phrases differ, and the first is lost. -/
example :
    let job1 := newJob toyWordList toyCrypto sampleEnv saveNew [] (List.replicate 40 7)
    let job2 := newJob toyWordList toyCrypto sampleEnv saveNew [] (List.replicate 40 8)
    job1.status = .exited 0 ∧ job2.status = .exited 0 ∧
    ((atStart sampleFS).run job1.acts).fs.read (str "new") ≠ ((atStart sampleFS).run job2.acts).fs.read (str "new") := by
  decide +kernel

example := c99_lost toyWordList_lawful toyCrypto_lawful sampleFS sampleFS_wf (str "new") (by decide) sampleEnv sampleEnv
  saveNew saveNew [] [] (List.replicate 40 7) (List.replicate 40 8) saveNew_saves saveNew_saves
  (by decide +kernel) (by decide +kernel)

end Verif.Props
