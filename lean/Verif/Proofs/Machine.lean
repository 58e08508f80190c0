import Verif.Model.Cli.Machine
import Verif.Props.Process
import Verif.Props.Private

/-! # Several processes on one machine: invariants -/

namespace Verif.Proofs

open Verif.Model Verif.Model.Cli Verif.Spec Verif.Props

/-- The command line is one of generate, with this word file. -/
def SavesTo (args : List Bytes) (p : Bytes) : Prop :=
  ∃ settings, Means args (.run .generate settings) ∧ (generateOptions settings).outputWordFile = p ∧ p ≠ []

theorem not_open_of_off {as : List Act} (h : as.all offFiles = true) {q : Bytes} {perm : UInt16} :
    Act.openTrunc q perm ∉ as := fun hm => by
  have := List.all_eq_true.1 h _ hm
  cases this

/-- A process opens only the word file it was told to write, and only if it was not there. -/
theorem opens_means {L : WordList} (hL : L.Lawful) {C : Crypto} (hC : C.Lawful) (env : Env) (args : List Bytes)
    (prompts : List (Res Bytes)) (rnd : Bytes) {r : Request} (hr : Means args r) {q : Bytes} {perm : UInt16}
    (h : Act.openTrunc q perm ∈ (newJob L C env args prompts rnd).acts) :
    (∃ settings, r = .run .generate settings ∧ (generateOptions settings).outputWordFile = q ∧ q ≠ []) ∧
      env.fs.dir q = none := by
  unfold newJob at h
  dsimp only at h
  have hout : ∀ b : Bytes, (b.map Act.stdout).all offFiles = true := by
    intro b; simp [List.all_map, offFiles]
  cases r with
  | usage cmd code => rw [c58_no_effect L C env _ args _ hr (by simp)] at h; cases h
  | nothing => rw [c58_no_effect L C env _ args _ hr (by simp)] at h; cases h
  | run cmd settings =>
    rw [c58_status L C env _ args _ hr, answer_acts] at h
    cases cmd with
    | root => cases h
    | recover =>
      change _ ∈ (recoverAndPrintKey L C env (recoverOptions settings) ⟨prompts, rnd, []⟩).2.acts at h
      rcases recover_cases (L := L) (C := C) env (recoverOptions settings) ⟨prompts, rnd, []⟩ with
        ⟨-, ha⟩ | ⟨_, _, _, _, _, _, _, _, key, -, -, -, -, -, -, -, -, -, ha⟩
      · rw [ha] at h; cases h
      · rw [ha] at h
        exact absurd h (not_open_of_off (hout _))
    | convert =>
      change _ ∈ (decodeAndConvertPhrase L C env (convertOptions settings) ⟨prompts, rnd, []⟩).2.acts at h
      exfalso
      rcases convert_cases (L := L) (C := C) env (convertOptions settings) ⟨prompts, rnd, []⟩ with ⟨-, ha⟩ |
        ⟨ws, dm, s, words, st1, hin, -, -, -, ha, e⟩
      · rw [ha] at h; cases h
      · rw [e] at h
        by_cases hf : (convertOptions settings).input.inputWordFile = []
        · rw [if_pos hf, printMnemonic_run, ha] at h
          exact not_open_of_off (by rfl) h
        · rw [if_neg hf] at h
          obtain ⟨er, he⟩ := save_existing env.fs env.save words _ (read_of_input hin hf)
          have h1 := (save_fails (by rw [he]; simp) st1 :
            (save env words (convertOptions settings).input.inputWordFile st1).2 = _ ∧ _).1
          rw [h1, he, ha] at h
          cases h
    | generate =>
      change _ ∈ (generateAndPrintKey L C env (generateOptions settings) ⟨prompts, rnd, []⟩).2.acts at h
      rcases generate_cases hL hC env (generateOptions settings) ⟨prompts, rnd, []⟩ with
        ⟨-, ha⟩ | ⟨_, _, _, _, _, key, ws, st1, h1, -, h2⟩
      · rw [ha] at h; cases h
      · rw [h2] at h
        by_cases hw : (generateOptions settings).outputWordFile = []
        · rw [hw, generateEnd_shown, h1] at h
          refine absurd h (not_open_of_off ?_)
          simp [List.all_map, offFiles]
        · have hsave : ∀ {a}, a ∈ (saveMnemonic env.fs env.save ws (generateOptions settings).outputWordFile).1 →
              a = Act.openTrunc q perm → (∃ settings', Request.run .generate settings = .run .generate settings' ∧
                (generateOptions settings').outputWordFile = q ∧ q ≠ []) ∧ env.fs.dir q = none := by
            rintro a ha rfl
            rcases save_acts env.fs env.save ws (generateOptions settings).outputWordFile with hs | ⟨hd, bs, hs⟩
            · rw [hs] at ha; cases ha
            · rw [hs] at ha
              rcases List.mem_cons.1 ha with ha | ha
              · cases ha
                exact ⟨⟨settings, rfl, rfl, hw⟩, hd⟩
              · obtain ⟨b, -, hb⟩ := List.mem_map.1 ha
                cases hb
          rcases generateEnd_file (env := env) (key := key) (ws := ws) hw st1 with ⟨-, ha⟩ | ⟨-, ha⟩
          · rw [ha, h1] at h
            rcases List.mem_append.1 h with h | h
            · exact hsave h rfl
            · exact absurd h (not_open_of_off (hout _))
          · rw [ha, h1] at h
            exact hsave h rfl

theorem opens {L : WordList} (hL : L.Lawful) {C : Crypto} (hC : C.Lawful) (env : Env) (args : List Bytes)
    (prompts : List (Res Bytes)) (rnd : Bytes) {q : Bytes} {perm : UInt16}
    (h : Act.openTrunc q perm ∈ (newJob L C env args prompts rnd).acts) : SavesTo args q ∧ env.fs.dir q = none := by
  obtain ⟨r, hr⟩ := c58_total args
  obtain ⟨⟨settings, rfl, h1, h2⟩, h3⟩ := opens_means hL hC env args prompts rnd hr h
  exact ⟨⟨settings, hr, h1, h2⟩, h3⟩

theorem opens_own {L : WordList} (hL : L.Lawful) {C : Crypto} (hC : C.Lawful) (env : Env) (args : List Bytes)
    (prompts : List (Res Bytes)) (rnd : Bytes) {p : Bytes} (hp : SavesTo args p) {q : Bytes} {perm : UInt16}
    (h : Act.openTrunc q perm ∈ (newJob L C env args prompts rnd).acts) : q = p := by
  obtain ⟨settings, hr, h1, -⟩ := hp
  obtain ⟨⟨settings', e, h2, -⟩, -⟩ := opens_means hL hC env args prompts rnd hr h
  cases e
  rw [← h1, ← h2]

/-! ## one action -/

theorem step_wf {w : World} (hwf : w.fs.Wf) (hh : ∀ i n, w.handle = some (i, n) → i < w.fs.next) (a : Act) :
    (w.step a).fs.Wf ∧ w.fs.next ≤ (w.step a).fs.next ∧
      ∀ i n, (w.step a).handle = some (i, n) → i < (w.step a).fs.next := by
  cases a with
  | openTrunc p perm =>
    simp only [World.step]
    cases hd : w.fs.dir p with
    | some i =>
      refine ⟨hwf, le_rfl, fun i' n h => ?_⟩
      cases h
      exact hwf p i hd
    | none =>
      refine ⟨fun q i hq => ?_, Nat.le_succ _, fun i n h => ?_⟩
      · simp only [FS.create] at hq ⊢
        by_cases hqp : q = p
        · rw [if_pos hqp] at hq; cases hq; omega
        · rw [if_neg hqp] at hq
          have := hwf q i hq
          omega
      · cases h
        exact Nat.lt_succ_self _
  | write b =>
    simp only [World.step]
    cases hd : w.handle with
    | none => exact ⟨hwf, le_rfl, fun i n h => by rw [hd] at h; cases h⟩
    | some x =>
      obtain ⟨i, n⟩ := x
      refine ⟨hwf, le_rfl, fun i' n' h => ?_⟩
      cases h
      exact hh i n hd
  | stdout b => exact ⟨hwf, le_rfl, hh⟩
  | showPhrase ws => exact ⟨hwf, le_rfl, hh⟩

/-- A machine whose files and open files have been created -/
structure Sound (m : Machine) : Prop where
  wf : m.fs.Wf
  handles : ∀ j ∈ m.jobs, ∀ i n, j.handle = some (i, n) → i < m.fs.next

/-- What a move does: a new process, nothing, or one action of one process -/
theorem move_cases (L : WordList) (C : Crypto) (m : Machine) (mv : MachineMove) :
    (∃ env args prompts rnd, mv = .start env args prompts rnd ∧
      m.move L C mv = { m with jobs := m.jobs ++ [newJob L C { env with fs := m.fs } args prompts rnd] }) ∨
    m.move L C mv = m ∨
    ∃ k j a, mv = .act k ∧ m.jobs[k]? = some j ∧ j.acts[j.done]? = some a ∧ m.move L C mv =
      { fs := ((j.world m.fs).step a).fs
        jobs := m.jobs.set k { j with
          done := j.done + 1
          handle := ((j.world m.fs).step a).handle
          stdout := ((j.world m.fs).step a).stdout
          shown := ((j.world m.fs).step a).shown } } := by
  cases mv with
  | start env args prompts rnd => exact .inl ⟨env, args, prompts, rnd, rfl, rfl⟩
  | act k =>
    right
    cases hj : m.jobs[k]? with
    | none => left; simp only [Machine.move, hj]
    | some j =>
      cases ha : j.acts[j.done]? with
      | none => left; simp only [Machine.move, hj, ha]
      | some a =>
        right
        exact ⟨k, j, a, rfl, hj, ha, by simp only [Machine.move, hj, ha]⟩

theorem sound_move {L : WordList} {C : Crypto} {m : Machine} (h : Sound m) (mv : MachineMove) :
    Sound (m.move L C mv) := by
  rcases move_cases L C m mv with ⟨env, args, prompts, rnd, -, e⟩ | e | ⟨k, j, a, -, hj, ha, e⟩
  · rw [e]
    refine ⟨h.wf, fun j hj i n hi => ?_⟩
    rcases List.mem_append.1 hj with hj | hj
    · exact h.handles j hj i n hi
    · rw [List.mem_singleton.1 hj] at hi
      cases hi
  · rw [e]; exact h
  · rw [e]
    have hmem := List.mem_of_getElem? hj
    obtain ⟨h1, h2, h3⟩ := step_wf (w := j.world m.fs) h.wf (h.handles j hmem) a
    refine ⟨h1, fun j' hj' i n hi => ?_⟩
    rcases List.mem_or_eq_of_mem_set hj' with hj' | rfl
    · exact lt_of_lt_of_le (h.handles j' hj' i n hi) h2
    · exact h3 i n hi

/-! ## files that are there stay as they are -/

structure Kept (fs : FS) (m : Machine) : Prop where
  next : fs.next ≤ m.fs.next
  data : ∀ i, i < fs.next → m.fs.data i = fs.data i ∧ m.fs.mode i = fs.mode i
  dir : ∀ q, fs.dir q ≠ none → m.fs.dir q = fs.dir q
  fresh : ∀ q i, fs.dir q = none → m.fs.dir q = some i → fs.next ≤ i
  acts : ∀ j ∈ m.jobs, ∀ q perm, Act.openTrunc q perm ∈ j.acts → fs.dir q = none
  handles : ∀ j ∈ m.jobs, ∀ i n, j.handle = some (i, n) → fs.next ≤ i

theorem kept_step {fs : FS} {w : World} (a : Act) (hn : fs.next ≤ w.fs.next)
    (hdata : ∀ i, i < fs.next → w.fs.data i = fs.data i ∧ w.fs.mode i = fs.mode i)
    (hdir : ∀ q, fs.dir q ≠ none → w.fs.dir q = fs.dir q)
    (hfresh : ∀ q i, fs.dir q = none → w.fs.dir q = some i → fs.next ≤ i)
    (ha : ∀ q perm, a = .openTrunc q perm → fs.dir q = none) (hh : ∀ i n, w.handle = some (i, n) → fs.next ≤ i) :
    fs.next ≤ (w.step a).fs.next ∧
    (∀ i, i < fs.next → (w.step a).fs.data i = fs.data i ∧ (w.step a).fs.mode i = fs.mode i) ∧
    (∀ q, fs.dir q ≠ none → (w.step a).fs.dir q = fs.dir q) ∧
    (∀ q i, fs.dir q = none → (w.step a).fs.dir q = some i → fs.next ≤ i) ∧
    ∀ i n, (w.step a).handle = some (i, n) → fs.next ≤ i := by
  cases a with
  | openTrunc p perm =>
    have hp := ha p perm rfl
    simp only [World.step]
    cases hd : w.fs.dir p with
    | some i0 =>
      have hi0 := hfresh p i0 hp hd
      refine ⟨hn, fun i hi => ?_, hdir, hfresh, fun i n h => ?_⟩
      · refine ⟨?_, (hdata i hi).2⟩
        show (w.fs.setData i0 []).data i = _
        rw [setData_other _ _ (by omega)]
        exact (hdata i hi).1
      · cases h; exact hi0
    | none =>
      refine ⟨le_trans hn (Nat.le_succ _), fun i hi => ?_, fun q hq => ?_, fun q i hq h => ?_, fun i n h => ?_⟩
      · simp only [FS.create]
        rw [if_neg (by omega), if_neg (by omega)]
        exact hdata i hi
      · simp only [FS.create]
        rw [if_neg (by rintro rfl; exact hq hp)]
        exact hdir q hq
      · simp only [FS.create] at h
        by_cases hqp : q = p
        · rw [if_pos hqp] at h; cases h; exact hn
        · rw [if_neg hqp] at h; exact hfresh q i hq h
      · cases h; exact hn
  | write b =>
    simp only [World.step]
    cases hd : w.handle with
    | none => exact ⟨hn, hdata, hdir, hfresh, fun i n h => by rw [hd] at h; cases h⟩
    | some x =>
      obtain ⟨i0, n0⟩ := x
      have hi0 := hh i0 n0 hd
      refine ⟨hn, fun i hi => ?_, hdir, hfresh, fun i n h => ?_⟩
      · refine ⟨?_, (hdata i hi).2⟩
        show (w.fs.setData i0 _).data i = _
        rw [setData_other _ _ (by omega)]
        exact (hdata i hi).1
      · cases h; exact hi0
  | stdout b => exact ⟨hn, hdata, hdir, hfresh, hh⟩
  | showPhrase ws => exact ⟨hn, hdata, hdir, hfresh, hh⟩

theorem kept_move {L : WordList} (hL : L.Lawful) {C : Crypto} (hC : C.Lawful) {fs : FS} {m : Machine} (h : Kept fs m)
    (mv : MachineMove) : Kept fs (m.move L C mv) := by
  rcases move_cases L C m mv with ⟨env, args, prompts, rnd, -, e⟩ | e | ⟨k, j, a, -, hj, ha, e⟩
  · rw [e]
    refine ⟨h.next, h.data, h.dir, h.fresh, fun j hj q perm hq => ?_, fun j hj i n hi => ?_⟩
    · rcases List.mem_append.1 hj with hj | hj
      · exact h.acts j hj q perm hq
      · rw [List.mem_singleton.1 hj] at hq
        have h2 : m.fs.dir q = none := (opens hL hC _ _ _ _ hq).2
        by_contra hc
        rw [h.dir q hc] at h2
        exact hc h2
    · rcases List.mem_append.1 hj with hj | hj
      · exact h.handles j hj i n hi
      · rw [List.mem_singleton.1 hj] at hi
        cases hi
  · rw [e]; exact h
  · rw [e]
    have hmem := List.mem_of_getElem? hj
    have hamem := List.mem_of_getElem? ha
    obtain ⟨h1, h2, h3, h4, h5⟩ := kept_step (w := j.world m.fs) a h.next h.data h.dir h.fresh
      (fun q perm hq => h.acts j hmem q perm (hq ▸ hamem)) (h.handles j hmem)
    refine ⟨h1, h2, h3, h4, fun j' hj' q perm hq => ?_, fun j' hj' i n hi => ?_⟩
    · rcases List.mem_or_eq_of_mem_set hj' with hj' | rfl
      · exact h.acts j' hj' q perm hq
      · exact h.acts j hmem q perm hq
    · rcases List.mem_or_eq_of_mem_set hj' with hj' | rfl
      · exact h.handles j' hj' i n hi
      · exact h5 i n hi

theorem kept_run {L : WordList} (hL : L.Lawful) {C : Crypto} (hC : C.Lawful) {fs : FS} :
    ∀ (ms : List MachineMove) {m : Machine}, Kept fs m → Kept fs (m.run L C ms)
  | [], _, h => h
  | mv :: ms, _, h => kept_run hL hC ms (kept_move hL hC h mv)

theorem kept_start (fs : FS) : Kept fs ⟨fs, []⟩ := by
  refine ⟨le_rfl, fun _ _ => ⟨rfl, rfl⟩, fun _ _ => rfl, fun q i h1 h2 => ?_, by simp, by simp⟩
  change fs.dir q = some i at h2
  rw [h1] at h2
  cases h2

/-! ## a word file that one process only is told to write -/

/-- A start of another process with this word file -/
def Names (p : Bytes) : MachineMove → Prop
  | .start _ args _ _ => SavesTo args p
  | .act _ => False

/-- The file is not there, and nobody will make it. -/
structure Missing (p : Bytes) (m : Machine) : Prop where
  sound : Sound m
  dir : m.fs.dir p = none
  acts : ∀ j ∈ m.jobs, ∀ perm, Act.openTrunc p perm ∉ j.acts

theorem step_dir (w : World) {p : Bytes} {a : Act} (ha : ∀ perm, a ≠ .openTrunc p perm) :
    (w.step a).fs.dir p = w.fs.dir p := by
  cases a with
  | openTrunc q perm =>
    simp only [World.step]
    cases hd : w.fs.dir q with
    | some i => rfl
    | none =>
      simp only [FS.create]
      rw [if_neg (by rintro rfl; exact ha perm rfl)]
  | write b =>
    simp only [World.step]
    cases w.handle with
    | none => rfl
    | some x => rfl
  | stdout b => rfl
  | showPhrase ws => rfl

theorem missing_move {L : WordList} (hL : L.Lawful) {C : Crypto} (hC : C.Lawful) {p : Bytes} {m : Machine}
    (h : Missing p m) (mv : MachineMove) (hmv : ¬ Names p mv) : Missing p (m.move L C mv) := by
  have hs := sound_move (L := L) (C := C) h.sound mv
  rcases move_cases L C m mv with ⟨env, args, prompts, rnd, hmv', e⟩ | e | ⟨k, j, a, -, hj, ha, e⟩
  · rw [e] at hs ⊢
    refine ⟨hs, h.dir, fun j hj perm hq => ?_⟩
    rcases List.mem_append.1 hj with hj | hj
    · exact h.acts j hj perm hq
    · rw [List.mem_singleton.1 hj] at hq
      subst hmv'
      exact hmv (opens hL hC _ _ _ _ hq).1
  · rw [e]; exact h
  · rw [e] at hs ⊢
    have hmem := List.mem_of_getElem? hj
    refine ⟨hs, ?_, fun j' hj' perm hq => ?_⟩
    · show ((j.world m.fs).step a).fs.dir p = none
      rw [step_dir]
      · exact h.dir
      · rintro perm rfl
        exact h.acts j hmem perm (List.mem_of_getElem? ha)
    · rcases List.mem_or_eq_of_mem_set hj' with hj' | rfl
      · exact h.acts j' hj' perm hq
      · exact h.acts j hmem perm hq

theorem missing_run {L : WordList} (hL : L.Lawful) {C : Crypto} (hC : C.Lawful) {p : Bytes} :
    ∀ (ms : List MachineMove) {m : Machine}, (∀ mv ∈ ms, ¬ Names p mv) → Missing p m → Missing p (m.run L C ms)
  | [], _, _, h => h
  | mv :: ms, _, hms, h => missing_run hL hC ms (fun x hx => hms x (List.mem_cons_of_mem _ hx))
      (missing_move hL hC h mv (hms mv List.mem_cons_self))

/-- The world of a process that runs alone, and the shared files with its open file, are alike as far as `p` goes. -/
def Alike (p : Bytes) (fs : FS) (handle : Option (Nat × Nat)) (w : World) : Prop :=
  (handle = none ∧ w.handle = none ∧ fs.dir p = none ∧ w.fs.dir p = none) ∨
  ∃ i i' n, handle = some (i, n) ∧ w.handle = some (i', n) ∧ fs.dir p = some i ∧ w.fs.dir p = some i' ∧
    fs.data i = w.fs.data i'

theorem alike_step {p : Bytes} {v w : World} (h : Alike p v.fs v.handle w) {a : Act}
    (ha : ∀ q perm, a = .openTrunc q perm → q = p) : Alike p (v.step a).fs (v.step a).handle (w.step a) := by
  cases a with
  | openTrunc q perm =>
    obtain rfl := ha q perm rfl
    rcases h with ⟨-, -, h3, h4⟩ | ⟨i, i', n, h1, h2, h3, h4, h5⟩
    · right
      simp only [World.step, h3, h4]
      exact ⟨_, _, _, rfl, rfl, by simp [FS.create], by simp [FS.create], by simp [FS.create]⟩
    · right
      simp only [World.step, h3, h4]
      exact ⟨_, _, _, rfl, rfl, h3, h4, by rw [setData_same, setData_same]⟩
  | write b =>
    rcases h with ⟨h1, h2, h3, h4⟩ | ⟨i, i', n, h1, h2, h3, h4, h5⟩
    · left
      simp only [World.step, h1, h2]
      exact ⟨trivial, trivial, h3, h4⟩
    · right
      simp only [World.step, h1, h2]
      exact ⟨_, _, _, rfl, rfl, h3, h4, by rw [setData_same, setData_same, h5]⟩
  | stdout b => exact h
  | showPhrase ws => exact h

/-- Process `k` is the only one that writes the file; it started with files `fs`. -/
structure Owns (p : Bytes) (k : Nat) (fs : FS) (acts : List Act) (status : Status) (m : Machine) : Prop where
  sound : Sound m
  job : ∃ j, m.jobs[k]? = some j ∧ j.acts = acts ∧ j.status = status ∧
    j.stdout = ((atStart fs).run (acts.take j.done)).stdout ∧ j.shown = ((atStart fs).run (acts.take j.done)).shown ∧
    Alike p m.fs j.handle ((atStart fs).run (acts.take j.done))
  others : ∀ k' j, k' ≠ k → m.jobs[k']? = some j → (∀ perm, Act.openTrunc p perm ∉ j.acts) ∧
    ∀ i n, j.handle = some (i, n) → m.fs.dir p ≠ some i
  link : ∀ q i, q ≠ p → m.fs.dir q = some i → m.fs.dir p ≠ some i

theorem step_out (v w : World) (a : Act) (h1 : v.stdout = w.stdout) (h2 : v.shown = w.shown) :
    (v.step a).stdout = (w.step a).stdout ∧ (v.step a).shown = (w.step a).shown := by
  cases a with
  | openTrunc q perm => simp only [World.step]; constructor <;> split <;> split <;> assumption
  | write b => simp only [World.step]; constructor <;> split <;> split <;> assumption
  | stdout b => simp [World.step, h1, h2]
  | showPhrase ws => simp [World.step, h1, h2]

theorem owns_move {L : WordList} (hL : L.Lawful) {C : Crypto} (hC : C.Lawful) {p : Bytes} {k : Nat} {fs : FS}
    {acts : List Act} {status : Status} (hacts : ∀ q perm, Act.openTrunc q perm ∈ acts → q = p) {m : Machine}
    (h : Owns p k fs acts status m) (mv : MachineMove) (hmv : Names p mv → m.fs.dir p ≠ none) :
    Owns p k fs acts status (m.move L C mv) := by
  have hs := sound_move (L := L) (C := C) h.sound mv
  obtain ⟨j0, hj0, e1, e2, e3, e4, e5⟩ := h.job
  have hk : k < m.jobs.length := (List.getElem?_eq_some_iff.1 hj0).1
  rcases move_cases L C m mv with ⟨env, args, prompts, rnd, hmv', e⟩ | e | ⟨k', j, a, -, hj, ha, e⟩
  · rw [e] at hs ⊢
    refine ⟨hs, ⟨j0, ?_, e1, e2, e3, e4, e5⟩, fun k' j hk' hj => ?_, h.link⟩
    · show (m.jobs ++ [_])[k]? = _
      rw [List.getElem?_append_left hk, hj0]
    · change (m.jobs ++ [_])[k']? = _ at hj
      by_cases hlt : k' < m.jobs.length
      · rw [List.getElem?_append_left hlt] at hj
        exact h.others k' j hk' hj
      · rw [List.getElem?_append_right (by omega)] at hj
        have hj' : j = newJob L C { env with fs := m.fs } args prompts rnd := by
          have := List.mem_of_getElem? hj
          exact List.mem_singleton.1 this
        subst hj'
        refine ⟨fun perm hq => ?_, fun i n hi => ?_⟩
        · subst hmv'
          obtain ⟨h1, h2⟩ := opens hL hC _ _ _ _ hq
          exact hmv h1 h2
        · cases hi
  · rw [e]; exact h
  · rw [e] at hs ⊢
    by_cases hkk : k' = k
    · subst hkk
      rw [hj0] at hj
      cases hj
      have hacc : (atStart fs).run (acts.take (j0.done + 1)) = ((atStart fs).run (acts.take j0.done)).step a := by
        rw [e1] at ha
        rw [List.take_add_one, ha, run_append]
        rfl
      have hopen : ∀ q perm, a = .openTrunc q perm → q = p := by
        rintro q perm rfl
        exact hacts q perm (e1 ▸ List.mem_of_getElem? ha)
      have hal : Alike p ((j0.world m.fs).step a).fs ((j0.world m.fs).step a).handle
          (((atStart fs).run (acts.take j0.done)).step a) := alike_step (v := j0.world m.fs) e5 hopen
      obtain ⟨o1, o2⟩ := step_out (j0.world m.fs) ((atStart fs).run (acts.take j0.done)) a e3 e4
      -- the file of `p` is the one it was, or new
      have hdir : ((j0.world m.fs).step a).fs.dir p = m.fs.dir p ∨
          ((j0.world m.fs).step a).fs.dir p = some m.fs.next := by
        cases a with
        | openTrunc q perm =>
          obtain rfl := hopen q perm rfl
          simp only [World.step, Job.world]
          cases hd : m.fs.dir q with
          | some i => left; exact hd
          | none => right; simp [FS.create]
        | write b => left; exact step_dir _ (by simp)
        | stdout b => left; rfl
        | showPhrase ws => left; rfl
      refine ⟨hs, ⟨_, List.getElem?_set_self hk, e1, e2, ?_, ?_, ?_⟩, fun k2 j hk2 hj => ?_, fun q i hq hi => ?_⟩
      · show ((j0.world m.fs).step a).stdout = _
        rw [hacc]; exact o1
      · show ((j0.world m.fs).step a).shown = _
        rw [hacc]; exact o2
      · show Alike p _ _ ((atStart fs).run (acts.take (j0.done + 1)))
        rw [hacc]; exact hal
      · change (m.jobs.set k' _)[k2]? = _ at hj
        rw [List.getElem?_set_ne (Ne.symm hk2)] at hj
        obtain ⟨g1, g2⟩ := h.others k2 j hk2 hj
        refine ⟨g1, fun i n hi => ?_⟩
        rcases hdir with hd | hd
        · show ((j0.world m.fs).step a).fs.dir p ≠ _
          rw [hd]; exact g2 i n hi
        · show ((j0.world m.fs).step a).fs.dir p ≠ _
          rw [hd]
          have := h.sound.handles j (List.mem_of_getElem? hj) i n hi
          intro hc; cases hc; omega
      · have hq' : m.fs.dir q = some i := by
          have := step_dir (j0.world m.fs) (p := q) (a := a) (by
            rintro perm rfl; exact hq (hopen q perm rfl))
          rw [← show ((j0.world m.fs).step a).fs.dir q = some i from hi, this]; rfl
        show ((j0.world m.fs).step a).fs.dir p ≠ _
        rcases hdir with hd | hd
        · rw [hd]; exact h.link q i hq hq'
        · rw [hd]
          have := h.sound.wf q i hq'
          intro hc; cases hc; omega
    · obtain ⟨g1, g2⟩ := h.others k' j hkk hj
      have hnot : ∀ perm, a ≠ .openTrunc p perm := by
        rintro perm rfl
        exact g1 perm (List.mem_of_getElem? ha)
      have hdp : ((j.world m.fs).step a).fs.dir p = m.fs.dir p := step_dir _ hnot
      have hjh := h.sound.handles j (List.mem_of_getElem? hj)
      -- neither the contents of the file of `p` change, nor is it opened or linked
      have hrest : (∀ i, m.fs.dir p = some i → ((j.world m.fs).step a).fs.data i = m.fs.data i) ∧
          (∀ i n, ((j.world m.fs).step a).handle = some (i, n) → m.fs.dir p ≠ some i) ∧
          ∀ q i, q ≠ p → ((j.world m.fs).step a).fs.dir q = some i → m.fs.dir p ≠ some i := by
        cases a with
        | openTrunc q perm =>
          have hqp : q ≠ p := by rintro rfl; exact hnot perm rfl
          simp only [World.step, Job.world]
          cases hd : m.fs.dir q with
          | some i0 =>
            have hl := h.link q i0 hqp hd
            refine ⟨fun i hi => setData_other _ _ (by rintro rfl; exact hl hi), fun i n hi => ?_, h.link⟩
            cases hi; exact hl
          | none =>
            refine ⟨fun i hi => ?_, fun i n hi => ?_, fun q' i hq' hi => ?_⟩
            · have := h.sound.wf p i hi
              simp only [FS.create]
              rw [if_neg (by omega)]
            · cases hi
              intro hc
              exact absurd (h.sound.wf p _ hc) (lt_irrefl _)
            · simp only [FS.create] at hi
              by_cases hq2 : q' = q
              · rw [if_pos hq2] at hi
                cases hi
                intro hc
                exact absurd (h.sound.wf p _ hc) (lt_irrefl _)
              · rw [if_neg hq2] at hi
                exact h.link q' i hq' hi
        | write b =>
          simp only [World.step, Job.world]
          cases hd : j.handle with
          | none =>
            refine ⟨fun _ _ => rfl, fun i n hi => ?_, h.link⟩
            cases hi
          | some x =>
            obtain ⟨i0, n0⟩ := x
            have hl := g2 i0 n0 hd
            refine ⟨fun i hi => setData_other _ _ (by rintro rfl; exact hl hi), fun i n hi => ?_, h.link⟩
            cases hi; exact hl
        | stdout b => exact ⟨fun _ _ => rfl, g2, h.link⟩
        | showPhrase ws => exact ⟨fun _ _ => rfl, g2, h.link⟩
      obtain ⟨r1, r2, r3⟩ := hrest
      refine ⟨hs, ⟨j0, ?_, e1, e2, e3, e4, ?_⟩, fun k2 j2 hk2 hj2 => ?_, fun q i hq hi => ?_⟩
      · show (m.jobs.set k' _)[k]? = _
        rw [List.getElem?_set_ne hkk, hj0]
      · rcases e5 with ⟨a1, a2, a3, a4⟩ | ⟨i, i', n, a1, a2, a3, a4, a5⟩
        · exact .inl ⟨a1, a2, hdp.trans a3, a4⟩
        · exact .inr ⟨i, i', n, a1, a2, hdp.trans a3, a4, (r1 i a3).trans a5⟩
      · show _ ∧ ∀ i n, _ → ((j.world m.fs).step a).fs.dir p ≠ some i
        rw [hdp]
        change (m.jobs.set k' _)[k2]? = _ at hj2
        by_cases hkk2 : k2 = k'
        · subst hkk2
          rw [List.getElem?_set_self (List.getElem?_eq_some_iff.1 hj).1] at hj2
          cases hj2
          exact ⟨g1, r2⟩
        · rw [List.getElem?_set_ne (Ne.symm hkk2)] at hj2
          exact h.others k2 j2 hk2 hj2
      · show ((j.world m.fs).step a).fs.dir p ≠ some i
        rw [hdp]
        exact r3 q i hq hi

/-- Every process that is told to write the file finds it there. -/
def FindsThere (L : WordList) (C : Crypto) (m : Machine) (p : Bytes) (ms : List MachineMove) : Prop :=
  ∀ pre mv post, ms = pre ++ mv :: post → Names p mv → (m.run L C pre).fs.read p ≠ none

theorem findsThere_tail {L : WordList} {C : Crypto} {m : Machine} {p : Bytes} {mv : MachineMove} {ms : List MachineMove}
    (h : FindsThere L C m p (mv :: ms)) : FindsThere L C (m.move L C mv) p ms := by
  intro pre mv' post e hn
  exact h (mv :: pre) mv' post (by rw [e]; rfl) hn

theorem read_none (fs : FS) (p : Bytes) : fs.read p = none ↔ fs.dir p = none := by
  unfold FS.read
  rw [Option.map_eq_none_iff]

theorem owns_run {L : WordList} (hL : L.Lawful) {C : Crypto} (hC : C.Lawful) {p : Bytes} {k : Nat} {fs : FS}
    {acts : List Act} {status : Status} (hacts : ∀ q perm, Act.openTrunc q perm ∈ acts → q = p) :
    ∀ (ms : List MachineMove) {m : Machine}, FindsThere L C m p ms → Owns p k fs acts status m →
      Owns p k fs acts status (m.run L C ms)
  | [], _, _, h => h
  | mv :: ms, m, hms, h => owns_run hL hC hacts ms (findsThere_tail hms)
      (owns_move hL hC hacts h mv fun hn hd => hms [] mv ms rfl hn ((read_none m.fs p).2 hd))

theorem missing_finds {L : WordList} (hL : L.Lawful) {C : Crypto} (hC : C.Lawful) {p : Bytes} :
    ∀ (ms : List MachineMove) {m : Machine}, FindsThere L C m p ms → Missing p m → Missing p (m.run L C ms)
  | [], _, _, h => h
  | mv :: ms, m, hms, h => missing_finds hL hC ms (findsThere_tail hms)
      (missing_move hL hC h mv fun hn => hms [] mv ms rfl hn ((read_none m.fs p).2 h.dir))

theorem run_split (L : WordList) (C : Crypto) (m : Machine) (as bs : List MachineMove) :
    m.run L C (as ++ bs) = (m.run L C as).run L C bs := by
  simp [Machine.run]

theorem sound_run {L : WordList} {C : Crypto} : ∀ (ms : List MachineMove) {m : Machine}, Sound m → Sound (m.run L C ms)
  | [], _, h => h
  | mv :: ms, _, h => sound_run ms (sound_move h mv)

/-! ## one process alone -/

/-- Two worlds in which the same process has done the same -/
def Repeats (p : Bytes) (v w : World) : Prop :=
  v.stdout = w.stdout ∧ v.shown = w.shown ∧ ((v.handle = none ∧ w.handle = none ∧ w.fs.dir p = none) ∨
    ∃ i i' n, v.handle = some (i, n) ∧ w.handle = some (i', n) ∧ v.fs.dir p = some i ∧ w.fs.dir p = some i' ∧
      v.fs.data i = w.fs.data i')

theorem repeats_step {p : Bytes} {v w : World} (h : Repeats p v w) {a : Act}
    (ha : ∀ q perm, a = .openTrunc q perm → q = p) : Repeats p (v.step a) (w.step a) := by
  obtain ⟨h1, h2, h3⟩ := h
  obtain ⟨o1, o2⟩ := step_out v w a h1 h2
  refine ⟨o1, o2, ?_⟩
  cases a with
  | openTrunc q perm =>
    obtain rfl := ha q perm rfl
    right
    rcases h3 with ⟨-, -, h4⟩ | ⟨i, i', n, -, -, h5, h4, -⟩
    · cases hv : v.fs.dir q with
      | none =>
        simp only [World.step, hv, h4]
        exact ⟨_, _, _, rfl, rfl, by simp [FS.create], by simp [FS.create], by simp [FS.create]⟩
      | some i =>
        simp only [World.step, hv, h4]
        exact ⟨_, _, _, rfl, rfl, hv, by simp [FS.create], by rw [setData_same]; simp [FS.create]⟩
    · simp only [World.step, h5, h4]
      exact ⟨_, _, _, rfl, rfl, h5, h4, by rw [setData_same, setData_same]⟩
  | write b =>
    rcases h3 with ⟨h3, h4, h5⟩ | ⟨i, i', n, h3, h4, h5, h6, h7⟩
    · left
      simp only [World.step, h3, h4]
      exact ⟨trivial, trivial, h5⟩
    · right
      simp only [World.step, h3, h4]
      exact ⟨_, _, _, rfl, rfl, h5, h6, by rw [setData_same, setData_same, h7]⟩
  | stdout b => exact h3
  | showPhrase ws => exact h3

theorem repeats_run {p : Bytes} : ∀ (as : List Act) {v w : World}, Repeats p v w →
    (∀ q perm, Act.openTrunc q perm ∈ as → q = p) → Repeats p (v.run as) (w.run as)
  | [], _, _, h, _ => h
  | _ :: as, _, _, h, ha => repeats_run as (repeats_step h fun q perm e => ha q perm (e ▸ List.mem_cons_self))
      fun q perm hq => ha q perm (List.mem_cons_of_mem _ hq)

theorem run_dir {q : Bytes} : ∀ (as : List Act) (w : World), (∀ perm, Act.openTrunc q perm ∉ as) →
    (w.run as).fs.dir q = w.fs.dir q
  | [], _, _ => rfl
  | a :: as, w, h => by
    rw [run_cons, run_dir as _ fun perm hq => h perm (List.mem_cons_of_mem _ hq), step_dir]
    rintro perm rfl
    exact h perm List.mem_cons_self

/-- One process acts, the others wait. -/
theorem run_job (L : WordList) (C : Crypto) (k : Nat) : ∀ (n : Nat) {m : Machine} {j : Job}, m.jobs[k]? = some j →
    j.done + n ≤ j.acts.length →
    let w := (j.world m.fs).run ((j.acts.drop j.done).take n)
    m.run L C (List.replicate n (.act k)) = { fs := w.fs, jobs := m.jobs.set k { j with
      done := j.done + n, handle := w.handle, stdout := w.stdout, shown := w.shown } }
  | 0, m, j, hj, _ => by
    obtain ⟨hk, hjk⟩ := List.getElem?_eq_some_iff.1 hj
    simp only [List.take_zero, List.replicate_zero, Machine.run, List.foldl_nil, World.run, Job.world, Nat.add_zero]
    have : m.jobs.set k j = m.jobs := by rw [← hjk]; exact List.set_getElem_self hk
    cases m
    simp only at this ⊢
    rw [this]
  | n + 1, m, j, hj, hn => by
    have hlt : j.done < j.acts.length := by omega
    have ha : j.acts[j.done]? = some j.acts[j.done] := List.getElem?_eq_getElem hlt
    have hk := (List.getElem?_eq_some_iff.1 hj).1
    rw [List.replicate_succ]
    show (m.move L C (.act k)).run L C _ = _
    have hmv : m.move L C (.act k) = { fs := ((j.world m.fs).step j.acts[j.done]).fs, jobs := m.jobs.set k { j with
        done := j.done + 1
        handle := ((j.world m.fs).step j.acts[j.done]).handle
        stdout := ((j.world m.fs).step j.acts[j.done]).stdout
        shown := ((j.world m.fs).step j.acts[j.done]).shown } } := by simp only [Machine.move, hj, ha]
    rw [hmv]
    have := run_job L C k n (m := { fs := ((j.world m.fs).step j.acts[j.done]).fs, jobs := m.jobs.set k { j with
        done := j.done + 1
        handle := ((j.world m.fs).step j.acts[j.done]).handle
        stdout := ((j.world m.fs).step j.acts[j.done]).stdout
        shown := ((j.world m.fs).step j.acts[j.done]).shown } }) (List.getElem?_set_self hk)
      (by show j.done + 1 + n ≤ j.acts.length; omega)
    rw [this]
    dsimp only [Job.world]
    rw [List.drop_eq_getElem_cons hlt, List.take_succ_cons, run_cons, List.set_set]
    simp only [Nat.add_assoc, Nat.add_comm 1 n]

end Verif.Proofs
