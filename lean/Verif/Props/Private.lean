import Verif.Props.Files
import Verif.Props.Concurrent

/-!
# Permissions of word files (C85)
-/

namespace Verif.Props

open Verif.Model Verif.Model.Cli Verif.Spec Verif.Proofs Verif.Instances

/-- Neither the group nor anybody else may read, write or execute. -/
def OwnerOnly (mode : UInt16) : Prop := mode &&& 0o077 = 0

instance (mode : UInt16) : Decidable (OwnerOnly mode) := inferInstanceAs (Decidable (_ = _))

theorem ownerOnly_600 (u : UInt16) : OwnerOnly (0o600 &&& u) := by
  unfold OwnerOnly
  rw [UInt16.and_assoc, UInt16.and_comm u, ← UInt16.and_assoc, show (0o600 : UInt16) &&& 0o077 = 0 from by decide,
    UInt16.zero_and]

/-! ## one call of saveMnemonic -/

theorem step_modes (w : World) (a : Act) (ha : ∀ p perm, a = .openTrunc p perm → perm = 0o600) :
    w.fs.next ≤ (w.step a).fs.next ∧
    (∀ j, j < w.fs.next → (w.step a).fs.mode j = w.fs.mode j) ∧
    ∀ j, w.fs.next ≤ j → j < (w.step a).fs.next → OwnerOnly ((w.step a).fs.mode j) := by
  cases a with
  | openTrunc p perm =>
    obtain rfl := ha p perm rfl
    simp only [World.step]
    cases w.fs.dir p with
    | some i => exact ⟨le_rfl, fun _ _ => rfl, fun j h1 h2 => absurd h2 (by simpa [FS.setData] using h1)⟩
    | none =>
      refine ⟨Nat.le_succ _, fun j hj => ?_, fun j h1 h2 => ?_⟩
      · simp [FS.create, Nat.ne_of_lt hj]
      · have : j = w.fs.next := by simp only [FS.create] at h2; omega
        simpa [FS.create, this] using ownerOnly_600 _
  | write b =>
    simp only [World.step]
    cases w.handle with
    | none => exact ⟨le_rfl, fun _ _ => rfl, fun j h1 h2 => absurd h2 (by simpa using h1)⟩
    | some x => exact ⟨le_rfl, fun _ _ => rfl, fun j h1 h2 => absurd h2 (by simpa [FS.setData] using h1)⟩
  | stdout b => exact ⟨le_rfl, fun _ _ => rfl, fun j h1 h2 => absurd h2 (by simpa [World.step] using h1)⟩
  | showPhrase ws => exact ⟨le_rfl, fun _ _ => rfl, fun j h1 h2 => absurd h2 (by simpa [World.step] using h1)⟩

theorem save_perm (fs : FS) (env : SaveEnv) (words : List Bytes) (p : Bytes) :
    ∀ a ∈ (saveMnemonic fs env words p).1, ∀ q perm, a = .openTrunc q perm → perm = 0o600 := by
  rcases save_acts fs env words p with h | ⟨-, bs, h⟩
  · rw [h]; intro a ha; cases ha
  · rw [h]
    rintro a ha q perm rfl
    rcases List.mem_cons.mp ha with h1 | h1
    · cases h1; rfl
    · obtain ⟨b, -, hb⟩ := List.mem_map.mp h1
      cases hb

/-- No action of a call of saveMnemonic, whatever other processes do in between, changes the permissions of
a file that is there, and a file that it creates is the owner's only, whatever the umask. -/
theorem c85_actions (w : World) (env : SaveEnv) (words : List Bytes) (p : Bytes) (evs : List Event)
    (h : Interleaves w env words p evs) (before after : List Event) (a : Act)
    (he : evs = before ++ .own a :: after) :
    let w1 := before.foldl happen w
    w1.fs.next ≤ (w1.step a).fs.next ∧
    (∀ j, j < w1.fs.next → (w1.step a).fs.mode j = w1.fs.mode j) ∧
    ∀ j, w1.fs.next ≤ j → j < (w1.step a).fs.next → OwnerOnly ((w1.step a).fs.mode j) := by
  refine step_modes _ _ (save_perm w.fs env words p a (h.1.subset ?_))
  subst he
  simp [Event.own?]

/-- Other processes do not change the permissions of a file that is there. -/
def Event.KeepsModes : Event → Prop
  | .own _ => True
  | .foreign f => ∀ (fs : FS) (j : Nat), j < fs.next → (f fs).mode j = fs.mode j

/-- If nothing happens between the check and the opening of the file, and if nobody else changes
permissions, then at every moment afterwards every file to which the call writes is the owner's only. -/
theorem c85_quiet (w : World) (hwf : w.fs.Wf) (env : SaveEnv) (words : List Bytes) (p : Bytes)
    (a₀ : Act) (evs : List Event) (h : Interleaves w env words p (.own a₀ :: evs))
    (hk : ∀ e ∈ evs, e.KeepsModes)
    (before after : List Event) (a : Act) (he : .own a₀ :: evs = before ++ .own a :: after) (j : Nat)
    (hj : ((before.foldl happen w).step a).fs.data j ≠ (before.foldl happen w).fs.data j)
    (pre post : List Event) (hp : evs = pre ++ post) :
    OwnerOnly (((.own a₀ :: pre).foldl happen w).fs.mode j) := by
  have hjn : j = w.fs.next := by
    by_contra hn
    exact hj (c48_quiet w env words p a₀ evs h before after a he j hn)
  subst hjn
  have hlegal := h.2
  have hown := h.1
  simp only [List.filterMap_cons, Event.own?] at hown
  rcases save_acts w.fs env words p with hs | ⟨hd, bs, hs⟩
  · rw [hs] at hown
    have := List.prefix_nil.mp hown
    cases this
  rw [hs, List.cons_prefix_cons] at hown
  obtain ⟨rfl, hown⟩ := hown
  have hstart : (w.step (.openTrunc p 0o600)).fs = w.fs.create p (0o600 &&& ~~~w.fs.umask) := by
    simp only [World.step, hd]
  rw [List.foldl_cons]
  have key : ∀ (es : List Event) (v : World), v.fs.Wf → w.fs.next < v.fs.next →
      OwnerOnly (v.fs.mode w.fs.next) → (∀ e ∈ es, e.KeepsModes ∧ e.Legal) →
      (∀ x ∈ es.filterMap Event.own?, ∃ b, x = .write b) → OwnerOnly ((es.foldl happen v).fs.mode w.fs.next) := by
    intro es
    induction es with
    | nil => intro v _ _ hv _ _; exact hv
    | cons e es ih =>
      intro v hvw hvn hv hes hown
      rw [List.foldl_cons]
      cases e with
      | own x =>
        obtain ⟨b, rfl⟩ := hown x (by simp [Event.own?])
        have hs : (v.step (.write b)).fs.dir = v.fs.dir ∧ (v.step (.write b)).fs.next = v.fs.next ∧
            (v.step (.write b)).fs.mode = v.fs.mode := by
          simp only [World.step]
          cases v.handle <;> exact ⟨rfl, rfl, rfl⟩
        refine ih _ ?_ ?_ ?_ (fun e he => hes e (by simp [he])) (fun x hx => hown x (by simp [Event.own?, hx]))
        · intro q i hq
          simp only [happen] at hq ⊢
          rw [hs.1] at hq
          rw [hs.2.1]
          exact hvw q i hq
        · simp only [happen]; rw [hs.2.1]; exact hvn
        · simp only [happen]; rw [hs.2.2]; exact hv
      | foreign f =>
        obtain ⟨h1, h2⟩ := hes (.foreign f) (by simp)
        obtain ⟨h3, h4⟩ := h2 v.fs hvw
        refine ih _ h3 (Nat.lt_of_lt_of_le hvn h4) ?_ (fun e he => hes e (by simp [he]))
          (fun x hx => hown x (by simpa [List.filterMap_cons, Event.own?] using hx))
        simp only [happen]
        rw [h1 v.fs _ hvn]
        exact hv
  refine key pre _ ?_ ?_ ?_ ?_ ?_
  · simp only [happen, hstart]
    intro q i hq
    simp only [FS.create] at hq ⊢
    split at hq
    · cases hq; omega
    · have := hwf q i hq; omega
  · simp only [happen, hstart, FS.create]; omega
  · simp only [happen, hstart, FS.create, if_true]; exact ownerOnly_600 _
  · intro e hep
    subst hp
    exact ⟨hk e (by simp [hep]), hlegal e (by simp [hep])⟩
  · intro x hx
    subst hp
    rw [List.filterMap_append] at hown
    obtain ⟨b, -, rfl⟩ := List.mem_map.mp (((List.prefix_append _ _).trans hown).subset hx)
    exact ⟨b, rfl⟩

/-- A file that another process creates between the check and the opening keeps the permissions that this
process gave it: with any permissions `m` the phrase ends up in a file with permissions `m`, and
saveMnemonic reports success. -/
theorem c85_exposed (w : World) (env : SaveEnv) (words : List Bytes) (p c : Bytes) (m : UInt16)
    (h : (saveMnemonic w.fs env words p).2 = .ok ()) :
    ∃ evs, Interleaves w env words p (createWith p c m :: evs) ∧
      evs.filterMap Event.own? = (saveMnemonic w.fs env words p).1 ∧
      ((createWith p c m :: evs).foldl happen w).fs.read p = some (phraseText words) ∧
      ∃ i, ((createWith p c m :: evs).foldl happen w).fs.dir p = some i ∧
        ((createWith p c m :: evs).foldl happen w).fs.mode i = m := by
  obtain ⟨h1, -, h3, h4⟩ := c48_overwrites w env words p c m h
  have hown : ((saveMnemonic w.fs env words p).1.map Event.own).filterMap Event.own? =
      (saveMnemonic w.fs env words p).1 := by
    rw [List.filterMap_map]
    exact List.filterMap_some
  have keep : ∀ (as : List Act) (v : World), v.fs.dir p = some w.fs.next → v.fs.mode w.fs.next = m →
      w.fs.next < v.fs.next → (∀ a ∈ as, a ∈ (saveMnemonic w.fs env words p).1) →
      ((as.map Event.own).foldl happen v).fs.dir p = some w.fs.next ∧
      ((as.map Event.own).foldl happen v).fs.mode w.fs.next = m := by
    intro as
    induction as with
    | nil => intro v hd hm _ _; exact ⟨hd, hm⟩
    | cons a as ih =>
      intro v hd hm hn ha
      obtain ⟨g1, g2, -⟩ := step_modes v a (save_perm w.fs env words p a (ha a (by simp)))
      rw [List.map_cons, List.foldl_cons]
      refine ih _ ?_ ?_ (Nat.lt_of_lt_of_le hn g1) (fun x hx => ha x (by simp [hx]))
      · cases a with
        | openTrunc q perm =>
          simp only [happen, World.step]
          cases hq : v.fs.dir q with
          | some i => exact hd
          | none =>
            have hpq : p ≠ q := by rintro rfl; rw [hd] at hq; cases hq
            simp only [FS.create, hpq, if_false]; exact hd
        | write b =>
          simp only [happen, World.step]
          cases v.handle <;> exact hd
        | stdout b => exact hd
        | showPhrase ws => exact hd
      · rw [show happen v (.own a) = v.step a from rfl, g2 _ hn]; exact hm
  obtain ⟨k1, k2⟩ := keep (saveMnemonic w.fs env words p).1 (happen w (createWith p c m)) h3
    (by simp [happen, createWith, FS.create, FS.setData]) (by simp [happen, createWith, FS.create, FS.setData])
    (fun _ ha => ha)
  refine ⟨_, h1, hown, ?_, _, k1, k2⟩
  rw [FS.read, List.foldl_cons, k1]
  exact congrArg some h4

/-! ## commands -/

/-- Not a word about files -/
def offFiles : Act → Bool
  | .stdout _ => true
  | .showPhrase _ => true
  | _ => false

theorem run_offFiles : ∀ (as : List Act) (w : World), as.all offFiles = true → (w.run as).fs = w.fs
  | [], _, _ => rfl
  | a :: as, w, h => by
    rw [List.all_cons, Bool.and_eq_true] at h
    rw [run_cons, run_offFiles as _ h.2]
    cases a <;> first | rfl | exact absurd h.1 (by simp [offFiles])

/-- Whatever a command does to files is a call of saveMnemonic. -/
theorem command_saves {L : WordList} (hL : L.Lawful) {C : Crypto} (hC : C.Lawful) {env : Env}
    {P : Prog Unit} (hP : IsCommand L C env P) (rs : List (Res Bytes)) (rnd : Bytes) :
    ∃ as post, P.acts rs rnd = as ++ post ∧ post.all offFiles = true ∧
      (as = [] ∨ ∃ ws p, as = (saveMnemonic env.fs env.save ws p).1) := by
  have hout : ∀ b : Bytes, (b.map Act.stdout).all offFiles = true := by
    intro b; simp [List.all_map, offFiles]
  unfold Prog.acts
  cases hP with
  | generate opts =>
    rcases generate_cases hL hC env opts ⟨rs, rnd, []⟩ with ⟨-, ha⟩ | ⟨_, _, _, _, _, key, ws, st1, h1, -, h2⟩
    · exact ⟨[], [], ha, rfl, .inl rfl⟩
    · rw [h2]
      by_cases hw : opts.outputWordFile = []
      · rw [hw, generateEnd_shown, h1]
        exact ⟨[], _, List.append_assoc _ _ _, by rw [List.all_append, hout]; rfl, .inl rfl⟩
      · rcases generateEnd_file (env := env) (key := key) (ws := ws) hw st1 with ⟨-, ha⟩ | ⟨-, ha⟩
        · rw [ha, h1]
          exact ⟨_, _, rfl, hout _, .inr ⟨_, _, rfl⟩⟩
        · rw [ha, h1]
          exact ⟨_, [], (List.append_nil _).symm, rfl, .inr ⟨_, _, rfl⟩⟩
  | recover opts =>
    rcases recover_cases (L := L) (C := C) env opts ⟨rs, rnd, []⟩ with
      ⟨-, ha⟩ | ⟨_, _, _, _, _, _, _, _, key, -, -, -, -, -, -, -, -, -, ha⟩
    · exact ⟨[], [], ha, rfl, .inl rfl⟩
    · rw [ha]
      exact ⟨[], _, rfl, hout _, .inl rfl⟩
  | convert opts =>
    rcases convert_cases (L := L) (C := C) env opts ⟨rs, rnd, []⟩ with
      ⟨-, ha⟩ | ⟨_, _, _, ws, st1, -, -, -, -, h1, h2⟩
    · exact ⟨[], [], ha, rfl, .inl rfl⟩
    · rw [h2]
      by_cases hw : opts.input.inputWordFile = []
      · rw [if_pos hw, printMnemonic_run, h1]
        exact ⟨[], _, rfl, rfl, .inl rfl⟩
      · rw [if_neg hw]
        by_cases hs : (saveMnemonic env.fs env.save ws opts.input.inputWordFile).2 = .ok ()
        · rw [save_ok hs, h1]
          exact ⟨_, [], (List.append_nil _).symm, rfl, .inr ⟨_, _, rfl⟩⟩
        · rw [(save_fails hs st1).1, h1]
          exact ⟨_, [], (List.append_nil _).symm, rfl, .inr ⟨_, _, rfl⟩⟩

/-- At every moment of every schedule of a command, so long as no other process interferes: every file that
was there at the start still has its contents and its permissions, and every file created since is the
owner's only, whatever the umask. Every path that reads differently now leads to such a new file. -/
theorem c85_process {L : WordList} (hL : L.Lawful) {C : Crypto} (hC : C.Lawful) (env : Env)
    (hwf : env.fs.Wf) (P : Prog Unit) (hP : IsCommand L C env P) (rnd : Bytes) (ms : List ProcMove)
    (s : Proc) (h : (Proc.start env.fs).run P rnd ms = some s) :
    (∀ j, j < env.fs.next →
      s.world.fs.data j = env.fs.data j ∧ s.world.fs.mode j = env.fs.mode j) ∧
    (∀ j, env.fs.next ≤ j → j < s.world.fs.next → OwnerOnly (s.world.fs.mode j)) ∧
    ∀ q, s.world.fs.read q ≠ env.fs.read q →
      ∃ j, s.world.fs.dir q = some j ∧ env.fs.next ≤ j ∧ j < s.world.fs.next := by
  obtain ⟨-, hfs, -⟩ := c68_refines hL hC env P hP rnd ms s h
  rw [hfs]
  obtain ⟨as, post, hacts, hpost, has⟩ := command_saves hL hC hP s.sys.results rnd
  have hrun : ((atStart env.fs).run ((P.acts s.sys.results rnd).take s.done)).fs =
      ((atStart env.fs).run (as.take s.done)).fs := by
    rw [hacts, List.take_append, run_append, run_offFiles]
    rw [List.all_eq_true] at hpost ⊢
    exact fun a ha => hpost a (List.mem_of_mem_take ha)
  rw [hrun]
  have none : ∀ fs : FS, fs = env.fs → (∀ j, j < env.fs.next →
      fs.data j = env.fs.data j ∧ fs.mode j = env.fs.mode j) ∧
      (∀ j, env.fs.next ≤ j → j < fs.next → OwnerOnly (fs.mode j)) ∧
      ∀ q, fs.read q ≠ env.fs.read q →
        ∃ j, fs.dir q = some j ∧ env.fs.next ≤ j ∧ j < fs.next := by
    rintro fs rfl
    exact ⟨fun _ _ => ⟨rfl, rfl⟩, fun j h1 h2 => absurd h2 (by omega), fun q hq => absurd rfl hq⟩
  rcases has with rfl | ⟨ws, p, rfl⟩
  · exact none _ (by simp [World.run, atStart])
  rcases save_acts env.fs env.save ws p with hs | ⟨hd, bs, hs⟩
  · rw [hs]
    exact none _ (by simp [World.run, atStart])
  rw [hs]
  cases hn : s.done with
  | zero => exact none _ (by simp [World.run, atStart])
  | succ n =>
    rw [List.take_succ_cons, ← List.map_take, run_create _ _ _ _ (show (atStart env.fs).fs.dir p = _ from hd)]
    dsimp only [atStart]
    refine ⟨fun j hj => ?_, fun j h1 h2 => ?_, fun q hq => ?_⟩
    · simp [FS.create, FS.setData, Nat.ne_of_lt hj]
    · have : j = env.fs.next := by simp only [FS.create, FS.setData] at h2; omega
      simpa [FS.create, FS.setData, this] using ownerOnly_600 _
    · by_cases hqp : q = p
      · subst hqp
        exact ⟨env.fs.next, by simp [FS.create, FS.setData], le_rfl, by simp [FS.create, FS.setData]⟩
      · exact absurd (read_other env.fs hwf p q _ _ hqp) hq

/-! ## examples -/

/-- With a umask of 0, "new" gets permissions 0600; another process that was first keeps 0644. -/
example : ((World.mk { sampleFS with umask := 0 } none [] []).run
    (saveMnemonic sampleFS allGoesWell sampleWords (str "new")).1).fs.mode 1 = 0o600 := by decide +kernel

example : OwnerOnly 0o600 ∧ ¬ OwnerOnly 0o644 ∧ ¬ OwnerOnly 0o640 := by decide

example := c85_exposed sampleWorld allGoesWell sampleWords (str "new") [] 0o666 (by decide +kernel)

/-- The call opens the file, another process makes another one, the first byte is written. -/
def savedWithOther : List Event :=
  [.own (.openTrunc (str "new") 0o600), createWith (str "other") [] 0o644, .own (.write (toyWord 5).head!)]

theorem savedWithOther_interleaves :
    Interleaves sampleWorld allGoesWell sampleWords (str "new") savedWithOther := by
  constructor
  · change [Act.openTrunc (str "new") 0o600, Act.write (toyWord 5).head!] <+: _
    exact ⟨(saveMnemonic sampleWorld.fs allGoesWell sampleWords (str "new")).1.drop 2, by decide +kernel⟩
  · intro e he
    simp only [savedWithOther, List.mem_cons, List.not_mem_nil, or_false] at he
    rcases he with rfl | rfl | rfl
    · trivial
    · exact createWith_legal _ _ _
    · trivial

theorem createWith_keeps (p c : Bytes) (m : UInt16) : (createWith p c m).KeepsModes := by
  intro fs j hj
  simp [FS.create, FS.setData, Nat.ne_of_lt hj]

/-- The hypotheses of `c85_quiet` on it: the byte written changes file 1. -/
example : OwnerOnly (((savedWithOther).foldl happen sampleWorld).fs.mode 1) :=
  c85_quiet sampleWorld sampleFS_wf allGoesWell sampleWords (str "new") _ _ savedWithOther_interleaves
    (by
      intro e he
      simp only [List.mem_cons, List.not_mem_nil, or_false] at he
      rcases he with rfl | rfl
      · exact createWith_keeps _ _ _
      · trivial)
    [.own (.openTrunc (str "new") 0o600), createWith (str "other") [] 0o644] [] _ rfl 1
    (by decide +kernel) _ [] (by rw [List.append_nil])

/-- Three actions of generate: the file is there, with two bytes of the phrase in it. -/
example :
    ((Proc.start sampleEnv.fs).run (sampleGenerate (str "new") false) sampleRandom [.act, .act, .act]).map
      (fun s => (s.world.fs.next, (s.world.fs.read (str "new")).map List.length, s.world.fs.mode 1)) =
    some (2, some 2, 0o600) := by decide +kernel

example (s : Proc)
    (h : (Proc.start sampleEnv.fs).run (sampleGenerate (str "new") false) sampleRandom [.act, .act, .act] =
      some s) :=
  c85_process toyWordList_lawful toyCrypto_lawful sampleEnv sampleFS_wf _ (.generate _) sampleRandom _ s h

example := c85_actions sampleWorld allGoesWell sampleWords (str "new") savedWithOther
  savedWithOther_interleaves [] _ _ rfl

end Verif.Props
