import Verif.Proofs.Sinks
import Verif.Props.Armor
import Verif.Spec.Sinks

/-!
# Outputs that do not take everything (C121)
-/

namespace Verif.Props

open Verif.Model Verif.Model.Cli Verif.Spec Verif.Proofs Verif.Instances Verif.Armor

/-- The program does not notice what the outputs take: the runs are those of the process whose outputs take everything, with any
answers. -/
theorem c121_unnoticed (P : Prog Unit) (rnd : Bytes) (fs : FS) (ms : List ProcMove) (answers : List Bool)
    (hl : answers.length = ms.length) (p : Proc) :
    (Proc.start fs).run P rnd ms = some p ↔ ∃ s, (Sinks.start fs).run P rnd (ms.zip answers) = some s ∧ s.proc = p := by
  have key : ∀ (ms : List ProcMove) (answers : List Bool), answers.length = ms.length → ∀ (s : Sinks),
      s.proc.run P rnd ms = some p ↔ ∃ s', s.run P rnd (ms.zip answers) = some s' ∧ s'.proc = p := by
    intro ms
    induction ms with
    | nil => intro answers _ s; simp [Proc.run, Sinks.run]
    | cons m ms ih =>
      rintro (_ | ⟨t, answers⟩) hl s
      · cases hl
      · rw [List.zip_cons_cons, Proc.run, Sinks.run]
        cases hm : s.proc.move P rnd m with
        | none =>
          have : s.move P rnd m t = none := by unfold Sinks.move; rw [hm]; rfl
          rw [this]
          simp
        | some p1 =>
          obtain ⟨s1, h1⟩ := sinks_some t hm
          have h2 := sinks_proc h1
          rw [hm] at h2
          rw [h1, Option.some.inj h2]
          exact ih answers (by simpa using hl) s1
  exact key ms answers hl (.start fs)

/-- Whatever standard output takes, it has taken a beginning of what was printed, in one piece, and some of the line feeds of
the password prompts. -/
theorem c121_output {L : WordList} (hL : L.Lawful) {C : Crypto} (hC : C.Lawful) (env : Env) (P : Prog Unit)
    (hP : IsCommand L C env P) (rnd : Bytes) (ms : List (ProcMove × Bool)) (s : Sinks)
    (h : (Sinks.start env.fs).run P rnd ms = some s) :
    let alone := (atStart env.fs).run ((P.acts s.proc.sys.results rnd).take s.proc.done)
    FramedPart s.proc.sys.prompts.length s.out alone.stdout := by
  have h2 : Patient P ∧ PrintsOnce P := by
    cases hP with
    | generate opts => exact ⟨generate_patient L C env opts, generate_printsOnce hL hC env opts⟩
    | recover opts => exact ⟨recover_patient L C env opts, recover_printsOnce L C env opts⟩
    | convert opts => exact ⟨convert_patient L C env opts, convert_printsOnce L C env opts⟩
  obtain ⟨i, t, j, h3, h4, h5, -⟩ :=
    (sinkInv_run h2.1 h2.2 ms (procInv_start P rnd env.fs) (sinkInv_start P rnd env.fs) h).out
  obtain ⟨olds, cur, hi, -⟩ := command_inv hL hC hP (sinks_run_proc ms h)
  refine ⟨i, j, t, h4.trans ?_, h5, h3⟩
  rw [hi.newlines]
  exact List.countP_le_length

/-- A reader finds no key, or the key that was printed. -/
theorem c121_reader {L : WordList} (hL : L.Lawful) {C : Crypto} (hC : C.Lawful) (env : Env) (hA : ArmorLawful env.armor)
    (hwf : env.fs.Wf) (P : Prog Unit) (hP : IsCommand L C env P) (rnd : Bytes) (ms : List (ProcMove × Bool)) (s : Sinks)
    (h : (Sinks.start env.fs).run P rnd ms = some s) :
    dearmor s.out = none ∨
    ∃ mnk key, IsExport C mnk key ∧ dearmor s.out = some key ∧ dearmor s.proc.world.stdout = some key := by
  obtain ⟨i, j, t, -, ht, ho⟩ := c121_output hL hC env P hP rnd ms s h
  obtain ⟨-, -, -, n, -, hf⟩ := c68_refines hL hC env P hP rnd _ s.proc (sinks_run_proc ms h)
  rw [ho, dearmor_framed, dearmor_of_framed hf]
  rcases alone_begun hL hC env hwf P hP s.proc.sys.results rnd s.proc.done with h | ⟨mnk, key, he, hp⟩
  · rw [h, List.prefix_nil] at ht
    rw [ht]
    exact .inl dearmor_nil
  · rcases dearmor_begun hA (ht.trans hp) with h | h
    · exact .inl h
    · refine .inr ⟨mnk, key, he, h, ?_⟩
      have hlong : (env.armor key).length ≤ t.length := by
        by_contra hc
        have h1 : t <+: env.armor key := by
          rcases List.prefix_concat_iff.mp (by simpa using ht.trans hp : t <+: env.armor key ++ [0x0A]) with h1 | h1
          · rw [h1] at hc; simp at hc
          · exact h1
        have := hA.cut key t h1 (by rintro rfl; omega)
        rw [this] at h
        cases h
      rcases dearmor_begun hA hp with h' | h'
      · exfalso
        have h1 := ht.length_le
        rcases List.prefix_concat_iff.mp (by simpa using hp) with h2 | h2
        · rw [h2, dearmor_end, hA.reads] at h'
          cases h'
        · rw [h2.eq_of_length (le_antisymm h2.length_le (hlong.trans h1)), hA.reads] at h'
          cases h'
      · exact h'

/-- One move with outputs that take everything, and with outputs that take nothing -/
theorem sinks_taken {P : Prog Unit} {rnd : Bytes} {s s' : Sinks} {m : ProcMove} (h : s.move P rnd m true = some s')
    (hf : s.failed = false) (ho : s.out = s.proc.world.stdout) (hs : s.seen = s.proc.world.shown) :
    s'.failed = false ∧ s'.out = s'.proc.world.stdout ∧ s'.seen = s'.proc.world.shown := by
  have hp := sinks_proc h
  unfold Sinks.move at h
  rw [hp] at h
  have h := Option.some.inj h
  dsimp only at h
  cases m with
  | act =>
    simp only [Proc.move] at hp
    split at hp
    · split at hp
      · cases hp
      · rename_i a hget
        have hp := Option.some.inj hp
        rw [hget] at h
        cases a with
        | stdout b =>
          simp only [hf, Bool.false_eq_true, and_false, not_false_eq_true, and_self, if_true] at h
          rw [← h]
          refine ⟨rfl, ?_, ?_⟩ <;> dsimp only <;> rw [← hp]
          · rw [ho]; rfl
          · rw [hs]; rfl
        | showPhrase ws =>
          simp only [if_true] at h
          rw [← h]
          refine ⟨hf, ?_, ?_⟩ <;> dsimp only <;> rw [← hp]
          · rw [ho]; rfl
          · rw [hs]; rfl
        | openTrunc q perm =>
          dsimp only at h
          rw [← h]
          refine ⟨hf, ?_, ?_⟩ <;> dsimp only <;> rw [← hp] <;> dsimp only [World.step]
          · split <;> exact ho
          · split <;> exact hs
        | write b =>
          dsimp only at h
          rw [← h]
          refine ⟨hf, ?_, ?_⟩ <;> dsimp only <;> rw [← hp] <;> dsimp only [World.step]
          · split <;> exact ho
          · split <;> exact hs
    · cases hp
  | begin =>
    simp only [Proc.move] at hp
    split at hp
    · split at hp
      · rw [Option.map_eq_some_iff] at hp
        obtain ⟨sys, -, hp⟩ := hp
        dsimp only at h
        rw [← h]
        refine ⟨hf, ?_, ?_⟩ <;> dsimp only <;> rw [← hp]
        · exact ho
        · exact hs
      · cases hp
    · cases hp
  | refused e =>
    simp only [Proc.move] at hp
    split at hp
    · split at hp
      · rw [Option.map_eq_some_iff] at hp
        obtain ⟨sys, -, hp⟩ := hp
        dsimp only at h
        rw [← h]
        refine ⟨hf, ?_, ?_⟩ <;> dsimp only <;> rw [← hp]
        · exact ho
        · exact hs
      · cases hp
    · cases hp
  | «at» k m =>
    simp only [Proc.move] at hp
    split at hp
    · cases hp
    · rw [Option.map_eq_some_iff] at hp
      obtain ⟨sys, -, hp⟩ := hp
      by_cases hm : m = .print
      · subst hm
        simp only [if_true] at h
        rw [← h]
        refine ⟨hf, ?_, ?_⟩ <;> dsimp only <;> rw [← hp] <;> simp only [if_true, World.step]
        · rw [ho]
        · exact hs
      · have : s' = { s with proc := s'.proc } := by
          rw [← h]
          split
          · cases ‹_ = ProcMove.act›
          · rename_i heq; cases heq; exact absurd rfl hm
          · rfl
        rw [this]
        refine ⟨hf, ?_, ?_⟩ <;> dsimp only <;> rw [← hp] <;> simp only [if_neg hm]
        · exact ho
        · exact hs

theorem sinks_refused {P : Prog Unit} {rnd : Bytes} {s s' : Sinks} {m : ProcMove} (h : s.move P rnd m false = some s') :
    s'.out = s.out ∧ s'.seen = s.seen := by
  unfold Sinks.move at h
  rw [Option.map_eq_some_iff] at h
  obtain ⟨p, hp, rfl⟩ := h
  dsimp only
  split
  · split
    · simp
    · simp
    · simp
  · simp
  · simp

/-- Outputs that take everything have taken what the process has written. -/
theorem c121_taken (P : Prog Unit) (rnd : Bytes) (fs : FS) (ms : List (ProcMove × Bool)) (s : Sinks)
    (h : (Sinks.start fs).run P rnd ms = some s) (ht : ∀ m ∈ ms, m.2 = true) :
    s.out = s.proc.world.stdout ∧ s.seen = s.proc.world.shown := by
  have key : ∀ (ms : List (ProcMove × Bool)) (s s' : Sinks), s.run P rnd ms = some s' → (∀ m ∈ ms, m.2 = true) →
      s.failed = false → s.out = s.proc.world.stdout → s.seen = s.proc.world.shown →
      s'.out = s'.proc.world.stdout ∧ s'.seen = s'.proc.world.shown := by
    intro ms
    induction ms with
    | nil => intro s s' h _ _ h1 h2; cases h; exact ⟨h1, h2⟩
    | cons m ms ih =>
      obtain ⟨m, t⟩ := m
      intro s s' h ht hf h1 h2
      rw [Sinks.run] at h
      split at h
      · cases h
      · rename_i s1 hm
        have : t = true := ht _ List.mem_cons_self
        subst this
        obtain ⟨g1, g2, g3⟩ := sinks_taken hm hf h1 h2
        exact ih s1 s' h (fun m hm => ht m (List.mem_cons_of_mem _ hm)) g1 g2 g3
  exact key ms _ s h ht rfl rfl rfl

/-- What has been seen was shown. -/
theorem sinks_seen {P : Prog Unit} {rnd : Bytes} : ∀ (ms : List (ProcMove × Bool)) {s s' : Sinks},
    s.run P rnd ms = some s' → s.seen.Sublist s.proc.world.shown → s'.seen.Sublist s'.proc.world.shown
  | [], s, s', h, hs => by cases h; exact hs
  | (m, t) :: ms, s, s', h, hs => by
    rw [Sinks.run] at h
    split at h
    · cases h
    · rename_i s1 hm
      refine sinks_seen ms h ?_
      have h0 := sinks_proc hm
      -- the same move with an output that takes everything
      obtain ⟨s2, h2⟩ := sinks_some true h0 (s := { s with failed := false, out := s.proc.world.stdout, seen := s.proc.world.shown })
      obtain ⟨-, -, h3⟩ := sinks_taken h2 rfl rfl rfl
      have h4 : s2.proc = s1.proc := by
        have := sinks_proc h2
        rw [h0] at this
        exact (Option.some.inj this).symm
      rw [← h4, ← h3]
      unfold Sinks.move at hm h2
      rw [h0] at hm h2
      have hm := Option.some.inj hm
      have h2 := Option.some.inj h2
      rw [← hm, ← h2]
      dsimp only
      cases m with
      | act =>
        dsimp only
        split
        · split <;> split <;> exact hs
        · cases t
          · simp only [Bool.false_eq_true, if_false, if_true]
            exact hs.trans (List.sublist_append_left _ _)
          · simp only [if_true]
            exact hs.append (List.Sublist.refl _)
        · exact hs
      | begin => exact hs
      | refused e => exact hs
      | «at» k m =>
        cases m <;> dsimp only <;> first | exact hs | (split <;> split <;> exact hs)

/-- With a word file: whatever the outputs take, a generate that ends with success has left the phrase that brings back the
key in the file, and it had done so before standard output took any of the key. -/
theorem c121_saved {L : WordList} (hL : L.Lawful) {C : Crypto} (hC : C.Lawful) (env : Env) (hA : ArmorLawful env.armor)
    (hwf : env.fs.Wf) (opts : GenerateOptions) (hout : opts.outputWordFile ≠ []) (rnd : Bytes)
    (ms : List (ProcMove × Bool)) (s : Sinks)
    (h : (Sinks.start env.fs).run (generateAndPrintKey L C env opts) rnd ms = some s)
    (hend : s.proc.Finished (generateAndPrintKey L C env opts) rnd (.ok ()) ∨ dearmor s.out ≠ none) :
    ∃ words mnk o key, s.proc.world.fs.read opts.outputWordFile = some (phraseText words) ∧ Complete L.word words ∧
      BringsBack L C words opts.encryptPhrase s.proc.sys.results o mnk ∧ IsExport C mnk key ∧
      dearmor s.proc.world.stdout = some key := by
  have hrun := sinks_run_proc ms h
  have hkey : dearmor s.proc.world.stdout ≠ none := by
    rcases hend with hend | hend
    · rcases (c87_finished hL hC env hA hwf _ (.generate opts) rnd _ s.proc hrun).2 hend with ⟨-, h1⟩ | ⟨mnk, key, -, h1⟩
      · exfalso
        obtain ⟨-, hd, ho, -⟩ := hend
        obtain ⟨mnk, key, -, he⟩ := (c49_all_or_nothing hL hC env hwf opts hout s.proc.sys.results rnd).2 ho
        obtain ⟨-, -, -, n, -, hf⟩ := c68_refines hL hC env _ (.generate opts) rnd _ s.proc hrun
        rw [hd, List.take_length, he] at hf
        rw [dearmor_of_framed hf, dearmor_end, hA.reads] at h1
        cases h1
      · rw [h1]; simp
    · rcases c121_reader hL hC env hA hwf _ (.generate opts) rnd ms s h with h1 | ⟨mnk, key, -, -, h1⟩
      · exact absurd h1 hend
      · rw [h1]; simp
  obtain ⟨-, hfs, -, n, -, hf⟩ := c68_refines hL hC env _ (.generate opts) rnd _ s.proc hrun
  obtain ⟨-, -, g⟩ := c49_saved_first hL hC env hwf opts hout s.proc.sys.results rnd s.proc.done
  rw [dearmor_of_framed hf] at hkey ⊢
  obtain ⟨words, mnk, o, key, k1, k2, k3, -, -, k6, k7⟩ := g (by
    intro hc
    rw [hc, dearmor_nil] at hkey
    exact hkey rfl)
  refine ⟨words, mnk, o, key, by rw [hfs]; exact k1, k2, k3, k6, ?_⟩
  rcases dearmor_begun hA k7 with h1 | h1
  · exact absurd h1 hkey
  · exact h1

/-- Without a word file: a phrase that standard error has taken is the one that brings back the key printed, whatever standard
output has taken of it. -/
theorem c121_shown {L : WordList} (hL : L.Lawful) {C : Crypto} (hC : C.Lawful) (env : Env) (hA : ArmorLawful env.armor)
    (opts : GenerateOptions) (hout : opts.outputWordFile = []) (rnd : Bytes) (ms : List (ProcMove × Bool)) (s : Sinks)
    (h : (Sinks.start env.fs).run (generateAndPrintKey L C env opts) rnd ms = some s) (hseen : s.seen ≠ []) :
    ∃ words mnk o key, s.seen = [words] ∧ Complete L.word words ∧
      BringsBack L C words opts.encryptPhrase s.proc.sys.results o mnk ∧ IsExport C mnk key ∧
      dearmor s.proc.world.stdout = some key := by
  have hsub := sinks_seen ms h (List.Sublist.refl _)
  obtain ⟨-, -, hsh, n, -, hf⟩ := c68_refines hL hC env _ (.generate opts) rnd _ s.proc (sinks_run_proc ms h)
  obtain ⟨-, g⟩ := c49_shown_last hL hC env opts hout s.proc.sys.results rnd s.proc.done
  rw [hsh] at hsub
  obtain ⟨words, mnk, o, key, k1, k2, k3, -, -, k6, k7⟩ := g (by
    intro hc
    rw [hc] at hsub
    exact hseen (List.sublist_nil.1 hsub))
  rw [k1] at hsub
  refine ⟨words, mnk, o, key, ?_, k2, k3, k6, by rw [dearmor_of_framed hf, k7, dearmor_end, hA.reads]⟩
  rcases List.sublist_singleton.1 hsub with h1 | h1
  · exact absurd h1 hseen
  · exact h1

/-- The exit status tells nothing about it (F49). To every run there is one that makes the same moves, so that it ends in the
same way, while the outputs take nothing. A generate without a word file that ends like this with success has left the key and
the phrase nowhere. -/
theorem c121_lost {L : WordList} (hL : L.Lawful) {C : Crypto} (hC : C.Lawful) (env : Env) (P : Prog Unit)
    (hP : IsCommand L C env P) (rnd : Bytes) (ms : List ProcMove) (p : Proc) (h : (Proc.start env.fs).run P rnd ms = some p) :
    ∃ s, (Sinks.start env.fs).run P rnd (ms.map (·, false)) = some s ∧ s.proc = p ∧ s.out = [] ∧ s.seen = [] ∧
      ∀ opts, P = generateAndPrintKey L C env opts → opts.outputWordFile = [] → p.world.fs = env.fs := by
  have hz : ms.map (fun m => (m, false)) = ms.zip (List.replicate ms.length false) := by
    clear h
    induction ms with
    | nil => rfl
    | cons m ms ih => rw [List.map_cons, ih, List.length_cons, List.replicate_succ, List.zip_cons_cons]
  obtain ⟨s, hs, hp⟩ := (c121_unnoticed P rnd env.fs ms (List.replicate ms.length false) (by simp) p).1 h
  rw [← hz] at hs
  have key : ∀ (ms : List ProcMove) (s s' : Sinks), s.run P rnd (ms.map (·, false)) = some s' →
      s'.out = s.out ∧ s'.seen = s.seen := by
    intro ms
    induction ms with
    | nil => intro s s' h; cases h; exact ⟨rfl, rfl⟩
    | cons m ms ih =>
      intro s s' h
      rw [List.map_cons, Sinks.run] at h
      split at h
      · cases h
      · rename_i s1 hm
        obtain ⟨g1, g2⟩ := sinks_refused hm
        obtain ⟨g3, g4⟩ := ih s1 s' h
        exact ⟨g3.trans g1, g4.trans g2⟩
  obtain ⟨g1, g2⟩ := key ms _ s hs
  refine ⟨s, hs, hp, g1, g2, ?_⟩
  rintro opts rfl hout
  obtain ⟨-, hfs, -⟩ := c68_refines hL hC env _ hP rnd ms p h
  rw [hfs]
  exact (c49_shown_last hL hC env opts hout p.sys.results rnd p.done).1

/-! ## examples -/

/-- A text of three letters: the output takes the first, refuses the second, and is not asked for the third. -/
example : ((Sinks.start sampleFS).run (emit [.stdout 0x61, .stdout 0x62, .stdout 0x63]) []
      [(.act, true), (.act, false), (.act, true)]).map (fun s => (s.out, s.proc.world.stdout)) =
    some ([0x61], [0x61, 0x62, 0x63]) := by decide +kernel

/-- generate with an encrypted key and a word file, or with none -/
def fullDisk (file : Bytes) : GenerateOptions :=
  { key := sampleKeyFlags, outputWordFile := file, encryptPhrase := false, unsafeEntropy := [] }

theorem fullDisk_run (file : Bytes) (h : file = str "new" ∨ file = []) : ∃ ms p,
    (Proc.start armorEnv.fs).run (generateAndPrintKey toyWordList toyCrypto armorEnv (fullDisk file)) (List.replicate 115 7)
      ms = some p ∧
    p.Finished (generateAndPrintKey toyWordList toyCrypto armorEnv (fullDisk file)) (List.replicate 115 7) (.ok ()) ∧
    (file = [] → p.world.shown ≠ []) := by
  have hseed : SeedBytes armorEnv (List.replicate 115 7) [] (List.replicate 16 7) (List.replicate 99 7) :=
    .system rfl rfl
  have htyped : Typed true false (some (str "key password")) none :=
    ⟨rfl, rfl, by rintro p ⟨⟩; decide, by rintro p ⟨⟩⟩
  obtain ⟨hok, _, words, -, -, -, -, -, hsh⟩ := c70_generate toyWordList_lawful toyCrypto_lawful armorEnv sampleFS_wf (fullDisk file)
    (sample_asks 0 0 0) (by decide) (by decide) (by decide) hseed (by decide) htyped []
    (fun hne => ⟨by
      rcases h with rfl | rfl
      · decide +kernel
      · exact absurd rfl hne, rfl⟩) (fun _ => by decide)
  obtain ⟨ms, p, h', hend, -, hw⟩ := c68_realised armorEnv _ (.generate (fullDisk file))
    (List.replicate 115 7) [.ok (str "key password")] (by simp; decide) (by
      intro k hk
      have : k = 0 := by simp at hk; exact hk
      subst this
      exact ⟨true, by rcases h with rfl | rfl <;> decide +kernel⟩) (.ok ()) hok (by simp)
  exact ⟨ms, p, h', hend, fun hf => by
    have e := (hsh hf).1
    rw [List.append_nil] at e
    rw [hw]
    exact fun hc => absurd (hc.symm.trans e) (by simp)⟩

/-- A run that ends with success although nothing was taken: the phrase is in the file, or else nowhere. -/
example : (∃ ms s words mnk o, (Sinks.start armorEnv.fs).run (generateAndPrintKey toyWordList toyCrypto armorEnv
      (fullDisk (str "new"))) (List.replicate 115 7) ms = some s ∧ s.out = [] ∧
      s.proc.world.fs.read (str "new") = some (phraseText words) ∧
      BringsBack toyWordList toyCrypto words false s.proc.sys.results o mnk) ∧
    (∃ ms s, (Sinks.start armorEnv.fs).run (generateAndPrintKey toyWordList toyCrypto armorEnv (fullDisk []))
      (List.replicate 115 7) ms = some s ∧ s.proc.Finished (generateAndPrintKey toyWordList toyCrypto armorEnv (fullDisk []))
      (List.replicate 115 7) (.ok ()) ∧ s.out = [] ∧ s.seen = [] ∧ s.proc.world.fs = armorEnv.fs) := by
  constructor
  · obtain ⟨ms, p, h, hend, -⟩ := fullDisk_run _ (.inl rfl)
    obtain ⟨s, h1, h2, h3, -⟩ := c121_lost toyWordList_lawful toyCrypto_lawful armorEnv _ (.generate _) _ ms p h
    obtain ⟨words, mnk, o, key, g1, -, g2, -⟩ := c121_saved toyWordList_lawful toyCrypto_lawful armorEnv goArmor_lawful
      sampleFS_wf _ (by decide) _ _ s h1 (.inl (by rw [h2]; exact hend))
    exact ⟨_, s, words, mnk, o, h1, h3, g1, g2⟩
  · obtain ⟨ms, p, h, hend, -⟩ := fullDisk_run [] (.inr rfl)
    obtain ⟨s, h1, h2, h3, h4, h5⟩ := c121_lost toyWordList_lawful toyCrypto_lawful armorEnv _ (.generate _) _ ms p h
    exact ⟨_, s, h1, by rw [h2]; exact hend, h3, h4, by rw [h2]; exact h5 _ rfl rfl⟩

/-- A run without a word file whose outputs take everything -/
example : ∃ ms s words mnk o, (Sinks.start armorEnv.fs).run (generateAndPrintKey toyWordList toyCrypto armorEnv (fullDisk []))
      (List.replicate 115 7) ms = some s ∧ s.seen = [words] ∧
      BringsBack toyWordList toyCrypto words false s.proc.sys.results o mnk := by
  obtain ⟨ms, p, h, -, hsh⟩ := fullDisk_run [] (.inr rfl)
  obtain ⟨s, h1, h2⟩ := (c121_unnoticed _ _ _ ms (List.replicate ms.length true) (by simp) p).1 h
  have h3 := (c121_taken _ _ _ _ s h1 (by
    intro m hm
    exact List.eq_of_mem_replicate (List.of_mem_zip (a := m.1) (b := m.2) hm).2)).2
  obtain ⟨words, mnk, o, key, g1, -, g2, -⟩ := c121_shown toyWordList_lawful toyCrypto_lawful armorEnv goArmor_lawful
    (fullDisk []) rfl _ _ s h1 (by rw [h3, h2]; exact hsh rfl)
  exact ⟨_, s, words, mnk, o, h1, g1, g2⟩

end Verif.Props
