import Verif.Proofs.Tree
import Verif.Proofs.TreeRun
import Verif.Proofs.Machine

/-!
# Word files among directories, links and permissions (C112)
-/

namespace Verif.Props

open Verif.Model Verif.Model.Cli Verif.Spec Verif.Proofs Verif.Instances

/-- A run on a tree is a run on the files the process sees. -/
theorem c112_same (L : WordList) (C : Crypto) (t : Tree) (c : Cred) (env : Env) (args : List Bytes) (st : St) (cmd : Cmd)
    (settings : List (Bytes × FlagValue)) (h : Means args (.run cmd settings)) :
    mainT L C t c env args st = main L C (seenBy t c env settings cmd) args st := by
  refine mainT_eq L C t c env _ args st (by cases cmd <;> rfl) fun cmd' settings' h' => ?_
  have := c58_unique args _ _ h h'
  cases this
  exact program_seen L C t c env settings cmd

/-- Unless a subcommand runs, the files do not matter. -/
theorem c112_not_run (L : WordList) (C : Crypto) (t : Tree) (c : Cred) (env : Env) (args : List Bytes) (st : St)
    (h : ∀ cmd settings, ¬ Means args (.run cmd settings)) : mainT L C t c env args st = main L C env args st :=
  mainT_eq L C t c env env args st rfl fun cmd settings h' => absurd h' (h cmd settings)

theorem seen_wf {t : Tree} {c : Cred} (hs : Whole t c) (only : Bytes → Bool) : (seenFiles t c only).Wf := by
  intro p i h
  unfold seenFiles at h
  dsimp only at h
  cases hp : t.stat c p with
  | error e => rw [hp] at h; cases h
  | ok j =>
    rw [hp] at h
    dsimp only at h
    by_cases hm : (only p || c.may (t.inode j) 4) = true
    · rw [if_pos hm] at h
      cases h
      unfold Tree.stat at hp
      cases hr : t.resolve c p with
      | error e => rw [hr] at hp; cases hp
      | ok s =>
        rw [hr] at hp
        cases s with
        | missing d n => cases hp
        | found k => cases hp; exact (resolve_lands hs p).1 i hr
    · rw [if_neg hm] at h; cases h

/-- What saveMnemonic does -/
theorem save_does (fs : FS) (env : SaveEnv) (ws : List Bytes) (p : Bytes) :
    ((saveMnemonic fs env ws p).1 = [] ∧ (saveMnemonic fs env ws p).2 ≠ .ok ()) ∨
    (env.statFails = false ∧ fs.dir p = none ∧ env.openFails = false ∧ ∃ k,
      (saveMnemonic fs env ws p).1 = .openTrunc p 0o600 :: ((phraseText ws).take k).map .write ∧
      ((saveMnemonic fs env ws p).2 = .ok () → (phraseText ws).take k = phraseText ws)) := by
  unfold saveMnemonic
  by_cases h1 : env.statFails = true
  · rw [if_pos h1]; exact .inl ⟨rfl, by simp⟩
  rw [if_neg h1]
  by_cases h2 : (fs.dir p).isSome = true
  · rw [if_pos h2]; exact .inl ⟨rfl, by simp⟩
  rw [if_neg h2]
  by_cases h3 : env.openFails = true
  · rw [if_pos h3]; exact .inl ⟨rfl, by simp⟩
  rw [if_neg h3]
  dsimp only
  rw [show wordFileContent ws = phraseText ws from content_eq ws]
  refine .inr ⟨by simpa using h1, by simpa using h2, by simpa using h3, ?_⟩
  cases env.writeFails with
  | some n => exact ⟨n, rfl, by simp⟩
  | none => exact ⟨(phraseText ws).length, by rw [List.take_length], fun _ => List.take_length⟩

/-- What generate does when it is to write a word file -/
theorem generate_does {L : WordList} (hL : L.Lawful) {C : Crypto} (hC : C.Lawful) (env : Env) (opts : GenerateOptions)
    (hout : opts.outputWordFile ≠ []) (prompts : List (Res Bytes)) (rnd : Bytes) :
    ((generateAndPrintKey L C env opts).acts prompts rnd = [] ∧
      (generateAndPrintKey L C env opts).outcome prompts rnd ≠ .ok ()) ∨
    ∃ mnk o master keyPw phrasePw key words k bs,
      Generated L C env opts prompts mnk o master keyPw phrasePw key words ∧
      env.save.statFails = false ∧ env.fs.dir opts.outputWordFile = none ∧ env.save.openFails = false ∧
      (generateAndPrintKey L C env opts).acts prompts rnd =
        (.openTrunc opts.outputWordFile 0o600 :: ((phraseText words).take k).map .write) ++ bs.map .stdout ∧
      ((generateAndPrintKey L C env opts).outcome prompts rnd = .ok () → bs = env.armor key ++ [0x0A]) ∧
      (bs ≠ [] → (phraseText words).take k = phraseText words ∧ bs = env.armor key ++ [0x0A]) := by
  unfold Prog.acts Prog.outcome
  rcases generate_cases hL hC env opts ⟨prompts, rnd, []⟩ with ⟨hf, ha⟩ |
    ⟨mnk, o, master, keyPw, pw, key, words, st1, ha, g, e⟩
  · exact .inl ⟨ha, fun h => hf () h⟩
  rw [e]
  rcases generateEnd_file (env := env) (key := key) (ws := words) hout st1 with ⟨hs, hg⟩ | ⟨hf, hg⟩
  · rcases save_does env.fs env.save words opts.outputWordFile with ⟨-, h2⟩ | ⟨h1, h2, h3, k, h4, h5⟩
    · exact absurd hs h2
    · refine .inr ⟨mnk, o, master, keyPw, pw, key, words, k, env.armor key ++ [0x0A], g, h1, h2, h3, ?_, fun _ => rfl,
        fun _ => ⟨h5 hs, rfl⟩⟩
      rw [hg]
      dsimp only
      rw [ha, h4, List.nil_append]
      rfl
  · rcases save_does env.fs env.save words opts.outputWordFile with ⟨h1, -⟩ | ⟨h1, h2, h3, k, h4, -⟩
    · exact .inl ⟨by rw [hg, ha, h1]; rfl, fun h => hf () h⟩
    · refine .inr ⟨mnk, o, master, keyPw, pw, key, words, k, [], g, h1, h2, h3, ?_, fun h => absurd h (hf ()), fun h => absurd rfl h⟩
      rw [hg, ha, h4, List.nil_append, List.map_nil, List.append_nil]

/-- The place where a file that can be made is made -/
theorem refused_none {t : Tree} {c : Cred} {env : SaveEnv} {p : Bytes} (h1 : (refused t c env p).statFails = false)
    (h2 : (refused t c env p).openFails = false) :
    ∃ d name, t.resolve c p = .ok (.missing d name) ∧ c.may (t.inode d) 2 = true := by
  unfold refused Tree.stat Tree.create at h1 h2
  dsimp only at h1 h2
  cases hr : t.resolve c p with
  | error e =>
    rw [hr] at h1 h2
    dsimp only at h1 h2
    cases e <;> first | (cases h1; done) | cases h2
  | ok s =>
    rw [hr] at h2
    cases s with
    | found i => cases h2
    | missing d name =>
      refine ⟨d, name, rfl, ?_⟩
      by_contra hm
      dsimp only at h2
      rw [if_neg hm] at h2
      cases h2

theorem mainT_generate {L : WordList} {C : Crypto} (t : Tree) (c : Cred) (env : Env) (args : List Bytes)
    (prompts : List (Res Bytes)) (rnd : Bytes) (settings : List (Bytes × FlagValue))
    (hmeans : Means args (.run .generate settings)) :
    (mainT L C t c env args ⟨prompts, rnd, []⟩).2.2.acts =
      (generateAndPrintKey L C (seenBy t c env settings .generate) (generateOptions settings)).acts prompts rnd ∧
    ((mainT L C t c env args ⟨prompts, rnd, []⟩).2.1 = .exited 0 →
      (generateAndPrintKey L C (seenBy t c env settings .generate) (generateOptions settings)).outcome prompts rnd = .ok ()) := by
  rw [c112_same L C t c env args _ .generate settings hmeans, c58_status L C _ _ args _ hmeans]
  refine ⟨by rw [answer_acts]; rfl, fun h => answer_zero L C _ _ _ _ h⟩

/-- When generate is to write a word file `p`, then at every moment of its run either nothing has changed and nothing has
been printed, or there is one more file, in the place where `p` leads, and it holds a beginning of the phrase of a key; if
anything was printed, it is that key, and the file holds the whole phrase. The phrase is not displayed. -/
theorem c112_generate {L : WordList} (hL : L.Lawful) {C : Crypto} (hC : C.Lawful) (t : Tree) (c : Cred) (hs : Whole t c)
    (env : Env) (args : List Bytes) (prompts : List (Res Bytes)) (rnd : Bytes) (settings : List (Bytes × FlagValue))
    (hmeans : Means args (.run .generate settings)) (hout : (generateOptions settings).outputWordFile ≠ []) (n : Nat) :
    let opts := generateOptions settings
    let w := (TreeWorld.mk t none [] []).run c ((mainT L C t c env args ⟨prompts, rnd, []⟩).2.2.acts.take n)
    w.shown = [] ∧ ((w.tree = t ∧ w.stdout = []) ∨ ∃ d name data words mnk o key,
      t.resolve c opts.outputWordFile = .ok (.missing d name) ∧ c.may (t.inode d) 2 = true ∧
      OneMore t c d name data w.tree ∧ data <+: phraseText words ∧ Complete L.word words ∧
      BringsBack L C words opts.encryptPhrase prompts o mnk ∧
      Trimmed opts.key.name o.name ∧ Trimmed opts.key.email o.email ∧ IsExport C mnk key ∧
      w.stdout <+: env.armor key ++ [0x0A] ∧ (w.stdout ≠ [] → data = phraseText words)) := by
  intro opts
  rw [(mainT_generate (L := L) (C := C) t c env args prompts rnd settings hmeans).1]
  rcases generate_does hL hC (seenBy t c env settings .generate) opts hout prompts rnd with ⟨h, -⟩ |
    ⟨mnk, o, master, keyPw, pw, key, words, k, bs, g, h1, -, h3, h4, -, h5⟩
  · rw [h]
    simp [TreeWorld.run]
  obtain ⟨d, name, hr, hm⟩ := refused_none (t := t) (c := c) (env := env.save) (p := opts.outputWordFile) h1 h3
  rw [h4]
  obtain ⟨hc, hb⟩ := bringsBack_of hL g
  have hn : Trimmed opts.key.name o.name := by rw [g.options]; exact trimSpace_trimmed _
  have he : Trimmed opts.key.email o.email := by rw [g.options]; exact trimSpace_trimmed _
  dsimp only
  cases n with
  | zero => exact ⟨rfl, .inl ⟨rfl, rfl⟩⟩
  | succ n =>
    rw [List.cons_append, List.take_succ_cons]
    rcases take_split (((phraseText words).take k).map Act.write) (bs.map Act.stdout) n with ⟨j, hj⟩ | ⟨j, hj⟩
    · rw [hj, ← List.map_take]
      obtain ⟨r1, r2, r3⟩ := run_tree_create hs hr hm ⟨t, none, [], []⟩ rfl (((phraseText words).take k).take j)
      refine ⟨r3, .inr ⟨d, name, _, words, mnk, o, key, hr, hm, r1, ?_, hc, hb, hn, he, isExport_of g.exported, ?_, ?_⟩⟩
      · exact (List.take_prefix _ _).trans (List.take_prefix _ _)
      · rw [r2]; exact List.nil_prefix
      · intro hne; exact absurd r2 hne
    · rw [hj, ← List.cons_append, run_tree_append, ← List.map_take, run_tree_stdout]
      obtain ⟨r1, r2, r3⟩ := run_tree_create hs hr hm ⟨t, none, [], []⟩ rfl ((phraseText words).take k)
      refine ⟨r3, .inr ⟨d, name, _, words, mnk, o, key, hr, hm, r1, List.take_prefix _ _, hc, hb, hn, he,
        isExport_of g.exported, ?_, ?_⟩⟩
      · dsimp only
        rw [r2, List.nil_append]
        by_cases hbs : bs = []
        · rw [hbs, List.take_nil]; exact List.nil_prefix
        · rw [(h5 hbs).2]; exact List.take_prefix _ _
      · intro hne
        dsimp only at hne
        rw [r2, List.nil_append] at hne
        exact (h5 (fun h => hne (by rw [h, List.take_nil]))).1

theorem run_tree_off (c : Cred) : ∀ (as : List Act) (w : TreeWorld), as.all offFiles = true → (w.run c as).tree = w.tree
  | [], _, _ => rfl
  | a :: as, w, h => by
    rw [List.all_cons, Bool.and_eq_true] at h
    show ((w.step c a).run c as).tree = _
    rw [run_tree_off c as _ h.2]
    cases a <;> first | rfl | exact absurd h.1 (by simp [offFiles])

theorem take_off {as : List Act} (h : as.all offFiles = true) (n : Nat) : (as.take n).all offFiles = true := by
  rw [List.all_eq_true] at h ⊢
  exact fun a ha => h a (List.mem_of_mem_take ha)

theorem main_off {L : WordList} (hL : L.Lawful) {C : Crypto} (hC : C.Lawful) (env : Env) (args : List Bytes)
    (prompts : List (Res Bytes)) (rnd : Bytes)
    (h : ∀ q perm, Act.openTrunc q perm ∉ (main L C env args ⟨prompts, rnd, []⟩).2.2.acts) :
    (main L C env args ⟨prompts, rnd, []⟩).2.2.acts.all offFiles = true := by
  obtain ⟨r, hr⟩ := c58_total args
  cases r with
  | usage cmd code => rw [c58_no_effect L C env _ args _ hr (by simp)]; rfl
  | nothing => rw [c58_no_effect L C env _ args _ hr (by simp)]; rfl
  | run cmd settings =>
    rw [c58_status L C env _ args _ hr, answer_acts] at h ⊢
    have key : ∀ P : Prog Unit, IsCommand L C env P → (∀ q perm, Act.openTrunc q perm ∉ P.acts prompts rnd) →
        (P.acts prompts rnd).all offFiles = true := by
      intro P hP h
      obtain ⟨as, post, h1, h2, h3⟩ := command_saves hL hC hP prompts rnd
      rw [h1] at h ⊢
      rcases h3 with rfl | ⟨ws, p, rfl⟩
      · exact h2
      · rcases save_does env.fs env.save ws p with ⟨h4, -⟩ | ⟨-, -, -, k, h4, -⟩
        · rw [h4]; exact h2
        · refine absurd ?_ (h p 0o600)
          rw [h4]
          exact List.mem_cons_self
    cases cmd with
    | root => rfl
    | generate => exact key _ (.generate _) h
    | recover => exact key _ (.recover _) h
    | convert => exact key _ (.convert _) h

/-- Otherwise no process ever changes any file. -/
theorem c112_others {L : WordList} (hL : L.Lawful) {C : Crypto} (hC : C.Lawful) (t : Tree) (c : Cred)
    (env : Env) (args : List Bytes) (prompts : List (Res Bytes)) (rnd : Bytes)
    (h : ∀ settings, Means args (.run .generate settings) → (generateOptions settings).outputWordFile = []) (n : Nat) :
    ((TreeWorld.mk t none [] []).run c ((mainT L C t c env args ⟨prompts, rnd, []⟩).2.2.acts.take n)).tree = t := by
  refine run_tree_off c _ ⟨t, none, [], []⟩ (take_off ?_ n)
  have hno : ∀ env', (main L C env' args ⟨prompts, rnd, []⟩).2.2.acts.all offFiles = true := by
    intro env'
    refine main_off hL hC env' args prompts rnd fun q perm hm => ?_
    obtain ⟨⟨settings, h1, h2, h3⟩, -⟩ := opens hL hC env' args prompts rnd hm
    exact h3 (h2.symm.trans (h settings h1))
  by_cases hr : ∃ cmd settings, Means args (.run cmd settings)
  · obtain ⟨cmd, settings, hr⟩ := hr
    rw [c112_same L C t c env args _ cmd settings hr]
    exact hno _
  · rw [c112_not_run L C t c env args _ fun cmd settings hm => hr ⟨cmd, settings, hm⟩]
    exact hno _

/-- When generate ends with success, the file is there in full, `p` leads to it, and the key has been printed. -/
theorem c112_saved {L : WordList} (hL : L.Lawful) {C : Crypto} (hC : C.Lawful) (t : Tree) (c : Cred) (hs : Whole t c)
    (env : Env) (args : List Bytes) (prompts : List (Res Bytes)) (rnd : Bytes) (settings : List (Bytes × FlagValue))
    (hmeans : Means args (.run .generate settings)) (hout : (generateOptions settings).outputWordFile ≠ [])
    (hok : (mainT L C t c env args ⟨prompts, rnd, []⟩).2.1 = .exited 0) :
    let opts := generateOptions settings
    let w := (TreeWorld.mk t none [] []).run c (mainT L C t c env args ⟨prompts, rnd, []⟩).2.2.acts
    ∃ d name words mnk o key,
      t.resolve c opts.outputWordFile = .ok (.missing d name) ∧ OneMore t c d name (phraseText words) w.tree ∧
      w.tree.stat c opts.outputWordFile = .ok t.next ∧ Complete L.word words ∧
      BringsBack L C words opts.encryptPhrase prompts o mnk ∧
      Trimmed opts.key.name o.name ∧ Trimmed opts.key.email o.email ∧ IsExport C mnk key ∧
      w.stdout = env.armor key ++ [0x0A] ∧ w.shown = [] := by
  intro opts
  obtain ⟨ha, hg⟩ := mainT_generate (L := L) (C := C) t c env args prompts rnd settings hmeans
  rw [ha]
  rcases generate_does hL hC (seenBy t c env settings .generate) opts hout prompts rnd with ⟨-, h⟩ |
    ⟨mnk, o, master, keyPw, pw, key, words, k, bs, g, h1, -, h3, h4, h5, h6⟩
  · exact absurd (hg hok) h
  have hbs := h5 (hg hok)
  have hk := (h6 (by rw [hbs]; simp)).1
  obtain ⟨d, name, hr, hm⟩ := refused_none (t := t) (c := c) (env := env.save) (p := opts.outputWordFile) h1 h3
  obtain ⟨hc, hb⟩ := bringsBack_of hL g
  dsimp only
  rw [h4, run_tree_append, run_tree_stdout, hk, hbs]
  obtain ⟨r1, r2, r3⟩ := run_tree_create hs hr hm ⟨t, none, [], []⟩ rfl (phraseText words)
  refine ⟨d, name, words, mnk, o, key, hr, r1, ?_, hc, hb, by rw [g.options]; exact trimSpace_trimmed _,
    by rw [g.options]; exact trimSpace_trimmed _, isExport_of g.exported, ?_, r3⟩
  · unfold Tree.stat
    dsimp only
    rcases resolve_changes hs r1 opts.outputWordFile with ⟨a, -⟩ | ⟨-, a⟩ | ⟨a, -⟩
    · exact absurd hr a
    · rw [a]
    · rw [hr] at a; cases a
  · dsimp only
    rw [r2, List.nil_append]
    rfl

/-- Then all paths lead where they led, for every user, except those that lead to the new file now: these are the paths that
led to its place before. -/
theorem c112_paths {t t' : Tree} {c : Cred} {d : Nat} {name data : Bytes} (h : OneMore t c d name data t') (c' : Cred)
    (hs : Whole t c') (q : Bytes) :
    (t.resolve c' q = .ok (.missing d name) → t'.stat c' q = .ok t.next) ∧
    (t.resolve c' q ≠ .ok (.missing d name) → t'.stat c' q ≠ .ok t.next ∧
      (t'.stat c' q = t.stat c' q ∧ t'.open c' q = t.open c' q ∨
        t.stat c' q = .error .noent ∧ t'.stat c' q = .error .notdir)) := by
  have hl := resolve_lands hs q
  unfold Tree.stat Tree.open Tree.stat
  rcases resolve_changes hs h q with ⟨h1, h2⟩ | ⟨h1, h2⟩ | ⟨h1, h2⟩
  · refine ⟨fun h3 => absurd h3 h1, fun _ => ?_⟩
    rw [h2]
    cases hr : t.resolve c' q with
    | error e => exact ⟨by simp, .inl ⟨rfl, rfl⟩⟩
    | ok s =>
      cases s with
      | missing d n => exact ⟨by simp, .inl ⟨rfl, rfl⟩⟩
      | found i =>
        have hi := hl.1 i hr
        refine ⟨by simpa using Nat.ne_of_lt hi, .inl ⟨rfl, ?_⟩⟩
        dsimp only
        by_cases hid : i = d
        · subst hid
          obtain ⟨e, e', h3, -, h4, -, -, h5, h6, h7⟩ := h.dir
          rw [may_congr c' h5 h6 h7, h3, h4]
          rfl
        · rw [h.others i hid (Nat.ne_of_lt hi)]
  · exact ⟨fun _ => by rw [h2], fun h3 => absurd h1 h3⟩
  · rw [h1, h2]
    exact ⟨fun h3 => (by cases h3), fun _ => ⟨by simp, .inr ⟨rfl, rfl⟩⟩⟩

/-- The user of the process can read the new file unless their umask forbids it, and no other user but root can read or
write it, on whatever path. -/
theorem c112_private {t t' : Tree} {c : Cred} {d : Nat} {name data : Bytes} (h : OneMore t c d name data t') (c' : Cred)
    (q : Bytes) (hq : t'.stat c' q = .ok t.next) :
    (c'.user = 0 → t'.open c' q = .ok data) ∧
    (c'.user ≠ 0 → c'.user = c.user → t'.open c' q = if c.umask &&& 0o400 = 0 then .ok data else .error .acces) ∧
    (c'.user ≠ 0 → c'.user ≠ c.user → t'.open c' q = .error .acces ∧ ∀ perm, t'.create c' q perm = .error .acces) := by
  obtain ⟨h1, h2, h3, h4⟩ := h.file
  have hcontent : (t'.inode t.next).node.content = data := by rw [h1]; rfl
  refine ⟨fun h0 => ?_, fun h0 hu => ?_, fun h0 hu => ?_⟩
  · unfold Tree.open
    rw [hq]
    dsimp only
    have : c'.may (t'.inode t.next) 4 = true := by unfold Cred.may; rw [if_pos h0]
    rw [if_pos this, hcontent]
  · unfold Tree.open
    rw [hq]
    dsimp only
    have : c'.may (t'.inode t.next) 4 = decide (c.umask &&& 0o400 = 0) := by
      unfold Cred.may
      rw [if_neg h0, if_pos (hu.trans h2.symm), h4]
      exact decide_eq_decide.2 (owner_bit c.umask)
    rw [this, hcontent]
    by_cases hm : c.umask &&& 0o400 = 0
    · rw [if_pos hm, if_pos (decide_eq_true hm)]
    · rw [if_neg hm, if_neg (by simpa using hm)]
  · have hno : c'.may (t'.inode t.next) 4 = false ∧ c'.may (t'.inode t.next) 2 = false := by
      unfold Cred.may
      simp only [if_neg h0, if_neg (fun hc => hu (hc.trans h2) : ¬ c'.user = (t'.inode t.next).owner), h4]
      obtain ⟨b1, b2, b3, b4⟩ := others_bits c.umask
      split
      · exact ⟨decide_eq_false b1, decide_eq_false b2⟩
      · exact ⟨decide_eq_false b3, decide_eq_false b4⟩
    refine ⟨?_, fun perm => ?_⟩
    · unfold Tree.open
      rw [hq]
      dsimp only
      rw [hno.1]
      rfl
    · unfold Tree.stat at hq
      unfold Tree.create
      cases hr : t'.resolve c' q with
      | error e => rw [hr] at hq; cases hq
      | ok s =>
        rw [hr] at hq
        cases s with
        | missing d n => cases hq
        | found i =>
          cases hq
          dsimp only
          rw [h1]
          dsimp only
          rw [hno.2]
          rfl

theorem recover_congr {L : WordList} {C : Crypto} {env env' : Env} {opts opts' : RecoverOptions} (harm : env.armor = env'.armor)
    (hin : inputWords L env opts.input = inputWords L env' opts'.input) (h1 : opts.key = opts'.key)
    (h2 : opts.selfCert = opts'.selfCert) (h3 : opts.encIndex = opts'.encIndex) (h4 : opts.authIndex = opts'.authIndex)
    (h5 : opts.sigIndex = opts'.sigIndex) : recoverAndPrintKey L C env opts = recoverAndPrintKey L C env' opts' := by
  unfold recoverAndPrintKey decodeMnemonicFromInput
  rw [harm, hin, h1, h2, h3, h4, h5]

/-- Whoever can read the file, in this tree or a later one, on whatever path: recover prints the same key from it, and
changes no file. -/
theorem c112_recovers {L : WordList} (hL : L.Lawful) {C : Crypto} (hC : C.Lawful) (t : Tree) (c : Cred) (hs : Whole t c)
    (env : Env) (args : List Bytes) (prompts : List (Res Bytes)) (rnd : Bytes) (settings : List (Bytes × FlagValue))
    (hmeans : Means args (.run .generate settings)) (hout : (generateOptions settings).outputWordFile ≠ [])
    (hk : (generateOptions settings).key.encryptKeys = false)
    (hok : (mainT L C t c env args ⟨prompts, rnd, []⟩).2.1 = .exited 0) :
    let opts := generateOptions settings
    let w := (TreeWorld.mk t none [] []).run c (mainT L C t c env args ⟨prompts, rnd, []⟩).2.2.acts
    ∃ d name words, OneMore t c d name (phraseText words) w.tree ∧
      w.tree.stat c opts.outputWordFile = .ok t.next ∧
      ∀ (t2 : Tree) (c2 : Cred) (env2 : Env) (args2 : List Bytes) (prompts2 : List (Res Bytes)) (rnd2 : Bytes)
        (settings2 : List (Bytes × FlagValue)), Means args2 (.run .recover settings2) →
        let ropts := recoverOptions settings2
        ropts.input.inputWordFile ≠ [] → t2.open c2 ropts.input.inputWordFile = .ok (phraseText words) →
        env2.armor = env.armor → ropts.key = opts.key →
        ropts.selfCert = true → ropts.encIndex = 0 → ropts.authIndex = 0 → ropts.sigIndex = 0 →
        (opts.encryptPhrase = true → ∃ (wrong : List Bytes) (pw : Bytes) (rest : List (Res Bytes)),
          prompts2 = wrong.map .ok ++ .ok pw :: rest ∧
          prompts.head? = some (.ok pw) ∧ ∀ p ∈ wrong, WrongPassword L C words p) →
        (mainT L C t2 c2 env2 args2 ⟨prompts2, rnd2, []⟩).2.1 = .exited 0 ∧
        (TreeWorld.mk t2 none [] []).run c2 (mainT L C t2 c2 env2 args2 ⟨prompts2, rnd2, []⟩).2.2.acts =
          ⟨t2, none, w.stdout, []⟩ := by
  intro opts
  obtain ⟨d, name, words, mnk, o, key, hr, hone, hstat, -, -, -, -, -, hstd, -⟩ :=
    c112_saved hL hC t c hs env args prompts rnd settings hmeans hout hok
  obtain ⟨ha, hg⟩ := mainT_generate (L := L) (C := C) t c env args prompts rnd settings hmeans
  have hwf : (seenBy t c env settings .generate).fs.Wf := seen_wf hs _
  obtain ⟨words0, k1, k2⟩ := c60_same_key hL hC (seenBy t c env settings .generate) hwf opts hout hk prompts rnd (hg hok)
  -- the same actions on the files seen
  have hflat : ((atStart (seenBy t c env settings .generate).fs).run
        ((generateAndPrintKey L C (seenBy t c env settings .generate) opts).acts prompts rnd)).stdout =
      ((TreeWorld.mk t none [] []).run c (mainT L C t c env args ⟨prompts, rnd, []⟩).2.2.acts).stdout ∧
      OneMore t c d name (phraseText words0)
        ((TreeWorld.mk t none [] []).run c (mainT L C t c env args ⟨prompts, rnd, []⟩).2.2.acts).tree := by
    rw [ha]
    rcases generate_does hL hC (seenBy t c env settings .generate) opts hout prompts rnd with ⟨-, h⟩ |
      ⟨mnk, o, master, keyPw, pw, key, words1, k, bs, g, h1, h2, h3, h4, h5, h6⟩
    · exact absurd (hg hok) h
    have hk1 := (h6 (by rw [h5 (hg hok)]; simp)).1
    obtain ⟨d', name', hr', hm'⟩ := refused_none (t := t) (c := c) (env := env.save) (p := opts.outputWordFile) h1 h3
    rw [hr] at hr'
    cases hr'
    obtain ⟨r1, r2, r3⟩ := run_tree_create hs hr hm' ⟨t, none, [], []⟩ rfl (phraseText words1)
    rw [h4, hk1, run_append, run_create (atStart (seenBy t c env settings .generate).fs) _ _ _ h2, run_stdout] at k1 ⊢
    rw [run_tree_append, run_tree_stdout]
    dsimp only at k1 ⊢
    rw [read_created] at k1
    rw [r2]
    refine ⟨rfl, ?_⟩
    rw [← Option.some.inj k1]
    exact r1
  dsimp only
  refine ⟨d, name, words0, hflat.2, hstat, ?_⟩
  intro t2 c2 env2 args2 prompts2 rnd2 settings2 hmeans2 b0 b1 b2 b3 b4 b5 b6 b7 b8
  have hsame := c112_same L C t2 c2 env2 args2 ⟨prompts2, rnd2, []⟩ .recover settings2 hmeans2
  have hread : (seenBy t2 c2 env2 settings2 .recover).fs.read (recoverOptions settings2).input.inputWordFile =
      some (phraseText words0) := by
    rw [show (seenBy t2 c2 env2 settings2 .recover).fs = seenFiles t2 c2 fun _ => false from rfl, read_seen _ _ _ _ rfl, b1]
  obtain ⟨ropts', hropts'⟩ : ∃ r : RecoverOptions, r = { recoverOptions settings2 with
      input := { (recoverOptions settings2).input with inputWordFile := opts.outputWordFile } } := ⟨_, rfl⟩
  obtain ⟨env2', henv2'⟩ : ∃ e : Env, e = { seenBy t2 c2 env2 settings2 .recover with
      fs := ((atStart (seenBy t c env settings .generate).fs).run
        ((generateAndPrintKey L C (seenBy t c env settings .generate) opts).acts prompts rnd)).fs } := ⟨_, rfl⟩
  have hprog : recoverAndPrintKey L C (seenBy t2 c2 env2 settings2 .recover) (recoverOptions settings2) =
      recoverAndPrintKey L C env2' ropts' := by
    refine recover_congr (by rw [henv2']) ?_ (by rw [hropts']) (by rw [hropts']) (by rw [hropts']) (by rw [hropts'])
      (by rw [hropts'])
    unfold inputWords
    rw [if_pos b0, if_pos (by rw [hropts']; exact hout), hread, henv2', hropts']
    dsimp only
    rw [k1]
  obtain ⟨e1, e2⟩ := k2 env2' ropts' prompts2 rnd2 (by rw [henv2']) (by rw [henv2']; exact b2)
    (by rw [hropts']; exact b3) (by rw [hropts']) (by rw [hropts']; exact b4) (by rw [hropts']; exact b5)
    (by rw [hropts']; exact b6) (by rw [hropts']; exact b7) b8
  rw [← hprog] at e1 e2
  rw [hsame, c58_status L C _ _ args2 _ hmeans2, answer_acts]
  constructor
  · have : (program L C (seenBy t2 c2 env2 settings2 .recover) settings2 .recover ⟨prompts2, rnd2, []⟩).1 = .ok () := e1
    unfold answer
    dsimp only
    rw [← Prod.mk.eta (p := program L C (seenBy t2 c2 env2 settings2 .recover) settings2 .recover ⟨prompts2, rnd2, []⟩), this]
  · show (TreeWorld.mk t2 none [] []).run c2
      (recoverAndPrintKey L C (seenBy t2 c2 env2 settings2 .recover) (recoverOptions settings2) ⟨prompts2, rnd2, []⟩).2.acts = _
    unfold Prog.acts at e2
    unfold Prog.outcome at e1
    rcases recover_cases (L := L) (C := C) (seenBy t2 c2 env2 settings2 .recover) (recoverOptions settings2)
      ⟨prompts2, rnd2, []⟩ with ⟨hf, -⟩ | ⟨_, _, _, _, _, _, _, _, key2, -, -, -, -, -, -, -, -, -, hacts⟩
    · exact absurd e1 (hf ())
    rw [hacts, List.nil_append] at e2 ⊢
    rw [run_stdout] at e2
    rw [run_tree_stdout, ← hflat.1]
    unfold Prog.acts
    rw [← e2]
    rfl

/-- A directory that is given as the word file to read is opened without an error; the program says that it found no words. -/
theorem c112_directory (L : WordList) (t : Tree) (c : Cred) (env : Env) (opts : InputFlags) (i : Nat)
    (entries : Bytes → Option Nat) (h0 : opts.inputWordFile ≠ []) (h : t.stat c opts.inputWordFile = .ok i)
    (hd : (t.inode i).node = .dir entries) (hm : c.may (t.inode i) 4 = true) :
    inputWordsT L t c env opts = .err .fileNoWords := by
  unfold inputWordsT Tree.open
  rw [if_pos h0, h]
  dsimp only
  rw [if_pos hm, hd]
  rfl

/-! Examples -/

/-- A directory with these entries -/
def dirOf (l : List (Bytes × Nat)) : Node := .dir fun n => l.lookup n

/-- `/home` belongs to user 1000, `/tmp` to everybody; there user 1001 has a link that leads to nothing in their `/theirs`,
and another that leads to itself. In `/home` there is a file. -/
def sampleTree : Tree where
  inode j :=
    match j with
    | 0 => ⟨dirOf [(str ".", 0), (str "..", 0), (str "home", 1), (str "tmp", 2), (str "theirs", 4)], 0, 0, 0o755⟩
    | 1 => ⟨dirOf [(str ".", 1), (str "..", 0), (str "old", 6)], 1000, 100, 0o700⟩
    | 2 => ⟨dirOf [(str ".", 2), (str "..", 0), (str "phrase", 3), (str "round", 5)], 0, 0, 0o1777⟩
    | 3 => ⟨.link (str "../theirs/x"), 1001, 100, 0o777⟩
    | 4 => ⟨dirOf [(str ".", 4), (str "..", 0)], 1001, 100, 0o777⟩
    | 5 => ⟨.link (str "round"), 1001, 100, 0o777⟩
    | 6 => ⟨.file (str "abc"), 1000, 100, 0o644⟩
    | _ => ⟨.file [], 0, 0, 0⟩
  next := 7
  root := 0

/-- A process of user 1000 in `/home` -/
def sampleCred : Cred := ⟨1000, 100, fun _ => false, 1, 0o022⟩

/-- A process of user 1001 in `/tmp` -/
def otherCred : Cred := ⟨1001, 100, fun _ => false, 2, 0o022⟩

theorem lookup_mem {l : List (Bytes × Nat)} {n : Bytes} {i : Nat} (h : l.lookup n = some i) : i ∈ l.map Prod.snd := by
  induction l with
  | nil => cases h
  | cons a l ih =>
    obtain ⟨k, v⟩ := a
    rw [List.lookup_cons] at h
    by_cases hk : (n == k) = true
    · rw [hk] at h
      cases h
      exact List.mem_cons_self
    · rw [Bool.not_eq_true] at hk
      rw [hk] at h
      exact List.mem_cons_of_mem _ (ih h)

theorem sample_whole (c : Cred) (h : c.cwd < 7) : Whole sampleTree c := by
  refine ⟨by decide, h, ?_⟩
  have key : ∀ l : List (Bytes × Nat), (∀ i ∈ l.map Prod.snd, i < 7) → ∀ entries, dirOf l = .dir entries →
      ∀ name i, entries name = some i → i < 7 := by
    intro l hl entries he name i hi
    cases he
    exact hl i (lookup_mem hi)
  intro d hd entries he
  match d, hd with
  | 0, _ => exact key _ (by decide) entries he
  | 1, _ => exact key _ (by decide) entries he
  | 2, _ => exact key _ (by decide) entries he
  | 3, _ => cases he
  | 4, _ => exact key _ (by decide) entries he
  | 5, _ => cases he
  | 6, _ => cases he

/-- A name that seems to be free can be a link that another user has put there. The phrase then lands in a directory of that
user, who cannot read it but can remove it. -/
theorem c112_dangling : ∃ (t : Tree) (c : Cred) (dir p : Bytes) (e d : Nat) (name : Bytes), Whole t c ∧
    p = dir ++ str "/phrase" ∧ t.stat c dir = .ok e ∧ t.stat c p = .error .noent ∧
    t.resolve c p = .ok (.missing d name) ∧ c.may (t.inode d) 2 = true ∧ d ≠ e ∧
    (t.inode d).owner ≠ c.user ∧ (t.inode d).owner ≠ 0 :=
  ⟨sampleTree, sampleCred, str "/tmp", str "/tmp/phrase", 2, 4, str "x", sample_whole _ (by decide), by decide, by rfl, by rfl,
    by rfl, by rfl, by decide, by decide, by decide⟩

def saveAt (p : Bytes) : List Bytes := [str "generate", str "-name", str "Bob", str "-out-word-file", p]

def runAt (p : Bytes) : List Cmd × Status × St :=
  mainT toyWordList toyCrypto sampleTree sampleCred sampleEnv (saveAt p) ⟨[], sampleRandom, []⟩

/-- Only the first two succeed: a path through `..`, and the link. The others: a file that is there, a link to itself, a
directory that cannot be written to, one that is not there, and a file that is not a directory. -/
example : ([str "../tmp/new", str "/tmp/phrase", str "old", str "/tmp/round", str "/new", str "/none/new", str "old/new"].map
    fun p => (runAt p).2.1) = [.exited 0, .exited 0, .exited 1, .exited 1, .exited 1, .exited 1, .exited 1] := by
  decide +kernel

example : sampleTree.stat sampleCred (str "/tmp/round") = .error .loop ∧
    sampleTree.resolve sampleCred (str "../tmp/new") = .ok (.missing 2 (str "new")) ∧
    sampleTree.open sampleCred (str "//home/./old") = .ok (str "abc") ∧
    sampleTree.open otherCred (str "/home/old") = .error .acces := by
  refine ⟨rfl, rfl, rfl, rfl⟩

theorem saveAt_means : Means (saveAt (str "../tmp/new"))
    (.run .generate [(str "name", .string (str "Bob")), (str "out-word-file", .string (str "../tmp/new"))]) :=
  .positional (by decide) (.positional _ ((classify_positional _).1 (by decide)))
    (.run (positional := []) .generate (by decide) ((c63_accepted .generate _ _ _).1 (by decide +kernel)))

example := c112_generate toyWordList_lawful toyCrypto_lawful sampleTree sampleCred (sample_whole _ (by decide)) sampleEnv _ []
  sampleRandom _ saveAt_means (by decide) 50

example := c112_saved toyWordList_lawful toyCrypto_lawful sampleTree sampleCred (sample_whole _ (by decide)) sampleEnv _ []
  sampleRandom _ saveAt_means (by decide) (by decide +kernel)

example := c112_recovers toyWordList_lawful toyCrypto_lawful sampleTree sampleCred (sample_whole _ (by decide)) sampleEnv _ []
  sampleRandom _ saveAt_means (by decide) rfl (by decide +kernel)

def treeAfter : Tree :=
  ((TreeWorld.mk sampleTree none [] []).run sampleCred (runAt (str "../tmp/new")).2.2.acts).tree

/-- Afterwards the user reads the file on another path, and recover takes it; the other user cannot open it. -/
example : (treeAfter.open sampleCred (str "/tmp/new")).toOption.isSome = true ∧
    (treeAfter.open otherCred (str "new")).toOption = none ∧
    (mainT toyWordList toyCrypto treeAfter sampleCred sampleEnv
      [str "recover", str "-name", str "Bob", str "-in-word-file", str "/tmp/new"] ⟨[], [], []⟩).2.1 = .exited 0 ∧
    ((mainT toyWordList toyCrypto treeAfter sampleCred sampleEnv
      [str "recover", str "-name", str "Bob", str "-in-word-file", str "/tmp/new"] ⟨[], [], []⟩).2.2.acts) =
      (runAt (str "../tmp/new")).2.2.acts.filter offFiles := by
  decide +kernel

example : OneMore sampleTree sampleCred 2 (str "new") (str "abc") (sampleTree.add sampleCred 2 (str "new") 0o600 (str "abc")) :=
  add_oneMore ⟨by decide, rfl, _, rfl, rfl⟩ _

example : inputWordsT toyWordList sampleTree sampleCred sampleEnv ⟨false, str "/home"⟩ = .err .fileNoWords :=
  c112_directory toyWordList sampleTree sampleCred sampleEnv ⟨false, str "/home"⟩ 1 _ (by decide) rfl rfl rfl

end Verif.Props
