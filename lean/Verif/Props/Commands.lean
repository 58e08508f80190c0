import Verif.Proofs.CliCommands
import Verif.Proofs.Words
import Verif.Props.Files
import Verif.Props.Layout
import Verif.Props.Flags

/-!
# Whole commands: C46, C49, C55, C56, C60, C62
-/

namespace Verif.Props

open Verif.Model Verif.Model.Cli Verif.Spec Verif.Proofs Verif.Instances

/-- Nothing printed yet -/
def atStart (fs : FS) : World := ⟨fs, none, [], []⟩

/-- `key` is an export of `mnk` -/
def IsExport (C : Crypto) (mnk : Mnemonikey) (key : Bytes) : Prop :=
  ∃ password r r', mnk.encodePGP C password r = .ok (key, r') ∨
    ∃ cert, mnk.encodeSubkeysPGP C password cert r = .ok (key, r')

theorem isExport_of {C : Crypto} {mnk : Mnemonikey} {m c : Bool} {p key : Bytes}
    (h : Exported C mnk m c p key) : IsExport C mnk key := by
  obtain ⟨r, r', h⟩ := h
  cases m
  · exact ⟨p, r, r', .inr ⟨c, by simpa using h⟩⟩
  · exact ⟨p, r, r', .inl (by simpa using h)⟩

/-! ## C46 Subkey indices are never silently truncated -/

theorem ttlOf_no_panic (s : Bytes) : ∀ p, ttlOf s ≠ .panic p := by
  intro p h
  unfold ttlOf at h
  split at h
  · rcases Classical.em (∃ q u, IsTTL s q u) with hq | hq
    · obtain ⟨d, hd⟩ := ((c43_accepts s).1).mpr hq
      rw [hd] at h; cases h
    · rw [(c43_accepts s).2 hq] at h; cases h
  · cases h

/-- An index above 65535: an error, and nothing is printed, written or asked. -/
theorem c46_refused (L : WordList) (C : Crypto) (env : Env) (opts : RecoverOptions)
    (h : 65535 < opts.encIndex ∨ 65535 < opts.authIndex ∨ 65535 < opts.sigIndex) (st : St) :
    ∃ e, recoverAndPrintKey L C env opts st = (.err e, st) := by
  rcases recover_too_large (L := L) (C := C) (env := env) (opts := opts) h st with h | ⟨p, hp⟩
  · exact h
  · exact absurd hp (ttlOf_no_panic _ p)

/-- Whatever recover prints is a key derived with exactly the indices asked for, from the phrase
entered and at its creation time. -/
theorem c46_exact {L : WordList} (hL : L.Lawful) (C : Crypto) (env : Env) (opts : RecoverOptions)
    (prompts : List (Res Bytes)) (rnd : Bytes)
    (h : (recoverAndPrintKey L C env opts).acts prompts rnd ≠ []) :
    ∃ ws dm p s mnk key, ∃ o : KeyOptions,
      Gets L (offer L) env opts.input ws ∧ decodeMnemonic L ws = .ok dm ∧
      dm.decryptSeed C.toPhraseCrypto p = .ok s ∧ (dm.encrypted = true → .ok p ∈ prompts) ∧
      new C s dm.creation (some o) = .ok mnk ∧
      o.encryptionSubkeyIndex.toNat = opts.encIndex ∧
      o.authenticationSubkeyIndex.toNat = opts.authIndex ∧
      o.signingSubkeyIndex.toNat = opts.sigIndex ∧
      IsExport C mnk key ∧
      (recoverAndPrintKey L C env opts).acts prompts rnd =
        (env.armor key ++ str "\n").map .stdout := by
  unfold Prog.acts at h ⊢
  rcases recover_cases (L := L) (C := C) env opts ⟨prompts, rnd, []⟩ with ⟨-, ha⟩ |
    ⟨ttl, master, subkeys, ws, dm, s, mnk, keyPw, key, hi, -, -, hin, hd, ⟨p, hp, hm⟩, hnew, hexp, -, ha⟩
  · exact absurd ha h
  · unfold IndexTooLarge maxSubkeyIndex at hi
    refine ⟨ws, dm, p, s, mnk, key, _, (gets_iff hL).1 hin, hd, hp, hm, hnew, ?_, ?_, ?_, isExport_of hexp, ?_⟩
    · simp only [recoveredOptions, UInt16.toNat_ofNat']; omega
    · simp only [recoveredOptions, UInt16.toNat_ofNat']; omega
    · simp only [recoveredOptions, UInt16.toNat_ofNat']; omega
    · rw [ha]; rfl

/-! ## C49 generate never prints a key whose phrase was not saved -/

/-- The words alone, or with one of the passwords typed, bring the key back. -/
def BringsBack (L : WordList) (C : Crypto) (words : List Bytes) (encrypted : Bool)
    (prompts : List (Res Bytes)) (o : KeyOptions) (mnk : Mnemonikey) : Prop :=
  if encrypted then ∃ pw, .ok pw ∈ prompts ∧ recoverEncrypted L C words pw (some o) = .ok mnk
  else recoverPlaintext L C words (some o) = .ok mnk

theorem bringsBack_of {L : WordList} (hL : L.Lawful) {C : Crypto} {env : Env} {opts : GenerateOptions}
    {prompts : List (Res Bytes)} {mnk : Mnemonikey} {o : KeyOptions} {master : Bool} {keyPw : Bytes}
    {pw : Option Bytes} {key : Bytes} {words : List Bytes}
    (g : Generated L C env opts prompts mnk o master keyPw pw key words) :
    Complete L.word words ∧ BringsBack L C words opts.encryptPhrase prompts o mnk := by
  obtain ⟨dm, f⟩ := g.phrase
  refine ⟨f.complete, ?_⟩
  unfold BringsBack
  have hm := g.phraseMode
  cases pw with
  | none =>
    rw [← hm]
    simp only [Option.isSome_none, Bool.false_eq_true, if_false]
    unfold recoverPlaintext
    rw [f.decodes, Res.bind_ok]
    rcases c11_seed_access hL C.toPhraseCrypto words dm f.decodes with ⟨-, he, -⟩ | ⟨-, -, x, -, hx, hall⟩
    · rw [f.encrypted] at he; cases he
    · have h2 := f.seed
      rw [hall] at h2
      rw [hx, h2, Res.bind_ok]
      exact f.again
  | some p =>
    rw [← hm]
    simp only [Option.isSome_some, if_true]
    obtain ⟨rest, hp⟩ := g.prompted
    refine ⟨p, by rw [hp]; simp, ?_⟩
    unfold recoverEncrypted
    rw [f.decodes, Res.bind_ok]
    have h2 := f.seed
    rw [Option.getD_some] at h2
    rw [h2, Res.bind_ok]
    exact f.again

theorem take_split {α : Type} (as bs : List α) (n : Nat) :
    (∃ k, (as ++ bs).take n = as.take k) ∨ ∃ k, (as ++ bs).take n = as ++ bs.take k := by
  by_cases h : n ≤ as.length
  · exact .inl ⟨n, List.take_append_of_le_length h⟩
  · exact .inr ⟨n - as.length, by rw [List.take_append, List.take_of_length_le (by omega)]⟩

/-- With -out-word-file, at every crash point: if anything of the key has been printed, the file
already holds the whole phrase, and that phrase brings back the key being printed. The phrase is never
shown, and no other file has changed. -/
theorem c49_saved_first {L : WordList} (hL : L.Lawful) {C : Crypto} (hC : C.Lawful) (env : Env)
    (hwf : env.fs.Wf) (opts : GenerateOptions) (hout : opts.outputWordFile ≠ [])
    (prompts : List (Res Bytes)) (rnd : Bytes) (n : Nat) :
    let w := (atStart env.fs).run (((generateAndPrintKey L C env opts).acts prompts rnd).take n)
    w.shown = [] ∧ (∀ q, q ≠ opts.outputWordFile → w.fs.read q = env.fs.read q) ∧
    (w.stdout ≠ [] → ∃ words mnk o key,
      w.fs.read opts.outputWordFile = some (phraseText words) ∧ Complete L.word words ∧
      BringsBack L C words opts.encryptPhrase prompts o mnk ∧
      Trimmed opts.key.name o.name ∧ Trimmed opts.key.email o.email ∧
      IsExport C mnk key ∧ w.stdout <+: env.armor key ++ [0x0A]) := by
  unfold Prog.acts
  rcases generate_cases hL hC env opts ⟨prompts, rnd, []⟩ with ⟨-, ha⟩ |
    ⟨mnk, o, master, keyPw, pw, key, words, st1, ha, g, e⟩
  · rw [ha]; simp [atStart]
  · have hsave : ∀ k, ((atStart env.fs).run ((saveMnemonic env.fs env.save words
          opts.outputWordFile).1.take k)).stdout = [] ∧
        ((atStart env.fs).run ((saveMnemonic env.fs env.save words
          opts.outputWordFile).1.take k)).shown = [] ∧
        ∀ q, q ≠ opts.outputWordFile → ((atStart env.fs).run ((saveMnemonic env.fs env.save words
          opts.outputWordFile).1.take k)).fs.read q = env.fs.read q := by
      intro k
      by_cases hr : env.fs.read opts.outputWordFile = none
      · obtain ⟨-, h2, h3, h4⟩ := c47_crash (atStart env.fs) hwf env.save words opts.outputWordFile hr k
        exact ⟨h3, h4, h2⟩
      · have h5 := (c47_existing (atStart env.fs) env.save words opts.outputWordFile hr).2 k
        have h6 : (atStart env.fs).run ((saveMnemonic env.fs env.save words
          opts.outputWordFile).1.take k) = atStart env.fs := h5
        rw [h6]
        exact ⟨rfl, rfl, fun _ _ => rfl⟩
    rw [e]
    rcases generateEnd_file (env := env) (key := key) (ws := words) hout st1 with ⟨hs, hg⟩ | ⟨-, hg⟩
    · rw [hg]
      dsimp only
      rw [ha, List.nil_append]
      rcases take_split (saveMnemonic env.fs env.save words opts.outputWordFile).1
        ((env.armor key ++ str "\n").map .stdout) n with ⟨k, hk⟩ | ⟨k, hk⟩
      · rw [hk]
        obtain ⟨h1, h2, h3⟩ := hsave k
        exact ⟨h2, h3, fun hne => absurd h1 hne⟩
      · rw [hk, run_append, ← List.map_take, run_stdout]
        have hfull := hsave (saveMnemonic env.fs env.save words opts.outputWordFile).1.length
        rw [List.take_length] at hfull
        obtain ⟨h1, h2, h3⟩ := hfull
        refine ⟨h2, h3, fun _ => ?_⟩
        obtain ⟨hc, hb⟩ := bringsBack_of hL g
        refine ⟨words, mnk, o, key, (c47_round_trip hL (atStart env.fs) hwf env.save words _ hs).2.1, hc, hb,
          by rw [g.options]; exact trimSpace_trimmed _, by rw [g.options]; exact trimSpace_trimmed _, isExport_of g.exported, ?_⟩
        rw [h1, List.nil_append]
        exact List.take_prefix _ _
    · rw [hg, ha, List.nil_append]
      obtain ⟨h1, h2, h3⟩ := hsave n
      exact ⟨h2, h3, fun hne => absurd h1 hne⟩

/-- With -out-word-file: unless generate succeeds, nothing of the key is printed; when it succeeds
all of it has been. -/
theorem c49_all_or_nothing {L : WordList} (hL : L.Lawful) {C : Crypto} (hC : C.Lawful) (env : Env)
    (hwf : env.fs.Wf) (opts : GenerateOptions) (hout : opts.outputWordFile ≠ [])
    (prompts : List (Res Bytes)) (rnd : Bytes) :
    let w := (atStart env.fs).run ((generateAndPrintKey L C env opts).acts prompts rnd)
    ((generateAndPrintKey L C env opts).outcome prompts rnd ≠ .ok () → w.stdout = []) ∧
    ((generateAndPrintKey L C env opts).outcome prompts rnd = .ok () →
      ∃ mnk key, IsExport C mnk key ∧ w.stdout = env.armor key ++ [0x0A]) := by
  unfold Prog.acts Prog.outcome
  rcases generate_cases hL hC env opts ⟨prompts, rnd, []⟩ with ⟨hf, ha⟩ |
    ⟨mnk, o, master, keyPw, pw, key, words, st1, ha, g, e⟩
  · rw [ha]; exact ⟨fun _ => rfl, fun h => absurd h (hf _)⟩
  · have hsave : ((atStart env.fs).run (saveMnemonic env.fs env.save words
          opts.outputWordFile).1).stdout = [] := by
      by_cases hr : env.fs.read opts.outputWordFile = none
      · have h := (c47_crash (atStart env.fs) hwf env.save words opts.outputWordFile hr
          (saveMnemonic env.fs env.save words opts.outputWordFile).1.length).2.2.1
        have h' : ((atStart env.fs).run ((saveMnemonic env.fs env.save words
          opts.outputWordFile).1.take (saveMnemonic env.fs env.save words
          opts.outputWordFile).1.length)).stdout = [] := h
        rwa [List.take_length] at h'
      · obtain ⟨er, he⟩ := save_existing env.fs env.save words opts.outputWordFile (by
          intro hc; exact hr (by simp [FS.read, hc]))
        rw [he]; rfl
    rw [e]
    rcases generateEnd_file (env := env) (key := key) (ws := words) hout st1 with ⟨hs, hg⟩ | ⟨hf, hg⟩
    · rw [hg]
      refine ⟨fun h => absurd rfl h, fun _ => ⟨mnk, key, isExport_of g.exported, ?_⟩⟩
      dsimp only
      rw [ha, List.nil_append, run_append, run_stdout, hsave]
      rfl
    · refine ⟨fun _ => ?_, fun h => absurd h (hf _)⟩
      rw [hg, ha, List.nil_append]
      exact hsave

/-- Without -out-word-file, at every crash point: no file has changed, and if a phrase has been
shown then the whole key has already been printed, and the phrase brings it back. -/
theorem c49_shown_last {L : WordList} (hL : L.Lawful) {C : Crypto} (hC : C.Lawful) (env : Env)
    (opts : GenerateOptions) (hout : opts.outputWordFile = [])
    (prompts : List (Res Bytes)) (rnd : Bytes) (n : Nat) :
    let w := (atStart env.fs).run (((generateAndPrintKey L C env opts).acts prompts rnd).take n)
    w.fs = env.fs ∧
    (w.shown ≠ [] → ∃ words mnk o key, w.shown = [words] ∧ Complete L.word words ∧
      BringsBack L C words opts.encryptPhrase prompts o mnk ∧
      Trimmed opts.key.name o.name ∧ Trimmed opts.key.email o.email ∧
      IsExport C mnk key ∧ w.stdout = env.armor key ++ [0x0A]) := by
  unfold Prog.acts
  rcases generate_cases hL hC env opts ⟨prompts, rnd, []⟩ with ⟨-, ha⟩ |
    ⟨mnk, o, master, keyPw, pw, key, words, st1, ha, g, e⟩
  · rw [ha]; simp [atStart]
  · rw [e, hout, generateEnd_shown, ha, List.nil_append]
    rcases take_split ((env.armor key ++ str "\n").map .stdout) [Act.showPhrase words] n with
      ⟨k, hk⟩ | ⟨k, hk⟩
    · rw [hk, ← List.map_take, run_stdout]
      exact ⟨rfl, fun h => absurd rfl h⟩
    · rw [hk, run_append, run_stdout]
      cases k with
      | zero => exact ⟨rfl, fun h => absurd rfl h⟩
      | succ k =>
        rw [List.take_succ_cons, List.take_nil, run_cons, run_nil]
        obtain ⟨hc, hb⟩ := bringsBack_of hL g
        exact ⟨rfl, fun _ => ⟨words, mnk, o, key, rfl, hc, hb, by rw [g.options]; exact trimSpace_trimmed _,
          by rw [g.options]; exact trimSpace_trimmed _, isExport_of g.exported, rfl⟩⟩

/-! ## C55 Phrase password retry loop -/

/-- The password fails the verify bits of the encrypted phrase. -/
def WrongPassword (L : WordList) (C : Crypto) (ws : List Bytes) (p : Bytes) : Prop :=
  ∃ e salt v off, readPhrase (indexOf L) ws = .ok (.encrypted e salt v off) ∧
    Spec.decryptSeed C.toPhraseCrypto p e salt v off = none

/-- It passes, and yields the seed. -/
def RightPassword (L : WordList) (C : Crypto) (ws : List Bytes) (p : Bytes) (s : Nat) : Prop :=
  ∃ e salt v off, readPhrase (indexOf L) ws = .ok (.encrypted e salt v off) ∧
    Spec.decryptSeed C.toPhraseCrypto p e salt v off = some s

theorem decode_of_read {L : WordList} (hL : L.Lawful) {ws : List Bytes} {c : Contents}
    (h : readPhrase (indexOf L) ws = .ok c) :
    decodeMnemonic L ws = .ok (decodedOf c) ∧ c.Fits := by
  have h1 : decodeMnemonic L ws = .ok (decodedOf c) := by
    rw [decodeMnemonic_spec hL]
    change toRes (readPhrase (indexOf L) ws) = _
    rw [h]; rfl
  obtain ⟨c', hf, -, -, h2⟩ := decode_ok_words hL h1
  have h3 : readPhrase (indexOf L) ws = .ok c' := h2
  rw [h] at h3
  cases h3
  exact ⟨h1, hf⟩

theorem wrong_decrypt {L : WordList} (hL : L.Lawful) {C : Crypto} (hC : C.Lawful) {ws : List Bytes}
    {dm : DecodedMnemonic} (hd : decodeMnemonic L ws = .ok dm) {p : Bytes} (h : WrongPassword L C ws p) :
    dm.encrypted = true ∧ dm.decryptSeed C.toPhraseCrypto p = .err .mnemonicDecryption := by
  obtain ⟨e, salt, v, off, hr, hn⟩ := h
  obtain ⟨h1, hf⟩ := decode_of_read hL hr
  rw [hd] at h1; cases h1
  exact ⟨rfl, by rw [decryptSeed_spec hC.phrase p hf, hn]⟩

theorem right_decrypt {L : WordList} (hL : L.Lawful) {C : Crypto} (hC : C.Lawful) {ws : List Bytes}
    {p : Bytes} {s : Nat} (h : RightPassword L C ws p s) :
    ∃ dm, decodeMnemonic L ws = .ok dm ∧ dm.encrypted = true ∧
      dm.decryptSeed C.toPhraseCrypto p = .ok ⟨0, s⟩ := by
  obtain ⟨e, salt, v, off, hr, hn⟩ := h
  obtain ⟨h1, hf⟩ := decode_of_read hL hr
  exact ⟨_, h1, rfl, by rw [decryptSeed_spec hC.phrase p hf, hn]⟩

/-- After any number of wrong passwords the first right one decides, and only the prompts up to it are
used. -/
theorem c55_first_right {L : WordList} (hL : L.Lawful) {C : Crypto} (hC : C.Lawful) (env : Env)
    (opts : InputFlags) (ws : List Bytes) (hin : Gets L (offer L) env opts ws) (wrong : List Bytes)
    (hw : ∀ p ∈ wrong, WrongPassword L C ws p) (p : Bytes) (s : Nat) (hp : RightPassword L C ws p s)
    (rest : List (Res Bytes)) (rnd : Bytes) (acts : List Act) :
    ∃ dm, decodeMnemonic L ws = .ok dm ∧
      decodeMnemonicFromInput L C env opts ⟨wrong.map .ok ++ .ok p :: rest, rnd, acts⟩ =
        (.ok (⟨0, s⟩, dm), ⟨rest, rnd, acts⟩) := by
  replace hin := (gets_iff hL).2 hin
  obtain ⟨dm, hd, he, hs⟩ := right_decrypt hL hC hp
  refine ⟨dm, hd, ?_⟩
  rw [decode_run hin hd (s := ⟨0, s⟩) (rest := rest)]
  dsimp only
  rw [seedLoop_wrong he wrong _ (fun q hq => (wrong_decrypt hL hC hd (hw q hq)).2), seedLoop_right he hs]

/-- Only wrong passwords: still asking. An interrupted prompt ends the loop with its error. -/
theorem c55_still_asking {L : WordList} (hL : L.Lawful) {C : Crypto} (hC : C.Lawful) (env : Env)
    (opts : InputFlags) (ws : List Bytes) (hin : Gets L (offer L) env opts ws) (wrong : List Bytes)
    (hne : wrong ≠ []) (hw : ∀ p ∈ wrong, WrongPassword L C ws p) (rnd : Bytes) (acts : List Act) :
    (decodeMnemonicFromInput L C env opts ⟨wrong.map .ok, rnd, acts⟩).1 = .waits false ∧
    ∀ e rest, (decodeMnemonicFromInput L C env opts ⟨wrong.map .ok ++ .err e :: rest, rnd, acts⟩).1 =
      .err e := by
  replace hin := (gets_iff hL).2 hin
  obtain ⟨p, hp⟩ := List.exists_mem_of_ne_nil wrong hne
  obtain ⟨e0, salt, v, off, hr, -⟩ := hw p hp
  obtain ⟨hd, -⟩ := decode_of_read hL hr
  have henc : (decodedOf (.encrypted e0 salt v off)).encrypted = true := rfl
  have key : ∀ ps, seedLoop C (decodedOf (.encrypted e0 salt v off)) (wrong.map .ok ++ ps) =
      passwordLoop C (decodedOf (.encrypted e0 salt v off)) ps := by
    intro ps
    rw [seedLoop_wrong henc wrong ps (fun q hq => (wrong_decrypt hL hC hd (hw q hq)).2)]
    unfold seedLoop
    rw [if_pos henc]
  have run : ∀ ps, decodeMnemonicFromInput L C env opts ⟨ps, rnd, acts⟩ =
      (askSeed C (decodedOf (.encrypted e0 salt v off)) >>= fun seed =>
        (pure (seed, decodedOf (.encrypted e0 salt v off)) : Prog _)) ⟨ps, rnd, acts⟩ := by
    intro ps
    unfold decodeMnemonicFromInput
    rw [hin, bind_run_ok (lift_ok ws _), hd, bind_run_ok (lift_ok _ _)]
  constructor
  · rw [run]
    have := key []
    rw [List.append_nil] at this
    change (Prog.bind _ _ _).1 = _
    unfold Prog.bind askSeed
    rw [this]
    rfl
  · intro e rest
    rw [run]
    change (Prog.bind _ _ _).1 = _
    unfold Prog.bind askSeed
    rw [key]
    rfl

/-- A plaintext phrase is never asked a password for. -/
theorem c55_plaintext {L : WordList} (hL : L.Lawful) (C : Crypto) (env : Env)
    (opts : InputFlags) (ws : List Bytes) (hin : Gets L (offer L) env opts ws) (s off : Nat)
    (hr : readPhrase (indexOf L) ws = .ok (.plaintext s off)) (st : St) :
    ∃ dm, decodeMnemonic L ws = .ok dm ∧
      decodeMnemonicFromInput L C env opts st = (.ok (⟨0, s⟩, dm), st) := by
  replace hin := (gets_iff hL).2 hin
  obtain ⟨hd, -⟩ := decode_of_read hL hr
  refine ⟨_, hd, ?_⟩
  rcases c11_seed_access hL C.toPhraseCrypto ws _ hd with ⟨h, -, -⟩ | ⟨-, he, x, hx, hsd, hall⟩
  · cases h
  · have hxs : x = s := by
      obtain ⟨h1, -⟩ : s < 2 ^ 128 ∧ off < 2 ^ 31 := (decode_of_read hL hr).2
      have h2 : (decodedOf (.plaintext s off)).seed = .ok ⟨0, (s : Int)⟩ :=
        (newSeed_ok_iff 0 s _).mpr ⟨rfl, by simpa using h1, rfl⟩
      rw [hsd] at h2
      simp only [Res.ok.injEq, Seed.mk.injEq, true_and] at h2
      exact_mod_cast h2
    subst hxs
    rw [decode_run hin hd (seedLoop_plain he (hall []) st.prompts)]

theorem lift_bind {α β : Type} (r : Res α) (f : α → Prog β) (st : St) :
    (lift r >>= f) st = match r with
      | .ok a => f a st
      | .err e => (.err e, st)
      | .panic p => (.panic p, st) := by
  cases r <;> rfl

/-- Wrong passwords have no effect on what recover and convert do. -/
theorem c55_wrong_no_effect {L : WordList} (hL : L.Lawful) {C : Crypto} (hC : C.Lawful) (env : Env)
    (input : InputFlags) (ws : List Bytes) (hin : Gets L (offer L) env input ws) (wrong : List Bytes)
    (hw : ∀ p ∈ wrong, WrongPassword L C ws p) (ps : List (Res Bytes)) (rnd : Bytes) :
    (∀ opts : RecoverOptions, opts.input = input →
      (recoverAndPrintKey L C env opts).outcome (wrong.map .ok ++ ps) rnd =
        (recoverAndPrintKey L C env opts).outcome ps rnd ∧
      (recoverAndPrintKey L C env opts).acts (wrong.map .ok ++ ps) rnd =
        (recoverAndPrintKey L C env opts).acts ps rnd) ∧
    (∀ opts : ConvertOptions, opts.input = input →
      (decodeAndConvertPhrase L C env opts).outcome (wrong.map .ok ++ ps) rnd =
        (decodeAndConvertPhrase L C env opts).outcome ps rnd ∧
      (decodeAndConvertPhrase L C env opts).acts (wrong.map .ok ++ ps) rnd =
        (decodeAndConvertPhrase L C env opts).acts ps rnd) := by
  replace hin := (gets_iff hL).2 hin
  rcases List.eq_nil_or_concat wrong with rfl | hne
  · simp
  have hne : wrong ≠ [] := by
    obtain ⟨l, b, rfl⟩ := hne; simp
  obtain ⟨p, hp⟩ := List.exists_mem_of_ne_nil wrong hne
  obtain ⟨e0, salt, v, off, hr, -⟩ := hw p hp
  obtain ⟨hd, -⟩ := decode_of_read hL hr
  have key : decodeMnemonicFromInput L C env input ⟨wrong.map .ok ++ ps, rnd, []⟩ =
      decodeMnemonicFromInput L C env input ⟨ps, rnd, []⟩ := by
    unfold decodeMnemonicFromInput
    rw [hin, bind_run_ok (lift_ok ws _), bind_run_ok (lift_ok ws _), hd, bind_run_ok (lift_ok _ _),
      bind_run_ok (lift_ok _ _)]
    change Prog.bind _ _ _ = Prog.bind _ _ _
    unfold Prog.bind askSeed
    dsimp only
    rw [seedLoop_wrong rfl wrong ps (fun q hq => (wrong_decrypt hL hC hd (hw q hq)).2)]
  have ext : ∀ {β : Type} (f : Seed × DecodedMnemonic → Prog β),
      (decodeMnemonicFromInput L C env input >>= f) ⟨wrong.map .ok ++ ps, rnd, []⟩ =
      (decodeMnemonicFromInput L C env input >>= f) ⟨ps, rnd, []⟩ := by
    intro β f
    change Prog.bind _ _ _ = Prog.bind _ _ _
    unfold Prog.bind
    rw [key]
  constructor
  · rintro opts rfl
    unfold Prog.outcome Prog.acts recoverAndPrintKey
    rw [lift_bind, lift_bind]
    cases ttlOf opts.key.ttl with
    | err e => exact ⟨rfl, rfl⟩
    | panic p => exact ⟨rfl, rfl⟩
    | ok ttl =>
      dsimp only
      by_cases hi : IndexTooLarge opts
      · rw [if_pos hi]; exact ⟨rfl, rfl⟩
      · rw [if_neg hi, lift_bind, lift_bind]
        cases decodeOnlyKeyTypes opts.key.only with
        | err e => exact ⟨rfl, rfl⟩
        | panic p => exact ⟨rfl, rfl⟩
        | ok r =>
          obtain ⟨master, subkeys⟩ := r
          dsimp only
          rw [ext]
          exact ⟨rfl, rfl⟩
  · rintro opts rfl
    unfold Prog.outcome Prog.acts decodeAndConvertPhrase
    rw [ext]
    exact ⟨rfl, rfl⟩

/-! ## C56 convert never writes its output file -/

theorem read_of_input {L : WordList} {env : Env} {opts : InputFlags} {ws : List Bytes}
    (h : inputWords L env opts = .ok ws) (hne : opts.inputWordFile ≠ []) :
    env.fs.dir opts.inputWordFile ≠ none := by
  intro hc
  unfold inputWords at h
  rw [if_pos hne] at h
  simp [FS.read, hc, readWordFile] at h

/-- No run of convert ever changes any file, in particular not the one named by -out-word-file; nor
does it write to standard output. -/
theorem c56_no_file (L : WordList) (C : Crypto) (env : Env) (opts : ConvertOptions)
    (prompts : List (Res Bytes)) (rnd : Bytes) (n : Nat) :
    let w := (atStart env.fs).run (((decodeAndConvertPhrase L C env opts).acts prompts rnd).take n)
    w.fs = env.fs ∧ w.stdout = [] := by
  unfold Prog.acts
  rcases convert_cases (L := L) (C := C) env opts ⟨prompts, rnd, []⟩ with ⟨-, ha⟩ |
    ⟨ws, dm, s, words, st1, hin, -, -, -, ha, e⟩
  · rw [ha]; simp [atStart]
  · rw [e]
    by_cases hf : opts.input.inputWordFile = []
    · rw [if_pos hf, printMnemonic_run, ha]
      cases n with
      | zero => exact ⟨rfl, rfl⟩
      | succ k =>
        dsimp only
        rw [List.nil_append, List.take_succ_cons, List.take_nil]
        exact ⟨rfl, rfl⟩
    · rw [if_neg hf]
      obtain ⟨er, he⟩ := save_existing env.fs env.save words _ (read_of_input hin hf)
      have h1 := (save_fails (by rw [he]; simp) st1 :
        (save env words opts.input.inputWordFile st1).2 = _ ∧ _).1
      rw [h1, he, ha]
      simp [atStart]

/-- With -in-word-file convert never succeeds and never shows the new phrase. Once the old phrase has been
read and its password given (and the new password, if any), it ends in an error about the input file. -/
theorem c56_in_file (L : WordList) (C : Crypto) (env : Env) (opts : ConvertOptions)
    (hne : opts.input.inputWordFile ≠ []) (prompts : List (Res Bytes)) (rnd : Bytes) :
    (decodeAndConvertPhrase L C env opts).outcome prompts rnd ≠ .ok () ∧
    (decodeAndConvertPhrase L C env opts).acts prompts rnd = [] := by
  unfold Prog.acts Prog.outcome
  rcases convert_cases (L := L) (C := C) env opts ⟨prompts, rnd, []⟩ with ⟨hf, ha⟩ |
    ⟨ws, dm, s, words, st1, hin, -, -, -, ha, e⟩
  · exact ⟨hf (), ha⟩
  · rw [e, if_neg hne]
    obtain ⟨er, he⟩ := save_existing env.fs env.save words _ (read_of_input hin hne)
    obtain ⟨h1, er', h2⟩ := save_fails (env := env) (ws := words) (p := opts.input.inputWordFile)
      (by rw [he]; simp) st1
    rw [h1, h2, he, ha]
    simp

/-- In particular a plaintext phrase in a readable file: "file already exists" (unless the file cannot be
examined), although a valid new phrase has been computed. -/
theorem c56_plaintext {L : WordList} (hL : L.Lawful) (C : Crypto) (env : Env) (opts : ConvertOptions)
    (hne : opts.input.inputWordFile ≠ []) (henc : opts.encryptPhrase = false) (ws : List Bytes)
    (hin : Gets L (offer L) env opts.input ws) (s off : Nat)
    (hr : readPhrase (indexOf L) ws = .ok (.plaintext s off)) (hst : env.save.statFails = false)
    (prompts : List (Res Bytes)) (rnd : Bytes) :
    (decodeAndConvertPhrase L C env opts).outcome prompts rnd = .err .fileExists := by
  obtain ⟨dm, hd, hrun⟩ := c55_plaintext hL C env opts.input ws hin s off hr ⟨prompts, rnd, []⟩
  obtain ⟨hd', hs, ho⟩ := decode_of_read hL hr
  rw [hd] at hd'; cases hd'
  obtain ⟨ws', -, hw, -⟩ := c01_plaintext_round_trip hL 0 s (by omega) ⟨0, s⟩
    ((newSeed_ok_iff 0 s _).mpr ⟨rfl, by simpa using hs, rfl⟩) off ho
  unfold Prog.outcome decodeAndConvertPhrase
  rw [bind_run_ok hrun]
  dsimp only
  rw [henc]
  simp only [Bool.false_eq_true, if_false]
  have hw' : encodeMnemonicPlaintext L ⟨0, (s : Int)⟩ (decodedOf (.plaintext s off)).creationOffset =
      .ok ws' := hw
  rw [hw', bind_run_ok (lift_ok ws' _), if_neg hne]
  have hsv : saveMnemonic env.fs env.save ws' opts.input.inputWordFile = ([], .err .fileExists) := by
    unfold saveMnemonic
    rw [hst, if_neg (by simp), if_pos (Option.isSome_iff_ne_none.mpr (read_of_input ((gets_iff hL).2 hin) hne))]
  unfold save
  rw [bind_run_ok (rfl : emit _ _ = (.ok (), _)), hsv]
  rfl

/-! ## C60 recover prints the key that generate printed -/

/-- generate wrote a word file and no key password was asked for. Then recover, reading that file with
the same key flags, prints the same bytes: at any later time, with any random source, file system state in
which the file is unchanged, and with any wrong phrase passwords typed first. -/
theorem c60_same_key {L : WordList} (hL : L.Lawful) {C : Crypto} (hC : C.Lawful) (env : Env)
    (hwf : env.fs.Wf) (opts : GenerateOptions) (hout : opts.outputWordFile ≠ [])
    (hk : opts.key.encryptKeys = false) (prompts : List (Res Bytes)) (rnd : Bytes)
    (hok : (generateAndPrintKey L C env opts).outcome prompts rnd = .ok ()) :
    let w := (atStart env.fs).run ((generateAndPrintKey L C env opts).acts prompts rnd)
    ∃ words, w.fs.read opts.outputWordFile = some (phraseText words) ∧
      ∀ (env2 : Env) (ropts : RecoverOptions) (prompts2 : List (Res Bytes)) (rnd2 : Bytes),
        env2.fs.read opts.outputWordFile = w.fs.read opts.outputWordFile → env2.armor = env.armor →
        ropts.key = opts.key → ropts.input.inputWordFile = opts.outputWordFile →
        ropts.selfCert = true → ropts.encIndex = 0 → ropts.authIndex = 0 → ropts.sigIndex = 0 →
        (opts.encryptPhrase = true → ∃ (wrong : List Bytes) (pw : Bytes) (rest : List (Res Bytes)),
          prompts2 = wrong.map .ok ++ .ok pw :: rest ∧
          prompts.head? = some (.ok pw) ∧ ∀ p ∈ wrong, WrongPassword L C words p) →
        (recoverAndPrintKey L C env2 ropts).outcome prompts2 rnd2 = .ok () ∧
        ((atStart env2.fs).run ((recoverAndPrintKey L C env2 ropts).acts prompts2 rnd2)).stdout =
          w.stdout := by
  unfold Prog.acts Prog.outcome at *
  rcases generate_cases hL hC env opts ⟨prompts, rnd, []⟩ with ⟨hf, -⟩ |
    ⟨mnk, o, master, keyPw, pw, key, words, st1, ha, g, e⟩
  · exact absurd hok (hf _)
  rw [e] at hok ⊢
  rcases generateEnd_file (env := env) (key := key) (ws := words) hout st1 with ⟨hs, hg⟩ | ⟨hf, -⟩
  swap
  · exact absurd hok (hf _)
  rw [hg]
  dsimp only
  rw [ha, List.nil_append, run_append, run_stdout]
  obtain ⟨-, hread, -, hback⟩ := c47_round_trip hL (atStart env.fs) hwf env.save words _ hs
  obtain ⟨dm, f⟩ := g.phrase
  have hrw := hback f.complete
  have hsave : ((atStart env.fs).run (saveMnemonic env.fs env.save words
      opts.outputWordFile).1).stdout = [] := by
    have h := (c49_saved_first hL hC env hwf opts hout prompts rnd
      (saveMnemonic env.fs env.save words opts.outputWordFile).1.length)
    have hnone := (c47_round_trip hL (atStart env.fs) hwf env.save words _ hs).1
    have h := (c47_crash (atStart env.fs) hwf env.save words opts.outputWordFile hnone
      (saveMnemonic env.fs env.save words opts.outputWordFile).1.length).2.2.1
    have h' : ((atStart env.fs).run ((saveMnemonic env.fs env.save words
      opts.outputWordFile).1.take (saveMnemonic env.fs env.save words
      opts.outputWordFile).1.length)).stdout = [] := h
    rwa [List.take_length] at h'
  refine ⟨words, hread, ?_⟩
  intro env2 ropts prompts2 rnd2 hfile harm hkey hinf hcert he0 ha0 hs0 hpw
  have hin : inputWords L env2 ropts.input = .ok words := by
    unfold inputWords
    rw [hinf, if_pos hout, hfile]
    exact hrw
  have hloop : ∃ rest, seedLoop C dm prompts2 = (.ok mnk.seed, rest) := by
    cases hp : pw with
    | none =>
      have hse := f.seed
      have hen := f.encrypted
      rw [hp] at hse hen
      exact ⟨_, seedLoop_plain hen hse prompts2⟩
    | some q =>
      have hse := f.seed
      have hen := f.encrypted
      have hmode := g.phraseMode
      obtain ⟨rest0, hpr⟩ := g.prompted
      rw [hp] at hse hen hmode hpr
      rw [hk] at hpr
      obtain ⟨wrong, pw', rest, rfl, hhead, hwrong⟩ := hpw hmode.symm
      dsimp only at hpr
      rw [hpr] at hhead
      simp only [Bool.false_eq_true, if_false, Option.toList_some, List.map_cons, List.map_nil,
        List.nil_append, List.cons_append, List.head?_cons, Option.some.injEq, Res.ok.injEq] at hhead
      subst hhead
      refine ⟨rest, ?_⟩
      rw [seedLoop_wrong hen wrong _ (fun r hr => (wrong_decrypt hL hC f.decodes (hwrong r hr)).2)]
      exact seedLoop_right hen hse rest
  obtain ⟨rest, hloop⟩ := hloop
  have hopts : recoveredOptions ropts o.ttl o.subkeys = o := by
    conv_rhs => rw [g.options]
    unfold recoveredOptions generatedOptions
    rw [hkey, he0, ha0, hs0]
    rfl
  obtain ⟨n, s, hns, hnew⟩ := g.made
  obtain ⟨⟨out1, hd1⟩, hd2⟩ := c37_deterministic hC 0 n s hns env.now (some o) mnk hnew
  obtain ⟨out2, hd2⟩ := hd2 true
  have hkp := g.keyPlain hk
  have hexp : (if master then mnk.encodePGP C [] rnd2
      else mnk.encodeSubkeysPGP C [] ropts.selfCert rnd2) = .ok (key, rnd2) := by
    obtain ⟨r, r', hx⟩ := g.exported
    rw [hkp] at hx
    rw [hcert]
    cases master
    · simp only [Bool.false_eq_true, if_false] at hx ⊢
      rw [hd2] at hx ⊢
      cases hx; rfl
    · simp only [if_true] at hx ⊢
      rw [hd1] at hx ⊢
      cases hx; rfl
  have hrec := recover_run (L := L) (C := C) (env := env2) (opts := ropts) (st := ⟨prompts2, rnd2, []⟩)
    (by rw [hkey]; exact g.ttl) (by unfold IndexTooLarge maxSubkeyIndex; omega)
    (by rw [hkey]; exact g.only) hin f.decodes hloop (by rw [hopts]; exact f.again)
    (by rw [hkey]; exact hk) hexp
  rw [hrec]
  refine ⟨rfl, ?_⟩
  dsimp only
  rw [List.nil_append, run_stdout, hsave, harm]
  rfl

/-! ## C62 convert keeps the key -/

/-- Every phrase convert shows holds the seed and the creation time of the phrase entered: in plain, or
under one of the passwords typed, as asked. -/
theorem c62_same_seed {L : WordList} (hL : L.Lawful) {C : Crypto} (hC : C.Lawful) (env : Env)
    (opts : ConvertOptions) (prompts : List (Res Bytes)) (rnd : Bytes) (words : List Bytes)
    (h : .showPhrase words ∈ (decodeAndConvertPhrase L C env opts).acts prompts rnd) :
    ∃ ws dm s p dm', Gets L (offer L) env opts.input ws ∧ decodeMnemonic L ws = .ok dm ∧
      dm.decryptSeed C.toPhraseCrypto p = .ok s ∧ (dm.encrypted = true → .ok p ∈ prompts) ∧
      decodeMnemonic L words = .ok dm' ∧
      dm'.creation = dm.creation ∧ dm'.encrypted = opts.encryptPhrase ∧
      (opts.encryptPhrase = false → dm'.seed = .ok s) ∧
      (opts.encryptPhrase = true → ∃ pw, .ok pw ∈ prompts ∧
        dm'.decryptSeed C.toPhraseCrypto pw = .ok s) := by
  unfold Prog.acts at h
  rcases convert_cases (L := L) (C := C) env opts ⟨prompts, rnd, []⟩ with ⟨-, ha⟩ |
    ⟨ws, dm, s, words', st1, hin, hd, ⟨p, hp, hpm⟩, hw, ha, e⟩
  · rw [ha] at h; cases h
  · have hinf : opts.input.inputWordFile = [] := by
      by_contra hne
      have := (c56_in_file L C env opts hne prompts rnd).2
      unfold Prog.acts at this
      rw [this] at h
      cases h
    rw [e, if_pos hinf, printMnemonic_run, ha] at h
    simp only [List.nil_append, List.mem_singleton, Act.showPhrase.injEq] at h
    subst h
    have ho : dm.creationOffset < 2 ^ 31 := by
      rcases c03_decode_total hL ws with ⟨e, he⟩ | ⟨dm', h', -, -, ho, -⟩
      · rw [hd] at he; cases he
      · rw [hd] at h'; cases h'; exact ho
    have hs : ∃ n : Nat, n < 2 ^ 128 ∧ s = ⟨0, (n : Int)⟩ := by
      rcases c11_seed_access hL C.toPhraseCrypto ws dm hd with ⟨-, he, -⟩ | ⟨-, -, x, hx, -, hall⟩
      · obtain ⟨e0, salt, v, off, -, h1, h2⟩ := c10_password_check hL hC.phrase ws dm hd he p
        by_cases hv : verifyOf (Spec.phraseKey C.toPhraseCrypto p salt off) = v
        · obtain ⟨n, hn, h3⟩ := h2 hv
          rw [hp] at h3
          cases h3
          exact ⟨n, hn, rfl⟩
        · rw [h1 hv] at hp; cases hp
      · rw [hall p] at hp
        cases hp
        exact ⟨x, hx, rfl⟩
    obtain ⟨n, hn, rfl⟩ := hs
    rcases hw with ⟨hm, hw⟩ | ⟨hm, pw, r, r', hmem, hw⟩
    · obtain ⟨ws2, dm2, hw2, hd2, -, he2, ho2, hs2, -, -⟩ := c01_plaintext_round_trip hL 0 n (by omega)
        ⟨0, n⟩ ((newSeed_ok_iff 0 n _).mpr ⟨rfl, by simpa using hn, rfl⟩) dm.creationOffset ho
      rw [hw] at hw2
      cases hw2
      exact ⟨ws, dm, _, p, dm2, (gets_iff hL).1 hin, hd, hp, hpm, hd2, by simp only [DecodedMnemonic.creation, ho2],
        by rw [he2, hm], fun _ => hs2, fun h => by rw [hm] at h; cases h⟩
    · have hpne : pw ≠ [] := by
        rintro rfl
        simp [encodeMnemonicEncrypted, eraCheck, eraLatest] at hw
      have hr : 3 ≤ r.length := by
        by_contra hlt
        rw [c09_short_random L C.toPhraseCrypto n _ pw hpne r (by omega)] at hw
        cases hw
      obtain ⟨ws2, rest2, dm2, hw2, hd2, -, he2, ho2, hs2⟩ := c09_encrypted_round_trip hL hC.phrase n
        dm.creationOffset hn ho pw hpne r hr
      rw [hw] at hw2
      cases hw2
      exact ⟨ws, dm, _, p, dm2, (gets_iff hL).1 hin, hd, hp, hpm, hd2, by simp only [DecodedMnemonic.creation, ho2],
        by rw [he2, hm], fun h => (by rw [hm] at h; cases h), fun _ => ⟨pw, hmem, hs2⟩⟩

/-! ## Sample runs -/

/-- For the examples a key is printed as a short digest. -/
def sampleArmor (k : Bytes) : Bytes := [k.foldl (· + ·) 0, k.foldl (fun a b => 3 * a + b) 0]

def sampleEnv : Env :=
  { now := sampleTime, fs := sampleFS, save := allGoesWell, stdin := [], columns := 80, armor := sampleArmor }

def sampleFlags : KeyFlags :=
  { name := str " alice", email := str "a@b.c", ttl := str "2y", encryptKeys := false, only := [] }

def sampleRandom : Bytes := List.replicate 40 7

/-- generate, with the phrase saved under that name (or shown) and encrypted or not -/
def sampleGenerate (out : Bytes) (enc : Bool) : Prog Unit :=
  generateAndPrintKey toyWordList toyCrypto sampleEnv
    { key := sampleFlags, outputWordFile := out, encryptPhrase := enc, unsafeEntropy := [] }

/-- What a run of it leaves behind -/
def afterGenerate (out : Bytes) (enc : Bool) (prompts : List (Res Bytes)) : World :=
  (atStart sampleFS).run ((sampleGenerate out enc).acts prompts sampleRandom)

/-- recover from a file, with these indices -/
def sampleRecover (w : World) (file : Bytes) (e a s : Nat) : Prog Unit :=
  recoverAndPrintKey toyWordList toyCrypto { sampleEnv with fs := w.fs, now := 0 }
    { key := sampleFlags, input := ⟨false, file⟩, selfCert := true
      encIndex := e, authIndex := a, sigIndex := s }

/-- convert of the phrase typed in simple mode, or in a file -/
def sampleConvert (w : World) (file stdin : Bytes) (enc : Bool) : Prog Unit :=
  decodeAndConvertPhrase toyWordList toyCrypto { sampleEnv with fs := w.fs, stdin := stdin }
    { input := ⟨true, file⟩, outputWordFile := str "other", encryptPhrase := enc }

/-- C46: an index of 65536 is refused where 65535 gives a key, another one than 0. -/
example :
    let w := afterGenerate (str "new") false []
    (sampleRecover w (str "new") 65536 0 0).outcome [] [] = .err .badSubkeyIndex ∧
    (sampleRecover w (str "new") 65535 0 0).outcome [] [] = .ok () ∧
    (sampleRecover w (str "new") 65535 0 0).acts [] [] ≠ [] ∧
    (sampleRecover w (str "new") 65535 0 0).acts [] [] ≠ (sampleRecover w (str "new") 0 0 0).acts [] [] := by
  decide +kernel

/-- C49: successful runs of each kind, and one in which the file cannot be written. -/
example :
    (sampleGenerate (str "new") false).outcome [] sampleRandom = .ok () ∧
    (afterGenerate (str "new") false []).stdout ≠ [] ∧
    (sampleGenerate (str "new") true).outcome [.ok [1]] sampleRandom = .ok () ∧
    (sampleGenerate (str "old") false).outcome [] sampleRandom = .err .fileExists ∧
    (sampleGenerate [] true).outcome [.ok [1]] sampleRandom = .ok () ∧
    (afterGenerate [] true [.ok [1]]).shown ≠ [] := by
  decide +kernel

/-- C55, C60: the phrase encrypted under [1]; two wrong passwords, then the right one. -/
example :
    let w := afterGenerate (str "new") true [.ok [1]]
    (sampleRecover w (str "new") 0 0 0).outcome [.ok [2], .ok [3]] [] = .waits false ∧
    (sampleRecover w (str "new") 0 0 0).outcome [.ok [2], .ok [3], .ok [1]] [] = .ok () ∧
    (w.run ((sampleRecover w (str "new") 0 0 0).acts [.ok [2], .ok [3], .ok [1]] [])).stdout =
      w.stdout ++ w.stdout := by
  decide +kernel

/-- C55: the hypotheses, on a phrase encrypted by that run. -/
def sampleEncrypted : List Bytes :=
  ["bch", "cac", "jdc", "dle", "een", "fgf", "pfi", "gbg", "khd", "hmi", "fio", "oao", "apa", "ade", "gei",
    "abj"].map str

example :
    inputWords toyWordList { sampleEnv with fs := (afterGenerate (str "new") true [.ok [1]]).fs }
      ⟨false, str "new"⟩ = .ok sampleEncrypted ∧
    WrongPassword toyWordList toyCrypto sampleEncrypted [2] ∧
    RightPassword toyWordList toyCrypto sampleEncrypted [1] 9341084582143408800955381380479911687 := by
  refine ⟨by decide +kernel, ?_, ?_⟩
  · exact ⟨52006880893628896709768386229699380622, 460551, 16, 27468800, by decide +kernel, by decide +kernel⟩
  · exact ⟨52006880893628896709768386229699380622, 460551, 16, 27468800, by decide +kernel, by decide +kernel⟩

/-- C56: the phrase in the file "new" is sound, but convert fails and leaves everything as it was. -/
example :
    let w := afterGenerate (str "new") false []
    (sampleConvert w (str "new") [] false).outcome [] sampleRandom = .err .fileExists ∧
    (sampleConvert w (str "new") [] true).outcome [.ok [1]] sampleRandom = .err .fileExists ∧
    (w.run ((sampleConvert w (str "new") [] false).acts [] sampleRandom)).fs.read (str "other") = none := by
  decide +kernel

/-- C62: the same phrase typed is converted. -/
example :
    let w := afterGenerate (str "new") false []
    let typed := ((w.fs.read (str "new")).getD []).map (fun b => if b = 0x20 then 0x0A else b)
    (sampleConvert w [] typed true).outcome [.ok [1]] sampleRandom = .ok () ∧
    ((sampleConvert w [] typed true).acts [.ok [1]] sampleRandom).length = 1 := by
  decide +kernel

end Verif.Props
