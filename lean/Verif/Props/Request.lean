import Verif.Proofs.CliRequest
import Verif.Props.Concurrent

/-!
# From the command line to the imported key: C70, C71
-/

namespace Verif.Props

open Verif.Model Verif.Model.Cli Verif.Proofs Verif.Spec Verif.Spec.OpenPGP Verif.Instances

/-! ## C70 generate makes the key that was asked for -/

/-- The passwords typed: one for each kind of encryption asked for, none of them empty. -/
structure Typed (encryptKeys encryptPhrase : Bool) (keyPw phrasePw : Option Bytes) : Prop where
  key : keyPw.isSome = encryptKeys
  phrase : phrasePw.isSome = encryptPhrase
  keyGood : ∀ p, keyPw = some p → p ≠ [] ∧ p.length ≤ 65011704
  phraseGood : ∀ p, phrasePw = some p → p ≠ []

theorem keyPassword_typed {b : Bool} {keyPw : Option Bytes} (h : keyPw.isSome = b)
    (rest : List (Res Bytes)) (rnd : Bytes) (acts : List Act) :
    keyPassword b ⟨keyPw.toList.map .ok ++ rest, rnd, acts⟩ = (.ok (keyPw.getD []), ⟨rest, rnd, acts⟩) := by
  subst h
  cases keyPw <;> rfl

theorem exportKey_ok {C : Crypto} {mnk : Mnemonikey} {m cert : Bool} {p rnd key rest : Bytes}
    (h : (if m then mnk.encodePGP C p rnd else mnk.encodeSubkeysPGP C p cert rnd) = .ok (key, rest))
    (prompts : List (Res Bytes)) (acts : List Act) :
    exportKey C mnk m cert p ⟨prompts, rnd, acts⟩ = (.ok key, ⟨prompts, rest, acts⟩) := by
  unfold exportKey
  cases m
  · rw [if_neg (by simp)] at h ⊢
    exact random_ok h
  · rw [if_pos rfl] at h ⊢
    exact random_ok h

theorem printMnemonic_ok {env : Env} (h : 17 ≤ env.columns) (ws : List Bytes) (st : St) :
    printMnemonic env ws st = (.ok (), { st with acts := st.acts ++ [.showPhrase ws] }) := by
  obtain ⟨out, hout⟩ := (c57_phrase_notice env.columns).1 h
  have : justifyTerminalWidth 19 env.columns 0 notice = some (.ok out) := hout 19 le_rfl
  unfold printMnemonic
  dsimp only
  rw [this]

theorem save_good {fs : FS} {env : SaveEnv} {ws : List Bytes} {p : Bytes} (h : fs.read p = none)
    (he : env = ⟨false, false, none⟩) : (saveMnemonic fs env ws p).2 = .ok () := by
  have hd : fs.dir p = none := by
    unfold FS.read at h
    exact Option.map_eq_none_iff.1 h
  subst he
  unfold saveMnemonic
  rw [hd]
  rfl

theorem contains_iff {C : Crypto} {key pw : Bytes} {seed second : Nat} {w : Wanted} {m m' c c' : Prop}
    (hm : m ↔ m') (hc : c ↔ c') (h : Contains C key pw seed second w m c) :
    Contains C key pw seed second w m' c' := by
  rw [← propext hm, ← propext hc]; exact h

/-- The key to be had from the words -/
theorem encoded_complete {L : WordList} (hL : L.Lawful) {C : Crypto} (hC : C.Lawful) {n : Nat} {s : Seed}
    (hs : newSeed 0 (n : Int) = .ok s) {now : Int} {o : Option KeyOptions} {mnk : Mnemonikey}
    (h : new C s now o = .ok mnk) :
    (∀ ws, mnk.encodeMnemonicPlaintext L = .ok ws → Complete L.word ws) ∧
    ∀ pw rnd ws rest, mnk.encodeMnemonicEncrypted L C pw rnd = .ok (ws, rest) → Complete L.word ws := by
  constructor
  · intro ws hw
    obtain ⟨dm, f⟩ := plaintext_for hL hC hs h hw
    exact f.complete
  · intro pw rnd ws rest hw
    obtain ⟨dm, f⟩ := encrypted_for hL hC hs h hw
    exact f.complete

theorem generate_ok {L : WordList} (hL : L.Lawful) {C : Crypto} (hC : C.Lawful) (env : Env)
    (opts : GenerateOptions) {w : Wanted} {master : Prop} (hask : AsksFor opts.key 0 0 0 w master)
    (hu : w.userID.length < 2 ^ 32)
    (hnow : 1672531200 * 10 ^ 9 ≤ env.now) (hnow' : env.now ≤ (1672531200 + 2 ^ 31 - 1) * 10 ^ 9)
    {rnd e rnd' : Bytes} (hseed : SeedBytes env rnd opts.unsafeEntropy e rnd') (hrnd : 99 ≤ rnd'.length)
    {keyPw phrasePw : Option Bytes} (htyped : Typed opts.key.encryptKeys opts.encryptPhrase keyPw phrasePw)
    (more : List (Res Bytes)) :
    ∃ key words rest, generateAndPrintKey L C env opts
        ⟨keyPw.toList.map .ok ++ phrasePw.toList.map .ok ++ more, rnd, []⟩ =
          generateEnd env opts.outputWordFile key words ⟨more, rest, []⟩ ∧
      Contains C key (keyPw.getD []) (valueOfBytes e) (env.now / 10 ^ 9).toNat w master True ∧
      Complete L.word words ∧
      Holds (indexOf L) C.toPhraseCrypto words phrasePw (valueOfBytes e)
        ((env.now / 10 ^ 9).toNat - 1672531200) := by
  obtain ⟨ttl, m, subkeys, httl, h0, h63, honly, hm, hw⟩ :=
    asked_options hC hask (by decide) (by decide) (by decide)
  obtain ⟨hs1, hs2⟩ := seed_of_bytes hseed
    (keyPw.toList.map .ok ++ phrasePw.toList.map .ok ++ more) []
  obtain ⟨-, hn, -⟩ := (newSeed_ok_iff _ _ _).mp hs2
  obtain ⟨mnk, hnew, -⟩ := (c20_new hC ((valueOfBytes e : Nat) : Int) hn 0 env.now
    (some (optionsFor opts.key 0 0 0 ttl subkeys))).2.2.2.2 rfl h0 hnow hnow'
  have hkey : (keyPw.getD []).length ≤ 65011704 := by
    cases hk : keyPw with
    | none => simp
    | some p => exact (htyped.keyGood p hk).2
  obtain ⟨key, rnd2, hexp, hlen, hcont⟩ := export_contains hC hs2 hnew h63 (by rw [hw]; exact hu) m true
    (keyPw.getD []) rnd' (.inr (by omega)) hkey
  rw [hw] at hcont
  obtain ⟨hpl, hen⟩ := phrase_holds hL hC hs2 hnew
  obtain ⟨cpl, cen⟩ := encoded_complete hL hC hs2 hnew
  obtain ⟨words, rest, hwords, hcomp, hholds⟩ : ∃ words rest,
      (if opts.encryptPhrase then do
        let phrasePassword ← userInputPassword true
        random (mnk.encodeMnemonicEncrypted L C phrasePassword)
      else lift (mnk.encodeMnemonicPlaintext L) : Prog (List Bytes))
        ⟨phrasePw.toList.map .ok ++ more, rnd2, []⟩ = (.ok words, ⟨more, rest, []⟩) ∧
      Complete L.word words ∧
      Holds (indexOf L) C.toPhraseCrypto words phrasePw (valueOfBytes e)
        ((env.now / 10 ^ 9).toNat - 1672531200) := by
    rw [← htyped.phrase]
    cases hp : phrasePw with
    | none =>
      obtain ⟨ws, h1, h2⟩ := hpl
      exact ⟨ws, rnd2, by rw [h1]; rfl, cpl ws h1, h2⟩
    | some p =>
      obtain ⟨ws, rest, h1, h2⟩ := hen p rnd2 (htyped.phraseGood p hp) (by omega)
      refine ⟨ws, rest, ?_, cen _ _ _ _ h1, h2⟩
      rw [if_pos (show (some p).isSome = true from rfl)]
      have := bind_run_ok (password_ok true p more rnd2 []) (fun p =>
        random (mnk.encodeMnemonicEncrypted L C p))
      exact this.trans (random_ok h1)
  refine ⟨key, words, rest, ?_, contains_iff hm (by simp) hcont, hcomp, hholds⟩
  unfold generateAndPrintKey
  rw [httl, bind_run_ok (lift_ok ttl _), honly, bind_run_ok (lift_ok _ _)]
  dsimp only
  rw [bind_run_ok hs1]
  have hnew' : new C ⟨0, (valueOfBytes e : Nat)⟩ env.now (some
    { name := trimSpace opts.key.name, email := trimSpace opts.key.email, ttl := ttl
      encryptionSubkeyIndex := 0, authenticationSubkeyIndex := 0, signingSubkeyIndex := 0
      subkeys := subkeys }) = .ok mnk := hnew
  rw [hnew', bind_run_ok (lift_ok mnk _), List.append_assoc,
    bind_run_ok (keyPassword_typed htyped.key _ _ _), bind_run_ok (exportKey_ok hexp _ _),
    bind_run_ok hwords]
  rfl

/-- With options of the documented form, a time within the supported range, enough random bytes, the
passwords typed, and a place for the phrase, generate succeeds. The key printed, read by an OpenPGP
reader with the password typed, is the one asked for: user ID, expiration, the listed parts and no
others, made from the 16 bytes of the seed source at the present second. The phrase saved or shown
holds that seed and that second. -/
theorem c70_generate {L : WordList} (hL : L.Lawful) {C : Crypto} (hC : C.Lawful) (env : Env)
    (hwf : env.fs.Wf) (opts : GenerateOptions) {w : Wanted} {master : Prop}
    (hask : AsksFor opts.key 0 0 0 w master) (hu : w.userID.length < 2 ^ 32)
    (hnow : 1672531200 * 10 ^ 9 ≤ env.now) (hnow' : env.now ≤ (1672531200 + 2 ^ 31 - 1) * 10 ^ 9)
    {rnd e rnd' : Bytes} (hseed : SeedBytes env rnd opts.unsafeEntropy e rnd') (hrnd : 99 ≤ rnd'.length)
    {keyPw phrasePw : Option Bytes} (htyped : Typed opts.key.encryptKeys opts.encryptPhrase keyPw phrasePw)
    (more : List (Res Bytes))
    (hsave : opts.outputWordFile ≠ [] → env.fs.read opts.outputWordFile = none ∧
      env.save = ⟨false, false, none⟩)
    (hshow : opts.outputWordFile = [] → 17 ≤ env.columns) :
    let prompts := keyPw.toList.map .ok ++ phrasePw.toList.map .ok ++ more
    let after := (atStart env.fs).run ((generateAndPrintKey L C env opts).acts prompts rnd)
    (generateAndPrintKey L C env opts).outcome prompts rnd = .ok () ∧
    ∃ key words, after.stdout = env.armor key ++ [0x0A] ∧
      Contains C key (keyPw.getD []) (valueOfBytes e) (env.now / 10 ^ 9).toNat w master True ∧
      Complete L.word words ∧
      Holds (indexOf L) C.toPhraseCrypto words phrasePw (valueOfBytes e)
        ((env.now / 10 ^ 9).toNat - 1672531200) ∧
      (opts.outputWordFile ≠ [] → after.shown = [] ∧
        after.fs.read opts.outputWordFile = some (phraseText words) ∧
        ∀ q, q ≠ opts.outputWordFile → after.fs.read q = env.fs.read q) ∧
      (opts.outputWordFile = [] → after.shown = [words] ∧ after.fs = env.fs) := by
  obtain ⟨key, words, rest, hrun, h1, h2, h3⟩ := generate_ok hL hC env opts hask hu hnow hnow' hseed hrnd
    htyped more
  dsimp only
  unfold Prog.outcome Prog.acts
  rw [hrun]
  by_cases ho : opts.outputWordFile = []
  · rw [ho]
    have hend : generateEnd env [] key words ⟨more, rest, []⟩ =
        (.ok (), ⟨more, rest, (env.armor key ++ str "\n").map .stdout ++ [.showPhrase words]⟩) := by
      unfold generateEnd
      rw [if_neg (by simp), if_pos rfl]
      change (printKey (env.armor key) >>= fun _ => printMnemonic env words) _ = _
      rw [bind_run_ok (printKey_run (env.armor key) _), printMnemonic_ok (hshow ho)]
      rfl
    rw [hend]
    refine ⟨rfl, key, words, ?_, h1, h2, h3, by simp, fun _ => ?_⟩
    · dsimp only
      rw [run_append, run_stdout]
      rfl
    · dsimp only
      rw [run_append, run_stdout]
      exact ⟨rfl, rfl⟩
  · obtain ⟨hnone, hsv⟩ := hsave ho
    have hok := save_good (ws := words) hnone hsv
    rcases generateEnd_file (env := env) (key := key) (ws := words) ho ⟨more, rest, []⟩ with ⟨-, hg⟩ | ⟨hf, -⟩
    swap
    · exfalso
      unfold generateEnd at hf
      rw [if_pos ho, if_neg ho, bind_run_ok (save_ok hok _)] at hf
      exact hf () rfl
    rw [hg]
    dsimp only
    rw [List.nil_append, run_append, run_stdout]
    obtain ⟨-, hread, hother, -⟩ := c47_round_trip hL (atStart env.fs) hwf env.save words _ hok
    have hcrash := c47_crash (atStart env.fs) hwf env.save words opts.outputWordFile hnone
      (saveMnemonic env.fs env.save words opts.outputWordFile).1.length
    obtain ⟨-, -, hso, hsh⟩ := hcrash
    have e1 : ((atStart env.fs).run (saveMnemonic env.fs env.save words opts.outputWordFile).1).stdout = [] := by
      have : ((atStart env.fs).run ((saveMnemonic env.fs env.save words opts.outputWordFile).1.take
        (saveMnemonic env.fs env.save words opts.outputWordFile).1.length)).stdout = [] := hso
      rwa [List.take_length] at this
    have e2 : ((atStart env.fs).run (saveMnemonic env.fs env.save words opts.outputWordFile).1).shown = [] := by
      have : ((atStart env.fs).run ((saveMnemonic env.fs env.save words opts.outputWordFile).1.take
        (saveMnemonic env.fs env.save words opts.outputWordFile).1.length)).shown = [] := hsh
      rwa [List.take_length] at this
    refine ⟨rfl, key, words, ?_, h1, h2, h3, fun _ => ⟨e2, hread, hother⟩, fun h => absurd h ho⟩
    dsimp only
    rw [e1]
    rfl

theorem process_ok {L : WordList} {C : Crypto} {env : Env} {name : Bytes} {cmd : Cmd}
    {args rest : List Bytes} {settings} {prompts : List (Res Bytes)} {rnd : Bytes} (hn : Named name cmd)
    (hh : args ≠ [str "help"]) (hcl : CommandLine (options cmd) (settingsOf settings) rest args)
    (hok : (program L C env settings cmd).outcome prompts rnd = .ok ()) :
    (main L C env (name :: args) ⟨prompts, rnd, []⟩).1 = [] ∧
    (main L C env (name :: args) ⟨prompts, rnd, []⟩).2.1 = .exited 0 ∧
    leaves L C env (name :: args) prompts rnd =
      (atStart env.fs).run ((program L C env settings cmd).acts prompts rnd) := by
  have h := main_sub L C env ⟨prompts, rnd, []⟩ hn hh hcl
  unfold leaves
  rw [h, answer_acts]
  unfold Prog.outcome at hok
  refine ⟨?_, ?_, rfl⟩
  · unfold answer
    dsimp only
    generalize program L C env settings cmd ⟨prompts, rnd, []⟩ = r at hok
    obtain ⟨o, st⟩ := r
    cases hok
    rfl
  · unfold answer
    dsimp only
    generalize program L C env settings cmd ⟨prompts, rnd, []⟩ = r at hok
    obtain ⟨o, st⟩ := r
    cases hok
    rfl

/-- The same for a process, from its command line: the exit status is 0 and no usage text is printed. -/
theorem c70_process {L : WordList} (hL : L.Lawful) {C : Crypto} (hC : C.Lawful) (env : Env)
    (hwf : env.fs.Wf) (args positional : List Bytes) (settings : List (Bytes × Value))
    (hargs : args ≠ [str "help"]) (hcl : CommandLine (options .generate) settings positional args)
    {w : Wanted} {master : Prop} (hask : AsksFor (generateMeans settings).key 0 0 0 w master)
    (hu : w.userID.length < 2 ^ 32)
    (hnow : 1672531200 * 10 ^ 9 ≤ env.now) (hnow' : env.now ≤ (1672531200 + 2 ^ 31 - 1) * 10 ^ 9)
    {rnd e rnd' : Bytes} (hseed : SeedBytes env rnd (text settings "unsafe-entropy" []) e rnd')
    (hrnd : 99 ≤ rnd'.length) {keyPw phrasePw : Option Bytes}
    (htyped : Typed (switchedOn settings "encrypt-keys" false) (switchedOn settings "encrypt-phrase" false)
      keyPw phrasePw) (more : List (Res Bytes))
    (hsave : text settings "out-word-file" [] ≠ [] →
      env.fs.read (text settings "out-word-file" []) = none ∧ env.save = ⟨false, false, none⟩)
    (hshow : text settings "out-word-file" [] = [] → 17 ≤ env.columns) :
    let prompts := keyPw.toList.map .ok ++ phrasePw.toList.map .ok ++ more
    let d := main L C env (str "generate" :: args) ⟨prompts, rnd, []⟩
    let after := leaves L C env (str "generate" :: args) prompts rnd
    d.1 = [] ∧ d.2.1 = .exited 0 ∧
    ∃ key words, after.stdout = env.armor key ++ [0x0A] ∧
      Contains C key (keyPw.getD []) (valueOfBytes e) (env.now / 10 ^ 9).toNat w master True ∧
      Complete L.word words ∧
      Holds (indexOf L) C.toPhraseCrypto words phrasePw (valueOfBytes e)
        ((env.now / 10 ^ 9).toNat - 1672531200) ∧
      (text settings "out-word-file" [] ≠ [] → after.shown = [] ∧
        after.fs.read (text settings "out-word-file" []) = some (phraseText words) ∧
        ∀ q, q ≠ text settings "out-word-file" [] → after.fs.read q = env.fs.read q) ∧
      (text settings "out-word-file" [] = [] → after.shown = [words] ∧ after.fs = env.fs) := by
  rw [← settingsOf_surj settings] at hcl
  have hopt := c63_generate _ _ _ hcl
  rw [settingsOf_surj] at hopt
  obtain ⟨hok, key, words, h1, h2, h3, h4, h5, h6⟩ := c70_generate hL hC env hwf (generateMeans settings) hask
    hu hnow hnow' hseed hrnd htyped more hsave hshow
  have hprog : program L C env (settings.map fun s => (s.1, valueTo s.2)) .generate =
      generateAndPrintKey L C env (generateMeans settings) := by rw [← hopt]; rfl
  rw [← hprog] at hok h1 h5 h6
  obtain ⟨p1, p2, p3⟩ := process_ok .generate hargs hcl hok
  dsimp only
  rw [p3]
  exact ⟨p1, p2, key, words, h1, h2, h3, h4, h5, h6⟩

/-- An option of the wrong form: generate and recover do nothing at all but report it. -/
theorem c70_refused (L : WordList) (C : Crypto) (env : Env) (f : KeyFlags)
    (h : (f.ttl ≠ [] ∧ ¬ ∃ q u, IsTTL f.ttl q u) ∨
      (f.only ≠ [] ∧ ∃ elems, IsList f.only elems ∧
        ∃ e ∈ elems, e ∉ ["master", "encryption", "authentication", "signing"].map str)) :
    (∀ (opts : GenerateOptions) (st : St), opts.key = f → ∃ e, isUsageErr e = true ∧
      generateAndPrintKey L C env opts st = (.err e, st)) ∧
    ∀ (opts : RecoverOptions) (st : St), opts.key = f → opts.encIndex ≤ 65535 → opts.authIndex ≤ 65535 →
      opts.sigIndex ≤ 65535 → ∃ e, isUsageErr e = true ∧ recoverAndPrintKey L C env opts st = (.err e, st) := by
  have hcase : ttlOf f.ttl = .err .badDuration ∨
      (∃ t, ttlOf f.ttl = .ok t) ∧ decodeOnlyKeyTypes f.only = .err .badOnlyElement := by
    by_cases ht : f.ttl ≠ [] ∧ ¬ ∃ q u, IsTTL f.ttl q u
    · left
      unfold ttlOf
      rw [if_pos ht.1, (c43_accepts _).2 ht.2]
    · obtain ⟨hne, elems, hl, hbad⟩ := h.resolve_left ht
      refine .inr ⟨?_, (c45_only _ _ hl).1 hne hbad⟩
      unfold ttlOf
      split
      · rename_i hn
        exact (c43_accepts _).1.2 (by by_contra hc; exact ht ⟨hn, hc⟩)
      · exact ⟨_, rfl⟩
  constructor
  · rintro opts st rfl
    unfold generateAndPrintKey
    rcases hcase with h1 | ⟨⟨t, h1⟩, h2⟩
    · rw [h1]
      exact ⟨.badDuration, rfl, rfl⟩
    · rw [h1, bind_run_ok (lift_ok t st), h2]
      exact ⟨.badOnlyElement, rfl, rfl⟩
  · rintro opts st rfl he ha hs
    have hidx : ¬ IndexTooLarge opts := by unfold IndexTooLarge maxSubkeyIndex; omega
    unfold recoverAndPrintKey
    rcases hcase with h1 | ⟨⟨t, h1⟩, h2⟩
    · rw [h1]
      exact ⟨.badDuration, rfl, rfl⟩
    · rw [h1, bind_run_ok (lift_ok t st), if_neg hidx, h2]
      exact ⟨.badOnlyElement, rfl, rfl⟩

example (st : St) : ∃ e, isUsageErr e = true ∧ generateAndPrintKey toyWordList toyCrypto sampleEnv
    { key := { sampleFlags with ttl := str "2years" }, outputWordFile := [], encryptPhrase := false
      unsafeEntropy := [] } st = (.err e, st) := by
  refine (c70_refused toyWordList toyCrypto sampleEnv { sampleFlags with ttl := str "2years" }
    (.inl ⟨by decide, ?_⟩)).1 _ st rfl
  rw [← (c43_accepts _).1]
  rintro ⟨d, h⟩
  have : parseTTL (str "2years") = .err .badDuration := by decide +kernel
  rw [this] at h
  cases h

/-- The options of the examples: a name with a space before it, two years, and all parts but the master
key and the signing subkey. -/
def sampleKeyFlags : KeyFlags :=
  { name := str " alice", email := str "a@b.c", ttl := str "2y", encryptKeys := true
    only := str "encryption,authentication" }

def sampleWanted (enc auth : Nat) : Wanted :=
  { userID := str "alice <a@b.c>", expires := some 63072000, encryption := some enc
    authentication := some auth, signing := none }

theorem sample_asks (enc auth sig : Nat) :
    AsksFor sampleKeyFlags enc auth sig (sampleWanted enc auth) False := by
  refine ⟨⟨str "alice", str "a@b.c", ?_, ?_, show str "alice <a@b.c>" = _ by decide⟩, ?_, _, .listed (by decide)
    (elems := [str "encryption", str "authentication"]) ⟨by simp, by decide +kernel, by decide +kernel⟩
    (by decide +kernel), by decide +kernel, fun _ => rfl, fun h => absurd (by decide +kernel) h,
    fun _ => rfl, fun h => absurd (by decide +kernel) h, fun h => absurd h (by decide +kernel), fun _ => rfl⟩
  · have : trimSpace (str " alice") = str "alice" := by decide +kernel
    rw [← this]; exact trimSpace_trimmed _
  · have : trimSpace (str "a@b.c") = str "a@b.c" := by decide +kernel
    have h := trimSpace_trimmed (str "a@b.c")
    rw [this] at h; exact h
  · exact .after (q := 2) (u := 31536000) ⟨str "2", 0x79, by decide, by decide, by decide +kernel,
      by decide +kernel, by norm_num, .year _ (by decide)⟩ (by decide) (by norm_num)

/-- The key and the phrase both encrypted, the phrase saved in a new file. -/
example : (generateAndPrintKey toyWordList toyCrypto sampleEnv
    { key := sampleKeyFlags, outputWordFile := str "new", encryptPhrase := true, unsafeEntropy := [] }).outcome
      [.ok (str "key password"), .ok (str "phrase password")] (List.replicate 115 7) = .ok () :=
  (c70_generate toyWordList_lawful toyCrypto_lawful sampleEnv sampleFS_wf
    { key := sampleKeyFlags, outputWordFile := str "new", encryptPhrase := true, unsafeEntropy := [] }
    (sample_asks 0 0 0) (by decide) (by decide) (by decide)
    (.system (e := List.replicate 16 7) (rest := List.replicate 99 7) rfl rfl) (by decide)
    (keyPw := some (str "key password")) (phrasePw := some (str "phrase password"))
    ⟨rfl, rfl, by rintro p ⟨⟩; decide, by rintro p ⟨⟩; decide⟩ []
    (fun _ => ⟨by decide +kernel, rfl⟩) (by decide)).1

/-! ## C71 recover brings back the key that is asked for -/

theorem decrypted_lt {C : PhraseCrypto} (hC : C.Lawful) {p : Bytes} {e salt v off seed : Nat}
    (he : e < 2 ^ 128) (h : Spec.decryptSeed C p e salt v off = some seed) : seed < 2 ^ 128 := by
  unfold Spec.decryptSeed at h
  dsimp only at h
  split at h
  · have hl := hC.aesDec_length ((Spec.phraseKey C p salt off).take 16) (toBytes (bits 128 e))
      (by
        rw [List.length_take]
        have : (Spec.phraseKey C p salt off).length = 17 := hC.argon2id_length ..
        omega) (by rw [toBytes_bits 128 e he]; exact beBytes_length _ _)
    have h2 := setBytes_lt (C.aesDec ((Spec.phraseKey C p salt off).take 16) (toBytes (bits 128 e)))
    rw [hl, ← valueOfBytes_eq, Option.some.inj h] at h2
    exact lt_of_lt_of_le h2 (by norm_num)
  · cases h

/-- A phrase that holds a seed is decoded, and the right password opens it after any number of wrong ones. -/
theorem holds_decodes {L : WordList} (hL : L.Lawful) {C : Crypto} (hC : C.Lawful) {words : List Bytes}
    {phrasePw : Option Bytes} {seed offset : Nat}
    (hholds : Holds (indexOf L) C.toPhraseCrypto words phrasePw seed offset)
    (wrong : List Bytes) (hwrong : ∀ p ∈ wrong, WrongPassword L C words p) :
    ∃ dm, decodeMnemonic L words = .ok dm ∧ dm.creationOffset = offset ∧ offset < 2 ^ 31 ∧
      seed < 2 ^ 128 ∧ ∀ ps, seedLoop C dm (wrong.map .ok ++ phrasePw.toList.map .ok ++ ps) =
        (.ok ⟨0, seed⟩, ps) := by
  cases hp : phrasePw with
  | none =>
    rw [hp] at hholds
    have hr : readPhrase (indexOf L) words = .ok (.plaintext seed offset) := hholds
    obtain ⟨hd, hf⟩ := decode_of_read hL hr
    have hnil : wrong = [] := by
      cases wrong with
      | nil => rfl
      | cons p _ =>
        obtain ⟨e, salt, v, off, hr', -⟩ := hwrong p List.mem_cons_self
        rw [hr] at hr'
        cases hr'
    subst hnil
    refine ⟨_, hd, rfl, hf.2, hf.1, fun ps => ?_⟩
    rcases c11_seed_access hL C.toPhraseCrypto words _ hd with ⟨h, -, -⟩ | ⟨-, he, x, hx, hsd, hall⟩
    · cases h
    · have h2 : (decodedOf (.plaintext seed offset)).seed = .ok ⟨0, (seed : Int)⟩ :=
        (newSeed_ok_iff 0 seed _).mpr ⟨rfl, by simpa using hf.1, rfl⟩
      rw [hsd] at h2
      have h3 := hall []
      rw [h2] at h3
      exact seedLoop_plain he h3 ps
  | some p =>
    rw [hp] at hholds
    obtain ⟨e, salt, v, hr, hs⟩ := hholds
    obtain ⟨hd, hf⟩ := decode_of_read hL hr
    have hdec := decryptSeed_spec hC.phrase p hf
    rw [hs] at hdec
    have hlt : seed < 2 ^ 128 := decrypted_lt hC.phrase hf.1 hs
    refine ⟨_, hd, rfl, hf.2.2.2, hlt, fun ps => ?_⟩
    rw [List.append_assoc, seedLoop_wrong rfl wrong _
      (fun q hq => (wrong_decrypt hL hC hd (hwrong q hq)).2)]
    exact seedLoop_right rfl hdec ps

theorem recover_ok {L : WordList} (hL : L.Lawful) {C : Crypto} (hC : C.Lawful) (env : Env)
    (opts : RecoverOptions) {w : Wanted} {master : Prop}
    (hask : AsksFor opts.key opts.encIndex opts.authIndex opts.sigIndex w master)
    (henc : opts.encIndex ≤ 65535) (hauth : opts.authIndex ≤ 65535) (hsig : opts.sigIndex ≤ 65535)
    (hu : w.userID.length < 2 ^ 32) {words : List Bytes} (hin : inputWords L env opts.input = .ok words)
    {phrasePw keyPw : Option Bytes} {seed offset : Nat}
    (hholds : Holds (indexOf L) C.toPhraseCrypto words phrasePw seed offset)
    (wrong : List Bytes) (hwrong : ∀ p ∈ wrong, WrongPassword L C words p)
    (hkey : keyPw.isSome = opts.key.encryptKeys)
    (hgood : ∀ p, keyPw = some p → p ≠ [] ∧ p.length ≤ 65011704)
    (more : List (Res Bytes)) {rnd : Bytes} (hrnd : 96 ≤ rnd.length) :
    ∃ key rest, recoverAndPrintKey L C env opts
        ⟨wrong.map .ok ++ phrasePw.toList.map .ok ++ keyPw.toList.map .ok ++ more, rnd, []⟩ =
          (.ok (), ⟨more, rest, (env.armor key ++ str "\n").map .stdout⟩) ∧
      Contains C key (keyPw.getD []) seed (1672531200 + offset) w master (opts.selfCert = true) := by
  obtain ⟨ttl, m, subkeys, httl, h0, h63, honly, hm, hw⟩ :=
    asked_options hC hask (by omega) (by omega) (by omega)
  obtain ⟨dm, hd, hoff, holt, hslt, hloop⟩ := holds_decodes hL hC hholds wrong hwrong
  have hs2 : newSeed 0 ((seed : Nat) : Int) = .ok ⟨0, (seed : Int)⟩ :=
    (newSeed_ok_iff 0 seed _).mpr ⟨rfl, by simpa using hslt, rfl⟩
  have hcr : dm.creation = ((1672531200 + offset : Nat) : Int) * 10 ^ 9 :=
    creation_eq dm (1672531200 + offset) (by omega) (by omega) (by omega)
  obtain ⟨mnk, hnew, -⟩ := (c20_new hC ((seed : Nat) : Int) (by simpa using hslt) 0 dm.creation
    (some (optionsFor opts.key opts.encIndex opts.authIndex opts.sigIndex ttl subkeys))).2.2.2.2 rfl h0
      (by rw [hcr]; omega) (by rw [hcr]; omega)
  have hkl : (keyPw.getD []).length ≤ 65011704 := by
    cases hk : keyPw with
    | none => simp
    | some p => exact (hgood p hk).2
  obtain ⟨key, rest, hexp, -, hcont⟩ := export_contains hC hs2 hnew h63 (by rw [hw]; exact hu) m opts.selfCert
    (keyPw.getD []) rnd (.inr hrnd) hkl
  have hsec : (dm.creation / 10 ^ 9).toNat = 1672531200 + offset := by
    rw [hcr, Int.mul_ediv_cancel _ (by decide), Int.toNat_natCast]
  rw [hw, hsec] at hcont
  refine ⟨key, rest, ?_, contains_iff hm Iff.rfl hcont⟩
  have hidx : ¬ IndexTooLarge opts := by unfold IndexTooLarge maxSubkeyIndex; omega
  unfold recoverAndPrintKey
  rw [httl, bind_run_ok (lift_ok ttl _), if_neg hidx, honly, bind_run_ok (lift_ok _ _)]
  dsimp only
  rw [List.append_assoc, bind_run_ok (decode_run hin hd (st := ⟨_, rnd, []⟩) (hloop _))]
  dsimp only
  have hnew' : new C ⟨0, (seed : Int)⟩ dm.creation (some (recoveredOptions opts ttl subkeys)) = .ok mnk := hnew
  unfold recoveredOptions at hnew'
  rw [hnew', bind_run_ok (lift_ok mnk _), bind_run_ok (keyPassword_typed hkey _ _ _),
    bind_run_ok (exportKey_ok hexp _ _)]
  rfl

/-- With options of the documented form, a phrase that holds a seed and a creation offset, the passwords
typed (after any number of wrong ones for the phrase) and enough random bytes, recover succeeds. The key
printed is the one asked for, made from that seed at that second with those indices. No file changes. -/
theorem c71_recover {L : WordList} (hL : L.Lawful) {C : Crypto} (hC : C.Lawful) (env : Env)
    (opts : RecoverOptions) {w : Wanted} {master : Prop}
    (hask : AsksFor opts.key opts.encIndex opts.authIndex opts.sigIndex w master)
    (henc : opts.encIndex ≤ 65535) (hauth : opts.authIndex ≤ 65535) (hsig : opts.sigIndex ≤ 65535)
    (hu : w.userID.length < 2 ^ 32) {words : List Bytes} (hin : Gets L (offer L) env opts.input words)
    {phrasePw keyPw : Option Bytes} {seed offset : Nat}
    (hholds : Holds (indexOf L) C.toPhraseCrypto words phrasePw seed offset)
    (wrong : List Bytes) (hwrong : ∀ p ∈ wrong, WrongPassword L C words p)
    (hkey : keyPw.isSome = opts.key.encryptKeys)
    (hgood : ∀ p, keyPw = some p → p ≠ [] ∧ p.length ≤ 65011704)
    (more : List (Res Bytes)) {rnd : Bytes} (hrnd : 96 ≤ rnd.length) :
    let prompts := wrong.map .ok ++ phrasePw.toList.map .ok ++ keyPw.toList.map .ok ++ more
    let after := (atStart env.fs).run ((recoverAndPrintKey L C env opts).acts prompts rnd)
    (recoverAndPrintKey L C env opts).outcome prompts rnd = .ok () ∧
    ∃ key, after = ⟨env.fs, none, env.armor key ++ [0x0A], []⟩ ∧
      Contains C key (keyPw.getD []) seed (1672531200 + offset) w master (opts.selfCert = true) := by
  replace hin := (gets_iff hL).2 hin
  obtain ⟨key, rest, hrun, h1⟩ := recover_ok hL hC env opts hask henc hauth hsig hu hin hholds wrong hwrong
    hkey hgood more hrnd
  dsimp only
  unfold Prog.outcome Prog.acts
  rw [hrun]
  refine ⟨rfl, key, ?_, h1⟩
  dsimp only
  rw [run_stdout]
  rfl

theorem gets_file {L : WordList} (hL : L.Lawful) {env : Env} {input : InputFlags} {words : List Bytes}
    (hf : input.inputWordFile ≠ []) (hr : env.fs.read input.inputWordFile = some (phraseText words))
    (hc : Complete L.word words) : Gets L (offer L) env input words := by
  rw [← gets_iff hL]
  unfold inputWords
  rw [if_pos hf, hr, readWordFile_iff hL]
  have hct : wordFileContent words = phraseText words := content_eq words
  rw [← hct, scan_content hL hc.1, lower_words hL hc.1]
  exact ⟨rfl, hc⟩

/-- The same for a process. -/
theorem c71_process {L : WordList} (hL : L.Lawful) {C : Crypto} (hC : C.Lawful) (env : Env)
    (args positional : List Bytes) (settings : List (Bytes × Value))
    (hargs : args ≠ [str "help"]) (hcl : CommandLine (options .recover) settings positional args)
    {w : Wanted} {master : Prop} (hask : AsksFor (recoverMeans settings).key (number settings "enc-index")
      (number settings "auth-index") (number settings "sig-index") w master)
    (henc : number settings "enc-index" ≤ 65535) (hauth : number settings "auth-index" ≤ 65535)
    (hsig : number settings "sig-index" ≤ 65535) (hu : w.userID.length < 2 ^ 32) {words : List Bytes}
    (hin : Gets L (offer L) env ⟨switchedOn settings "simple" false, text settings "in-word-file" []⟩ words)
    {phrasePw keyPw : Option Bytes} {seed offset : Nat}
    (hholds : Holds (indexOf L) C.toPhraseCrypto words phrasePw seed offset)
    (wrong : List Bytes) (hwrong : ∀ p ∈ wrong, WrongPassword L C words p)
    (hkey : keyPw.isSome = switchedOn settings "encrypt-keys" false)
    (hgood : ∀ p, keyPw = some p → p ≠ [] ∧ p.length ≤ 65011704)
    (more : List (Res Bytes)) {rnd : Bytes} (hrnd : 96 ≤ rnd.length) :
    let prompts := wrong.map .ok ++ phrasePw.toList.map .ok ++ keyPw.toList.map .ok ++ more
    let d := main L C env (str "recover" :: args) ⟨prompts, rnd, []⟩
    d.1 = [] ∧ d.2.1 = .exited 0 ∧
    ∃ key, leaves L C env (str "recover" :: args) prompts rnd = ⟨env.fs, none, env.armor key ++ [0x0A], []⟩ ∧
      Contains C key (keyPw.getD []) seed (1672531200 + offset) w master
        (switchedOn settings "self-cert" true = true) := by
  rw [← settingsOf_surj settings] at hcl
  have hopt := c63_recover _ _ _ hcl
  rw [settingsOf_surj] at hopt
  obtain ⟨hok, key, h1, h2⟩ := c71_recover hL hC env (recoverMeans settings) hask henc hauth hsig hu
    hin hholds wrong hwrong hkey hgood more hrnd
  have hprog : program L C env (settings.map fun s => (s.1, valueTo s.2)) .recover =
      recoverAndPrintKey L C env (recoverMeans settings) := by rw [← hopt]; rfl
  rw [← hprog] at hok h1
  obtain ⟨p1, p2, p3⟩ := process_ok .recover hargs hcl hok
  dsimp only
  rw [p3]
  exact ⟨p1, p2, key, h1, h2⟩

/-- Recovery of those subkeys with other indices, from the phrase that the generated key came with. -/
example : ∃ words key, (recoverAndPrintKey toyWordList toyCrypto
      { sampleEnv with fs := { dir := fun _ => some 0, data := fun _ => phraseText words, next := 1 } }
      { key := sampleKeyFlags, input := ⟨false, str "words"⟩, selfCert := false, encIndex := 3, authIndex := 65535
        sigIndex := 7 }).outcome [.ok (str "phrase password"), .ok (str "new password")]
          (List.replicate 96 7) = .ok () ∧
    Contains toyCrypto key (str "new password") (valueOfBytes (List.replicate 16 7)) 1700000000
      (sampleWanted 3 65535) False False := by
  obtain ⟨-, key0, words, -, -, hc, hh, -⟩ := c70_generate toyWordList_lawful toyCrypto_lawful sampleEnv
    sampleFS_wf
    { key := sampleKeyFlags, outputWordFile := str "new", encryptPhrase := true, unsafeEntropy := [] }
    (sample_asks 0 0 0) (by decide) (by decide) (by decide)
    (.system (rnd := List.replicate 115 7) (e := List.replicate 16 7) (rest := List.replicate 99 7) rfl rfl)
    (by decide) (keyPw := some (str "key password")) (phrasePw := some (str "phrase password"))
    ⟨rfl, rfl, by rintro p ⟨⟩; decide, by rintro p ⟨⟩; decide⟩ []
    (fun _ => ⟨by decide +kernel, rfl⟩) (by decide)
  obtain ⟨hok, key, -, hk⟩ := c71_recover toyWordList_lawful toyCrypto_lawful
    { sampleEnv with fs := { dir := fun _ => some 0, data := fun _ => phraseText words, next := 1 } }
    { key := sampleKeyFlags, input := ⟨false, str "words"⟩, selfCert := false, encIndex := 3, authIndex := 65535
      sigIndex := 7 }
    (sample_asks 3 65535 7) (by decide) (by decide) (by decide) (by decide)
    (gets_file toyWordList_lawful (by decide) rfl hc) hh [] (by simp)
    (keyPw := some (str "new password")) rfl (by rintro p ⟨⟩; decide) [] (rnd := List.replicate 96 7) (by decide)
  refine ⟨words, key, hok, ?_⟩
  have e : 1672531200 + ((sampleEnv.now / 10 ^ 9).toNat - 1672531200) = 1700000000 := by decide
  rw [e] at hk
  exact contains_iff Iff.rfl (by simp) hk

end Verif.Props
