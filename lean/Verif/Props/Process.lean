import Verif.Props.ExitStatus

/-!
# Whole processes: C64, C66, C67
-/

namespace Verif.Props

open Verif.Model Verif.Model.Cli Verif.Proofs Verif.Spec Verif.Instances

/-! ## C64 Options after a positional argument are ignored -/

theorem commandLine_more {kind : Bytes → Option Kind} {settings rest pre} (s : Bytes) (post : List Bytes)
    (hs : NotFlag s) (h : CommandLine kind settings rest pre) (hr : rest = []) :
    CommandLine kind settings (s :: post) (pre ++ s :: post) := by
  induction h with
  | nothing => exact .positional _ hs
  | positional => cases hr
  | dashes rest => subst hr; exact .dashes _
  | equals h1 h2 h3 _ ih => exact .equals h1 h2 h3 (ih hr)
  | switch h1 h2 _ ih => exact .switch h1 h2 (ih hr)
  | next h1 h2 h3 h4 _ ih => exact .next h1 h2 h3 h4 (ih hr)

theorem main_sub (L : WordList) (C : Crypto) (env : Env) (st : St) {name : Bytes} {cmd : Cmd}
    {args rest : List Bytes} {settings} (hn : Named name cmd) (hh : args ≠ [str "help"])
    (h : CommandLine (options cmd) (settingsOf settings) rest args) :
    main L C env (name :: args) st = answer L C env st (.run cmd settings) := by
  refine c58_status L C env st _ _ (.positional ?_ (.positional args ?_) (.run hn hh h))
  · intro he; exact named_ne_help hn (List.cons.inj he).1
  · rw [← classify_positional]; cases hn <;> decide

/-- Once the arguments `pre` have been read, a positional argument makes no difference, nor does anything
after it: not even an option that asks for encryption, nor one that does not exist. -/
theorem c64_ignored (L : WordList) (C : Crypto) (env : Env) (st : St) (name : Bytes) (cmd : Cmd)
    (hn : Named name cmd) (pre : List Bytes) (settings : List (Bytes × Value))
    (h : CommandLine (options cmd) settings [] pre) (s : Bytes) (hs : NotFlag s) (post : List Bytes)
    (hh : pre ++ s :: post ≠ [str "help"]) :
    main L C env (name :: (pre ++ s :: post)) st = main L C env (name :: pre) st := by
  have h' := commandLine_more s post hs h rfl
  rw [← settingsOf_surj settings] at h h'
  rw [main_sub L C env st hn hh h', main_sub L C env st hn _ h]
  rintro rfl
  have hp := (c63_accepted cmd _ _ _).2 h
  rw [parseArgs.eq_def] at hp
  have hc : classify (str "help") = .positional := by decide
  simp only [hc] at hp
  simp at hp

/-- "-encrypt-keys false" does not mean what it says, and the request to encrypt the phrase is lost. -/
theorem c64_request_lost (L : WordList) (C : Crypto) (env : Env) (st : St) :
    main L C env [str "generate", str "-encrypt-keys", str "false", str "-encrypt-phrase"] st =
      main L C env [str "generate", str "-encrypt-keys"] st ∧
    (∃ settings, Means [str "generate", str "-encrypt-keys"] (.run .generate settings) ∧
      (generateOptions settings).key.encryptKeys = true ∧
      (generateOptions settings).encryptPhrase = false) := by
  have h : CommandLine (options .generate) (settingsOf [(str "encrypt-keys", .bool true)]) []
      [str "-encrypt-keys"] := (c63_accepted .generate _ _ _).1 (by decide +kernel)
  refine ⟨c64_ignored L C env st _ .generate .generate [str "-encrypt-keys"] _ h (str "false")
    ((classify_positional _).1 (by decide)) [str "-encrypt-phrase"] (by decide), _,
    .positional (by decide) (.positional _ ((classify_positional _).1 (by decide)))
      (.run .generate (by decide) h), by decide +kernel, by decide +kernel⟩

/-! ## C66 The usage examples -/

/-- The examples in the usage texts: generate.go:31-38, recover.go:32-43, convert.go:23-29 -/
def usageExamples : List (Cmd × String) :=
  [(.generate, "mnemonikey generate"),
   (.generate, "mnemonikey generate -name username"),
   (.generate, "mnemonikey generate -name username -email bob@hotmail.com"),
   (.generate, "mnemonikey generate -name username -only master,encryption"),
   (.generate, "mnemonikey generate -ttl 2y"),
   (.generate, "mnemonikey generate -ttl 17w"),
   (.recover, "mnemonikey recover"),
   (.recover, "mnemonikey recover -name myuser"),
   (.recover, "mnemonikey recover -name=myuser -email someone@someplace.com"),
   (.recover, "mnemonikey recover -name myuser -enc-index 3 -auth-index=2"),
   (.recover, "mnemonikey recover -name myuser -only master"),
   (.recover, "mnemonikey recover -name myuser -enc-index 3 -only master,encryption"),
   (.recover, "mnemonikey recover -name myuser -auth-index 12 -only authentication -self-cert=false"),
   (.recover, "mnemonikey recover -ttl 2y"),
   (.recover, "mnemonikey recover -ttl=17w"),
   (.recover, "mnemonikey recover -simple -name myuser"),
   (.convert, "mnemonikey convert"),
   (.convert, "mnemonikey convert -encrypt"),
   (.convert, "mnemonikey convert -simple"),
   (.convert, "mnemonikey convert -in-word-file /etc/words"),
   (.convert, "mnemonikey convert -in-word-file /etc/words -out-word-file /etc/new-words")]

/-- The arguments of an example: its words without the program's name -/
def argsOf (e : String) : List Bytes := (split 0x20 (str e)).tail

/-- The options pass the checks made before anything else is done. -/
def ValidSettings (cmd : Cmd) (settings : List (Bytes × FlagValue)) : Prop :=
  match cmd with
  | .root => False
  | .generate => (∃ t, ttlOf (generateOptions settings).key.ttl = .ok t) ∧
      ∃ o, decodeOnlyKeyTypes (generateOptions settings).key.only = .ok o
  | .recover => (∃ t, ttlOf (recoverOptions settings).key.ttl = .ok t) ∧
      (∃ o, decodeOnlyKeyTypes (recoverOptions settings).key.only = .ok o) ∧
      (recoverOptions settings).encIndex ≤ 65535 ∧ (recoverOptions settings).authIndex ≤ 65535 ∧
      (recoverOptions settings).sigIndex ≤ 65535
  | .convert => True

def isOk {α : Type} : Res α → Bool
  | .ok _ => true
  | _ => false

theorem isOk_iff {α : Type} {r : Res α} (h : isOk r = true) : ∃ a, r = .ok a := by
  cases r with
  | ok a => exact ⟨a, rfl⟩
  | err => cases h
  | panic => cases h

def validSettings (cmd : Cmd) (settings : List (Bytes × FlagValue)) : Bool :=
  match cmd with
  | .root => false
  | .generate => isOk (ttlOf (generateOptions settings).key.ttl) &&
      isOk (decodeOnlyKeyTypes (generateOptions settings).key.only)
  | .recover => isOk (ttlOf (recoverOptions settings).key.ttl) &&
      isOk (decodeOnlyKeyTypes (recoverOptions settings).key.only) &&
      decide ((recoverOptions settings).encIndex ≤ 65535) &&
      decide ((recoverOptions settings).authIndex ≤ 65535) &&
      decide ((recoverOptions settings).sigIndex ≤ 65535)
  | .convert => true

theorem validSettings_iff {cmd : Cmd} {settings} (h : validSettings cmd settings = true) :
    ValidSettings cmd settings := by
  cases cmd with
  | root => cases h
  | generate =>
    simp only [validSettings, Bool.and_eq_true] at h
    exact ⟨isOk_iff h.1, isOk_iff h.2⟩
  | recover =>
    simp only [validSettings, Bool.and_eq_true, decide_eq_true_eq] at h
    exact ⟨isOk_iff h.1.1.1.1, isOk_iff h.1.1.1.2, h.1.1.2, h.1.2, h.2⟩
  | convert => trivial

/-- Every example but `convert -encrypt` is understood without any argument left over, and its option
values are valid. -/
theorem c66_examples (cmd : Cmd) (e : String) (h : (cmd, e) ∈ usageExamples)
    (hne : e ≠ "mnemonikey convert -encrypt") :
    ∃ name args settings, argsOf e = name :: args ∧ Named name cmd ∧
      CommandLine (options cmd) (settingsOf settings) [] args ∧ ValidSettings cmd settings ∧
      ∀ L C env st, main L C env (argsOf e) st = answer L C env st (.run cmd settings) := by
  have key : ∀ p ∈ usageExamples, p.2 ≠ "mnemonikey convert -encrypt" →
      subcommands ((argsOf p.2).headD []) = some p.1 ∧ argsOf p.2 ≠ [] ∧
        (argsOf p.2).tail ≠ [str "help"] ∧
        (match parseArgs (formal p.1) (argsOf p.2).tail with
        | .ok settings rest => decide (rest = []) && validSettings p.1 settings
        | _ => false) = true := by decide +kernel
  obtain ⟨h1, h2, h3, h4⟩ := key (cmd, e) h hne
  dsimp only at h1 h2 h3 h4
  obtain ⟨name, args, ha⟩ := List.exists_cons_of_ne_nil h2
  rw [ha] at h1 h3 h4
  simp only [List.headD_cons, List.tail_cons] at h1 h3 h4
  split at h4
  · rename_i settings rest hp
    simp only [Bool.and_eq_true, decide_eq_true_eq] at h4
    obtain ⟨rfl, hv⟩ := h4
    have hn := (subcommands_iff name cmd).1 h1
    have hc := (c63_accepted cmd args settings []).1 hp
    refine ⟨name, args, settings, ha, hn, hc, validSettings_iff hv, ?_⟩
    intro L C env st
    rw [ha]
    exact main_sub L C env st hn h3 hc
  · cases h4

/-- The documented `convert -encrypt` does nothing but exit with status 2. -/
theorem c66_convert_encrypt (L : WordList) (C : Crypto) (env : Env) (st : St) (hw : 28 ≤ env.columns) :
    (.convert, "mnemonikey convert -encrypt") ∈ usageExamples ∧
      main L C env (argsOf "mnemonikey convert -encrypt") st = ([.convert], .exited 2, st) := by
  refine ⟨by decide, ?_⟩
  have ha : argsOf "mnemonikey convert -encrypt" = [str "convert", str "-encrypt"] := by decide +kernel
  have hp : parseArgs (formal .convert) [str "-encrypt"] = .failed := by decide +kernel
  rw [ha, c58_status L C env st _ (.usage .convert 2)
    (.positional (by decide) (.positional _ ((classify_positional _).1 (by decide)))
      (.subMalformed .convert ((c63_refused .convert _).1 hp)))]
  show shown env .convert 2 st = _
  exact if_pos hw

/-! ## C67 Exit status and standard output -/

/-- What a process leaves behind -/
def leaves (L : WordList) (C : Crypto) (env : Env) (args : List Bytes) (prompts : List (Res Bytes))
    (rnd : Bytes) : World :=
  (atStart env.fs).run (main L C env args ⟨prompts, rnd, []⟩).2.2.acts

theorem answer_acts (L : WordList) (C : Crypto) (env : Env) (st : St) (cmd : Cmd) (settings) :
    (answer L C env st (.run cmd settings)).2.2 = (program L C env settings cmd st).2 := by
  have hsh : ∀ cmd code st', (shown env cmd code st').2.2 = st' := by
    intro cmd code st'
    unfold shown
    split <;> rfl
  unfold answer
  dsimp only
  split <;> first | (rename_i h; rw [h]; exact hsh _ _ _) | (rename_i h; rw [h])

/-- Exit status 0 of a run means that the command succeeded. -/
theorem answer_zero (L : WordList) (C : Crypto) (env : Env) (st : St) (cmd : Cmd) (settings)
    (h : (answer L C env st (.run cmd settings)).2.1 = .exited 0) :
    (program L C env settings cmd st).1 = .ok () := by
  have hsh : ∀ cmd st', (shown env cmd 1 st').2.1 ≠ .exited 0 := by
    intro cmd st'
    unfold shown
    split <;> simp
  unfold answer at h
  dsimp only at h
  split at h <;> first | exact absurd h (hsh _ _) | (rename_i h'; rw [h']; done) | cases h

theorem answer_one (L : WordList) (C : Crypto) (env : Env) (st : St) (cmd : Cmd) (settings)
    (h : (answer L C env st (.run cmd settings)).2.1 = .exited 1) :
    ∃ e, (program L C env settings cmd st).1 = .err e := by
  unfold answer at h
  dsimp only at h
  split at h <;> first | (rename_i h'; rw [h']; exact ⟨_, rfl⟩) | cases h

theorem printMnemonic_no_err (env : Env) (ws : List Bytes) (st : St) (e : Err) :
    (printMnemonic env ws st).1 ≠ .err e := by
  obtain ⟨h1, h2, h3⟩ := c57_phrase_notice env.columns
  have hn : notice = phraseNotice := rfl
  unfold printMnemonic
  rw [hn]
  dsimp only
  by_cases a : 17 ≤ env.columns
  · obtain ⟨out, ho⟩ := h1 a
    rw [ho 19 le_rfl]; simp
  · by_cases b : 2 ≤ env.columns
    · rw [h2 b (by omega)]; simp
    · rw [h3 (by omega)]; simp

/-- With exit status 1 nothing has been written to standard output. -/
theorem c67_failure_silent {L : WordList} (hL : L.Lawful) {C : Crypto} (hC : C.Lawful) (env : Env)
    (hwf : env.fs.Wf) (args : List Bytes) (prompts : List (Res Bytes)) (rnd : Bytes)
    (h : (main L C env args ⟨prompts, rnd, []⟩).2.1 = .exited 1) :
    (leaves L C env args prompts rnd).stdout = [] := by
  obtain ⟨r, hr⟩ := c58_total args
  unfold leaves
  cases r with
  | usage cmd code =>
    rw [c58_no_effect L C env _ args _ hr (by simp)]
    rfl
  | nothing =>
    rw [c58_no_effect L C env _ args _ hr (by simp)]
    rfl
  | run cmd settings =>
    rw [c58_status L C env _ args _ hr] at h ⊢
    rw [answer_acts]
    obtain ⟨e, he⟩ := answer_one L C env _ cmd settings h
    cases cmd with
    | root => cases he
    | recover =>
      have he' : (recoverAndPrintKey L C env (recoverOptions settings) ⟨prompts, rnd, []⟩).1 = .err e := he
      show ((atStart env.fs).run
        (recoverAndPrintKey L C env (recoverOptions settings) ⟨prompts, rnd, []⟩).2.acts).stdout = []
      rcases recover_cases (L := L) (C := C) env (recoverOptions settings) ⟨prompts, rnd, []⟩ with
        ⟨-, ha⟩ | ⟨ttl, master, subkeys, ws, dm, s, mnk, keyPw, key, -, -, -, -, -, -, -, -, hok, -⟩
      · rw [ha]; rfl
      · rw [hok] at he'; cases he'
    | convert =>
      have := (c56_no_file L C env (convertOptions settings) prompts rnd
        ((decodeAndConvertPhrase L C env (convertOptions settings)).acts prompts rnd).length).2
      rw [List.take_length] at this
      exact this
    | generate =>
      have he' : (generateAndPrintKey L C env (generateOptions settings) ⟨prompts, rnd, []⟩).1 = .err e := he
      by_cases hout : (generateOptions settings).outputWordFile = []
      · show ((atStart env.fs).run
          (generateAndPrintKey L C env (generateOptions settings) ⟨prompts, rnd, []⟩).2.acts).stdout = []
        rcases generate_cases hL hC env (generateOptions settings) ⟨prompts, rnd, []⟩ with ⟨-, ha⟩ |
          ⟨mnk, o, master, keyPw, pw, key, words, st1, ha, g, e'⟩
        · rw [ha]; rfl
        · exfalso
          rw [e', hout] at he'
          unfold generateEnd at he'
          rw [if_neg (by simp), if_pos rfl] at he'
          change ((printKey (env.armor key) >>= fun _ => printMnemonic env words) st1).1 = _ at he'
          rw [bind_run_ok (printKey_run (env.armor key) st1)] at he'
          exact printMnemonic_no_err env words _ e he'
      · refine (c49_all_or_nothing hL hC env hwf (generateOptions settings) hout prompts rnd).1 ?_
        unfold Prog.outcome
        rw [he']
        simp

/-- The command line asks for a key to be printed. -/
def AsksKey : Request → Prop
  | .run .generate _ => True
  | .run .recover _ => True
  | _ => False

/-- With exit status 0 standard output holds either nothing, when no key was asked for, or exactly one
armored key and a line feed. -/
theorem c67_success_prints {L : WordList} (hL : L.Lawful) {C : Crypto} (hC : C.Lawful) (env : Env)
    (hwf : env.fs.Wf) (args : List Bytes) (prompts : List (Res Bytes)) (rnd : Bytes) (r : Request)
    (hm : Means args r) (h : (main L C env args ⟨prompts, rnd, []⟩).2.1 = .exited 0) :
    (AsksKey r → ∃ mnk key, IsExport C mnk key ∧
        (leaves L C env args prompts rnd).stdout = env.armor key ++ [0x0A]) ∧
      (¬ AsksKey r → (leaves L C env args prompts rnd).stdout = []) := by
  unfold leaves
  cases r with
  | usage cmd code =>
    refine ⟨fun a => a.elim, fun _ => ?_⟩
    rw [c58_no_effect L C env _ args _ hm (by simp)]
    rfl
  | nothing =>
    refine ⟨fun a => a.elim, fun _ => ?_⟩
    rw [c58_no_effect L C env _ args _ hm (by simp)]
    rfl
  | run cmd settings =>
    rw [c58_status L C env _ args _ hm] at h ⊢
    rw [answer_acts]
    have hok := answer_zero L C env _ cmd settings h
    cases cmd with
    | root => exact ⟨fun a => a.elim, fun _ => rfl⟩
    | recover =>
      refine ⟨fun _ => ?_, fun a => absurd trivial a⟩
      show ∃ mnk key, _ ∧ ((atStart env.fs).run
        (recoverAndPrintKey L C env (recoverOptions settings) ⟨prompts, rnd, []⟩).2.acts).stdout = _
      rcases recover_cases (L := L) (C := C) env (recoverOptions settings) ⟨prompts, rnd, []⟩ with
        ⟨hf, -⟩ | ⟨ttl, master, subkeys, ws, dm, s, mnk, keyPw, key, -, -, -, -, -, -, -, hexp, -, ha⟩
      · exact absurd hok (hf ())
      · refine ⟨mnk, key, isExport_of hexp, ?_⟩
        rw [ha, List.nil_append, run_stdout]
        rfl
    | convert =>
      refine ⟨fun a => a.elim, fun _ => ?_⟩
      have := (c56_no_file L C env (convertOptions settings) prompts rnd
        ((decodeAndConvertPhrase L C env (convertOptions settings)).acts prompts rnd).length).2
      rw [List.take_length] at this
      exact this
    | generate =>
      refine ⟨fun _ => ?_, fun a => absurd trivial a⟩
      by_cases hout : (generateOptions settings).outputWordFile = []
      · show ∃ mnk key, _ ∧ ((atStart env.fs).run
          (generateAndPrintKey L C env (generateOptions settings) ⟨prompts, rnd, []⟩).2.acts).stdout = _
        rcases generate_cases hL hC env (generateOptions settings) ⟨prompts, rnd, []⟩ with ⟨hf, -⟩ |
          ⟨mnk, o, master, keyPw, pw, key, words, st1, ha, g, e'⟩
        · exact absurd hok (hf ())
        · refine ⟨mnk, key, isExport_of g.exported, ?_⟩
          rw [e', hout, generateEnd_shown, ha, List.nil_append, run_append, run_stdout]
          rfl
      · exact (c49_all_or_nothing hL hC env hwf (generateOptions settings) hout prompts rnd).2 hok

example : (main toyWordList toyCrypto sampleEnv [str "generate"] ⟨[], sampleRandom, []⟩).2.1 = .exited 0 ∧
    (leaves toyWordList toyCrypto sampleEnv [str "generate"] [] sampleRandom).stdout ≠ [] ∧
    (main toyWordList toyCrypto sampleEnv [str "generate", str "-ttl", str "9x"]
      ⟨[], sampleRandom, []⟩).2.1 = .exited 1 ∧ sampleEnv.fs.Wf :=
  ⟨by decide +kernel, by decide +kernel, by decide +kernel, sampleFS_wf⟩

/-- Flags after the first argument that is not a flag are ignored, even undefined ones. -/
example (st : St) : main toyWordList toyCrypto sampleEnv [str "generate", str "-ttl", str "2y", str "x", str "-bad"] st =
    main toyWordList toyCrypto sampleEnv [str "generate", str "-ttl", str "2y"] st :=
  c64_ignored _ _ _ st _ .generate .generate [str "-ttl", str "2y"] [(str "ttl", .string (str "2y"))]
    ((c63_accepted .generate _ [(str "ttl", .string (str "2y"))] _).1 (by decide +kernel)) (str "x")
    ((classify_positional _).1 (by decide)) [str "-bad"] (by decide)

end Verif.Props
