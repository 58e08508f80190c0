import Verif.Props.Args
import Verif.Props.Commands
import Verif.Props.Usage
import Mathlib.Tactic.ByContra

/-!
# The whole process: exit status and usage texts (C58)
-/

namespace Verif.Props

open Verif.Model Verif.Model.Cli Verif.Proofs Verif.Spec Verif.Instances

/-- What a command line asks for. -/
inductive Request where
  /-- the usage text of a command and this exit status -/
  | usage (cmd : Cmd) (code : Nat)
  /-- exit status 0 without a word -/
  | nothing
  /-- run a subcommand -/
  | run (cmd : Cmd) (settings : List (Bytes × FlagValue))

/-- The documented names of the subcommands. -/
inductive Named : Bytes → Cmd → Prop where
  | generate : Named (str "generate") .generate
  | recover : Named (str "recover") .recover
  | convert : Named (str "convert") .convert

/-- The command line is neither of the documented form nor asks for help. -/
def Malformed (cmd : Cmd) (args : List Bytes) : Prop :=
  ¬ AsksHelp (options cmd) args ∧ ¬ ∃ settings rest, CommandLine (options cmd) settings rest args

/-- What the positional arguments of the root command mean. -/
inductive Asks : List Bytes → Request → Prop where
  | help (rest : List Bytes) : Asks (str "help" :: rest) .nothing
  | missing : Asks [] (.usage .root 1)
  | unknown {name : Bytes} (rest : List Bytes) : name ≠ str "help" → (¬ ∃ cmd, Named name cmd) →
    Asks (name :: rest) (.usage .root 1)
  | subHelp {name : Bytes} {cmd : Cmd} : Named name cmd → Asks [name, str "help"] (.usage cmd 0)
  | subHelpFlag {name : Bytes} {cmd : Cmd} {rest : List Bytes} : Named name cmd →
    AsksHelp (options cmd) rest → Asks (name :: rest) (.usage cmd 0)
  | subMalformed {name : Bytes} {cmd : Cmd} {rest : List Bytes} : Named name cmd →
    Malformed cmd rest → Asks (name :: rest) (.usage cmd 2)
  | run {name : Bytes} {cmd : Cmd} {rest positional : List Bytes} {settings} : Named name cmd →
    rest ≠ [str "help"] → CommandLine (options cmd) (settingsOf settings) positional rest →
    Asks (name :: rest) (.run cmd settings)

/-- What a command line means. -/
inductive Means : List Bytes → Request → Prop where
  | help : Means [str "help"] (.usage .root 0)
  | helpFlag {args : List Bytes} : AsksHelp (options .root) args → Means args (.usage .root 0)
  | malformed {args : List Bytes} : Malformed .root args → Means args (.usage .root 2)
  | positional {args rest : List Bytes} {r : Request} : args ≠ [str "help"] →
    CommandLine (options .root) [] rest args → Asks rest r → Means args r

/-- A usage text and an exit status; on a terminal that is too narrow the process runs for ever. -/
def shown (env : Env) (cmd : Cmd) (code : Nat) (st : St) : List Cmd × Status × St :=
  if columnsNeeded cmd ≤ env.columns then ([cmd], .exited code, st) else ([], .loops, st)

/-- What the process does for a request. -/
def answer (L : WordList) (C : Crypto) (env : Env) (st : St) : Request → List Cmd × Status × St
  | .usage cmd code => shown env cmd code st
  | .nothing => ([], .exited 0, st)
  | .run cmd settings =>
    match program L C env settings cmd st with
    | (.ok _, st') => ([], .exited 0, st')
    | (.err .badDuration, st') => shown env cmd 1 st'
    | (.err .badOnlyElement, st') => shown env cmd 1 st'
    | (.err _, st') => ([], .exited 1, st')
    | (.panic _, st') => ([], .exited 2, st')
    | (.waits _, st') => ([], .waits, st')
    | (.loops, st') => ([], .loops, st')

theorem subcommands_iff (name : Bytes) (cmd : Cmd) : subcommands name = some cmd ↔ Named name cmd := by
  constructor
  · intro h
    unfold subcommands at h
    split at h
    · rename_i hn; cases h; subst hn; exact .generate
    · split at h
      · rename_i hn; cases h; subst hn; exact .recover
      · split at h
        · rename_i hn; cases h; subst hn; exact .convert
        · cases h
  · rintro (_ | _ | _) <;> decide

theorem named_ne_help {name : Bytes} {cmd : Cmd} (h : Named name cmd) : name ≠ str "help" := by
  cases h <;> decide

theorem named_ne_root {name : Bytes} {cmd : Cmd} (h : Named name cmd) : cmd ≠ .root := by
  cases h <;> decide

theorem printUsage_eq (columns : Nat) (cmd : Cmd) (printed : List Cmd) (ends : Ends) (st : St) :
    printUsage columns cmd printed ends st =
      if columnsNeeded cmd ≤ columns then ⟨printed ++ [cmd], ends, st⟩ else ⟨printed, .loops, st⟩ := by
  unfold printUsage
  rw [c65_usage]
  by_cases h : columnsNeeded cmd ≤ columns
  · rw [if_pos h, if_pos h]
  · rw [if_neg h, if_neg h]
    rfl

/-- What is left of `Run` and `main` after the root command's Execute. -/
def after (columns : Nat) (d : Done) : List Cmd × Status × St :=
  let d' := match d with
    | ⟨printed, .returns (some .usage), st⟩ => printUsage columns .root printed (.returns (some .other)) st
    | d => d
  (d'.printed,
    match d'.ends with
    | .exits code => .exited code
    | .returns none => .exited 0
    | .returns (some .graceful) => .exited 0
    | .returns (some _) => .exited 1
    | .waits => .waits
    | .loops => .loops,
    d'.st)

theorem main_parsed (L : WordList) (C : Crypto) (env : Env) (st : St) {args rest : List Bytes} {settings}
    (h1 : args ≠ [str "help"]) (h2 : parseArgs (formal .root) args = .ok settings rest) :
    main L C env args st = after env.columns (rootExecute L C env rest st) := by
  unfold main runCommand
  rw [if_neg h1, h2]
  rfl

theorem after_print (columns : Nat) (cmd : Cmd) (ends : Ends) (st : St)
    (h : ends ≠ .returns (some .usage)) (code : Nat)
    (hc : (match ends with
      | .exits code => Status.exited code
      | .returns none => .exited 0
      | .returns (some .graceful) => .exited 0
      | .returns (some _) => .exited 1
      | .waits => .waits
      | .loops => .loops) = .exited code) :
    after columns (printUsage columns cmd [] ends st) =
      if columnsNeeded cmd ≤ columns then ([cmd], .exited code, st) else ([], .loops, st) := by
  rw [printUsage_eq]
  split
  · unfold after
    dsimp only [List.nil_append]
    match ends, h, hc with
    | .exits _, _, hc => cases hc; rfl
    | .returns none, _, hc => cases hc; rfl
    | .returns (some .graceful), _, hc => cases hc; rfl
    | .returns (some .usage), h, _ => exact absurd rfl h
    | .returns (some .other), _, hc => cases hc; rfl
    | .waits, _, hc => cases hc
    | .loops, _, hc => cases hc
  · rfl

theorem sub_run (L : WordList) (C : Crypto) (env : Env) (st : St) {cmd : Cmd} {rest positional : List Bytes}
    {settings} (hh : rest ≠ [str "help"])
    (hp : CommandLine (options cmd) (settingsOf settings) positional rest) :
    after env.columns (runSub L C env cmd rest st) = answer L C env st (.run cmd settings) := by
  unfold runSub runCommand
  rw [if_neg hh, (c63_accepted cmd rest settings positional).2 hp]
  unfold answer
  dsimp only
  generalize program L C env settings cmd st = r
  obtain ⟨o, st'⟩ := r
  have hu : after env.columns (printUsage env.columns cmd [] (.returns (some .other)) st') =
      shown env cmd 1 st' := after_print env.columns cmd _ st' (by simp) 1 rfl
  cases o with
  | ok _ => rfl
  | panic _ => rfl
  | waits _ => rfl
  | loops => rfl
  | err e => cases e <;> first | exact hu | rfl

theorem asks_status (L : WordList) (C : Crypto) (env : Env) (st : St) {rest : List Bytes} {r : Request}
    (h : Asks rest r) : after env.columns (rootExecute L C env rest st) = answer L C env st r := by
  have husage : after env.columns ⟨[], .returns (some .usage), st⟩ = shown env .root 1 st := by
    have : after env.columns ⟨[], .returns (some .usage), st⟩ =
      after env.columns (printUsage env.columns .root [] (.returns (some .other)) st) := by
      rw [printUsage_eq]
      unfold after
      dsimp only
      rw [printUsage_eq]
      split <;> rfl
    rw [this]
    exact after_print env.columns .root _ st (by simp) 1 rfl
  cases h with
  | help rest => rfl
  | missing => exact husage
  | @unknown name rest hne hno =>
    have hs : subcommands name = none := by
      by_contra hc
      obtain ⟨c, hc⟩ := Option.ne_none_iff_exists'.1 hc
      exact hno ⟨c, (subcommands_iff name c).1 hc⟩
    simp only [rootExecute, if_neg hne, hs]
    exact husage
  | @subHelp name cmd hn =>
    simp only [rootExecute, if_neg (named_ne_help hn), (subcommands_iff name cmd).2 hn]
    unfold runSub runCommand
    rw [if_pos rfl]
    exact after_print env.columns cmd _ st (by simp) 0 rfl
  | @subHelpFlag name cmd rest hn hh =>
    simp only [rootExecute, if_neg (named_ne_help hn), (subcommands_iff name cmd).2 hn]
    unfold runSub runCommand
    rw [(c63_help cmd rest).2 hh]
    by_cases hr : rest = [str "help"]
    · rw [if_pos hr]
      exact after_print env.columns cmd _ st (by simp) 0 rfl
    · rw [if_neg hr]
      exact after_print env.columns cmd _ st (by simp) 0 rfl
  | @subMalformed name cmd rest hn hm =>
    simp only [rootExecute, if_neg (named_ne_help hn), (subcommands_iff name cmd).2 hn]
    unfold runSub runCommand
    rw [(c63_refused cmd rest).2 hm, if_neg]
    · exact after_print env.columns cmd _ st (by simp) 2 rfl
    · rintro rfl
      refine hm.2 ⟨_, _, .positional [] ?_⟩
      rw [← classify_positional]
      decide
  | @run name cmd rest positional settings hn hh hp =>
    simp only [rootExecute, if_neg (named_ne_help hn), (subcommands_iff name cmd).2 hn]
    exact sub_run L C env st hh hp

/-- Exit status, usage texts and effects of every command line. -/
theorem c58_status (L : WordList) (C : Crypto) (env : Env) (st : St) (args : List Bytes) (r : Request)
    (h : Means args r) : main L C env args st = answer L C env st r := by
  have hpr : ∀ ends code, ends ≠ .returns (some .usage) →
      (match ends with
      | Ends.exits code => Status.exited code
      | .returns none => .exited 0
      | .returns (some .graceful) => .exited 0
      | .returns (some _) => .exited 1
      | .waits => .waits
      | .loops => .loops) = .exited code →
      (runCommand env.columns .root (fun _ rest => rootExecute L C env rest) args st) =
        printUsage env.columns .root [] ends st → main L C env args st = shown env .root code st := by
    intro ends code h1 h2 h3
    have := after_print env.columns .root ends st h1 code h2
    rw [← h3] at this
    unfold shown
    rw [← this]
    unfold main after
    dsimp only
    rw [h3, printUsage_eq]
    split
    · dsimp only
      match ends, h1 with
      | .exits _, _ => rfl
      | .returns none, _ => rfl
      | .returns (some .graceful), _ => rfl
      | .returns (some .usage), h1 => exact absurd rfl h1
      | .returns (some .other), _ => rfl
      | .waits, _ => rfl
      | .loops, _ => rfl
    · rfl
  cases h with
  | help =>
    refine hpr (.returns none) 0 (by simp) rfl ?_
    unfold runCommand
    rw [if_pos rfl]
  | helpFlag hh =>
    by_cases hr : args = [str "help"]
    · refine hpr (.returns none) 0 (by simp) rfl ?_
      unfold runCommand
      rw [if_pos hr]
    · refine hpr (.exits 0) 0 (by simp) rfl ?_
      unfold runCommand
      rw [if_neg hr, (c63_help .root args).2 hh]
  | malformed hm =>
    refine hpr (.exits 2) 2 (by simp) rfl ?_
    unfold runCommand
    rw [if_neg, (c63_refused .root args).2 hm]
    rintro rfl
    refine hm.2 ⟨_, _, .positional [] ?_⟩
    rw [← classify_positional]
    decide
  | positional hh hc ha =>
    rw [main_parsed L C env st hh ((c63_accepted .root args [] _).2 hc)]
    exact asks_status L C env st ha

/-- Every command line has a meaning. -/
theorem c58_total (args : List Bytes) : ∃ r, Means args r := by
  by_cases h : args = [str "help"]
  · subst h; exact ⟨_, .help⟩
  cases hp : parseArgs (formal .root) args with
  | help => exact ⟨_, .helpFlag ((c63_help .root args).1 hp)⟩
  | failed => exact ⟨_, .malformed ((c63_refused .root args).1 hp)⟩
  | ok settings rest =>
    have hc := (c63_accepted .root args settings rest).1 hp
    have hs : settingsOf settings = [] := by
      have := commandLine_kinds hc
      match settings with
      | [] => rfl
      | p :: _ => obtain ⟨k, hk, _⟩ := this (p.1, valueOf p.2) (by simp [settingsOf]); cases hk
    rw [hs] at hc
    have : ∃ r, Asks rest r := by
      match rest with
      | [] => exact ⟨_, .missing⟩
      | name :: rest =>
        by_cases hn : ∃ cmd, Named name cmd
        · obtain ⟨cmd, hn⟩ := hn
          by_cases hr : rest = [str "help"]
          · subst hr; exact ⟨_, .subHelp hn⟩
          · cases hp : parseArgs (formal cmd) rest with
            | help => exact ⟨_, .subHelpFlag hn ((c63_help cmd rest).1 hp)⟩
            | failed => exact ⟨_, .subMalformed hn ((c63_refused cmd rest).1 hp)⟩
            | ok s pos => exact ⟨_, .run hn hr ((c63_accepted cmd rest s pos).1 hp)⟩
        · by_cases hh : name = str "help"
          · subst hh; exact ⟨_, .help rest⟩
          · exact ⟨_, .unknown rest hh hn⟩
    obtain ⟨r, hr⟩ := this
    exact ⟨r, .positional h hc hr⟩

theorem named_unique {name : Bytes} {cmd cmd' : Cmd} (h : Named name cmd) (h' : Named name cmd') :
    cmd = cmd' := by
  rw [← subcommands_iff] at h h'
  exact Option.some.inj (h.symm.trans h')

theorem not_malformed_help (cmd : Cmd) : ¬ Malformed cmd [str "help"] := by
  intro hm
  refine hm.2 ⟨_, _, .positional [] ?_⟩
  rw [← classify_positional]
  decide

theorem not_named_help (cmd : Cmd) : ¬ Named (str "help") cmd := by
  rw [← subcommands_iff]
  cases cmd <;> decide

theorem asks_unique {rest : List Bytes} {r r' : Request} (h : Asks rest r) (h' : Asks rest r') : r = r' := by
  have hx : ∀ {cmd : Cmd} {rest : List Bytes} {s : List (Bytes × FlagValue)} {pos : List Bytes},
      AsksHelp (options cmd) rest → ¬ CommandLine (options cmd) (settingsOf s) pos rest := by
    intro cmd rest s pos ha hc
    rw [← c63_help] at ha
    rw [← c63_accepted, ha] at hc
    cases hc
  cases h with
  | help rest =>
    cases h' with
    | help => rfl
    | unknown _ hn => exact absurd rfl hn
    | subHelp hn => exact absurd hn (not_named_help _)
    | subHelpFlag hn => exact absurd hn (not_named_help _)
    | subMalformed hn => exact absurd hn (not_named_help _)
    | run hn => exact absurd hn (not_named_help _)
  | missing => cases h'; rfl
  | unknown rest hn hu =>
    cases h' with
    | help => exact absurd rfl hn
    | unknown => rfl
    | subHelp hn => exact absurd ⟨_, hn⟩ hu
    | subHelpFlag hn => exact absurd ⟨_, hn⟩ hu
    | subMalformed hn => exact absurd ⟨_, hn⟩ hu
    | run hn => exact absurd ⟨_, hn⟩ hu
  | subHelp hn =>
    cases h' with
    | help => exact absurd hn (not_named_help _)
    | unknown _ _ hu => exact absurd ⟨_, hn⟩ hu
    | subHelp hn' => rw [named_unique hn hn']
    | subHelpFlag hn' => rw [named_unique hn hn']
    | subMalformed hn' hm => exact absurd hm (not_malformed_help _)
    | run hn' hr => exact absurd rfl hr
  | subHelpFlag hn ha =>
    cases h' with
    | help => exact absurd hn (not_named_help _)
    | unknown _ _ hu => exact absurd ⟨_, hn⟩ hu
    | subHelp hn' => rw [named_unique hn hn']
    | subHelpFlag hn' => rw [named_unique hn hn']
    | subMalformed hn' hm => cases named_unique hn hn'; exact absurd ha hm.1
    | run hn' hr hc => cases named_unique hn hn'; exact absurd hc (hx ha)
  | subMalformed hn hm =>
    cases h' with
    | help => exact absurd hn (not_named_help _)
    | unknown _ _ hu => exact absurd ⟨_, hn⟩ hu
    | subHelp hn' => exact absurd hm (not_malformed_help _)
    | subHelpFlag hn' ha => cases named_unique hn hn'; exact absurd ha hm.1
    | subMalformed hn' => rw [named_unique hn hn']
    | run hn' hr hc => cases named_unique hn hn'; exact absurd ⟨_, _, hc⟩ hm.2
  | run hn hr hc =>
    cases h' with
    | help => exact absurd hn (not_named_help _)
    | unknown _ _ hu => exact absurd ⟨_, hn⟩ hu
    | subHelp hn' => exact absurd rfl hr
    | subHelpFlag hn' ha => cases named_unique hn hn'; exact absurd hc (hx ha)
    | subMalformed hn' hm => cases named_unique hn hn'; exact absurd ⟨_, _, hc⟩ hm.2
    | run hn' _ hc' =>
      cases named_unique hn hn'
      rw [← c63_accepted] at hc hc'
      rw [hc] at hc'
      cases hc'
      rfl

/-- No command line has two meanings. -/
theorem c58_unique (args : List Bytes) (r r' : Request) (h : Means args r) (h' : Means args r') : r = r' := by
  have hx : ∀ {args rest : List Bytes}, AsksHelp (options .root) args →
      ¬ CommandLine (options .root) [] rest args := by
    intro args rest ha hc
    rw [← c63_help] at ha
    have hc := (c63_accepted .root args [] rest).2 hc
    rw [ha] at hc
    cases hc
  cases h with
  | help =>
    cases h' with
    | help => rfl
    | helpFlag => rfl
    | malformed hm => exact absurd hm (not_malformed_help _)
    | positional hn => exact absurd rfl hn
  | helpFlag ha =>
    cases h' with
    | help => rfl
    | helpFlag => rfl
    | malformed hm => exact absurd ha hm.1
    | positional hn hc => exact absurd hc (hx ha)
  | malformed hm =>
    cases h' with
    | help => exact absurd hm (not_malformed_help _)
    | helpFlag ha => exact absurd ha hm.1
    | malformed => rfl
    | positional hn hc => exact absurd ⟨_, _, hc⟩ hm.2
  | positional hn hc ha =>
    cases h' with
    | help => exact absurd rfl hn
    | helpFlag hh => exact absurd hc (hx hh)
    | malformed hm => exact absurd ⟨_, _, hc⟩ hm.2
    | positional _ hc' ha' =>
      have hc := (c63_accepted .root args [] _).2 hc
      have hc' := (c63_accepted .root args [] _).2 hc'
      rw [hc] at hc'
      cases hc'
      exact asks_unique ha ha'

/-- At most one usage text is printed, whatever happens. -/
theorem c58_usage_once (L : WordList) (C : Crypto) (env : Env) (st : St) (args : List Bytes) :
    (main L C env args st).1.length ≤ 1 := by
  obtain ⟨r, hr⟩ := c58_total args
  have hsh : ∀ cmd code st', (shown env cmd code st').1.length ≤ 1 := by
    intro cmd code st'
    unfold shown
    split <;> simp
  rw [c58_status L C env st args r hr]
  unfold answer
  split
  · exact hsh _ _ _
  · simp
  · split <;> first | exact hsh _ _ _ | simp

/-- Unless a subcommand runs, nothing is done: no prompt, no file, no output. -/
theorem c58_no_effect (L : WordList) (C : Crypto) (env : Env) (st : St) (args : List Bytes) (r : Request)
    (h : Means args r) (hr : ∀ cmd settings, r ≠ .run cmd settings) : (main L C env args st).2.2 = st := by
  rw [c58_status L C env st args r h]
  cases r with
  | usage cmd code =>
    unfold answer shown
    dsimp only
    split <;> rfl
  | nothing => rfl
  | run cmd settings => exact absurd rfl (hr cmd settings)

/-- On a terminal of 42 columns the exit status is 1 exactly if no subcommand is named or the named one
runs and fails. -/
theorem c58_status_one (L : WordList) (C : Crypto) (env : Env) (st : St) (args : List Bytes) (r : Request)
    (hw : 42 ≤ env.columns) (h : Means args r) : (main L C env args st).2.1 = .exited 1 ↔
      r = .usage .root 1 ∨ ∃ cmd settings e, r = .run cmd settings ∧
        (program L C env settings cmd st).1 = .err e := by
  have hsh : ∀ cmd code st', shown env cmd code st' = ([cmd], .exited code, st') := by
    intro cmd code st'
    unfold shown
    rw [if_pos]
    cases cmd <;> simp only [columnsNeeded] <;> omega
  rw [c58_status L C env st args r h]
  cases r with
  | nothing => simp [answer]
  | usage cmd code =>
    simp only [answer, hsh, Status.exited.injEq, Request.usage.injEq, reduceCtorEq, false_and,
      exists_false, or_false]
    constructor
    · rintro rfl
      cases h with
      | positional _ _ ha =>
        cases ha with
        | missing => exact ⟨rfl, rfl⟩
        | unknown => exact ⟨rfl, rfl⟩
    · exact fun h => h.2
  | run cmd settings =>
    simp only [answer, hsh, reduceCtorEq, false_or, Request.run.injEq]
    generalize hp : program L C env settings cmd st = p
    obtain ⟨o, st'⟩ := p
    constructor
    · intro he
      refine ⟨cmd, settings, ?_⟩
      rw [hp]
      cases o with
      | err e => exact ⟨e, ⟨rfl, rfl⟩, rfl⟩
      | ok _ => simp at he
      | panic _ => simp at he
      | waits _ => simp at he
      | loops => simp at he
    · rintro ⟨cmd', settings', e, ⟨rfl, rfl⟩, he⟩
      rw [hp] at he
      dsimp only at he
      subst he
      cases e <;> rfl

/-! Examples -/

def sampleMain (columns : Nat) (args : List Bytes) (prompts : List (Res Bytes)) :
    List Cmd × Status × List Act :=
  let r := main toyWordList toyCrypto { sampleEnv with columns := columns } args ⟨prompts, sampleRandom, []⟩
  (r.1, r.2.1, r.2.2.acts)

example : sampleMain 80 [str "generate", str "-ttl", str "x"] [] = ([.generate], .exited 1, []) ∧
    sampleMain 80 [str "convert", str "-h"] [] = ([.convert], .exited 0, []) ∧
    sampleMain 80 [str "convert", str "-encrypt"] [] = ([.convert], .exited 2, []) ∧
    sampleMain 20 [str "convert", str "-encrypt"] [] = ([], .loops, []) ∧
    sampleMain 80 [str "help", str "generate"] [] = ([], .exited 0, []) ∧
    sampleMain 80 [str "--help=x", str "generate"] [] = ([.root], .exited 0, []) ∧
    sampleMain 80 [str "-x", str "generate"] [] = ([.root], .exited 2, []) ∧
    sampleMain 80 [str "frobnicate"] [] = ([.root], .exited 1, []) := by decide +kernel

/-- A whole run: a key on standard output, then the phrase. -/
example : (sampleMain 80 [str "generate", str "-name", str "Bob"] []).2.1 = .exited 0 ∧
    ((sampleMain 80 [str "generate", str "-name", str "Bob"] []).2.2.getLast?.any
      fun a => match a with | .showPhrase ws => ws.length = 14 | _ => false) = true := by decide +kernel

example : Means [str "recover", str "-name", str "x"] (.run .recover [(str "name", .string (str "x"))]) :=
  .positional (by decide) (.positional _ ((classify_positional _).1 (by decide)))
    (.run (positional := []) .recover (by decide)
      ((c63_accepted .recover _ _ _).1 (by decide +kernel)))

end Verif.Props
