import Verif.Proofs.CliHelp
import Verif.Proofs.CliRefused
import Verif.Props.Process
import Verif.Props.Messages

/-!
# Help texts (C88) and malformed command lines (C89)
-/

namespace Verif.Props

open Verif.Model Verif.Model.Cli Verif.Proofs Verif.Spec Verif.Instances

deriving instance DecidableEq for Entry

/-! ## C88 The help text lists exactly the options there are, with their true defaults -/

/-- Name, placeholder of the value, and default of the options, as the help texts show them -/
def documented : Cmd → List (String × String × Option String)
  | .root => []
  | .generate =>
    [("email", "string", none), ("encrypt-keys", "", some "false"), ("encrypt-phrase", "", some "false"),
     ("name", "string", some "\"anonymous\""), ("only", "types", none), ("out-word-file", "file", none),
     ("ttl", "period", none), ("unsafe-entropy", "file", none), ("verbose", "", some "false")]
  | .recover =>
    [("auth-index", "index", some "0"), ("email", "string", none), ("enc-index", "index", some "0"),
     ("encrypt-keys", "", some "false"), ("in-word-file", "file", none),
     ("name", "string", some "\"anonymous\""), ("only", "types", none), ("self-cert", "", some "true"),
     ("sig-index", "index", some "0"), ("simple", "", some "false"), ("ttl", "period", none),
     ("verbose", "", some "false")]
  | .convert =>
    [("encrypt-phrase", "", some "false"), ("in-word-file", "file", none), ("out-word-file", "file", none),
     ("simple", "", some "false"), ("verbose", "", some "false")]

def entries (cmd : Cmd) : List Entry :=
  (documented cmd).map fun e => ⟨str e.1, str e.2.1, unstyled (usageText cmd (str e.1)), e.2.2.map str⟩

theorem documented_eq (cmd : Cmd) : (sortFlags (flagTable cmd)).map entryOf = entries cmd := by
  cases cmd <;> decide +kernel

/-- The page of a command -/
def pageOf (cmd : Cmd) : Page := ⟨commandName cmd, descriptionOf cmd, examplesOf cmd, entries cmd⟩

/-- On a terminal that is wide enough the help text shows exactly the title, the description, the examples
and the documented options in order; on others the program runs for ever. -/
theorem c88_text (F : Fmt) (hF : QuotesPlainly F.quote) (columns : Nat) (cmd : Cmd) :
    (columnsNeeded cmd ≤ columns →
      ∃ out, help F columns cmd = ⟨out, .ok ()⟩ ∧ IsPage (pageOf cmd) (unstyled out)) ∧
    (columns < columnsNeeded cmd → (help F columns cmd).ends = .loops) := by
  constructor
  · intro h
    obtain ⟨out, h1, _, h3⟩ := help_text hF columns cmd (by rw [c65_usage, if_pos h])
    rw [documented_eq] at h3
    exact ⟨out, h1, h3⟩
  · intro h
    rw [help_ends, c65_usage, if_neg (by omega)]

theorem lookup_ne_none {β : Type} {l : List (Bytes × β)} {name : Bytes} :
    l.lookup name ≠ none ↔ name ∈ l.map Prod.fst := by
  induction l with
  | nil => simp
  | cons p l ih =>
    obtain ⟨a, b⟩ := p
    by_cases h : name = a
    · subst h; simp [List.lookup]
    · have : (name == a) = false := by simpa using h
      simp only [List.lookup, this, List.map_cons, List.mem_cons, h, false_or]
      exact ih

theorem shows_entryOf (f : Flag) (v : Bytes) :
    Shows (entryOf f).default (kindOf f.kind) v ↔ v = f.default := by
  unfold entryOf
  dsimp only
  by_cases hk : f.kind = .string
  · rw [if_pos hk, hk]
    by_cases he : f.default = []
    · rw [if_pos he, he]
      constructor
      · intro h
        generalize ho : (none : Option Bytes) = o at h
        generalize hkk : kindOf .string = k at h
        cases h with
        | empty => rfl
        | string => cases ho
        | other => cases ho
      · rintro rfl; exact .empty
    · rw [if_neg he]
      constructor
      · intro h
        generalize ho : some (str "\"" ++ f.default ++ str "\"") = o at h
        generalize hkk : kindOf .string = k at h
        cases h with
        | empty => cases ho
        | string v hv =>
          have := Option.some.inj ho
          rw [List.append_assoc, List.append_assoc] at this
          exact (List.append_cancel_right (List.append_cancel_left this)).symm
        | other k v hne => exact absurd hkk.symm hne
      · rintro rfl; exact .string _ he
  · rw [if_neg hk]
    have hk' : kindOf f.kind ≠ .string := by
      intro e
      apply hk
      cases hh : f.kind <;> rw [hh] at e <;> first | rfl | cases e
    constructor
    · intro h
      generalize ho : some f.default = o at h
      generalize hkk : kindOf f.kind = k at h hk'
      cases h with
      | empty => cases ho
      | string => exact absurd rfl hk'
      | other k v hne => exact (Option.some.inj ho).symm
    · rintro rfl; exact .other _ _ hk'

theorem entry_flag {cmd : Cmd} {e : Entry} (he : e ∈ entries cmd) :
    ∃ f ∈ sortFlags (flagTable cmd), entryOf f = e := by
  rw [← documented_eq] at he
  exact List.mem_map.1 he

theorem flag_kind (cmd : Cmd) : ∀ f ∈ sortFlags (flagTable cmd),
    formal cmd f.name = some f.kind ∧ options cmd f.name = some (kindOf f.kind) := by
  cases cmd <;> decide +kernel

/-- The options of the help text are exactly those that the program accepts, each once, in alphabetical order.
Those that take a value have a placeholder, switches do not. Every default is shown in the way of its kind. -/
theorem c88_options (cmd : Cmd) :
    ((entries cmd).map Entry.name).Pairwise (· < ·) ∧
    (∀ name, (∃ e ∈ entries cmd, e.name = name) ↔ formal cmd name ≠ none) ∧
    (∀ e ∈ entries cmd, (e.placeholder = [] ↔ options cmd e.name = some .bool) ∧
      ∃ k v, options cmd e.name = some k ∧ Shows e.default k v) := by
  have h1 : ((entries cmd).map Entry.name).Pairwise (· < ·) ∧
      (∀ n ∈ (entries cmd).map Entry.name, n ∈ (flagsOf cmd).map Prod.fst) ∧
      (∀ n ∈ (flagsOf cmd).map Prod.fst, n ∈ (entries cmd).map Entry.name) ∧
      ∀ e ∈ entries cmd, (e.placeholder = [] ↔ options cmd e.name = some .bool) := by
    cases cmd <;> decide +kernel
  refine ⟨h1.1, fun name => ?_, fun e he => ⟨h1.2.2.2 e he, ?_⟩⟩
  · unfold formal
    rw [lookup_ne_none]
    constructor
    · rintro ⟨e, he, rfl⟩
      exact h1.2.1 _ (List.mem_map_of_mem he)
    · intro h
      exact List.mem_map.1 (h1.2.2.1 _ h)
  · obtain ⟨f, hf, rfl⟩ := entry_flag he
    exact ⟨_, _, (flag_kind cmd f hf).2, (shows_entryOf f _).2 rfl⟩

/-- The examples of the help texts are those of C66. -/
theorem c66_shown (cmd : Cmd) (hc : cmd ≠ .root) :
    examplesOf cmd = (usageExamples.filter fun e => e.1 = cmd).map fun e => str e.2 := by
  cases cmd with
  | root => exact absurd rfl hc
  | generate => decide +kernel
  | recover => decide +kernel
  | convert => decide +kernel

/-! The whole process -/

theorem parseArgsE_same (F : Fmt) (f : Bytes → Option FlagKind) (args : List Bytes) :
    (parseArgsE F f args).plain = parseArgs f args := parseArgsE_plain F f _ args le_rfl

theorem parseArgsE_ok {F : Fmt} {f : Bytes → Option FlagKind} {args : List Bytes} {settings rest} :
    parseArgsE F f args = .ok settings rest ↔ parseArgs f args = .ok settings rest := by
  rw [← parseArgsE_same F f args]
  cases parseArgsE F f args <;> simp [ParsedArgsE.plain]

theorem parseArgsE_help {F : Fmt} {f : Bytes → Option FlagKind} {args : List Bytes} :
    parseArgsE F f args = .help ↔ parseArgs f args = .help := by
  rw [← parseArgsE_same F f args]
  cases parseArgsE F f args <;> simp [ParsedArgsE.plain]

/-- What a command ends with, with and without the text -/
def Alike (d : DoneH) (e : DoneE) : Prop := d.ends = e.ends ∧ d.st = e.st

theorem printUsage_alike (F : Fmt) (columns : Nat) (cmd : Cmd) (w : Bytes) (printed : List Cmd) (ends : EndsE)
    (st : StE) : Alike (printUsageH F columns cmd w ends st) (printUsageE columns cmd printed ends st) := by
  unfold printUsageH printUsageE
  dsimp only
  rw [help_ends]
  cases usage columns cmd <;> exact ⟨rfl, rfl⟩

theorem runCommand_alike (F : Fmt) (columns : Nat) (cmd : Cmd) {x : List (Bytes × FlagValue) → List Bytes → StE → DoneH}
    {y : List (Bytes × FlagValue) → List Bytes → StE → DoneE} (h : ∀ s r st, Alike (x s r st) (y s r st))
    (args : List Bytes) (st : StE) :
    Alike (runCommandH F columns cmd x args st) (runCommandE columns cmd y args st) := by
  unfold runCommandH runCommandE
  by_cases ha : args = [str "help"]
  · rw [if_pos ha, if_pos ha]
    exact printUsage_alike ..
  · rw [if_neg ha, if_neg ha, ← parseArgsE_same F]
    cases parseArgsE F (formal cmd) args with
    | help => exact printUsage_alike ..
    | failed m => exact printUsage_alike ..
    | ok settings rest =>
      dsimp only [ParsedArgsE.plain]
      have := h settings rest st
      generalize x settings rest st = d at this
      generalize y settings rest st = e at this
      obtain ⟨w, ends, st1⟩ := d
      obtain ⟨p, ends', st2⟩ := e
      obtain ⟨rfl, rfl⟩ := this
      match ends with
      | .returns (some ⟨.usage, text⟩) => exact printUsage_alike ..
      | .returns (some ⟨.other, text⟩) => exact ⟨rfl, rfl⟩
      | .returns (some ⟨.graceful, text⟩) => exact ⟨rfl, rfl⟩
      | .returns none => exact ⟨rfl, rfl⟩
      | .exits _ => exact ⟨rfl, rfl⟩
      | .waits => exact ⟨rfl, rfl⟩
      | .loops => exact ⟨rfl, rfl⟩

theorem root_alike (F : Fmt) (os : OsText) (L : WordList) (C : Crypto) (env : Env) (args : List Bytes) (st : StE) :
    Alike (rootExecuteH F os L C env args st) (rootExecuteE F os L C env args st) := by
  unfold rootExecuteH rootExecuteE
  match args with
  | [] => exact ⟨rfl, rfl⟩
  | name :: rest =>
    dsimp only
    split
    · exact ⟨rfl, rfl⟩
    · cases subcommands name with
      | none => exact ⟨rfl, rfl⟩
      | some cmd => exact runCommand_alike F env.columns cmd (fun _ _ _ => ⟨rfl, rfl⟩) rest st

/-- Exit status and effects are those of the model without these texts. -/
theorem c89_same (F : Fmt) (os : OsText) (L : WordList) (C : Crypto) (env : Env) (args : List Bytes) (st : StE) :
    (mainH F os L C env args st).2 = (mainE F os L C env args st).2.2 := by
  have := runCommand_alike F env.columns .root (x := fun _ rest => rootExecuteH F os L C env rest)
    (fun _ rest st => root_alike F os L C env rest st) args st
  unfold mainH mainE
  dsimp only
  obtain ⟨h1, h2⟩ := this
  rw [h1, h2]
  generalize (runCommandE env.columns .root (fun _ => rootExecuteE F os L C env) args st).ends = ends
  match ends with
  | .returns (some ⟨.usage, _⟩) => rfl
  | .returns (some ⟨.other, _⟩) => rfl
  | .returns (some ⟨.graceful, _⟩) => rfl
  | .returns none => rfl
  | .exits _ => rfl
  | .waits => rfl
  | .loops => rfl

/-! ### Defaults -/

/-- Assigning its default to a flag at the start changes nothing. -/
theorem default_settings (cmd : Cmd) : ∀ f ∈ sortFlags (flagTable cmd),
    ∃ x, setValue f.kind f.default = some x ∧
      ∀ settings, generateOptions ((f.name, x) :: settings) = generateOptions settings ∧
        (cmd = .recover → recoverOptions ((f.name, x) :: settings) = recoverOptions settings) ∧
        convertOptions ((f.name, x) :: settings) = convertOptions settings ∧
        verboseOption ((f.name, x) :: settings) = verboseOption settings := by
  have key : ∀ f ∈ sortFlags (flagTable cmd), (setValue f.kind f.default).any (fun x =>
      generateOptions [(f.name, x)] = generateOptions [] ∧
      (cmd = .recover → recoverOptions [(f.name, x)] = recoverOptions []) ∧
      convertOptions [(f.name, x)] = convertOptions [] ∧ verboseOption [(f.name, x)] = verboseOption []) = true := by
    cases cmd <;> decide +kernel
  intro f hf
  have := key f hf
  cases hx : setValue f.kind f.default with
  | none => rw [hx] at this; cases this
  | some x =>
    rw [hx] at this
    simp only [Option.any_some, decide_eq_true_eq] at this
    refine ⟨x, rfl, fun settings => ?_⟩
    simp only [generateOptions, recoverOptions, convertOptions, verboseOption, List.foldl_cons, List.foldl_nil]
      at this ⊢
    refine ⟨by rw [this.1], fun h => by rw [this.2.1 h], by rw [this.2.2.1], by rw [this.2.2.2]⟩

theorem programE_default {F : Fmt} {os : OsText} {L : WordList} {C : Crypto} {env : Env} {cmd : Cmd}
    {s s' : List (Bytes × FlagValue)} (h1 : generateOptions s' = generateOptions s)
    (h2 : cmd = .recover → recoverOptions s' = recoverOptions s) (h3 : convertOptions s' = convertOptions s)
    (h4 : verboseOption s' = verboseOption s) :
    programE F os L C env s' cmd = programE F os L C env s cmd ∧
      programV F L C env s' cmd = programV F L C env s cmd := by
  cases cmd with
  | root => exact ⟨rfl, rfl⟩
  | generate => exact ⟨by simp only [programE, h1], by simp only [programV, h1, h4]⟩
  | recover => exact ⟨by simp only [programE, h2 rfl], by simp only [programV, h2 rfl, h4]⟩
  | convert => exact ⟨by simp only [programE, h3], by simp only [programV, h3, h4]⟩

/-- The defaults shown are true: an option at the start of the command line that has the value shown as its
default changes nothing, neither the exit status, nor what is done, nor what is written. -/
theorem c88_defaults (F : Fmt) (os : OsText) (L : WordList) (C : Crypto) (env : Env) {name : Bytes} {cmd : Cmd}
    (hn : Named name cmd) {e : Entry} (he : e ∈ entries cmd) {k : Kind} {v : Bytes}
    (hk : options cmd e.name = some k) (hs : Shows e.default k v) (args : List Bytes)
    (ha : args ≠ [str "help"]) (st : StE) :
    mainH F os L C env (name :: (str "-" ++ e.name ++ str "=" ++ v) :: args) st =
      mainH F os L C env (name :: args) st ∧
    ∀ settings settings' rest rest', CommandLine (options cmd) (settingsOf settings) rest args →
      CommandLine (options cmd) (settingsOf settings') rest'
        ((str "-" ++ e.name ++ str "=" ++ v) :: args) →
      programV F L C env settings' cmd = programV F L C env settings cmd := by
  obtain ⟨f, hf, rfl⟩ := entry_flag he
  obtain ⟨k1, k2⟩ := flag_kind cmd f hf
  rw [show (entryOf f).name = f.name from rfl] at *
  rw [k2] at hk
  cases hk
  obtain rfl := (shows_entryOf f v).1 hs
  obtain ⟨x, hx, hset⟩ := default_settings cmd f hf
  have hc : classify (str "-" ++ f.name ++ str "=" ++ f.default) = .flag f.name (some f.default) := by
    refine (classify_flag _ _ _).2 ⟨_, .inl rfl, ?_, by rw [valueText_some]⟩
    exact goodNames cmd f.name _ (by rw [kinds_formal]; exact k2)
  have hp : parseArgsE F (formal cmd) ((str "-" ++ f.name ++ str "=" ++ f.default) :: args) =
      (parseArgsE F (formal cmd) args).set (f.name, x) := by
    rw [parseArgsE_equals hc k1, (setValueE_plain _ _ _).2 hx]
  generalize str "-" ++ f.name ++ str "=" ++ f.default = opt at hc hp ⊢
  have hopt : opt :: args ≠ [str "help"] := by
    rintro h
    cases h
    revert hc
    rw [(classify_positional _).2]
    · simp
    · intro c t h
      have := congrArg List.head? h
      revert this
      simp only [List.head?_cons]
      decide
  constructor
  · have hrun : runSubH F os L C env cmd (opt :: args) st = runSubH F os L C env cmd args st := by
      unfold runSubH runCommandH
      rw [if_neg hopt, if_neg ha, hp]
      cases parseArgsE F (formal cmd) args with
      | help => rfl
      | failed m => rfl
      | ok settings rest =>
        simp only [ParsedArgsE.set]
        obtain ⟨h1, h2, h3, h4⟩ := hset settings
        rw [(programE_default h1 h2 h3 h4).1]
    have hroot : ∀ as, parseArgsE F (formal .root) (name :: as) = .ok [] (name :: as) := by
      intro as
      have : classify name = .positional := by cases hn <;> decide
      rw [parseArgsE.eq_def]
      simp only [this]
    have hne : ∀ as : List Bytes, name :: as ≠ [str "help"] := by
      intro as h
      cases h
      exact named_ne_help hn rfl
    unfold mainH runCommandH
    simp only [if_neg (hne _), hroot, rootExecuteH, if_neg (named_ne_help hn), (subcommands_iff name cmd).2 hn, hrun]
  · intro settings settings' rest rest' h h'
    rw [← c63_accepted, ← parseArgsE_ok (F := F)] at h h'
    rw [hp, h] at h'
    simp only [ParsedArgsE.set, ParsedArgsE.ok.injEq] at h'
    obtain ⟨rfl, _⟩ := h'
    obtain ⟨h1, h2, h3, h4⟩ := hset settings
    exact (programE_default (os := os) h1 h2 h3 h4).2

/-! ## C89 A malformed command line is refused with a message that tells why -/

/-- A message comes exactly for a command line with an argument that does not fit, and it names the first one
and says what is wrong with it. -/
theorem c89_refused (F : Fmt) (cmd : Cmd) (args : List Bytes) (message : Bytes) :
    parseArgsE F (formal cmd) args = .failed message ↔ Refused (options cmd) F.quote args message := by
  rw [← kinds_formal]
  exact ⟨refused_of_parse message _ args le_rfl, parse_of_refused (goodNames cmd)⟩

/-- Every malformed command line gets exactly one message. -/
theorem c89_message (quote : Bytes → Bytes) (cmd : Cmd) (args : List Bytes) (h : Malformed cmd args) :
    ∃! message, Refused (options cmd) quote args message := by
  let F : Fmt := ⟨quote, fun _ => []⟩
  have hp := (c63_refused cmd args).2 h
  rw [← parseArgsE_same F] at hp
  cases hq : parseArgsE F (formal cmd) args with
  | ok => rw [hq] at hp; cases hp
  | help => rw [hq] at hp; cases hp
  | failed m =>
    refine ⟨m, (c89_refused F cmd args m).1 hq, fun m' hm' => ?_⟩
    have := (c89_refused F cmd args m').2 hm'
    rw [hq] at this
    cases this
    rfl

/-- What standard error gets at the end of a process, after what a subcommand itself writes. -/
inductive Stderr (F : Fmt) (os : OsText) (L : WordList) (C : Crypto) (env : Env) (st : StE) :
    List Bytes → Bytes → Prop where
  /-- help asked for: the help text -/
  | help {args cmd} : Means args (.usage cmd 0) → Stderr F os L C env st args (help F env.columns cmd).text
  /-- malformed: the message and the help text -/
  | malformedRoot {args message} : Refused (options .root) F.quote args message →
    Stderr F os L C env st args (message ++ str "\n" ++ (help F env.columns .root).text)
  | malformed {args name rest message cmd} : CommandLine (options .root) [] (name :: rest) args →
    Named name cmd → Refused (options cmd) F.quote rest message →
    Stderr F os L C env st args (message ++ str "\n" ++ (help F env.columns cmd).text)
  /-- no subcommand, or an unknown one: the help text and an error -/
  | missing {args} : CommandLine (options .root) [] [] args →
    Stderr F os L C env st args
      ((help F env.columns .root).text ++ str "ERROR: incorrect usage: missing subcommand\n")
  | unknown {args name rest} : CommandLine (options .root) [] (name :: rest) args → name ≠ str "help" →
    (¬ ∃ cmd, Named name cmd) →
    Stderr F os L C env st args ((help F env.columns .root).text ++
      str "ERROR: incorrect usage: unknown subcommand " ++ F.quote name ++ str "\n")
  /-- `help` with further arguments -/
  | nothing {args} : Means args .nothing → Stderr F os L C env st args []
  /-- a subcommand runs: the help text if the value of an option is wrong, and the error -/
  | run {args cmd settings} : Means args (.run cmd settings) →
    Stderr F os L C env st args (match (programE F os L C env settings cmd st).1 with
      | .err e =>
        (if e.kind = .badDuration ∨ e.kind = .badOnlyElement then (help F env.columns cmd).text else []) ++
          str "ERROR: " ++ e.text ++ str "\n"
      | _ => [])

/-- What main makes of the end of the root command -/
def ending (d : DoneH) : Bytes × Status × StE :=
  (d.written ++
    (match d.ends with
    | .returns (some ⟨.usage, text⟩) => str "ERROR: " ++ text ++ str "\n"
    | .returns (some ⟨.other, text⟩) => str "ERROR: " ++ text ++ str "\n"
    | _ => []),
    match d.ends with
    | .exits code => .exited code
    | .returns none => .exited 0
    | .returns (some ⟨.graceful, _⟩) => .exited 0
    | .returns (some _) => .exited 1
    | .waits => .waits
    | .loops => .loops,
    d.st)

theorem wide_enough {columns : Nat} (h : 42 ≤ columns) (cmd : Cmd) : usage columns cmd = .ok () := by
  rw [c65_usage, if_pos]
  cases cmd <;> simp only [columnsNeeded] <;> omega

theorem printUsageH_wide {F : Fmt} {columns : Nat} (h : 42 ≤ columns) (cmd : Cmd) (w : Bytes) (ends : EndsE)
    (st : StE) : printUsageH F columns cmd w ends st = ⟨w ++ (help F columns cmd).text, ends, st⟩ := by
  unfold printUsageH
  dsimp only
  rw [help_ends, wide_enough h]

theorem root_parsed {F : Fmt} {args rest : List Bytes} (h : CommandLine (options .root) [] rest args) :
    parseArgsE F (formal .root) args = .ok [] rest :=
  parseArgsE_ok.2 ((c63_accepted .root args [] rest).2 h)

theorem help_positional {cmd : Cmd} : CommandLine (options cmd) [] [str "help"] [str "help"] :=
  .positional [] ((classify_positional _).1 (by decide))

theorem not_refused {cmd : Cmd} {quote : Bytes → Bytes} {m : Bytes} :
    ¬ Refused (options cmd) quote [str "help"] m := by
  intro h
  have := (c89_refused ⟨quote, fun _ => []⟩ cmd _ m).2 h
  rw [parseArgsE_ok.2 ((c63_accepted cmd _ [] _).2 help_positional)] at this
  cases this

/-- The root command's Run on a command line that it can read -/
theorem root_run {F : Fmt} {os : OsText} {L : WordList} {C : Crypto} {env : Env} (hw : 42 ≤ env.columns) {st : StE}
    {args rest : List Bytes} (ha : args ≠ [str "help"]) (h : CommandLine (options .root) [] rest args) :
    (mainH F os L C env args st).1 = match rootExecuteH F os L C env rest st with
      | ⟨w, .returns (some ⟨.usage, text⟩), _⟩ =>
        w ++ (help F env.columns .root).text ++ str "ERROR: " ++ text ++ str "\n"
      | ⟨w, .returns (some ⟨.other, text⟩), _⟩ => w ++ str "ERROR: " ++ text ++ str "\n"
      | ⟨w, _, _⟩ => w := by
  show (ending (runCommandH F env.columns .root _ args st)).1 = _
  unfold runCommandH
  rw [if_neg ha, root_parsed h]
  dsimp only
  generalize rootExecuteH F os L C env rest st = d
  obtain ⟨w, ends, st'⟩ := d
  match ends with
  | .returns (some ⟨.usage, text⟩) =>
    dsimp only
    rw [printUsageH_wide hw]
    simp [ending]
  | .returns (some ⟨.other, text⟩) => simp [ending]
  | .returns (some ⟨.graceful, text⟩) => simp [ending]
  | .returns none => simp [ending]
  | .exits _ => simp [ending]
  | .waits => simp [ending]
  | .loops => simp [ending]

theorem sub_root {F : Fmt} {os : OsText} {L : WordList} {C : Crypto} {env : Env} {st : StE} {name : Bytes}
    {cmd : Cmd} (hn : Named name cmd) (rest : List Bytes) :
    rootExecuteH F os L C env (name :: rest) st = runSubH F os L C env cmd rest st := by
  simp only [rootExecuteH, if_neg (named_ne_help hn), (subcommands_iff name cmd).2 hn]

theorem ne_help_of {name : Bytes} {rest args : List Bytes} (h : CommandLine (options .root) [] (name :: rest) args)
    (hn : name ≠ str "help") : args ≠ [str "help"] := by
  rintro rfl
  have := (c63_unambiguous .root _ _ _ _ _ h help_positional).2.1
  injection this with h1 h2
  exact hn h1

/-- What is written to standard error, for every command line: on a terminal of 42 columns or more there is
exactly one answer, and it is the one that main gives. -/
theorem c89_stderr (F : Fmt) (os : OsText) (L : WordList) (C : Crypto) (env : Env) (hw : 42 ≤ env.columns)
    (args : List Bytes) (st : StE) (out : Bytes) :
    (mainH F os L C env args st).1 = out ↔ Stderr F os L C env st args out := by
  have key : ∀ out, Stderr F os L C env st args out → (mainH F os L C env args st).1 = out := by
    intro out h
    cases h with
    | @help cmd hm =>
      generalize hr : Request.usage cmd 0 = r at hm
      cases hm with
      | help =>
        cases hr
        show (ending (runCommandH F env.columns .root _ _ st)).1 = _
        unfold runCommandH
        rw [if_pos rfl, printUsageH_wide hw]
        simp [ending]
      | helpFlag hh =>
        cases hr
        show (ending (runCommandH F env.columns .root _ _ st)).1 = _
        unfold runCommandH
        rw [parseArgsE_help.2 ((c63_help .root args).2 hh)]
        split
        · rw [printUsageH_wide hw]; simp [ending]
        · dsimp only; rw [printUsageH_wide hw]; simp [ending]
      | malformed => cases hr
      | positional ha hc hk =>
        subst hr
        generalize hr : Request.usage cmd 0 = r at hk
        rw [root_run hw ha hc]
        cases hk with
        | help => cases hr
        | missing => cases hr
        | unknown => cases hr
        | subMalformed => cases hr
        | run => cases hr
        | subHelp hn =>
          cases hr
          rw [sub_root hn]
          unfold runSubH runCommandH
          rw [if_pos rfl, printUsageH_wide hw]
          simp
        | @subHelpFlag name _ rest hn hh =>
          cases hr
          rw [sub_root hn]
          unfold runSubH runCommandH
          rw [parseArgsE_help.2 ((c63_help cmd _).2 hh)]
          by_cases hr : rest = [str "help"]
          · rw [if_pos hr, printUsageH_wide hw]; simp
          · rw [if_neg hr]; dsimp only; rw [printUsageH_wide hw]; simp
    | malformedRoot hr =>
      show (ending (runCommandH F env.columns .root _ _ st)).1 = _
      unfold runCommandH
      rw [if_neg (by rintro rfl; exact not_refused hr), (c89_refused F .root args _).2 hr]
      dsimp only
      rw [printUsageH_wide hw]
      simp [ending]
    | @malformed name rest _ cmd hc hn hr =>
      rw [root_run hw (ne_help_of hc (named_ne_help hn)) hc, sub_root hn]
      unfold runSubH runCommandH
      rw [if_neg (by rintro rfl; exact not_refused hr), (c89_refused F cmd rest _).2 hr]
      dsimp only
      rw [printUsageH_wide hw]
    | missing hc =>
      rw [root_run hw (by rintro rfl; cases (c63_unambiguous .root _ _ _ _ _ hc help_positional).2.1) hc]
      simp only [rootExecuteH, List.nil_append, List.append_assoc]
      rfl
    | @unknown name rest hc hh hn =>
      have hs : subcommands name = none := by
        by_contra hs
        obtain ⟨c, hs⟩ := Option.ne_none_iff_exists'.1 hs
        exact hn ⟨c, (subcommands_iff name c).1 hs⟩
      rw [root_run hw (ne_help_of hc hh) hc]
      simp only [rootExecuteH, if_neg hh, hs, List.nil_append, List.append_assoc]
      rfl
    | nothing hm =>
      generalize hr : Request.nothing = r at hm
      cases hm with
      | help => cases hr
      | helpFlag => cases hr
      | malformed => cases hr
      | positional ha hc hk =>
        subst hr
        rw [root_run hw ha hc]
        generalize hr : Request.nothing = r at hk
        cases hk with
        | help rest => simp [rootExecuteH]
        | _ => cases hr
    | @run cmd settings hm =>
      generalize hr : Request.run cmd settings = r at hm
      cases hm with
      | help => cases hr
      | helpFlag => cases hr
      | malformed => cases hr
      | positional ha hc hk =>
        subst hr
        rw [root_run hw ha hc]
        generalize hr : Request.run cmd settings = r at hk
        cases hk with
        | @run name cmd' rest positional settings' hn hne hp =>
          cases hr
          rw [sub_root hn]
          unfold runSubH runCommandH
          rw [if_neg hne, parseArgsE_ok.2 ((c63_accepted cmd rest settings positional).2 hp)]
          dsimp only
          generalize programE F os L C env settings cmd st = p
          obtain ⟨o, st'⟩ := p
          cases o with
          | ok _ => rfl
          | panic _ => rfl
          | waits _ => rfl
          | loops => rfl
          | err e =>
            obtain ⟨kind, text⟩ := e
            by_cases hu : kind = .badDuration ∨ kind = .badOnlyElement
            · have : isUsageErr kind = true := by rcases hu with rfl | rfl <;> rfl
              simp only [execEndsE, this, if_true, if_pos hu, printUsageH_wide hw, List.nil_append]
            · have : isUsageErr kind = false := by
                cases kind <;> first | rfl | exact absurd (by simp) hu
              simp only [execEndsE, this, if_neg hu, List.nil_append]
              rfl
        | _ => cases hr
  have total : ∃ out, Stderr F os L C env st args out := by
    obtain ⟨r, hm⟩ := c58_total args
    have hm' := hm
    cases hm with
    | help => exact ⟨_, .help hm'⟩
    | helpFlag => exact ⟨_, .help hm'⟩
    | malformed h =>
      obtain ⟨m, h, _⟩ := c89_message F.quote .root args h
      exact ⟨_, .malformedRoot h⟩
    | positional ha hc hk =>
      cases hk with
      | help => exact ⟨_, .nothing hm'⟩
      | missing => exact ⟨_, .missing hc⟩
      | unknown rest hne hn => exact ⟨_, .unknown hc hne hn⟩
      | subHelp => exact ⟨_, .help hm'⟩
      | subHelpFlag => exact ⟨_, .help hm'⟩
      | @subMalformed name cmd rest hn h =>
        obtain ⟨m, h, _⟩ := c89_message F.quote cmd rest h
        exact ⟨_, .malformed hc hn h⟩
      | run => exact ⟨_, .run hm'⟩
  constructor
  · rintro rfl
    obtain ⟨out, h⟩ := total
    rw [key out h]
    exact h
  · exact key out

/-! Examples -/

def sampleFmt : Fmt := ⟨fun s => str "\"" ++ s ++ str "\"", fun _ => []⟩

theorem sampleFmt_plain : QuotesPlainly sampleFmt.quote := fun _ _ => rfl

example : unstyled (help sampleFmt 80 .convert).text =
    str "mnemonikey convert\n\n  Add, change, or remove an encryption password on an existing\n" ++
    str "  mnemonic recovery phrase.\n\nUsage:\n  mnemonikey convert\n  mnemonikey convert -encrypt\n" ++
    str "  mnemonikey convert -simple\n  mnemonikey convert -in-word-file /etc/words\n" ++
    str "  mnemonikey convert -in-word-file /etc/words -out-word-file /etc/new-words\n\nOptions:\n" ++
    str "  -encrypt-phrase \n        If true, encrypt the recovery phrase with a new\n" ++
    str "        password. The resulting phrase will require the same\n" ++
    str "        password for later recovery. If false, output a plaintext\n" ++
    str "        phrase. (default false)\n\n  -in-word-file file\n" ++
    str "        Read the words of the mnemonic from this file. Words\n" ++
    str "        should be separated by whitespace and the file should\n" ++
    str "        contain the exact words. Useful for debugging.\n\n  -out-word-file file\n" ++
    str "        Write the words of the recovery phrase to this file\n" ++
    str "        in PLAIN TEXT. Useful for debugging. Do not use this if\n" ++
    str "        you care about keeping your keys safe. Words will be\n" ++
    str "        separated by a single space. The file will contain the\n" ++
    str "        exact words and nothing else.\n\n  -simple \n" ++
    str "        Revert to a simpler terminal input mechanism for\n" ++
    str "        entering the recovery phrase. Useful if the fancy\n" ++
    str "        terminal manipulation used by the default input mode\n" ++
    str "        doesn't work on your system. (default false)\n\n  -verbose \n" ++
    str "        Print extra debugging information to stderr when\n" ++
    str "        building keys. (default false)\n\n" := by decide +kernel

example := (c88_text sampleFmt sampleFmt_plain 80 .recover).1 (by decide)

/-- `-self-cert=true` and `-name=anonymous` at the start change nothing. -/
example (os : OsText) (L : WordList) (C : Crypto) (env : Env) (st : StE) (args : List Bytes)
    (h : args ≠ [str "help"]) :
    mainH sampleFmt os L C env (str "recover" :: str "-self-cert=true" :: args) st =
      mainH sampleFmt os L C env (str "recover" :: args) st ∧
    mainH sampleFmt os L C env (str "recover" :: str "-name=anonymous" :: args) st =
      mainH sampleFmt os L C env (str "recover" :: args) st :=
  ⟨(c88_defaults sampleFmt os L C env .recover (e := ⟨str "self-cert", [],
      unstyled (usageText .recover (str "self-cert")), some (str "true")⟩) (by decide +kernel)
      (by decide +kernel) (.other .bool (str "true") (by decide)) args h st).1,
   (c88_defaults sampleFmt os L C env .recover (e := ⟨str "name", str "string",
      unstyled (usageText .recover (str "name")), some (str "\"anonymous\"")⟩) (by decide +kernel)
      (by decide +kernel) (.string (str "anonymous") (by decide)) args h st).1⟩

/-- An example of the help text of `convert` is malformed, and the message says so. -/
example : Refused (options .convert) sampleFmt.quote [str "-simple", str "-encrypt"]
    (str "flag provided but not defined: -encrypt") :=
  (c89_refused sampleFmt .convert _ _).1 (by decide +kernel)

example : Refused (options .recover) sampleFmt.quote [str "-enc-index", str "99999999999999999999x"]
      (str "invalid value \"99999999999999999999x\" for flag -enc-index: value out of range") ∧
    Refused (options .recover) sampleFmt.quote [str "-name", str "Bob", str "--enc-index=1__0", str "-x"]
      (str "invalid value \"1__0\" for flag -enc-index: parse error") ∧
    Refused (options .recover) sampleFmt.quote [str "-self-cert=no"]
      (str "invalid boolean value \"no\" for -self-cert: parse error") ∧
    Refused (options .recover) sampleFmt.quote [str "-name"] (str "flag needs an argument: -name") ∧
    Refused (options .root) sampleFmt.quote [str "---help"] (str "bad flag syntax: ---help") :=
  ⟨(c89_refused sampleFmt .recover _ _).1 (by decide +kernel),
   (c89_refused sampleFmt .recover _ _).1 (by decide +kernel),
   (c89_refused sampleFmt .recover _ _).1 (by decide +kernel),
   (c89_refused sampleFmt .recover _ _).1 (by decide +kernel),
   (c89_refused sampleFmt .root _ _).1 (by decide +kernel)⟩

example : Malformed .convert [str "-simple", str "-encrypt"] := (c63_refused .convert _).1 (by decide +kernel)

end Verif.Props
