import Verif.Model.Cli.Stderr
import Verif.Props.Help
import Verif.Props.Transcript
import Verif.Props.Verbose

/-!
# C106: what the whole process writes to standard error
-/

namespace Verif.Props

open Verif.Model Verif.Model.Cli Verif.Spec Verif.Proofs Verif.Instances

/-- The text follows these events. -/
def Follows (own : List Ev) (v : DoneV) (h : DoneH) : Prop :=
  v.ends = h.ends ∧ ∃ texts : List Bytes, v.events = own ++ texts.map .err ∧ texts.flatten = h.written

theorem printUsage_follows (F : Fmt) (columns : Nat) (cmd : Cmd) {own : List Ev} {v : DoneV} {h : DoneH}
    (hf : Follows own v h) (ends : EndsE) :
    Follows own (printUsageV F columns cmd v.events ends) (printUsageH F columns cmd h.written ends h.st) := by
  obtain ⟨-, texts, h1, h2⟩ := hf
  unfold printUsageV printUsageH
  dsimp only
  rw [h1, ← h2]
  have key : ∀ w : Bytes, ∃ texts' : List Bytes,
      own ++ texts.map Ev.err ++ [.err w] = own ++ texts'.map .err ∧ texts'.flatten = texts.flatten ++ w :=
    fun w => ⟨texts ++ [w], by simp, by simp⟩
  cases (help F columns cmd).ends <;> exact ⟨rfl, key _⟩

theorem runCommand_follows (F : Fmt) (columns : Nat) (cmd : Cmd) {own : List Ev}
    {x : List (Bytes × FlagValue) → List Bytes → DoneV} {y : List (Bytes × FlagValue) → List Bytes → StE → DoneH}
    {args : List Bytes} {st : StE}
    (hrun : ∀ s r, args ≠ [str "help"] → parseArgsE F (formal cmd) args = .ok s r → Follows own (x s r) (y s r st))
    (hidle : (args = [str "help"] ∨ ∀ s r, parseArgsE F (formal cmd) args ≠ .ok s r) → own = []) :
    Follows own (runCommandV F columns cmd x args) (runCommandH F columns cmd y args st) := by
  have h0 : ∀ {ends : EndsE} {w : List Bytes},
      Follows [] ⟨w.map .err, ends⟩ ⟨w.flatten, ends, st⟩ := fun {_ w} => ⟨rfl, w, rfl, rfl⟩
  unfold runCommandV runCommandH
  by_cases ha : args = [str "help"]
  · rw [if_pos ha, if_pos ha, hidle (.inl ha)]
    exact printUsage_follows F columns cmd (h0 (ends := .loops) (w := [])) _
  · rw [if_neg ha, if_neg ha]
    cases hp : parseArgsE F (formal cmd) args with
    | help =>
      rw [hidle (.inr (by rw [hp]; simp))]
      exact printUsage_follows F columns cmd (h0 (ends := .loops) (w := [])) _
    | failed m =>
      rw [hidle (.inr (by rw [hp]; simp))]
      have := printUsage_follows F columns cmd (h0 (ends := .loops) (w := [m ++ str "\n"])) (.exits 2)
      rwa [show [m ++ str "\n"].flatten = m ++ str "\n" by simp] at this
    | ok settings rest =>
      dsimp only
      have := hrun settings rest ha hp
      generalize x settings rest = d at this
      generalize y settings rest st = e at this
      obtain ⟨events, ends⟩ := d
      obtain ⟨w, ends', st'⟩ := e
      have he : ends = ends' := this.1
      subst he
      match ends with
      | .returns (some ⟨.usage, text⟩) => exact printUsage_follows F columns cmd this _
      | .returns (some ⟨.other, text⟩) => exact this
      | .returns (some ⟨.graceful, text⟩) => exact this
      | .returns none => exact this
      | .exits _ => exact this
      | .waits => exact this
      | .loops => exact this

theorem main_follows {F : Fmt} {os : OsText} {L : WordList} {C : Crypto} {env : Env} {args : List Bytes}
    {prompts : List (ResE Bytes)} {rnd : Bytes} {own : List Ev}
    (h : Follows own (runCommandV F env.columns .root (fun _ rest => rootExecuteV F os L C env prompts rnd rest) args)
      (runCommandH F env.columns .root (fun _ rest => rootExecuteH F os L C env rest) args ⟨prompts, rnd, []⟩)) :
    (mainV F os L C env args prompts rnd).2 = (mainH F os L C env args ⟨prompts, rnd, []⟩).2.1 ∧
    ∃ texts : List Bytes, (mainV F os L C env args prompts rnd).1 = own ++ texts.map .err ∧
      texts.flatten = (mainH F os L C env args ⟨prompts, rnd, []⟩).1 := by
  obtain ⟨h1, texts, h2, h3⟩ := h
  unfold mainV mainH
  dsimp only
  rw [h1, h2, ← h3]
  refine ⟨rfl, ?_⟩
  have h0 : ∃ texts' : List Bytes, own ++ texts.map Ev.err ++ [] = own ++ texts'.map .err ∧
      texts'.flatten = texts.flatten ++ [] := ⟨texts, by simp, by simp⟩
  have h1 : ∀ w : Bytes, ∃ texts' : List Bytes,
      own ++ texts.map Ev.err ++ [.err w] = own ++ texts'.map .err ∧ texts'.flatten = texts.flatten ++ w :=
    fun w => ⟨texts ++ [w], by simp, by simp⟩
  generalize (runCommandH F env.columns .root (fun _ rest => rootExecuteH F os L C env rest) args _).ends = ends
  match ends with
  | .returns (some ⟨.usage, text⟩) => exact h1 _
  | .returns (some ⟨.other, text⟩) => exact h1 _
  | .returns (some ⟨.graceful, text⟩) => exact h0
  | .returns none => exact h0
  | .exits _ => exact h0
  | .waits => exact h0
  | .loops => exact h0

/-- What a subcommand writes itself, in this process -/
def subEvents (F : Fmt) (L : WordList) (C : Crypto) (env : Env) (cmd : Cmd) (settings : List (Bytes × FlagValue))
    (prompts : List (ResE Bytes)) (rnd : Bytes) : List Ev :=
  (programV F L C env settings cmd ⟨prompts.map ResE.plain, rnd, []⟩).2.events

theorem no_settings {args rest : List Bytes} {s : List (Bytes × FlagValue)}
    (h : parseArgs (formal .root) args = .ok s rest) : s = [] := by
  have := (c63_accepted .root args s rest).1 h
  cases s with
  | nil => rfl
  | cons p s =>
    obtain ⟨k, hk, -⟩ := commandLine_kinds this (p.1, valueOf p.2) (by simp [settingsOf])
    cases hk

theorem run_parsed {args : List Bytes} {cmd : Cmd} {s : List (Bytes × FlagValue)} (h : Means args (.run cmd s)) :
    args ≠ [str "help"] ∧ ∃ name rest positional, Named name cmd ∧ rest ≠ [str "help"] ∧
      CommandLine (options .root) [] (name :: rest) args ∧
      parseArgs (formal .root) args = .ok [] (name :: rest) ∧ parseArgs (formal cmd) rest = .ok s positional := by
  generalize hr : Request.run cmd s = r at h
  cases h with
  | help => cases hr
  | helpFlag => cases hr
  | malformed => cases hr
  | positional hh hc ha =>
    subst hr
    cases ha with
    | run hn hne hl =>
      exact ⟨hh, _, _, _, hn, hne, hc, (c63_accepted .root args [] _).2 hc, (c63_accepted cmd _ s _).2 hl⟩

theorem runCommandV_congr (F : Fmt) (columns : Nat) (cmd : Cmd) {x y : List (Bytes × FlagValue) → List Bytes → DoneV}
    {args : List Bytes} (h : ∀ s r, args ≠ [str "help"] → parseArgsE F (formal cmd) args = .ok s r → x s r = y s r) :
    runCommandV F columns cmd x args = runCommandV F columns cmd y args := by
  unfold runCommandV
  by_cases ha : args = [str "help"]
  · rw [if_pos ha, if_pos ha]
  · rw [if_neg ha, if_neg ha]
    cases hp : parseArgsE F (formal cmd) args with
    | help => rfl
    | failed m => rfl
    | ok s r => dsimp only; rw [h s r ha hp]

/-- A subcommand that runs: its messages come first, then what C89 tells; status and actions are those of `main`. -/
theorem c106_run (F : Fmt) (os : OsText) (L : WordList) (C : Crypto) (env : Env) (args : List Bytes) (cmd : Cmd)
    (s : List (Bytes × FlagValue)) (hm : Means args (.run cmd s)) (prompts : List (ResE Bytes)) (rnd : Bytes) :
    (mainV F os L C env args prompts rnd).2 = (main L C env args ⟨prompts.map ResE.plain, rnd, []⟩).2.1 ∧
    actions (mainV F os L C env args prompts rnd).1 = (main L C env args ⟨prompts.map ResE.plain, rnd, []⟩).2.2.acts ∧
    ∃ texts : List Bytes, (mainV F os L C env args prompts rnd).1 =
        (programV F L C env s cmd ⟨prompts.map ResE.plain, rnd, []⟩).2.events ++ texts.map .err ∧
      texts.flatten = (mainH F os L C env args ⟨prompts, rnd, []⟩).1 := by
  obtain ⟨ha, name, rest, positional, hn, hne, -, hp, hp'⟩ := run_parsed hm
  have key := main_follows (F := F) (os := os) (L := L) (C := C) (env := env) (args := args) (prompts := prompts)
    (rnd := rnd) (own := subEvents F L C env cmd s prompts rnd) (by
    refine runCommand_follows F env.columns .root (fun s' r _ hs => ?_) ?_
    · have := (parseArgsE_ok.1 hs).symm.trans hp
      cases this
      simp only [rootExecuteV, rootExecuteH, if_neg (named_ne_help hn), (subcommands_iff name cmd).2 hn]
      refine runCommand_follows F env.columns cmd (fun s' r' _ hs => ?_) ?_
      · have := (parseArgsE_ok.1 hs).symm.trans hp'
        cases this
        exact ⟨rfl, [], by simp [subEvents], rfl⟩
      · rintro (h | h)
        · exact absurd h hne
        · exact absurd (parseArgsE_ok.2 hp') (h _ _)
    · rintro (h | h)
      · exact absurd h ha
      · exact absurd (parseArgsE_ok.2 hp) (h _ _))
  obtain ⟨h1, texts, h2, h3⟩ := key
  have hE := (c86_same F os L C env).2 args ⟨prompts, rnd, []⟩
  have hH := c89_same F os L C env args ⟨prompts, rnd, []⟩
  refine ⟨?_, ?_, texts, h2, h3⟩
  · rw [h1, hH]
    exact congrArg (·.2.1) hE
  · rw [h2]
    have e1 : ∀ (t : List Ev) (texts : List Bytes), actions (t ++ texts.map .err) = actions t := by
      intro t texts
      rw [actions_eq, actions_eq, List.filterMap_append]
      have : (texts.map Ev.err).filterMap actOf = [] := by
        rw [List.filterMap_eq_nil_iff]
        intro e he
        obtain ⟨b, -, rfl⟩ := List.mem_map.1 he
        rfl
      rw [this, List.append_nil]
    rw [e1]
    unfold subEvents
    rw [(c80_same F L C env s cmd (named_ne_root hn) _ rnd).2.2.2]
    rw [c58_status L C env _ args _ hm]
    unfold answer
    dsimp only
    generalize program L C env s cmd _ = r
    have hsh : ∀ code st', (shown env cmd code st').2.2 = st' := by
      intro code st'
      unfold shown
      split <;> rfl
    obtain ⟨o, st'⟩ := r
    cases o with
    | err e => cases e <;> first | rfl | exact (congrArg St.acts (hsh 1 st')).symm
    | ok _ => rfl
    | panic _ => rfl
    | waits _ => rfl
    | loops => rfl

/-- No subcommand runs: only a refused command line, a usage text and an error can be written, and they depend on the
command line and the width of the terminal alone. -/
theorem c106_idle (F : Fmt) (os : OsText) (L : WordList) (C : Crypto) (env : Env) (args : List Bytes)
    (hm : ∀ cmd s, ¬ Means args (.run cmd s)) (prompts : List (ResE Bytes)) (rnd : Bytes) :
    (mainV F os L C env args prompts rnd).2 = (main L C env args ⟨prompts.map ResE.plain, rnd, []⟩).2.1 ∧
    (∃ texts : List Bytes, (mainV F os L C env args prompts rnd).1 = texts.map .err ∧
      texts.flatten = (mainH F os L C env args ⟨prompts, rnd, []⟩).1) ∧
    ∀ os' L' C' env' prompts' rnd', env'.columns = env.columns →
      mainV F os' L' C' env' args prompts' rnd' = mainV F os L C env args prompts rnd := by
  have hno : ∀ {s r name rest cmd s' r'}, args ≠ [str "help"] → parseArgsE F (formal .root) args = .ok s r →
      r = name :: rest → subcommands name = some cmd → rest ≠ [str "help"] →
      parseArgsE F (formal cmd) rest = .ok s' r' → False := by
    intro s r name rest cmd s' r' ha hs hr hc hne hs'
    subst hr
    have hs := parseArgsE_ok.1 hs
    cases no_settings hs
    exact hm cmd s' (.positional ha ((c63_accepted .root args [] _).1 hs)
      (.run ((subcommands_iff name cmd).1 hc) hne ((c63_accepted cmd _ s' r').1 (parseArgsE_ok.1 hs'))))
  have key := main_follows (F := F) (os := os) (L := L) (C := C) (env := env) (args := args) (prompts := prompts)
    (rnd := rnd) (own := []) (by
    refine runCommand_follows F env.columns .root (fun s' r ha hs => ?_) (fun _ => rfl)
    match r with
    | [] => exact ⟨rfl, [], rfl, rfl⟩
    | name :: rest =>
      unfold rootExecuteV rootExecuteH
      dsimp only
      by_cases hh : name = str "help"
      · rw [if_pos hh, if_pos hh]; exact ⟨rfl, [], rfl, rfl⟩
      · rw [if_neg hh, if_neg hh]
        cases hc : subcommands name with
        | none => exact ⟨rfl, [], rfl, rfl⟩
        | some cmd =>
          exact runCommand_follows F env.columns cmd (fun s r hne hs' => (hno ha hs rfl hc hne hs').elim) (fun _ => rfl))
  obtain ⟨h1, texts, h2, h3⟩ := key
  have hE := (c86_same F os L C env).2 args ⟨prompts, rnd, []⟩
  have hH := c89_same F os L C env args ⟨prompts, rnd, []⟩
  refine ⟨?_, ⟨texts, by simpa using h2, h3⟩, fun os' L' C' env' prompts' rnd' hcol => ?_⟩
  · rw [h1, hH]
    exact congrArg (·.2.1) hE
  · unfold mainV
    dsimp only
    rw [hcol, runCommandV_congr (x := fun _ rest => rootExecuteV F os' L' C' env' prompts' rnd' rest)
      (y := fun _ rest => rootExecuteV F os L C env prompts rnd rest)]
    intro s r ha hs
    match r with
    | [] => rfl
    | name :: rest =>
      unfold rootExecuteV
      dsimp only
      by_cases hh : name = str "help"
      · rw [if_pos hh, if_pos hh]
      · rw [if_neg hh, if_neg hh]
        cases hc : subcommands name with
        | none => rfl
        | some cmd =>
          dsimp only
          unfold runSubV
          rw [hcol]
          exact runCommandV_congr F env.columns cmd fun s r hne hs' => (hno ha hs rfl hc hne hs').elim

/-- A process that ends well writes nothing besides the messages of its subcommand. -/
theorem c106_success (F : Fmt) (os : OsText) (L : WordList) (C : Crypto) (env : Env) (args : List Bytes) (cmd : Cmd)
    (s : List (Bytes × FlagValue)) (hm : Means args (.run cmd s)) (prompts : List (ResE Bytes)) (rnd : Bytes)
    (h : (mainV F os L C env args prompts rnd).2 = .exited 0) :
    (programV F L C env s cmd ⟨prompts.map ResE.plain, rnd, []⟩).1 = .ok () ∧
    (mainV F os L C env args prompts rnd).1 =
      (programV F L C env s cmd ⟨prompts.map ResE.plain, rnd, []⟩).2.events := by
  obtain ⟨ha, name, rest, positional, hn, hne, -, hp, hp'⟩ := run_parsed hm
  obtain ⟨h1, -, -⟩ := c106_run F os L C env args cmd s hm prompts rnd
  rw [h1, c58_status L C env _ args _ hm] at h
  have hok : (program L C env s cmd ⟨prompts.map ResE.plain, rnd, []⟩).1 = .ok () := by
    unfold answer at h
    dsimp only at h
    have hsh : ∀ st', (shown env cmd 1 st').2.1 ≠ .exited 0 := by
      intro st'
      unfold shown
      split <;> simp
    generalize program L C env s cmd _ = r at h ⊢
    obtain ⟨o, st'⟩ := r
    cases o with
    | err e => cases e <;> first | exact absurd h (hsh _) | cases h
    | ok _ => rfl
    | panic _ => cases h
    | waits _ => cases h
    | loops => cases h
  refine ⟨(c80_same F L C env s cmd (named_ne_root hn) _ rnd).1.trans hok, ?_⟩
  have hE : (programE F os L C env s cmd ⟨prompts, rnd, []⟩).1 = .ok () := by
    have := congrArg Prod.fst ((c86_same F os L C env).1 s cmd ⟨prompts, rnd, []⟩)
    have := this.trans hok
    generalize (programE F os L C env s cmd ⟨prompts, rnd, []⟩).1 = o at this
    cases o <;> first | rfl | cases this
  have h1 : runSubV F os L C env cmd rest prompts rnd =
      ⟨(programV F L C env s cmd ⟨prompts.map ResE.plain, rnd, []⟩).2.events, .returns none⟩ := by
    unfold runSubV runCommandV
    rw [if_neg hne, parseArgsE_ok.2 hp']
    dsimp only
    rw [hE]
    rfl
  have h2 : runCommandV F env.columns .root (fun _ rest => rootExecuteV F os L C env prompts rnd rest) args =
      ⟨(programV F L C env s cmd ⟨prompts.map ResE.plain, rnd, []⟩).2.events, .returns none⟩ := by
    unfold runCommandV
    rw [if_neg ha, parseArgsE_ok.2 hp]
    simp only [rootExecuteV, if_neg (named_ne_help hn), (subcommands_iff name cmd).2 hn, h1]
  unfold mainV
  dsimp only
  rw [h2]
  simp

/-- The phrases that are shown on the terminal -/
def phrasesShown (t : List Ev) : List (List Bytes) :=
  t.filterMap fun e => match e with | .act (.showPhrase words) => some words | _ => none

theorem asked_seen (t : List Ev) : asked (t.filter seen) = asked t := by
  unfold asked
  rw [List.countP_filter]
  congr 1
  funext e
  cases e <;> simp [seen]

theorem phrasesShown_seen (t : List Ev) : phrasesShown (t.filter seen) = phrasesShown t := by
  unfold phrasesShown
  rw [List.filterMap_filter]
  congr 1
  funext e
  match e with
  | .err _ => rfl
  | .words _ => rfl
  | .password _ _ => rfl
  | .act (.showPhrase _) => rfl
  | .act (.openTrunc _ _) => rfl
  | .act (.write _) => rfl
  | .act (.stdout _) => rfl

theorem phrasesShown_append (t u : List Ev) : phrasesShown (t ++ u) = phrasesShown t ++ phrasesShown u :=
  List.filterMap_append

theorem phrasesShown_errs (texts : List Bytes) : phrasesShown (texts.map .err) = [] := by
  unfold phrasesShown
  rw [List.filterMap_eq_nil_iff]
  intro e he
  obtain ⟨b, -, rfl⟩ := List.mem_map.1 he
  rfl

theorem shown_words {t : List Ev} {words words' : List Bytes} {texts texts' : List Bytes}
    (h : phrasesShown (t ++ .act (.showPhrase words) :: texts.map .err) =
      phrasesShown (t ++ .act (.showPhrase words') :: texts'.map .err)) : words = words' := by
  rw [phrasesShown_append, phrasesShown_append] at h
  have h := List.append_cancel_left h
  injection h

theorem wrong_eq {input : InputFlags} {problem : Option Bytes} {wrong wrong' : Option Nat}
    (h : asked (entered input problem wrong) = asked (entered input problem wrong')) : wrong = wrong' := by
  rw [asked_entered, asked_entered] at h
  cases wrong <;> cases wrong' <;> simp only [Option.map_none, Option.map_some, Option.getD_none, Option.getD_some] at h
  · rfl
  · omega
  · omega
  · congr 1; omega

theorem asked_shown (words texts : List Bytes) : asked (.act (.showPhrase words) :: texts.map .err) = 0 := by
  unfold asked
  rw [List.countP_cons_of_neg (by simp)]
  exact asked_errs _

/-- Two processes with the same command line without -verbose, on terminals of the same width, that end well, ask for
as many passwords and show the same phrase if they show one, cannot be told apart by anything they let be seen
besides the bytes of the key and of the word file: whatever seeds, phrases, passwords, keys, clocks, files and random
bytes are. -/
theorem c106_alike (F : Fmt) (os os' : OsText) (L L' : WordList) (C C' : Crypto) (env env' : Env) (args : List Bytes)
    (cmd : Cmd) (s : List (Bytes × FlagValue)) (hm : Means args (.run cmd s))
    (hquiet : switchedOn (settingsOf s) "verbose" false = false)
    (hcolumns : env.columns = env'.columns) (hraw : env.rawError = env'.rawError)
    (prompts prompts' : List (ResE Bytes)) (rnd rnd' : Bytes)
    (hok : (mainV F os L C env args prompts rnd).2 = .exited 0)
    (hok' : (mainV F os' L' C' env' args prompts' rnd').2 = .exited 0)
    (hasked : asked (mainV F os L C env args prompts rnd).1 = asked (mainV F os' L' C' env' args prompts' rnd').1)
    (hshown : phrasesShown (mainV F os L C env args prompts rnd).1 =
      phrasesShown (mainV F os' L' C' env' args prompts' rnd').1) :
    (mainV F os L C env args prompts rnd).1.filter seen =
      (mainV F os' L' C' env' args prompts' rnd').1.filter seen := by
  obtain ⟨h1, e1⟩ := c106_success F os L C env args cmd s hm prompts rnd hok
  obtain ⟨h2, e2⟩ := c106_success F os' L' C' env' args cmd s hm prompts' rnd' hok'
  rw [e1, e2] at hasked hshown ⊢
  rw [← asked_seen, ← asked_seen (programV F L' C' env' s cmd _).2.events] at hasked
  rw [← phrasesShown_seen, ← phrasesShown_seen (programV F L' C' env' s cmd _).2.events] at hshown
  obtain ⟨-, name, rest, positional, hn, -, -, -, hp'⟩ := run_parsed hm
  have hv : verboseOption s = false := by
    rw [c80_option cmd rest positional s ((c63_accepted cmd rest s positional).1 hp')]
    exact hquiet
  cases cmd with
  | root => exact absurd rfl (named_ne_root hn)
  | generate =>
    simp only [programV, hv] at h1 h2 hasked hshown ⊢
    by_cases hout : (generateOptions s).outputWordFile = []
    · obtain ⟨texts, key⟩ := c97_generate_shown
      obtain ⟨words, -, k1⟩ := key F L C env _ hout (prompts.map ResE.plain) rnd
      obtain ⟨words', -, k2⟩ := key F L' C' env' _ hout (prompts'.map ResE.plain) rnd'
      rw [(k1 h1).1, (k2 h2).1] at hshown ⊢
      rw [hcolumns, shown_words hshown]
    · rw [((c97_generate_saved F L C env _ hout _ rnd).2 h1).1, ((c97_generate_saved F L' C' env' _ hout _ rnd').2 h2).1]
  | recover =>
    simp only [programV, hv] at h1 h2 hasked hshown ⊢
    obtain ⟨wrong, -, k1⟩ := c97_recover F L C env (recoverOptions s) (prompts.map ResE.plain) rnd
    obtain ⟨wrong', -, k2⟩ := c97_recover F L' C' env' (recoverOptions s) (prompts'.map ResE.plain) rnd'
    rw [(k1 h1).1, (k2 h2).1, hraw] at hasked ⊢
    unfold recovered at hasked ⊢
    rw [asked_append, asked_append, asked_append, asked_append] at hasked
    rw [wrong_eq (Nat.add_right_cancel (Nat.add_right_cancel hasked))]
  | convert =>
    simp only [programV, hv] at h1 h2 hasked hshown ⊢
    obtain ⟨texts, key⟩ := c97_convert
    obtain ⟨wrong, words, -, k1⟩ := key L C env (convertOptions s) (prompts.map ResE.plain) rnd
    obtain ⟨wrong', words', -, k2⟩ := key L' C' env' (convertOptions s) (prompts'.map ResE.plain) rnd'
    rw [(k1 h1).1, (k2 h2).1, hraw, hcolumns] at hasked hshown ⊢
    unfold beforePhrase at hasked hshown ⊢
    by_cases hf : (convertOptions s).input.inputWordFile = []
    · rw [if_neg (by simpa using hf), if_neg (by simpa using hf)] at hasked hshown ⊢
      rw [asked_append, asked_append, asked_append, asked_append, asked_shown, asked_shown] at hasked
      have hw : wrong = wrong' := wrong_eq (Nat.add_right_cancel hasked)
      rw [hw] at hshown ⊢
      rw [shown_words hshown]
    · rw [if_pos hf, if_pos hf] at hasked ⊢
      rw [List.append_nil, List.append_nil, asked_append, asked_append] at hasked
      rw [wrong_eq (Nat.add_right_cancel hasked)]

/-! ## Examples -/

/-- Two processes with the same command line, other random bytes and another password -/
def savedProcess (rnd password : Bytes) : List Ev × Status :=
  mainV ⟨id, fun _ => []⟩ sampleOs toyWordList toyCrypto sampleEnv
    [str "generate", str "-out-word-file", str "new", str "-encrypt-phrase"] [.ok password] rnd

set_option maxRecDepth 100000 in
example : (savedProcess sampleRandom (str "pw")).2 = .exited 0 ∧
    (savedProcess (List.replicate 40 8) (str "other")).2 = .exited 0 ∧
    (savedProcess sampleRandom (str "pw")).1 ≠ (savedProcess (List.replicate 40 8) (str "other")).1 ∧
    (savedProcess sampleRandom (str "pw")).1.filter seen =
      (savedProcess (List.replicate 40 8) (str "other")).1.filter seen ∧
    asked (savedProcess sampleRandom (str "pw")).1 = 1 := by
  decide +kernel

/-- The command line runs generate without -verbose. -/
example : ∃ s, Means [str "generate", str "-out-word-file", str "new", str "-encrypt-phrase"] (.run .generate s) ∧
    switchedOn (settingsOf s) "verbose" false = false :=
  ⟨[(str "out-word-file", .string (str "new")), (str "encrypt-phrase", .bool true)],
    .positional (by decide) (.positional _ ((classify_positional _).1 (by decide)))
      (.run .generate (by decide) ((c63_accepted .generate _ _ []).1 (by decide +kernel))), by decide +kernel⟩

set_option maxRecDepth 100000 in
/-- The password prompt is interrupted: the error comes after the messages. -/
example : (mainV ⟨id, fun _ => []⟩ sampleOs toyWordList toyCrypto sampleEnv
      [str "generate", str "-out-word-file", str "new", str "-encrypt-phrase"]
      [.err ⟨.aborted, str "aborted"⟩] sampleRandom) =
    ([.password (str "Enter phrase encryption password: ") true, .err (str "ERROR: aborted\n")], .exited 1) := by
  decide +kernel

end Verif.Props
