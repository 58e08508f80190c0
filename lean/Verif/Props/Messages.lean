import Verif.Proofs.Messages
import Verif.Props.Failure

/-!
# What an error message says (C86)

`Verif.Spec.Message` lists the messages. The texts of the operating system (`OsText`, and the last part of what a
password prompt says) may be anything.
-/

namespace Verif.Props

open Verif.Model Verif.Model.Cli Verif.Proofs Verif.Spec Verif.Instances

theorem lookup_lt {L : WordList} (hL : L.Lawful) : ∀ w i, L.lookup w = some i → i < 4096 :=
  fun w i h => ((hL.lookup_iff w i).1 h).1

theorem promptText_kind {k : Err} {t : Bytes} (h : PromptText k t) :
    k ∈ [Err.aborted, .stdinRead, .terminalState] := by
  cases h <;> simp

theorem plain_prompts {ps : List (ResE Bytes)} (h : ∀ r ∈ ps, PromptAnswer r) :
    ∀ r ∈ ps.map ResE.plain, PromptResult r := by
  intro r hr
  obtain ⟨r', hr', rfl⟩ := List.mem_map.1 hr
  cases h r' hr' with
  | password hp => exact .password hp
  | failed ht =>
    refine .failed ?_
    exact promptText_kind ht

theorem never_prompt {ps : List (Res Bytes)} (h : ∀ r ∈ ps, PromptResult r) {e : Err} (he : .err e ∈ ps) :
    e ∉ never := by
  cases h _ he with
  | failed hm =>
    simp only [List.mem_cons, List.not_mem_nil, or_false] at hm
    rcases hm with rfl | rfl | rfl <;> decide

theorem never_flags {f : KeyFlags} {e : Err} (h : BadKeyFlags f e) : e ∉ never := by
  cases h <;> decide

theorem never_save {env : Env} {p : Bytes} {e : Err} (h : SaveFails env p e) : e ∉ never := by
  cases h <;> decide

/-- No error, or one that occurs -/
def Occurs {α : Type} : Except Err α → Prop
  | .error e => e ∉ never
  | .ok _ => True

theorem occurs_ite {α : Type} {c : Prop} [Decidable c] {x y : Except Err α} (hx : Occurs x) (hy : Occurs y) :
    Occurs (if c then x else y) := by
  split
  · exact hx
  · exact hy

theorem occurs_read (index : Bytes → Option Nat) (ws : List Bytes) : Occurs (readPhrase index ws) := by
  have h1 : Err.invalidWordCount ∉ never := by decide
  have h2 : Err.invalidWord ∉ never := by decide
  have h3 : Err.invalidVersion ∉ never := by decide
  have h4 : Err.invalidChecksum ∉ never := by decide
  unfold readPhrase
  split
  · exact h1
  · split
    · exact h2
    · refine occurs_ite h3 (occurs_ite h1 ?_)
      split
      · exact h2
      · exact occurs_ite h4 (occurs_ite trivial trivial)

theorem never_input {L : WordList} {o : Bytes → Option Bytes} {env : Env} {i : InputFlags} {e : Err}
    (h : InputFails L o env i e) : e ∉ never := by
  cases h with
  | @leftArrow ws _ h1 h2 h3 h4 h5 =>
    have := occurs_read (fun w => L.lookup (L.toLower w)) ws
    rw [h5] at this
    exact this
  | _ => decide

theorem said {α : Type} {M : Err → Bytes → Prop} {x : ProgE α} (h : Says M x) (st : StE)
    (hp : ∀ r ∈ st.prompts, SaysR M r) {e : GoErr} (he : (x st).1 = .err e) : M e.kind e.text :=
  (h st hp).1 e he

theorem erased {α : Type} {x : ProgE α} {y : Prog α} (h : Erases x y) (ps : List (ResE Bytes)) (rnd : Bytes) {e : GoErr}
    (he : (x ⟨ps, rnd, []⟩).1 = .err e) : y.outcome (ps.map ResE.plain) rnd = .err e.kind := by
  have := h ⟨ps, rnd, []⟩
  unfold Prog.outcome
  change (y (StE.plain ⟨ps, rnd, []⟩)).1 = _
  rw [← this, he]
  rfl

/-- The commands with messages are the commands of the other claims: without the texts, they end in the same way,
with the same files, outputs, prompts and random bytes used; and so does the process. -/
theorem c86_same (F : Fmt) (os : OsText) (L : WordList) (C : Crypto) (env : Env) :
    (∀ settings cmd st,
      ((programE F os L C env settings cmd st).1.plain, (programE F os L C env settings cmd st).2.plain) =
        program L C env settings cmd st.plain) ∧
    (∀ args st, let r := mainE F os L C env args st
      (r.1, r.2.2.1, r.2.2.2.plain) = main L C env args st.plain) := by
  refine ⟨fun settings cmd => sim_program F os L C env settings cmd, fun args st => ?_⟩
  have h := plain_runCommand env.columns .root (fun _ rest => rootExecuteE F os L C env rest)
    (fun _ rest => rootExecute L C env rest) (fun _ rest st => plain_root F os L C env rest st) args st
  unfold mainE main
  dsimp only
  rw [← h]
  generalize runCommandE env.columns .root (fun _ rest => rootExecuteE F os L C env rest) args st = d
  obtain ⟨p, ends, st'⟩ := d
  cases ends with
  | returns e =>
    cases e with
    | none => rfl
    | some e => obtain ⟨k, t⟩ := e; cases k <;> rfl
  | _ => rfl

/-- An error of generate: why (C81) and its text. -/
theorem c86_generate (F : Fmt) (os : OsText) {L : WordList} (hL : L.Lawful) {C : Crypto} (hC : C.Lawful) (env : Env)
    (opts : GenerateOptions) (prompts : List (ResE Bytes)) (hps : ∀ r ∈ prompts, PromptAnswer r) (rnd : Bytes)
    (e : GoErr) (h : (generateAndPrintKeyE F os L C env opts ⟨prompts, rnd, []⟩).1 = .err e) :
    GenerateFails env opts (prompts.map ResE.plain) rnd e.kind ∧
    GenerateText F.quote os opts (entropySource env opts.unsafeEntropy) prompts e.kind e.text := by
  have hps' := plain_prompts hps
  have hc := (c81_generate hL hC env opts _ hps' rnd).1 _ (erased (sim_generate F os L C env opts) _ _ h)
  refine ⟨hc, ?_⟩
  have hn : e.kind ∉ never := by
    generalize e.kind = k at hc
    cases hc with
    | flags h => exact never_flags h
    | prompt _ h => exact never_prompt hps' h
    | save _ h => exact never_save h
    | _ => decide
  refine (said (says_generate F os L C env opts prompts) _ ?_ h).resolve_right hn
  intro r hr
  cases r with
  | err e => exact .inl (.prompt hr)
  | _ => trivial

theorem counted {L : WordList} (hL : L.Lawful) {env : Env} {input : InputFlags} {n v : Nat} {k : Err}
    (h : Counts L env input n v k) : Counted L (offer L) env input n v k := by
  obtain ⟨h1, h2, h3, h4⟩ := h
  refine ⟨h1, h2, fun hk => ?_, fun hk => ?_⟩
  · obtain ⟨content, h5, h6, h7⟩ := h3 hk
    exact ⟨content, h5, scanWords content, words_iff.2 rfl, h6, h7⟩
  · obtain ⟨ws, h5, h6⟩ := h4 hk
    exact ⟨ws, (gets_iff hL).1 h5, h6⟩

/-- An error of recover; `n` and `v` are numbers of the phrase. -/
theorem c86_recover (F : Fmt) (os : OsText) {L : WordList} (hL : L.Lawful) {C : Crypto} (hC : C.Lawful) (env : Env)
    (opts : RecoverOptions) (prompts : List (ResE Bytes)) (hps : ∀ r ∈ prompts, PromptAnswer r) (rnd : Bytes)
    (e : GoErr) (h : (recoverAndPrintKeyE F os L C env opts ⟨prompts, rnd, []⟩).1 = .err e) :
    RecoverFails L (offer L) env opts (prompts.map ResE.plain) rnd e.kind ∧
    ∃ n v, RecoverText F.quote os opts n v prompts e.kind e.text ∧ Counted L (offer L) env opts.input n v e.kind := by
  have hps' := plain_prompts hps
  have hc := (c81_recover hL hC env opts _ hps' rnd).1 _ (erased (sim_recover F os L C env opts) _ _ h)
  refine ⟨hc, ?_⟩
  have hn : e.kind ∉ never := by
    generalize e.kind = k at hc
    cases hc with
    | flags h => exact never_flags h
    | input h => exact never_input h
    | prompt h => exact never_prompt hps' h
    | _ => decide
  suffices hr : ∀ r ∈ prompts, _ by
    obtain ⟨n, v, h1, h2⟩ := (said (says_recover F os (lookup_lt hL) C env opts prompts) _ hr h).resolve_right hn
    exact ⟨n, v, h1, counted hL h2⟩
  intro r hr
  cases r with
  | err e =>
    refine .inl ⟨0, 0, .prompt hr, ?_⟩
    cases hps _ hr with
    | failed ht =>
      have := promptText_kind ht
      simp only [List.mem_cons, List.not_mem_nil, or_false] at this
      rcases this with h | h | h <;> rw [h] <;> exact counted_zero (by simp) (by simp)
  | _ => trivial

theorem c86_convert (os : OsText) {L : WordList} (hL : L.Lawful) {C : Crypto} (hC : C.Lawful) (env : Env)
    (opts : ConvertOptions) (prompts : List (ResE Bytes)) (hps : ∀ r ∈ prompts, PromptAnswer r) (rnd : Bytes)
    (e : GoErr) (h : (decodeAndConvertPhraseE os L C env opts ⟨prompts, rnd, []⟩).1 = .err e) :
    ConvertFails L (offer L) env opts (prompts.map ResE.plain) rnd e.kind ∧
    ∃ n v, ConvertText os opts n v prompts e.kind e.text ∧ Counted L (offer L) env opts.input n v e.kind := by
  have hps' := plain_prompts hps
  have hc := (c81_convert hL hC env opts _ hps' rnd).1 _ (erased (sim_convert os L C env opts) _ _ h)
  refine ⟨hc, ?_⟩
  have hn : e.kind ∉ never := by
    generalize e.kind = k at hc
    cases hc with
    | input h => exact never_input h
    | prompt h => exact never_prompt hps' h
    | save _ _ h => exact never_save h
    | _ => decide
  suffices hr : ∀ r ∈ prompts, _ by
    obtain ⟨n, v, h1, h2⟩ := (said (says_convert os (lookup_lt hL) C env opts prompts) _ hr h).resolve_right hn
    exact ⟨n, v, h1, counted hL h2⟩
  intro r hr
  cases r with
  | err e =>
    refine .inl ⟨0, 0, .prompt hr, ?_⟩
    cases hps _ hr with
    | failed ht =>
      have := promptText_kind ht
      simp only [List.mem_cons, List.not_mem_nil, or_false] at this
      rcases this with h | h | h <;> rw [h] <;> exact counted_zero (by simp) (by simp)
  | _ => trivial

/-! ## The process -/

/-- Why the process ends with status 1 -/
inductive Reason (F : Fmt) (os : OsText) (L : WordList) (C : Crypto) (env : Env) (args : List Bytes) (st : StE) :
    Bytes → Prop where
  | missing : CommandLine (options .root) [] [] args →
    Reason F os L C env args st (str "incorrect usage: missing subcommand")
  | unknown {name : Bytes} {rest : List Bytes} : CommandLine (options .root) [] (name :: rest) args →
    name ≠ str "help" → (¬ ∃ cmd, Named name cmd) →
    Reason F os L C env args st (str "incorrect usage: unknown subcommand " ++ F.quote name)
  | failed {cmd : Cmd} {settings : List (Bytes × FlagValue)} {e : GoErr} : Means args (.run cmd settings) →
    (programE F os L C env settings cmd st).1 = .err e → Reason F os L C env args st e.text

theorem printUsageE_eq (columns : Nat) (cmd : Cmd) (printed : List Cmd) (ends : EndsE) (st : StE) :
    printUsageE columns cmd printed ends st =
      if columnsNeeded cmd ≤ columns then ⟨printed ++ [cmd], ends, st⟩ else ⟨printed, .loops, st⟩ := by
  unfold printUsageE
  rw [c65_usage]
  by_cases h : columnsNeeded cmd ≤ columns
  · rw [if_pos h, if_pos h]
  · rw [if_neg h, if_neg h]

/-- An error returned to main has its reason; the process never exits with status 1 by itself. -/
def Justified (R : Bytes → Prop) : EndsE → Prop
  | .returns (some ⟨.graceful, _⟩) => True
  | .returns (some ⟨_, t⟩) => R t
  | .exits c => c ≠ 1
  | _ => True

theorem justified_print {R : Bytes → Prop} (columns : Nat) (cmd : Cmd) (printed : List Cmd) {ends : EndsE} (st : StE)
    (h : Justified R ends) : Justified R (printUsageE columns cmd printed ends st).ends := by
  rw [printUsageE_eq]
  split
  · exact h
  · trivial

theorem justified_run {R : Bytes → Prop} (columns : Nat) (cmd : Cmd)
    (execute : List (Bytes × FlagValue) → List Bytes → StE → DoneE) (args : List Bytes) (st : StE)
    (h : args ≠ [str "help"] → ∀ settings rest, parseArgs (formal cmd) args = .ok settings rest →
      Justified R (execute settings rest st).ends) :
    Justified R (runCommandE columns cmd execute args st).ends := by
  unfold runCommandE
  split
  · exact justified_print _ _ _ _ trivial
  · rename_i hh
    split
    · exact justified_print _ _ _ _ (by simp [Justified])
    · exact justified_print _ _ _ _ (by simp [Justified])
    · rename_i settings rest hp
      have := h hh settings rest hp
      split
      · rename_i he
        rw [he] at this
        exact justified_print _ _ _ _ this
      · exact this

theorem justified_main (F : Fmt) (os : OsText) (L : WordList) (C : Crypto) (env : Env) (args : List Bytes)
    (st : StE) : Justified (Reason F os L C env args st)
      (runCommandE env.columns .root (fun _ rest => rootExecuteE F os L C env rest) args st).ends := by
  refine justified_run _ _ _ _ _ fun hh settings rest hp => ?_
  have hc : CommandLine (options .root) [] rest args := by
    have hc := (c63_accepted .root args settings rest).1 hp
    have hs : settingsOf settings = [] := by
      have := commandLine_kinds hc
      match settings with
      | [] => rfl
      | p :: _ => obtain ⟨k, hk, _⟩ := this (p.1, valueOf p.2) (by simp [settingsOf]); cases hk
    rwa [hs] at hc
  cases rest with
  | nil =>
    have e : incorrectUsage ++ str ": missing subcommand" = str "incorrect usage: missing subcommand" := by
      decide +kernel
    simp only [rootExecuteE, e]
    exact .missing hc
  | cons name rest =>
    simp only [rootExecuteE]
    split
    · trivial
    · rename_i hn
      cases hs : subcommands name with
      | none =>
        have e : incorrectUsage ++ str ": unknown subcommand " ++ F.quote name =
            str "incorrect usage: unknown subcommand " ++ F.quote name := by congr 1
        simp only [e]
        refine .unknown hc hn ?_
        rintro ⟨cmd, hcmd⟩
        rw [(subcommands_iff name cmd).2 hcmd] at hs
        cases hs
      | some cmd =>
        refine justified_run _ _ _ _ _ fun hh' settings' rest' hp' => ?_
        have hm : Means args (.run cmd settings') := .positional hh hc
          (.run ((subcommands_iff name cmd).1 hs) hh' ((c63_accepted cmd rest settings' rest').1 hp'))
        dsimp only
        cases ho : (programE F os L C env settings' cmd st).1 with
        | err e =>
          have : Reason F os L C env args st e.text := .failed hm ho
          unfold execEndsE Justified
          split
          · trivial
          · rename_i heq
            simp only [EndsE.returns.injEq, Option.some.injEq, CmdErrE.mk.injEq] at heq
            exact heq.2 ▸ this
          · rename_i heq; cases heq
          · trivial
        | panic p => simp [execEndsE, Justified]
        | _ => trivial

/-- main writes to standard error if and only if the process ends with status 1: one line (if the text is one),
`ERROR: ` and the reason, which is that of the command line or the text of the command's error. -/
theorem c86_stderr (F : Fmt) (os : OsText) (L : WordList) (C : Crypto) (env : Env) (args : List Bytes) (st : StE) :
    let r := mainE F os L C env args st
    (r.2.1 = [] ↔ r.2.2.1 ≠ .exited 1) ∧
    (r.2.2.1 = .exited 1 → ∃ text, Reason F os L C env args st text ∧
      r.2.1 = str "ERROR: " ++ text ++ str "\n") := by
  have h := justified_main F os L C env args st
  unfold mainE
  dsimp only
  generalize runCommandE env.columns .root (fun _ rest => rootExecuteE F os L C env rest) args st = d at h
  obtain ⟨p, ends, st'⟩ := d
  dsimp only at h
  have hne : ∀ t, str "ERROR: " ++ t ++ str "\n" ≠ [] := by
    intro t ht
    have : str "\n" = [] := (List.append_eq_nil_iff.1 ht).2
    revert this
    decide
  cases ends with
  | returns e =>
    cases e with
    | none => simp
    | some e =>
      obtain ⟨k, t⟩ := e
      cases k with
      | graceful => simp
      | usage => exact ⟨by simpa using hne t, fun _ => ⟨t, h, rfl⟩⟩
      | other => exact ⟨by simpa using hne t, fun _ => ⟨t, h, rfl⟩⟩
  | exits c =>
    have h : c ≠ 1 := h
    simp [h]
  | _ => simp

/-! ## The text tells the cause -/

/-- A text that begins with a known literal -/
theorem prefix_lit (p a x : Bytes) (h : p.length ≤ a.length ∨ a.isPrefixOf p = false) :
    p.isPrefixOf (a ++ x) = p.isPrefixOf a := by
  induction p generalizing a with
  | nil => cases a <;> simp
  | cons b p ih =>
    cases a with
    | nil => simp at h
    | cons c a =>
      simp only [List.cons_append, List.isPrefixOf_cons_cons]
      by_cases hbc : b = c
      · subst hbc
        rw [ih a (by simpa using h)]
      · have : (b == c) = false := by simpa using hbc
        rw [this, Bool.false_and, Bool.false_and]

/-- The beginnings of messages and what they mean -/
def beginnings : List (Bytes × Err) :=
  [(str "incorrect usage: i", .badDuration), (str "incorrect usage: u", .badOnlyElement),
   (str "failed to open", .noEntropyFile), (str "failed to generate", .randomRead),
   (str "failed to encode", .randomRead), (str "key time", .ttlInvalid), (str "key creation", .creationTooLate),
   (str "failed to re-derive PGP keys: key time", .ttlInvalid),
   (str "failed to re-derive PGP keys: key crea", .creationTooLate),
   (str "failed to write words to file: r", .fileExists),
   (str "failed to write words to file: failed to write word-", .fileInaccessible),
   (str "failed to write words to file: failed to write words", .fileWrite),
   (str "aborted", .aborted), (str "failed to read", .stdinRead), (str "failed to confirm", .stdinRead),
   (str "unexpected", .stdinRead), (str "invalid subkey", .badSubkeyIndex),
   (str "found word", .fileBadWord), (str "invalid format", .fileBadFormat), (str "found only n", .fileNoWords),
   (str "found only", .fileWordCount), (str "failed to validate", .invalidChecksum),
   (str "mnemonic", .invalidWordCount), (str "word", .invalidWord), (str "invalid version", .invalidVersion)]

def toldBy (t : Bytes) : Option Err := (beginnings.find? (fun p => p.1.isPrefixOf t)).map (·.2)

theorem toldBy_lit {a x : Bytes} {e : Err}
    (h : (beginnings.all (fun p => p.1.length ≤ a.length || !a.isPrefixOf p.1)) = true)
    (ha : toldBy a = some e) : toldBy (a ++ x) = some e := by
  rw [← ha]
  clear ha
  unfold toldBy
  congr 1
  rw [List.all_eq_true] at h
  generalize beginnings = bs at h
  induction bs with
  | nil => rfl
  | cons b bs ih =>
    simp only [List.find?_cons]
    rw [prefix_lit b.1 a x (by simpa using h b List.mem_cons_self), ih fun p hp => h p (List.mem_cons_of_mem _ hp)]

/-- The two errors of the clock have one text. -/
def oneText : Err → Err
  | .creationTooEarly => .creationTooLate
  | e => e

/-- The text of an error that the program itself has chosen tells its kind. -/
def TellsKind (os : OsText) (k : Err) (t : Bytes) : Prop :=
  t = os.random ∨ t = os.wordOpen ∨ k = .terminalState ∨ toldBy t = some (oneText k)

theorem tells_flags {q : Bytes → Bytes} {os : OsText} {f : KeyFlags} {k : Err} {t : Bytes} (h : FlagText q f k t) :
    TellsKind os k t := by
  refine .inr (.inr (.inr ?_))
  cases h <;> exact toldBy_lit (by decide +kernel) (by decide +kernel)

theorem tells_new {os : OsText} {k : Err} {t : Bytes} (h : NewText k t) : TellsKind os k t := by
  refine .inr (.inr (.inr ?_))
  cases h <;> decide +kernel

theorem tells_export {os : OsText} {k : Err} {t : Bytes} (h : ExportText os k t) : TellsKind os k t := by
  refine .inr (.inr (.inr ?_))
  cases h <;> (try simp only [List.append_assoc]) <;> exact toldBy_lit (by decide +kernel) (by decide +kernel)

theorem tells_save {os : OsText} {f : Bytes} {k : Err} {t : Bytes} (h : SaveText os f k t) : TellsKind os k t := by
  refine .inr (.inr (.inr ?_))
  cases h <;> (try simp only [List.append_assoc]) <;> exact toldBy_lit (by decide +kernel) (by decide +kernel)

theorem tells_prompt {os : OsText} {k : Err} {t : Bytes} (h : PromptText k t) : TellsKind os k t := by
  cases h with
  | aborted => exact .inr (.inr (.inr (by decide +kernel)))
  | read => exact .inr (.inr (.inr (toldBy_lit (by decide +kernel) (by decide +kernel))))
  | confirm => exact .inr (.inr (.inr (toldBy_lit (by decide +kernel) (by decide +kernel))))
  | state => exact .inr (.inr (.inl rfl))

theorem tells_input {os : OsText} {f : Bytes} {n v : Nat} (hn : n ≤ 100) {k : Err} {t : Bytes}
    (h : InputText os f n v k t) : TellsKind os k t := by
  have hc : ∀ n < 101, (beginnings.all (fun p => p.1.length ≤ (str "found only " ++ dec n).length ||
      !(str "found only " ++ dec n).isPrefixOf p.1)) = true ∧
      toldBy (str "found only " ++ dec n) = some .fileWordCount := by decide +kernel
  cases h with
  | «open» => exact .inr (.inl rfl)
  | count =>
    refine .inr (.inr (.inr ?_))
    obtain ⟨h1, h2⟩ := hc n (by omega)
    have := toldBy_lit (x := str " words in word file " ++ f ++ str ", expected " ++
      dec (wordsWanted v) ++ str " words for version " ++ dec v ++ str " phrase") h1 h2
    simp only [List.append_assoc] at this ⊢
    exact this
  | _ =>
    refine .inr (.inr (.inr ?_))
    first
    | decide +kernel
    | exact toldBy_lit (by decide +kernel) (by decide +kernel)
    | (simp only [List.append_assoc]; exact toldBy_lit (by decide +kernel) (by decide +kernel))

theorem tells_run (F : Fmt) (os : OsText) {L : WordList} (hL : L.Lawful) {C : Crypto} (hC : C.Lawful) (env : Env)
    (cmd : Cmd) (settings : List (Bytes × FlagValue)) (prompts : List (ResE Bytes))
    (hps : ∀ r ∈ prompts, PromptAnswer r) (rnd : Bytes) (e : GoErr)
    (h : (programE F os L C env settings cmd ⟨prompts, rnd, []⟩).1 = .err e) : TellsKind os e.kind e.text := by
  have hp : ∀ e : GoErr, .err e ∈ prompts → TellsKind os e.kind e.text := by
    intro e he
    cases hps _ he with
    | failed ht => exact tells_prompt ht
  cases cmd with
  | root => cases h
  | generate =>
    obtain ⟨-, ht⟩ := c86_generate F os hL hC env (generateOptions settings) prompts hps rnd e h
    clear h
    obtain ⟨k, t⟩ := e
    dsimp only at ht ⊢
    cases ht with
    | flags h => exact tells_flags h
    | new h => exact tells_new h
    | «export» _ h => exact tells_export h
    | save _ h => exact tells_save h
    | phrase => exact .inl rfl
    | prompt h => exact hp _ h
    | _ =>
      refine .inr (.inr (.inr ?_))
      first
      | decide +kernel
      | exact toldBy_lit (by decide +kernel) (by decide +kernel)
  | recover =>
    obtain ⟨-, n, v, ht, hc⟩ := c86_recover F os hL hC env (recoverOptions settings) prompts hps rnd e h
    clear h
    obtain ⟨k, t⟩ := e
    dsimp only at ht hc ⊢
    cases ht with
    | flags h => exact tells_flags h
    | index => exact .inr (.inr (.inr (by decide +kernel)))
    | input h => exact tells_input hc.1 h
    | prompt h => exact hp _ h
    | «export» _ h => exact tells_export h
    | new h =>
      refine .inr (.inr (.inr ?_))
      cases h <;> decide +kernel
  | convert =>
    obtain ⟨-, n, v, ht, hc⟩ := c86_convert os hL hC env (convertOptions settings) prompts hps rnd e h
    clear h
    obtain ⟨k, t⟩ := e
    dsimp only at ht hc ⊢
    cases ht with
    | input h => exact tells_input hc.1 h
    | prompt h => exact hp _ h
    | phrase => exact .inl rfl
    | save _ h => exact tells_save h

/-- Two failures with the same message have the same cause, whatever the commands, options and inputs: except that
a clock too early and a clock too late have one message, and that some messages are only a text of the operating
system. -/
theorem c86_tells (F : Fmt) (os : OsText) {L : WordList} (hL : L.Lawful) {C : Crypto} (hC : C.Lawful)
    (env env' : Env) (cmd cmd' : Cmd) (settings settings' : List (Bytes × FlagValue))
    (prompts prompts' : List (ResE Bytes)) (hps : ∀ r ∈ prompts, PromptAnswer r)
    (hps' : ∀ r ∈ prompts', PromptAnswer r) (rnd rnd' : Bytes) (e e' : GoErr)
    (h : (programE F os L C env settings cmd ⟨prompts, rnd, []⟩).1 = .err e)
    (h' : (programE F os L C env' settings' cmd' ⟨prompts', rnd', []⟩).1 = .err e') (ht : e.text = e'.text) :
    e.kind = e'.kind ∨
    (e.kind ∈ [Err.creationTooLate, .creationTooEarly] ∧ e'.kind ∈ [Err.creationTooLate, .creationTooEarly]) ∨
    e.text = os.random ∨ e.text = os.wordOpen ∨ e.kind = .terminalState ∨ e'.kind = .terminalState := by
  have h1 := tells_run F os hL hC env cmd settings prompts hps rnd e h
  have h2 := tells_run F os hL hC env' cmd' settings' prompts' hps' rnd' e' h'
  rw [← ht] at h2
  rcases h1 with h1 | h1 | h1 | h1
  · simp [h1]
  · simp [h1]
  · simp [h1]
  rcases h2 with h2 | h2 | h2 | h2
  · simp [h2]
  · simp [h2]
  · simp [h2]
  rw [h1, Option.some.injEq] at h2
  by_cases he : e.kind = .creationTooEarly
  · rw [he] at h2 ⊢
    right; left
    refine ⟨by simp, ?_⟩
    by_cases he' : e'.kind = .creationTooEarly
    · simp [he']
    · have : oneText e'.kind = e'.kind := by
        generalize e'.kind = k at he'
        cases k <;> first | rfl | exact absurd rfl he'
      rw [this] at h2
      simp [← h2, oneText]
  · have h3 : oneText e.kind = e.kind := by
      generalize e.kind = k at he
      cases k <;> first | rfl | exact absurd rfl he
    by_cases he' : e'.kind = .creationTooEarly
    · rw [h3, he'] at h2
      right; left
      simp [h2, he', oneText]
    · have : oneText e'.kind = e'.kind := by
        generalize e'.kind = k at he'
        cases k <;> first | rfl | exact absurd rfl he'
      rw [h3, this] at h2
      exact .inl h2

/-! ## Examples -/

/-- A rough `%q` -/
def roughFmt : Fmt := { quote := fun t => str "\"" ++ t ++ str "\"", time := fun _ => [] }

def sampleOs : OsText :=
  { random := str "no random bytes", entropyOpen := str "no such file", stat := str "permission denied"
    write := str "no space left on device", wordOpen := str "open old: permission denied" }

def saidPrompts : List (ResE Bytes) := [.ok (str "pw"), .err ⟨.aborted, str "aborted"⟩]

theorem saidPrompts_ok : ∀ r ∈ saidPrompts, PromptAnswer r := by
  intro r hr
  simp only [saidPrompts, List.mem_cons, List.not_mem_nil, or_false] at hr
  rcases hr with rfl | rfl
  · exact .password (by decide)
  · exact .failed .aborted

/-- generate fails in eight ways, each with its message. -/
example :
    let tells env f file rnd (text : String) := ∃ k,
      (generateAndPrintKeyE roughFmt sampleOs toyWordList toyCrypto env (optsOf f file)
        ⟨saidPrompts, rnd, []⟩).1 = .err ⟨k, str text⟩ ∧
      GenerateText roughFmt.quote sampleOs (optsOf f file) (entropySource env []) saidPrompts k (str text)
    tells sampleEnv { sampleFlags with ttl := str "5x" } [] sampleRandom
      "incorrect usage: invalid duration parameter: \"5x\"" ∧
    tells sampleEnv { sampleFlags with only := str "master,key,lock" } [] sampleRandom
      "incorrect usage: unknown -only list element \"key\"" ∧
    tells sampleEnv { sampleFlags with ttl := str "106752d" } [] sampleRandom "key time-to-live cannot be negative" ∧
    tells { sampleEnv with now := 5 } sampleFlags [] sampleRandom "key creation time exceeds maximum" ∧
    tells sampleEnv { sampleFlags with encryptKeys := true } [] (sampleRandom ++ sampleRandom ++ sampleRandom)
      "aborted" ∧
    tells sampleEnv { sampleFlags with encryptKeys := true } [] (sampleRandom.take 20)
      "failed to encode master key packet: failed to read random salt: no random bytes" ∧
    tells sampleEnv sampleFlags [] (sampleRandom.take 15)
      "failed to generate 128 bits of secure random seed data: no random bytes" ∧
    tells sampleEnv sampleFlags (str "old") sampleRandom
      "failed to write words to file: refused to write word-file to old: file already exists" := by
  intro tells
  have all : ∀ env f file rnd (text : String) (k : Err),
      (generateAndPrintKeyE roughFmt sampleOs toyWordList toyCrypto env (optsOf f file)
        ⟨saidPrompts, rnd, []⟩).1 = .err ⟨k, str text⟩ → tells env f file rnd text := fun env f file rnd text k h =>
    ⟨k, h, (c86_generate roughFmt sampleOs toyWordList_lawful toyCrypto_lawful env _ saidPrompts saidPrompts_ok
      rnd _ h).2⟩
  exact ⟨all _ _ _ _ _ .badDuration (by decide +kernel), all _ _ _ _ _ .badOnlyElement (by decide +kernel),
    all _ _ _ _ _ .ttlInvalid (by decide +kernel), all _ _ _ _ _ .creationTooEarly (by decide +kernel),
    all _ _ _ _ _ .aborted (by decide +kernel), all _ _ _ _ _ .randomRead (by decide +kernel),
    all _ _ _ _ _ .randomRead (by decide +kernel), all _ _ _ _ _ .fileExists (by decide +kernel)⟩

/-- A wrong duration has one message in generate and recover. -/
example : ∃ text,
    (programE roughFmt sampleOs toyWordList toyCrypto sampleEnv [(str "ttl", .string (str "5x"))] .generate
      ⟨[], [], []⟩).1 = .err ⟨.badDuration, text⟩ ∧
    (programE roughFmt sampleOs toyWordList toyCrypto sampleEnv [(str "ttl", .string (str "5x"))] .recover
      ⟨saidPrompts, [], []⟩).1 = .err ⟨.badDuration, text⟩ :=
  ⟨str "incorrect usage: invalid duration parameter: \"5x\"", by decide +kernel⟩

/-- recover -/
example :
    let tells env ttl (text : String) := ∃ k,
      (recoverAndPrintKeyE roughFmt sampleOs toyWordList toyCrypto env (recoverOld ttl)
        ⟨saidPrompts, [], []⟩).1 = .err ⟨k, str text⟩ ∧
      ∃ n v, RecoverText roughFmt.quote sampleOs (recoverOld ttl) n v saidPrompts k (str text) ∧
        Counted toyWordList (offer toyWordList) env (recoverOld ttl).input n v k
    tells (envWith fun ws => ws.take 13 ++ ws.take 1) [] "failed to validate checksum embedded in mnemonic phrase" ∧
    tells (envWith fun ws => ws.take 13) []
      "found only 13 words in word file old, expected 14 words for version 0 phrase" ∧
    tells (envWith fun ws => ws.take 13 ++ [str "?"]) [] "found word in old not present in wordlist" ∧
    tells (envWith id) (str "106752d") "failed to re-derive PGP keys: key time-to-live cannot be negative" := by
  intro tells
  have all : ∀ env ttl (text : String) (k : Err),
      (recoverAndPrintKeyE roughFmt sampleOs toyWordList toyCrypto env (recoverOld ttl)
        ⟨saidPrompts, [], []⟩).1 = .err ⟨k, str text⟩ → tells env ttl text := fun env ttl text k h =>
    ⟨k, h, (c86_recover roughFmt sampleOs toyWordList_lawful toyCrypto_lawful env _ saidPrompts saidPrompts_ok
      [] _ h).2⟩
  exact ⟨all _ _ _ .invalidChecksum (by decide +kernel), all _ _ _ .fileWordCount (by decide +kernel),
    all _ _ _ .fileBadWord (by decide +kernel), all _ _ _ .ttlInvalid (by decide +kernel)⟩

/-- convert refuses to replace the file that it has read. -/
example : ∃ n v, ConvertText sampleOs ⟨⟨false, str "old"⟩, [], true⟩ n v saidPrompts .fileExists
    (str "failed to write words to file: refused to write word-file to old: file already exists") ∧
    Counted toyWordList (offer toyWordList) (envWith id) ⟨false, str "old"⟩ n v .fileExists :=
  (c86_convert sampleOs toyWordList_lawful toyCrypto_lawful (envWith id) ⟨⟨false, str "old"⟩, [], true⟩
    saidPrompts saidPrompts_ok sampleRandom ⟨.fileExists, _⟩ (by decide +kernel)).2

/-- Command lines and what main writes about them -/
example :
    let writes (args : List String) :=
      (mainE roughFmt sampleOs toyWordList toyCrypto (envWith fun _ => []) (args.map str) ⟨saidPrompts, [], []⟩).2.1
    writes [] = str "ERROR: incorrect usage: missing subcommand\n" ∧
    writes ["gen"] = str "ERROR: incorrect usage: unknown subcommand \"gen\"\n" ∧
    writes ["generate", "-no"] = [] ∧ writes ["help"] = [] ∧
    writes ["recover", "-in-word-file", "old"] = str "ERROR: found only no words in word file old\n" ∧
    writes ["recover", "-in-word-file=new"] = str "ERROR: open old: permission denied\n" ∧
    writes ["generate", "-ttl", "1"] = str "ERROR: incorrect usage: invalid duration parameter: \"1\"\n" := by
  decide +kernel

/-- Messages that say something wrong: a clock before 2023 is said to exceed a maximum; of a file with a word too
many, and of one for a version that does not exist, it is said that there are *only* so many words, and 0 words are
expected; a failed write is reported twice. -/
theorem c86_misleading :
    (∃ env : Env, env.now < 1672531200 * 10 ^ 9 ∧
      (generateAndPrintKeyE roughFmt sampleOs toyWordList toyCrypto env (optsOf sampleFlags [])
        ⟨saidPrompts, sampleRandom, []⟩).1 = .err ⟨.creationTooEarly, str "key creation time exceeds maximum"⟩) ∧
    (recoverAndPrintKeyE roughFmt sampleOs toyWordList toyCrypto (envWith fun ws => ws ++ ws.take 1) (recoverOld [])
        ⟨saidPrompts, [], []⟩).1 = .err ⟨.fileWordCount,
          str "found only 15 words in word file old, expected 14 words for version 0 phrase"⟩ ∧
    (recoverAndPrintKeyE roughFmt sampleOs toyWordList toyCrypto
        (envWith fun ws => toyWordList.word 600 :: ws.take 13) (recoverOld [])
        ⟨saidPrompts, [], []⟩).1 = .err ⟨.fileWordCount,
          str "found only 14 words in word file old, expected 0 words for version 2 phrase"⟩ ∧
    (generateAndPrintKeyE roughFmt sampleOs toyWordList toyCrypto
        { sampleEnv with save := { sampleEnv.save with openFails := true } } (optsOf sampleFlags (str "new"))
        ⟨saidPrompts, sampleRandom, []⟩).1 = .err ⟨.fileWrite,
          str "failed to write words to file: failed to write words to file: no space left on device"⟩ := by
  refine ⟨⟨{ sampleEnv with now := 5 }, by norm_num, by decide +kernel⟩, by decide +kernel, by decide +kernel,
    by decide +kernel⟩

end Verif.Props
