import Verif.Proofs.Surroundings
import Verif.Props.Renaming
import Verif.Props.Success

/-! # What a run takes from its surroundings (C124) -/

namespace Verif.Props

open Verif.Model Verif.Model.Cli Verif.Spec Verif.Spec.OpenPGP Verif.Proofs Verif.Instances Verif.Armor

/-- The same is typed, or read from the word file. How the terminal answers to a change of its mode matters only to who
neither names a file nor says `-simple`. -/
def SamePhrase (settings : List (Bytes × Value)) (env env' : Env) : Prop :=
  (text settings "in-word-file" [] = [] → env.stdin = env'.stdin ∧
    (switchedOn settings "simple" false = false → env.rawError = env'.rawError)) ∧
  (text settings "in-word-file" [] ≠ [] →
    env.fs.read (text settings "in-word-file" []) = env'.fs.read (text settings "in-word-file" []))

/-- What the commands use is the same in both surroundings. The function that makes armor is no part of them, but comes
with the environment. -/
def SameSurroundings (cmd : Cmd) (settings : List (Bytes × Value)) (env env' : Env) : Prop :=
  env.armor = env'.armor ∧
  match cmd with
  | .root => True
  | .generate => SameSecond env.now env'.now ∧
      (text settings "unsafe-entropy" [] = str "-" → env.stdin = env'.stdin) ∧
      (text settings "unsafe-entropy" [] ≠ [] → text settings "unsafe-entropy" [] ≠ str "-" →
        env.fs.read (text settings "unsafe-entropy" []) = env'.fs.read (text settings "unsafe-entropy" [])) ∧
      (text settings "out-word-file" [] ≠ [] → env.save = env'.save ∧
        ((env.fs.dir (text settings "out-word-file" [])).isSome ↔ (env'.fs.dir (text settings "out-word-file" [])).isSome))
  | .recover => SamePhrase settings env env'
  | .convert => SamePhrase settings env env' ∧ (text settings "in-word-file" [] ≠ [] → env.save = env'.save)

/-- Runs in surroundings that agree in what the command has a use for are the same: everything written, asked and done,
and the exit status. -/
theorem c124_run (F : Fmt) (os : OsText) (L : WordList) (C : Crypto) {env env' : Env} (args : List Bytes)
    (hc : env.columns = env'.columns)
    (h : ∀ cmd s, Means args (.run cmd s) → SameSurroundings cmd (settingsOf s) env env')
    (prompts : List (ResE Bytes)) (rnd : Bytes) :
    mainV F os L C env args prompts rnd = mainV F os L C env' args prompts rnd := by
  refine process_same hc fun cmd s hm => ?_
  obtain ⟨rest, positional, hcl⟩ := means_settings hm
  obtain ⟨ha, hs⟩ := h cmd s hm
  cases cmd with
  | root => exact ⟨rfl, rfl⟩
  | generate =>
    obtain ⟨ht, h1, h2, h3⟩ := hs
    have ho := c63_generate _ _ _ hcl
    obtain ⟨hV, hE⟩ := generate_same (opts := generateOptions s) hc ha ht (by rw [ho]; exact h1) (by rw [ho]; exact h2)
      (by rw [ho]; exact h3) F os L C (verboseOption s)
    show (generateAndPrintKeyV F L C env _ _ _).2.events = (generateAndPrintKeyV F L C env' _ _ _).2.events ∧
      (generateAndPrintKeyE F os L C env _ _).1 = (generateAndPrintKeyE F os L C env' _ _).1
    rw [hV, hE]
    exact ⟨rfl, rfl⟩
  | recover =>
    obtain ⟨h1, h2⟩ := hs
    have ho := c63_recover _ _ _ hcl
    obtain ⟨hV, hE⟩ := input_same (input := (recoverOptions s).input) (by rw [ho]; exact h1) (by rw [ho]; exact h2) os L C
      (verboseOption s)
    show (recoverAndPrintKeyV F L C env _ _ _).2.events = (recoverAndPrintKeyV F L C env' _ _ _).2.events ∧
      (recoverAndPrintKeyE F os L C env _ _).1 = (recoverAndPrintKeyE F os L C env' _ _).1
    unfold recoverAndPrintKeyV recoverAndPrintKeyE
    rw [hV, hE, ha]
    exact ⟨rfl, rfl⟩
  | convert =>
    obtain ⟨⟨h1, h2⟩, h3⟩ := hs
    have ho := c63_convert _ _ _ hcl
    obtain ⟨hV, hE⟩ := input_same (input := (convertOptions s).input) (by rw [ho]; exact h1) (by rw [ho]; exact h2) os L C
      (verboseOption s)
    obtain ⟨p1, p2⟩ := printMnemonic_same hc
    show (decodeAndConvertPhraseV L C env _ _ _).2.events = (decodeAndConvertPhraseV L C env' _ _ _).2.events ∧
      (decodeAndConvertPhraseE os L C env _ _).1 = (decodeAndConvertPhraseE os L C env' _ _).1
    unfold decodeAndConvertPhraseV decodeAndConvertPhraseE
    rw [hV, hE, p1, p2]
    by_cases hi : (convertOptions s).input.inputWordFile = []
    · simp only [hi, if_true]
      refine ⟨?_, ?_⟩ <;> trivial
    · have hr : (env.fs.dir (convertOptions s).input.inputWordFile).isSome ↔
          (env'.fs.dir (convertOptions s).input.inputWordFile).isSome := by
        have := h2 (by rw [ho] at hi; exact hi)
        rw [show (convertOptions s).input.inputWordFile = text (settingsOf s) "in-word-file" [] by rw [ho]; rfl]
        unfold FS.read at this
        revert this
        cases env.fs.dir (text (settingsOf s) "in-word-file" []) <;> cases env'.fs.dir (text (settingsOf s) "in-word-file" []) <;>
          simp
      obtain ⟨e1, e2⟩ := save_same (h3 (by rw [ho] at hi; exact hi)) hr os
      simp only [hi, if_false, e1, e2]
      refine ⟨?_, ?_⟩ <;> trivial

/-- `recover` and `convert` do not look at the clock, and nothing looks at files, standard input or the terminal's modes
without an option that says so. -/
theorem c124_none (F : Fmt) (os : OsText) (L : WordList) (C : Crypto) (env : Env) (args : List Bytes) (cmd : Cmd)
    (s : List (Bytes × FlagValue)) (hm : Means args (.run cmd s)) (prompts : List (ResE Bytes)) (rnd : Bytes) :
    (cmd ≠ .generate → ∀ now,
      mainV F os L C { env with now := now } args prompts rnd = mainV F os L C env args prompts rnd) ∧
    (cmd ≠ .generate → text (settingsOf s) "in-word-file" [] = [] → ∀ fs save,
      mainV F os L C { env with fs := fs, save := save } args prompts rnd = mainV F os L C env args prompts rnd) ∧
    (cmd ≠ .generate → text (settingsOf s) "in-word-file" [] ≠ [] → ∀ stdin rawError,
      mainV F os L C { env with stdin := stdin, rawError := rawError } args prompts rnd =
        mainV F os L C env args prompts rnd) ∧
    (cmd = .recover → ∀ save,
      mainV F os L C { env with save := save } args prompts rnd = mainV F os L C env args prompts rnd) ∧
    (cmd = .generate → text (settingsOf s) "unsafe-entropy" [] ≠ str "-" → ∀ stdin rawError,
      mainV F os L C { env with stdin := stdin, rawError := rawError } args prompts rnd =
        mainV F os L C env args prompts rnd) ∧
    (cmd = .generate → text (settingsOf s) "unsafe-entropy" [] ∈ [[], str "-"] →
      text (settingsOf s) "out-word-file" [] = [] → ∀ fs save,
      mainV F os L C { env with fs := fs, save := save } args prompts rnd = mainV F os L C env args prompts rnd) := by
  have use : ∀ env', env'.columns = env.columns → SameSurroundings cmd (settingsOf s) env' env →
      mainV F os L C env' args prompts rnd = mainV F os L C env args prompts rnd := by
    intro env' hc h
    refine c124_run F os L C args hc (fun cmd' s' hm' => ?_) prompts rnd
    cases c58_unique _ _ _ hm' hm
    exact h
  have second : SameSecond env.now env.now := ⟨rfl, fun _ => Iff.rfl⟩
  refine ⟨fun hg now => use _ rfl ⟨rfl, ?_⟩, fun hg hi fs save => use _ rfl ⟨rfl, ?_⟩,
    fun hg hi stdin raw => use _ rfl ⟨rfl, ?_⟩, fun hr save => use _ rfl ⟨rfl, ?_⟩,
    fun hg hu stdin raw => use _ rfl ⟨rfl, ?_⟩, fun hg hu ho fs save => use _ rfl ⟨rfl, ?_⟩⟩
  · cases cmd with
    | root => trivial
    | generate => exact absurd rfl hg
    | recover => exact ⟨fun _ => ⟨rfl, fun _ => rfl⟩, fun _ => rfl⟩
    | convert => exact ⟨⟨fun _ => ⟨rfl, fun _ => rfl⟩, fun _ => rfl⟩, fun _ => rfl⟩
  · cases cmd with
    | root => trivial
    | generate => exact absurd rfl hg
    | recover => exact ⟨fun _ => ⟨rfl, fun _ => rfl⟩, fun h => absurd hi h⟩
    | convert => exact ⟨⟨fun _ => ⟨rfl, fun _ => rfl⟩, fun h => absurd hi h⟩, fun h => absurd hi h⟩
  · cases cmd with
    | root => trivial
    | generate => exact absurd rfl hg
    | recover => exact ⟨fun h => absurd h hi, fun _ => rfl⟩
    | convert => exact ⟨⟨fun h => absurd h hi, fun _ => rfl⟩, fun _ => rfl⟩
  · subst hr
    exact ⟨fun _ => ⟨rfl, fun _ => rfl⟩, fun _ => rfl⟩
  · subst hg
    exact ⟨second, fun h => absurd h hu, fun _ _ => rfl, fun _ => ⟨rfl, Iff.rfl⟩⟩
  · subst hg
    simp only [List.mem_cons, List.not_mem_nil, or_false] at hu
    exact ⟨second, fun _ => rfl, fun h h' => absurd hu (by simp [h, h']), fun h => absurd ho h⟩

/-- Within a second it does not matter when `generate` is run, -/
theorem c124_second (F : Fmt) (os : OsText) (L : WordList) (C : Crypto) (env : Env) (args : List Bytes)
    {now : Int} (h : now / 10 ^ 9 = env.now / 10 ^ 9) (hl : now / 10 ^ 9 ≠ 1672531200 + 2 ^ 31 - 1)
    (prompts : List (ResE Bytes)) (rnd : Bytes) :
    mainV F os L C { env with now := now } args prompts rnd = mainV F os L C env args prompts rnd := by
  refine c124_run (env := { env with now := now }) (env' := env) F os L C args rfl (fun cmd s hm => ⟨rfl, ?_⟩) prompts rnd
  cases cmd with
  | root => trivial
  | generate => exact ⟨⟨h, fun h' => absurd h' hl⟩, fun _ => rfl, fun _ _ => rfl, fun _ => ⟨rfl, Iff.rfl⟩⟩
  | recover => exact ⟨fun _ => ⟨rfl, fun _ => rfl⟩, fun _ => rfl⟩
  | convert => exact ⟨⟨fun _ => ⟨rfl, fun _ => rfl⟩, fun _ => rfl⟩, fun _ => rfl⟩

/-- except in the last second that a phrase can hold: its first nanosecond is as good as any time before, in the rest of
it nothing is generated. -/
theorem c124_last_second {L : WordList} (hL : L.Lawful) {C : Crypto} (hC : C.Lawful) (env : Env) (args : List Bytes)
    (s : List (Bytes × FlagValue)) (hm : Means args (.run .generate s)) (prompts : List (Res Bytes))
    (hps : ∀ r ∈ prompts, PromptResult r) (rnd : Bytes)
    (hok : (main L C env args ⟨prompts, rnd, []⟩).2.1 = .exited 0) :
    (main L C { env with now := (1672531200 + 2 ^ 31 - 1) * 10 ^ 9 } args ⟨prompts, rnd, []⟩).2.1 = .exited 0 ∧
    ∀ d, 0 < d → d < 10 ^ 9 → (main L C { env with now := (1672531200 + 2 ^ 31 - 1) * 10 ^ 9 + d } args
      ⟨prompts, rnd, []⟩).2.1 ≠ .exited 0 := by
  have h0 := ((c92_process hL hC env args .generate s hm prompts hps rnd).1 rfl).1 hok
  obtain ⟨part, seed, left, hg, hseed, hleft⟩ := h0.random
  refine ⟨?_, fun d h1 h2 h => ?_⟩
  · refine ((c92_process hL hC _ args .generate s hm prompts hps rnd).1 rfl).2 ?_
    have sb : SeedBytes { env with now := (1672531200 + 2 ^ 31 - 1) * 10 ^ 9 } rnd (generateOptions s).unsafeEntropy seed
        left := by
      generalize (generateOptions s).unsafeEntropy = src at hseed ⊢
      cases hseed with
      | system a b => exact .system a b
      | stdin a b => exact .stdin a b
      | file a b c d => exact .file a b c d
    exact ⟨⟨by show (_ : Int) ≤ (1672531200 + 2 ^ 31 - 1) * 10 ^ 9; omega,
      by show (1672531200 + 2 ^ 31 - 1) * 10 ^ 9 ≤ (_ : Int); omega⟩,
      ⟨part, seed, left, hg, sb, hleft⟩, h0.passwords, h0.saved, h0.shown⟩
  · have := (((c92_process hL hC _ args .generate s hm prompts hps rnd).1 rfl).1 h).clock.2
    have : (1672531200 + 2 ^ 31 - 1) * 10 ^ 9 + d ≤ (1672531200 + (2 ^ 31 - 1)) * 10 ^ 9 := this
    omega

/-! ## examples -/

/-- Half a second later, on a machine with other files, with something else on standard input: the same phrase and key -/
example (fs : FS) (typed : Bytes) (prompts : List (ResE Bytes)) (rnd : Bytes) :
    mainV sampleFmt sampleOs toyWordList toyCrypto
        { sampleEnv with now := (1672531200 + 77) * 10 ^ 9 + 5 * 10 ^ 8, fs := fs, stdin := typed }
        [str "generate", str "-encrypt-phrase"] prompts rnd =
      mainV sampleFmt sampleOs toyWordList toyCrypto { sampleEnv with now := (1672531200 + 77) * 10 ^ 9 }
        [str "generate", str "-encrypt-phrase"] prompts rnd := by
  refine c124_run _ _ _ _ (env := { sampleEnv with now := _, fs := fs, stdin := typed }) (env' := { sampleEnv with now := _ })
    _ rfl (fun cmd s hm => ?_) prompts rnd
  cases c58_unique _ _ _ hm (encryptPhrase_means (cmd := .generate) (by simp))
  have second : SameSecond ((1672531200 + 77) * 10 ^ 9 + 5 * 10 ^ 8) ((1672531200 + 77) * 10 ^ 9) := ⟨by decide, by decide⟩
  exact ⟨rfl, second, fun h => absurd h (by decide +kernel), fun h => absurd (by decide +kernel) h,
    fun h => absurd (by decide +kernel) h⟩

/-- A phrase is as good at any time. -/
example (now : Int) (fs : FS) (prompts : List (ResE Bytes)) (rnd : Bytes) :
    mainV sampleFmt sampleOs toyWordList toyCrypto { encryptedEnv with now := now } [str "recover"] prompts rnd =
      mainV sampleFmt sampleOs toyWordList toyCrypto encryptedEnv [str "recover"] prompts rnd ∧
    mainV sampleFmt sampleOs toyWordList toyCrypto { encryptedEnv with fs := fs } [str "recover"] prompts rnd =
      mainV sampleFmt sampleOs toyWordList toyCrypto encryptedEnv [str "recover"] prompts rnd :=
  have h := c124_none sampleFmt sampleOs toyWordList toyCrypto encryptedEnv _ _ _ recover_means prompts rnd
  ⟨h.1 (by decide) now, h.2.1 (by decide) rfl fs encryptedEnv.save⟩

/-- On 19 January 2091 -/
example (rnd : Bytes) (h : 19 ≤ rnd.length) :
    let run (now : Int) := (main toyWordList toyCrypto { sampleEnv with now := now } [str "generate", str "-encrypt-phrase"]
      ⟨[.ok [1]], rnd, []⟩).2.1
    run ((1672531200 + 2 ^ 31 - 1) * 10 ^ 9) = .exited 0 ∧ run ((1672531200 + 2 ^ 31 - 1) * 10 ^ 9 + 1) ≠ .exited 0 := by
  have hm := encryptPhrase_means (name := str "generate") (cmd := .generate) (by simp)
  have hps : ∀ r ∈ [Res.ok [1]], PromptResult r := fun r hr => by
    rw [List.mem_singleton.1 hr]
    exact .password (by simp)
  have ok : (main toyWordList toyCrypto sampleEnv [str "generate", str "-encrypt-phrase"] ⟨[.ok [1]], rnd, []⟩).2.1 =
      .exited 0 := by
    refine ((c92_process toyWordList_lawful toyCrypto_lawful sampleEnv _ _ _ hm _ hps rnd).1 rfl).2 ?_
    obtain ⟨part, hp, -⟩ := good_only (show decodeOnlyKeyTypes [] = .ok (true, none) by decide)
    exact ⟨by decide, ⟨part, rnd.take 16, rnd.drop 16, ⟨.inl rfl, hp⟩,
      .system (by simp; omega) (List.take_append_drop _ _).symm, by
        show 0 + 3 ≤ _
        rw [List.length_drop]
        omega⟩, ⟨[], [[1]], [], rfl, rfl, rfl⟩, fun h => absurd rfl h, fun _ => by decide⟩
  have := c124_last_second toyWordList_lawful toyCrypto_lawful sampleEnv _ _ hm _ hps rnd ok
  exact ⟨this.1, this.2 1 (by decide) (by decide)⟩

/-- and the whole second before -/
example (fraction : Int) (h0 : 0 ≤ fraction) (h1 : fraction < 10 ^ 9) (prompts : List (ResE Bytes)) (rnd : Bytes) :
    mainV sampleFmt sampleOs toyWordList toyCrypto { sampleEnv with now := (1672531200 + 2 ^ 31 - 2) * 10 ^ 9 + fraction }
        [str "generate", str "-encrypt-phrase"] prompts rnd =
      mainV sampleFmt sampleOs toyWordList toyCrypto { sampleEnv with now := (1672531200 + 2 ^ 31 - 2) * 10 ^ 9 }
        [str "generate", str "-encrypt-phrase"] prompts rnd :=
  c124_second sampleFmt sampleOs toyWordList toyCrypto { sampleEnv with now := (1672531200 + 2 ^ 31 - 2) * 10 ^ 9 } _
    (show _ = (1672531200 + 2 ^ 31 - 2) * 10 ^ 9 / 10 ^ 9 by omega) (by omega) prompts rnd

end Verif.Props
