import Verif.Proofs.Transcript
import Verif.Proofs.Output
import Verif.Props.Failure

/-!
# C97: what is seen of a run depends on the options, not on seed, phrase, key or passwords

`seen` leaves out the bytes of the key and of the word file. The text of a final error message is the subject of C86.
-/

namespace Verif.Props

open Verif.Model Verif.Model.Cli Verif.Spec Verif.Proofs Verif.Instances

/-- The phrase goes to a file: the transcript is a function of the options alone. -/
theorem c97_generate_saved (F : Fmt) (L : WordList) (C : Crypto) (env : Env) (opts : GenerateOptions)
    (hout : opts.outputWordFile ≠ []) (prompts : List (Res Bytes)) (rnd : Bytes) :
    let r := generateAndPrintKeyV F L C env opts false ⟨prompts, rnd, []⟩
    r.2.events.filter seen <+: generateSaved opts ∧
    (r.1 = .ok () → r.2.events.filter seen = generateSaved opts ∧
      r.2.prompts = prompts.drop (asked (generateSaved opts))) := by
  obtain ⟨t, s, ⟨u, hu, ht⟩, hs, hp, hok⟩ := plays_generate F L C env opts ⟨prompts, rnd, []⟩
  unfold GenerateEnd at hu
  rw [if_pos hout] at hu
  subst hu
  have e : t = generateSaved opts := by rw [ht]; unfold generateSaved; rw [List.append_assoc]
  rw [e] at hp hok
  rw [List.filter_nil, List.nil_append] at hs
  dsimp only
  rw [hs]
  exact ⟨hp, fun h => hok () h⟩

/-- The phrase is shown: nothing else is seen before, the key has been printed by then, and what is written with it is a
function of its words and the width of the terminal. -/
theorem c97_generate_shown : ∃ texts : Nat → List Bytes → List Bytes, ∀ (F : Fmt) (L : WordList) (C : Crypto) (env : Env)
    (opts : GenerateOptions), opts.outputWordFile = [] → ∀ (prompts : List (Res Bytes)) (rnd : Bytes),
    let r := generateAndPrintKeyV F L C env opts false ⟨prompts, rnd, []⟩
    ∃ words : List Bytes,
      let t := beforeKey opts ++ coloured ++ .act (.showPhrase words) :: (texts env.columns words).map .err
      r.2.events.filter seen <+: t ∧
      (r.1 = .ok () → r.2.events.filter seen = t ∧ r.2.prompts = prompts.drop (asked (beforeKey opts))) := by
  refine ⟨shownTexts, fun F L C env opts hout prompts rnd => ?_⟩
  obtain ⟨t, s, ⟨u, hu, ht⟩, hs, hp, hok⟩ := plays_generate F L C env opts ⟨prompts, rnd, []⟩
  unfold GenerateEnd at hu
  rw [if_neg (by simpa using hout)] at hu
  obtain ⟨words, rfl⟩ := hu
  rw [← List.append_assoc] at ht
  subst ht
  rw [List.filter_nil, List.nil_append] at hs
  dsimp only
  rw [hs]
  refine ⟨words, hp, fun h => ⟨(hok () h).1, ?_⟩⟩
  rw [(hok () h).2]
  congr 1
  rw [asked_append, asked_append]
  have h1 : asked coloured = 0 := rfl
  have h2 : asked (Ev.act (.showPhrase words) :: (shownTexts env.columns words).map .err) = 0 := by
    unfold asked; rw [List.countP_cons_of_neg (by simp)]; exact asked_errs _
  rw [h1, h2]
  rfl

/-- recover: besides the options only how often a wrong password was typed for the phrase can be seen. -/
theorem c97_recover (F : Fmt) (L : WordList) (C : Crypto) (env : Env) (opts : RecoverOptions)
    (prompts : List (Res Bytes)) (rnd : Bytes) :
    let r := recoverAndPrintKeyV F L C env opts false ⟨prompts, rnd, []⟩
    ∃ wrong, r.2.events.filter seen <+: recovered opts env.rawError wrong ∧
      (r.1 = .ok () → r.2.events.filter seen = recovered opts env.rawError wrong ∧
        r.2.prompts = prompts.drop (asked (recovered opts env.rawError wrong))) := by
  obtain ⟨t, s, ⟨wrong, rfl⟩, hs, hp, hok⟩ := plays_recover F L C env opts ⟨prompts, rnd, []⟩
  rw [List.filter_nil, List.nil_append] at hs
  refine ⟨wrong, ?_⟩
  rw [hs]
  exact ⟨hp, fun h => hok () h⟩

theorem asked_wordsPrompt (input : InputFlags) (problem : Option Bytes) : asked (wordsPrompt input problem) = 0 := by
  unfold wordsPrompt
  split
  · rfl
  · split
    · rfl
    · cases problem <;> rfl

theorem asked_entered (input : InputFlags) (problem : Option Bytes) (wrong : Option Nat) :
    asked (entered input problem wrong) = (wrong.map (· + 1)).getD 0 := by
  unfold entered
  rw [asked_append, asked_wordsPrompt]
  cases wrong with
  | none => rfl
  | some n => exact (Nat.zero_add _).trans (asked_decryption n)

/-- Two runs of recover that end well look the same if as many passwords are typed, whatever the phrases, seeds, keys
and passwords are, wherever the phrases have their words from, and at whatever time. -/
theorem c97_recover_alike (F F' : Fmt) (L L' : WordList) (C C' : Crypto) (env env' : Env) (opts : RecoverOptions)
    (henv : env.rawError = env'.rawError) (prompts prompts' : List (Res Bytes)) (rnd rnd' : Bytes)
    (hok : (recoverAndPrintKeyV F L C env opts false ⟨prompts, rnd, []⟩).1 = .ok ())
    (hok' : (recoverAndPrintKeyV F' L' C' env' opts false ⟨prompts', rnd', []⟩).1 = .ok ())
    (hcount : asked (recoverAndPrintKeyV F L C env opts false ⟨prompts, rnd, []⟩).2.events =
      asked (recoverAndPrintKeyV F' L' C' env' opts false ⟨prompts', rnd', []⟩).2.events) :
    (recoverAndPrintKeyV F L C env opts false ⟨prompts, rnd, []⟩).2.events.filter seen =
      (recoverAndPrintKeyV F' L' C' env' opts false ⟨prompts', rnd', []⟩).2.events.filter seen := by
  have hseen : ∀ evs : List Ev, asked (evs.filter seen) = asked evs := by
    intro evs
    unfold asked
    rw [List.countP_filter]
    congr 1
    funext e
    cases e <;> simp [seen]
  obtain ⟨wrong, -, h⟩ := c97_recover F L C env opts prompts rnd
  obtain ⟨wrong', -, h'⟩ := c97_recover F' L' C' env' opts prompts' rnd'
  obtain ⟨h, -⟩ := h hok
  obtain ⟨h', -⟩ := h' hok'
  rw [← hseen, ← hseen (recoverAndPrintKeyV F' L' C' env' opts false ⟨prompts', rnd', []⟩).2.events, h, h'] at hcount
  rw [h, h', henv]
  unfold recovered at hcount ⊢
  rw [asked_append, asked_append, asked_append, asked_append, asked_entered, asked_entered] at hcount
  have : wrong = wrong' := by
    cases wrong <;> cases wrong' <;> simp only [Option.map_none, Option.map_some, Option.getD_none, Option.getD_some] at hcount
    · rfl
    · omega
    · omega
    · congr 1; omega
  rw [this]

/-- convert: the same, until it tries to save the new phrase or shows it -/
theorem c97_convert : ∃ texts : Nat → List Bytes → List Bytes, ∀ (L : WordList) (C : Crypto) (env : Env)
    (opts : ConvertOptions) (prompts : List (Res Bytes)) (rnd : Bytes),
    let r := decodeAndConvertPhraseV L C env opts false ⟨prompts, rnd, []⟩
    ∃ wrong, ∃ words : List Bytes,
      let t := beforePhrase opts env.rawError wrong ++
        if opts.input.inputWordFile ≠ [] then [] else .act (.showPhrase words) :: (texts env.columns words).map .err
      r.2.events.filter seen <+: t ∧ (r.1 = .ok () → r.2.events.filter seen = t ∧
        r.2.prompts = prompts.drop (asked (beforePhrase opts env.rawError wrong))) := by
  refine ⟨shownTexts, fun L C env opts prompts rnd => ?_⟩
  obtain ⟨t, s, ⟨wrong, u, hu, ht⟩, hs, hp, hok⟩ := plays_convert L C env opts ⟨prompts, rnd, []⟩
  rw [List.filter_nil, List.nil_append] at hs
  unfold ConvertEnd at hu
  by_cases hf : opts.input.inputWordFile = []
  · rw [if_neg (by simpa using hf)] at hu
    obtain ⟨words, rfl⟩ := hu
    subst ht
    refine ⟨wrong, words, ?_⟩
    dsimp only
    rw [hs, if_neg (by simpa using hf)]
    refine ⟨hp, fun h => ⟨(hok () h).1, ?_⟩⟩
    rw [(hok () h).2, asked_append]
    have h2 : asked (Ev.act (.showPhrase words) :: (shownTexts env.columns words).map .err) = 0 := by
      unfold asked; rw [List.countP_cons_of_neg (by simp)]; exact asked_errs _
    rw [h2]
    rfl
  · rw [if_pos hf] at hu
    subst hu
    subst ht
    obtain ⟨hno, hacts⟩ := c56_in_file L C env opts hf prompts rnd
    obtain ⟨h1, h2⟩ := refines_convert L C env opts false ⟨prompts, rnd, []⟩
    refine ⟨wrong, [], ?_⟩
    dsimp only
    rw [hs, if_pos hf, List.append_nil]
    refine ⟨?_, fun h => ?_⟩
    · rcases List.prefix_concat_iff.1 hp with h | h
      · exfalso
        have hm : Ev.act (.openTrunc opts.input.inputWordFile 0o600) ∈
            (decodeAndConvertPhraseV L C env opts false ⟨prompts, rnd, []⟩).2.events :=
          (List.mem_filter.1 (by rw [hs, h]; simp)).1
        have : Act.openTrunc opts.input.inputWordFile 0o600 ∈
            (decodeAndConvertPhraseV L C env opts false ⟨prompts, rnd, []⟩).2.events.filterMap actOf :=
          List.mem_filterMap.2 ⟨_, hm, rfl⟩
        have e : (decodeAndConvertPhraseV L C env opts false ⟨prompts, rnd, []⟩).2.events.filterMap actOf = [] :=
          (congrArg St.acts h2).trans hacts
        rw [e] at this
        exact absurd this (by simp)
      · exact h
    · exact absurd (h1.symm.trans h) hno

/-! ## Examples -/

/-- generate with both passwords and a word file, in full; and what is seen of it when the second password is not
typed. -/
example :
    let opts : GenerateOptions := { optsOf { sampleFlags with encryptKeys := true } (str "new") with unsafeEntropy := str "-" }
    generateSaved opts = [
      .err (str ("\x1b[31m\x1b[1mWARNING:\x1b[22m The -unsafe-entropy option is dangerous and can produce weak PGP keys " ++
        "if used incorrectly.\x1b[39m\n")),
      .password (str "Enter key encryption password: ") true, .password (str "Enter phrase encryption password: ") true,
      .act (.openTrunc (str "new") 0o600), .err (str "\x1b[35m"), .err (str "\x1b[39m")] ∧
    asked (generateSaved opts) = 2 :=
  ⟨rfl, rfl⟩

/-- A run of generate with a word file -/
def savedRun (rnd password : Bytes) : Outcome Unit × StV :=
  generateAndPrintKeyV ⟨id, fun _ => []⟩ toyWordList toyCrypto sampleEnv (optsOf sampleFlags (str "new")) false
    ⟨[.ok password], rnd, []⟩

set_option maxRecDepth 100000 in
/-- Two such runs, with other random bytes, hence another seed and other words, and another password -/
example : (savedRun sampleRandom (str "pw")).1 = .ok () ∧ (savedRun (List.replicate 40 8) (str "other")).1 = .ok () ∧
    (savedRun sampleRandom (str "pw")).2.events ≠ (savedRun (List.replicate 40 8) (str "other")).2.events ∧
    (savedRun sampleRandom (str "pw")).2.events.filter seen =
      (savedRun (List.replicate 40 8) (str "other")).2.events.filter seen := by
  decide +kernel

set_option maxRecDepth 100000 in
/-- recover and convert -/
example : let env := envWith id
    (recoverAndPrintKeyV ⟨id, fun _ => []⟩ toyWordList toyCrypto env (recoverOld []) false ⟨[], [], []⟩).1 = .ok () ∧
    (recoverAndPrintKeyV ⟨id, fun _ => []⟩ toyWordList toyCrypto env (recoverOld []) false
      ⟨[], [], []⟩).2.events.filter seen = coloured ∧
    (decodeAndConvertPhraseV toyWordList toyCrypto env ⟨⟨false, str "old"⟩, [], true⟩ false
      ⟨[.ok (str "pw")], sampleRandom, []⟩).2.events.filter seen =
        [.password (str "Enter phrase encryption password: ") true] := by
  decide +kernel

end Verif.Props
