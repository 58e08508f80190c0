import Verif.Proofs.Failure
import Verif.Props.ExitStatus

/-!
# Commands never crash, and every failure has its cause (C81)

`Verif.Spec.Failure` lists the causes. The hypothesis on the prompts is what a call of userInputPassword can
return (C53): a password of at least one character, or one of three errors.
-/

namespace Verif.Props

open Verif.Model Verif.Model.Cli Verif.Proofs Verif.Spec Verif.Instances

theorem ends_of_run {α : Type} {x : Prog α} {prompts : List (Res Bytes)} {rnd : Bytes} {E : Err → Prop}
    {P D : Prop} {Q : α → St → Prop} (h : Run x ⟨prompts, rnd, []⟩ E P D Q) :
    (∀ e, x.outcome prompts rnd = .err e → E e) ∧ (∀ p, x.outcome prompts rnd = .panic p → P) ∧
      (x.outcome prompts rnd = .loops → D) ∧ (∀ a, x.outcome prompts rnd = .ok a → ∃ st, Q a st) := by
  unfold Run at h
  unfold Prog.outcome
  rcases hx : x ⟨prompts, rnd, []⟩ with ⟨o, st⟩
  rw [hx] at h
  dsimp only at h ⊢
  refine ⟨?_, ?_, ?_, ?_⟩
  · rintro e rfl; exact h
  · rintro p rfl; exact h
  · rintro rfl; exact h
  · rintro a rfl; exact ⟨st, h⟩

/-- generate: each error has its cause; it panics or runs for ever only when a phrase is to be shown on a
terminal of less than 17 columns. -/
theorem c81_generate {L : WordList} (hL : L.Lawful) {C : Crypto} (hC : C.Lawful) (env : Env)
    (opts : GenerateOptions) (prompts : List (Res Bytes)) (hps : ∀ r ∈ prompts, PromptResult r)
    (rnd : Bytes) :
    let o := (generateAndPrintKey L C env opts).outcome prompts rnd
    (∀ e, o = .err e → GenerateFails env opts prompts rnd e) ∧
    (∀ p, o = .panic p → opts.outputWordFile = [] ∧ env.columns < 2) ∧
    (o = .loops → opts.outputWordFile = [] ∧ 2 ≤ env.columns ∧ env.columns < 17) := by
  obtain ⟨h1, h2, h3, -⟩ := ends_of_run (runs_generate hL hC env opts prompts rnd [] hps)
  exact ⟨h1, h2, h3⟩

/-- recover: each error has its cause; it never panics and never runs for ever. -/
theorem c81_recover {L : WordList} (hL : L.Lawful) {C : Crypto} (hC : C.Lawful) (env : Env)
    (opts : RecoverOptions) (prompts : List (Res Bytes)) (hps : ∀ r ∈ prompts, PromptResult r)
    (rnd : Bytes) :
    let o := (recoverAndPrintKey L C env opts).outcome prompts rnd
    (∀ e, o = .err e → RecoverFails L (offer L) env opts prompts rnd e) ∧
    (∀ p, o ≠ .panic p) ∧ o ≠ .loops := by
  obtain ⟨h1, h2, h3, -⟩ := ends_of_run (runs_recover hL hC env opts prompts rnd [] hps)
  exact ⟨h1, h2, h3⟩

/-- convert: each error has its cause; it panics or runs for ever only when a phrase is to be shown on a
terminal of less than 17 columns; it succeeds only without a word file. -/
theorem c81_convert {L : WordList} (hL : L.Lawful) {C : Crypto} (hC : C.Lawful) (env : Env)
    (opts : ConvertOptions) (prompts : List (Res Bytes)) (hps : ∀ r ∈ prompts, PromptResult r)
    (rnd : Bytes) :
    let o := (decodeAndConvertPhrase L C env opts).outcome prompts rnd
    (∀ e, o = .err e → ConvertFails L (offer L) env opts prompts rnd e) ∧
    (∀ p, o = .panic p → opts.input.inputWordFile = [] ∧ env.columns < 2) ∧
    (o = .loops → opts.input.inputWordFile = [] ∧ 2 ≤ env.columns ∧ env.columns < 17) ∧
    (o = .ok () → opts.input.inputWordFile = []) := by
  obtain ⟨h1, h2, h3, h4⟩ := ends_of_run (runs_convert hL hC env opts prompts rnd [] hps)
  refine ⟨h1, h2, h3, fun h => ?_⟩
  obtain ⟨st, h⟩ := h4 () h
  exact h

/-- On a terminal of 42 columns the process exits with status 0, 1 or 2 or waits at a password prompt; status
2 means exactly that the command line is malformed, never a crash. -/
theorem c81_status {L : WordList} (hL : L.Lawful) {C : Crypto} (hC : C.Lawful) (env : Env)
    (hw : 42 ≤ env.columns) (args : List Bytes) (prompts : List (Res Bytes))
    (hps : ∀ r ∈ prompts, PromptResult r) (rnd : Bytes) :
    let status := (main L C env args ⟨prompts, rnd, []⟩).2.1
    (status = .exited 0 ∨ status = .exited 1 ∨ status = .exited 2 ∨ status = .waits) ∧
    (status = .exited 2 ↔ ∃ cmd, Means args (.usage cmd 2)) := by
  have hsh : ∀ cmd code st', shown env cmd code st' = ([cmd], .exited code, st') := by
    intro cmd code st'
    unfold shown
    rw [if_pos]
    cases cmd <;> simp only [columnsNeeded] <;> omega
  have hprog : ∀ cmd settings, (∀ p, (program L C env settings cmd ⟨prompts, rnd, []⟩).1 ≠ .panic p) ∧
      (program L C env settings cmd ⟨prompts, rnd, []⟩).1 ≠ .loops := by
    intro cmd settings
    cases cmd with
    | root => exact ⟨fun p h => (by cases h), fun h => (by cases h)⟩
    | generate =>
      obtain ⟨-, h1, h2⟩ := c81_generate hL hC env (generateOptions settings) prompts hps rnd
      exact ⟨fun p h => by have := h1 p h; omega, fun h => by have := h2 h; omega⟩
    | recover =>
      obtain ⟨-, h1, h2⟩ := c81_recover hL hC env (recoverOptions settings) prompts hps rnd
      exact ⟨h1, h2⟩
    | convert =>
      obtain ⟨-, h1, h2, -⟩ := c81_convert hL hC env (convertOptions settings) prompts hps rnd
      exact ⟨fun p h => by have := h1 p h; omega, fun h => by have := h2 h; omega⟩
  have hcode : ∀ r, Means args r → ∀ cmd code, r = .usage cmd code → code = 0 ∨ code = 1 ∨ code = 2 := by
    intro r hr cmd code h
    subst h
    cases hr with
    | help => simp
    | helpFlag _ => simp
    | malformed _ => simp
    | positional _ _ ha => cases ha <;> simp
  have key : ∀ r, Means args r →
      ((main L C env args ⟨prompts, rnd, []⟩).2.1 = .exited 0 ∨
        (main L C env args ⟨prompts, rnd, []⟩).2.1 = .exited 1 ∨
        (main L C env args ⟨prompts, rnd, []⟩).2.1 = .exited 2 ∨
        (main L C env args ⟨prompts, rnd, []⟩).2.1 = .waits) ∧
      ((main L C env args ⟨prompts, rnd, []⟩).2.1 = .exited 2 ↔ ∃ cmd, r = .usage cmd 2) := by
    intro r hr
    rw [c58_status L C env _ args r hr]
    cases r with
    | nothing => simp [answer]
    | usage cmd code =>
      simp only [answer, hsh]
      rcases hcode _ hr cmd code rfl with rfl | rfl | rfl <;> simp
    | run cmd settings =>
      obtain ⟨h1, h2⟩ := hprog cmd settings
      simp only [answer, hsh]
      generalize program L C env settings cmd ⟨prompts, rnd, []⟩ = p at h1 h2
      obtain ⟨o, st'⟩ := p
      cases o with
      | ok _ => simp
      | err e => cases e <;> simp
      | panic p => exact absurd rfl (h1 p)
      | waits _ => simp
      | loops => exact absurd rfl h2
  obtain ⟨r, hr⟩ := c58_total args
  refine ⟨(key r hr).1, (key r hr).2.trans ⟨?_, ?_⟩⟩
  · rintro ⟨cmd, rfl⟩
    exact ⟨cmd, hr⟩
  · rintro ⟨cmd, h⟩
    exact (key r hr).2.1 ((key _ h).2.2 ⟨cmd, rfl⟩)

/-! Examples -/

def promptsOf : List (Res Bytes) := [.ok (str "pw"), .err .aborted]

theorem promptsOf_ok : ∀ r ∈ promptsOf, PromptResult r := by
  intro r hr
  simp only [promptsOf, List.mem_cons, List.not_mem_nil, or_false] at hr
  rcases hr with rfl | rfl
  · exact .password (by decide)
  · exact .failed (by simp)

def optsOf (f : KeyFlags) (file : Bytes) : GenerateOptions :=
  { key := f, outputWordFile := file, encryptPhrase := true, unsafeEntropy := [] }

/-- Six ways for generate to fail: the clock of 1970, the second prompt aborted, too little randomness, a
negative time to live, an existing word file, a word for `-only` that is not known. -/
example :
    let fails env f file rnd e :=
      (generateAndPrintKey toyWordList toyCrypto env (optsOf f file)).outcome promptsOf rnd = .err e ∧
      GenerateFails env (optsOf f file) promptsOf rnd e
    fails { sampleEnv with now := 5 } sampleFlags [] sampleRandom .creationTooEarly ∧
    fails sampleEnv { sampleFlags with encryptKeys := true } [] (sampleRandom ++ sampleRandom ++ sampleRandom)
      .aborted ∧
    fails sampleEnv sampleFlags [] (sampleRandom.take 18) .randomRead ∧
    fails sampleEnv { sampleFlags with ttl := str "106752d" } [] sampleRandom .ttlInvalid ∧
    fails sampleEnv sampleFlags (str "old") sampleRandom .fileExists ∧
    fails sampleEnv { sampleFlags with only := str "master,key" } [] sampleRandom .badOnlyElement := by
  have all : ∀ env f file rnd e,
      (generateAndPrintKey toyWordList toyCrypto env (optsOf f file)).outcome promptsOf rnd = .err e →
      (generateAndPrintKey toyWordList toyCrypto env (optsOf f file)).outcome promptsOf rnd = .err e ∧
      GenerateFails env (optsOf f file) promptsOf rnd e := fun env f file rnd e h =>
    ⟨h, (c81_generate toyWordList_lawful toyCrypto_lawful env _ promptsOf promptsOf_ok rnd).1 e h⟩
  exact ⟨all _ _ _ _ _ (by decide +kernel), all _ _ _ _ _ (by decide +kernel),
    all _ _ _ _ _ (by decide +kernel), all _ _ _ _ _ (by decide +kernel),
    all _ _ _ _ _ (by decide +kernel), all _ _ _ _ _ (by decide +kernel)⟩

/-- The content of the word file that the sample run of generate leaves -/
def sampleWordFile : Bytes := ((afterGenerate (str "new") false []).fs.read (str "new")).getD []

/-- An environment with that one file, changed by `f` word by word -/
def envWith (f : List Bytes → List Bytes) : Env :=
  { sampleEnv with fs := { dir := fun p => if p = str "old" then some 0 else none
                           data := fun _ => List.intercalate [0x20] (f (scanWords sampleWordFile))
                           next := 1 } }

def recoverOld (ttl : Bytes) : RecoverOptions :=
  { key := { sampleFlags with ttl := ttl }, input := ⟨false, str "old"⟩, selfCert := true
    encIndex := 0, authIndex := 0, sigIndex := 0 }

/-- The last word replaced by the first, a word left out, a word misspelt, an empty file, a negative time to
live: recover fails each time for its own reason. Nothing changed, it succeeds. -/
example :
    let fails env ttl e :=
      (recoverAndPrintKey toyWordList toyCrypto env (recoverOld ttl)).outcome promptsOf [] = .err e ∧
      RecoverFails toyWordList (offer toyWordList) env (recoverOld ttl) promptsOf [] e
    fails (envWith fun ws => ws.take 13 ++ ws.take 1) [] .invalidChecksum ∧
    fails (envWith fun ws => ws.take 13) [] .fileWordCount ∧
    fails (envWith fun ws => ws.take 13 ++ [str "?"]) [] .fileBadWord ∧
    fails (envWith fun _ => []) [] .fileNoWords ∧
    fails (envWith id) (str "106752d") .ttlInvalid ∧
    (recoverAndPrintKey toyWordList toyCrypto (envWith id) (recoverOld [])).outcome promptsOf [] = .ok () := by
  have all : ∀ env ttl e,
      (recoverAndPrintKey toyWordList toyCrypto env (recoverOld ttl)).outcome promptsOf [] = .err e →
      (recoverAndPrintKey toyWordList toyCrypto env (recoverOld ttl)).outcome promptsOf [] = .err e ∧
      RecoverFails toyWordList (offer toyWordList) env (recoverOld ttl) promptsOf [] e := fun env ttl e h =>
    ⟨h, (c81_recover toyWordList_lawful toyCrypto_lawful env _ promptsOf promptsOf_ok []).1 e h⟩
  exact ⟨all _ _ _ (by decide +kernel), all _ _ _ (by decide +kernel), all _ _ _ (by decide +kernel),
    all _ _ _ (by decide +kernel), all _ _ _ (by decide +kernel), by decide +kernel⟩

/-- convert: the file it has read may not be overwritten; the second prompt, for the new password, is not
answered with one. -/
example :
    let o : ConvertOptions := { input := ⟨false, str "old"⟩, outputWordFile := [], encryptPhrase := true }
    let fails prompts rnd e :=
      (decodeAndConvertPhrase toyWordList toyCrypto (envWith id) o).outcome prompts rnd = .err e ∧
      ConvertFails toyWordList (offer toyWordList) (envWith id) o prompts rnd e
    fails promptsOf sampleRandom .fileExists ∧ fails promptsOf [1, 2] .randomRead ∧
    fails promptsOf.tail sampleRandom .aborted := by
  intro o
  have all : ∀ prompts rnd e, (∀ r ∈ prompts, PromptResult r) →
      (decodeAndConvertPhrase toyWordList toyCrypto (envWith id) o).outcome prompts rnd = .err e →
      (decodeAndConvertPhrase toyWordList toyCrypto (envWith id) o).outcome prompts rnd = .err e ∧
      ConvertFails toyWordList (offer toyWordList) (envWith id) o prompts rnd e := fun prompts rnd e hp h =>
    ⟨h, (c81_convert toyWordList_lawful toyCrypto_lawful (envWith id) o prompts hp rnd).1 e h⟩
  exact ⟨all _ _ _ promptsOf_ok (by decide +kernel), all _ _ _ promptsOf_ok (by decide +kernel),
    all _ _ _ (fun r hr => promptsOf_ok r (List.mem_of_mem_tail hr)) (by decide +kernel)⟩

/-- Status 2 from an option that does not exist. -/
example : (main toyWordList toyCrypto sampleEnv [str "generate", str "-no"] ⟨promptsOf, [], []⟩).2.1 =
      .exited 2 ∧ ∃ cmd, Means [str "generate", str "-no"] (.usage cmd 2) :=
  have h : (main toyWordList toyCrypto sampleEnv [str "generate", str "-no"] ⟨promptsOf, [], []⟩).2.1 =
      .exited 2 := by decide +kernel
  ⟨h, (c81_status toyWordList_lawful toyCrypto_lawful sampleEnv (by decide) _ promptsOf promptsOf_ok
    []).2.1 h⟩

end Verif.Props
