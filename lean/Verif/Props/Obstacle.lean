import Verif.Proofs.ObstacleInput
import Verif.Props.Messages

/-!
# The first obstacle decides how a command ends (C93)

`Verif.Spec.Obstacle` lists the obstacles of each command in the order in which it meets them. The hypothesis on
the prompts is what a call of userInputPassword can return (C53): a password of at least one character, or an error.
-/

namespace Verif.Props

open Verif.Model Verif.Model.Cli Verif.Proofs Verif.Spec Verif.Instances

theorem c93_generate (F : Fmt) (os : OsText) {L : WordList} (hL : L.Lawful) {C : Crypto} (hC : C.Lawful) (env : Env)
    (opts : GenerateOptions) (prompts : List (ResE Bytes)) (hps : ∀ r ∈ prompts, PromptAnswer r) (rnd : Bytes)
    (o : OutcomeE Unit) :
    (generateAndPrintKeyE F os L C env opts ⟨prompts, rnd, []⟩).1 = o ↔
      GenerateEnds F.quote os env opts prompts rnd o := by
  unfold GenerateEnds generateAndPrintKeyE
  refine ends_duration fun ttl ht => ends_only fun part m subkeys hp hm hsel => ends_entropy fun e left he => ?_
  have hs := seed_new e he
  refine ends_made hC hs ht fun mnk hn => ends_password hps fun p rest hb hrest =>
    ends_packed hC hs hn hm (hsel _ rfl) true hb fun key left => ?_
  obtain ⟨hplain, henc⟩ := makes_phrase hL hC hs hn
  exact ends_worded hplain henc hrest fun ws st' => ends_generated

theorem c93_recover (F : Fmt) (os : OsText) {L : WordList} (hL : L.Lawful) {C : Crypto} (hC : C.Lawful) (env : Env)
    (opts : RecoverOptions) (prompts : List (ResE Bytes)) (hps : ∀ r ∈ prompts, PromptAnswer r) (rnd : Bytes)
    (o : OutcomeE Unit) :
    (recoverAndPrintKeyE F os L C env opts ⟨prompts, rnd, []⟩).1 = o ↔
      RecoverEnds F.quote os L (offer L) (indexOf L) C.toPhraseCrypto env opts prompts rnd o := by
  have inTime : ∀ dm : DecodedMnemonic, dm.creationOffset < 2 ^ 31 → 1672531200 * 10 ^ 9 ≤ dm.creation ∧
      dm.creation ≤ (1672531200 + (2 ^ 31 - 1)) * 10 ^ 9 := by
    intro dm hd
    rw [creation_eq dm (1672531200 + dm.creationOffset) (by omega) (by omega) (by omega)]
    omega
  unfold RecoverEnds recoverAndPrintKeyE decodeMnemonicFromInputE
  refine ends_duration fun ttl ht => ends_indices fun _ _ _ => ends_only fun part m subkeys hp hm hsel => ?_
  dsimp only
  rw [bindE_assoc]
  refine ends_entered hL fun ws hw => ends_unlocked hL hC hps fun n dm rest hn ho hrest => ?_
  have hs : newSeed 0 (n : Int) = .ok ⟨0, n⟩ := (newSeed_ok_iff _ _ _).2 ⟨rfl, by simpa using hn, rfl⟩
  refine ends_remade hC hs ht (inTime dm ho) fun mnk hnew => ends_password hrest fun p rest' hb _ =>
    ends_packed hC hs hnew hm (hsel _ rfl) _ hb fun key left => ?_
  exact eq_comm

theorem c93_convert (os : OsText) {L : WordList} (hL : L.Lawful) {C : Crypto} (hC : C.Lawful) (env : Env)
    (opts : ConvertOptions) (prompts : List (ResE Bytes)) (hps : ∀ r ∈ prompts, PromptAnswer r) (rnd : Bytes)
    (o : OutcomeE Unit) :
    (decodeAndConvertPhraseE os L C env opts ⟨prompts, rnd, []⟩).1 = o ↔
      ConvertEnds os L (offer L) (indexOf L) C.toPhraseCrypto env opts prompts rnd o := by
  unfold ConvertEnds decodeAndConvertPhraseE decodeMnemonicFromInputE
  rw [bindE_assoc]
  refine ends_entered hL fun ws hw => ends_unlocked hL hC hps fun n dm rest hn ho hrest => ?_
  have hs : newSeed 0 (n : Int) = .ok ⟨0, n⟩ := (newSeed_ok_iff _ _ _).2 ⟨rfl, by simpa using hn, rfl⟩
  obtain ⟨ws, -, hplain, -⟩ := c01_plaintext_round_trip hL 0 n (by omega) ⟨0, n⟩ hs _ ho
  refine ends_worded ⟨ws, hplain⟩ (fun pw hpw => takes_encrypted hC n _ hn ho pw hpw) hrest fun ws st' => ?_
  split
  · exact ends_displayed
  · exact ends_saved

theorem reported_run (F : Fmt) (os : OsText) (L : WordList) (C : Crypto) (env : Env) (args : List Bytes) (cmd : Cmd)
    (settings : List (Bytes × FlagValue)) (h : Means args (.run cmd settings)) (st : StE) :
    Reported env.columns (columnsNeeded cmd) (programE F os L C env settings cmd st).1
      (mainE F os L C env args st).2.1 (mainE F os L C env args st).2.2.1 := by
  cases h with
  | positional hh hc ha =>
    cases ha with
    | @run name _ rest positional _ hn hh' hp =>
      have e1 := (c63_accepted .root args [] _).2 hc
      have e2 := (c63_accepted cmd rest settings positional).2 hp
      have e3 := (subcommands_iff name cmd).2 hn
      unfold mainE runCommandE
      rw [if_neg hh, e1]
      dsimp only [rootExecuteE]
      rw [if_neg (named_ne_help hn), e3]
      dsimp only [runSubE]
      unfold runCommandE
      rw [if_neg hh', e2]
      dsimp only
      generalize programE F os L C env settings cmd st = r
      obtain ⟨o, st'⟩ := r
      cases o with
      | ok u => exact .success
      | panic p => exact .panics
      | waits c => exact .waits
      | loops => exact .loops
      | err e =>
        obtain ⟨k, t⟩ := e
        have hu : ∀ k, isUsageErr k = true ↔ k = .badDuration ∨ k = .badOnlyElement := by
          intro k; cases k <;> simp [isUsageErr]
        by_cases hk : isUsageErr k = true
        · simp only [execEndsE, hk, if_true, printUsageE_eq]
          by_cases hw : columnsNeeded cmd ≤ env.columns
          · simp only [hw, if_true]
            exact .usage ((hu k).1 hk) hw
          · simp only [hw, if_false]
            exact .narrow ((hu k).1 hk) (by omega)
        · simp only [execEndsE, hk]
          rw [hu, not_or] at hk
          exact .error hk.1 hk.2

/-- The process that runs a command reports the first obstacle of the command. -/
theorem c93_process (F : Fmt) (os : OsText) {L : WordList} (hL : L.Lawful) {C : Crypto} (hC : C.Lawful) (env : Env)
    (args : List Bytes) (cmd : Cmd) (settings : List (Bytes × FlagValue)) (h : Means args (.run cmd settings))
    (prompts : List (ResE Bytes)) (hps : ∀ r ∈ prompts, PromptAnswer r) (rnd : Bytes) :
    let r := mainE F os L C env args ⟨prompts, rnd, []⟩
    ∃ o, Reported env.columns (columnsNeeded cmd) o r.2.1 r.2.2.1 ∧
      (cmd = .generate → ∀ o', GenerateEnds F.quote os env (generateOptions settings) prompts rnd o' ↔ o' = o) ∧
      (cmd = .recover → ∀ o', RecoverEnds F.quote os L (offer L) (indexOf L) C.toPhraseCrypto env (recoverOptions settings)
        prompts rnd o' ↔ o' = o) ∧
      (cmd = .convert → ∀ o', ConvertEnds os L (offer L) (indexOf L) C.toPhraseCrypto env (convertOptions settings)
        prompts rnd o' ↔ o' = o) := by
  refine ⟨_, reported_run F os L C env args cmd settings h _, ?_, ?_, ?_⟩
  · rintro rfl o'
    rw [← c93_generate F os hL hC env _ prompts hps rnd o']
    exact eq_comm
  · rintro rfl o'
    rw [← c93_recover F os hL hC env _ prompts hps rnd o']
    exact eq_comm
  · rintro rfl o'
    rw [← c93_convert os hL hC env _ prompts hps rnd o']
    exact eq_comm

/-! ## Examples -/

/-- A whole key under a password, with 74 random bytes, whatever they are: 16 go into the seed, 24 into the master
key, 24 into the encryption subkey, and of the 10 left 8 are the salt of the authentication subkey, whose IV is
missing. The name of the file for the words is taken, but that comes later. -/
theorem short_random (rnd : Bytes) (hr : rnd.length = 74) :
    GenerateEnds roughFmt.quote sampleOs (envWith id)
      { key := { sampleFlags with ttl := [], encryptKeys := true }, outputWordFile := str "old"
        encryptPhrase := true, unsafeEntropy := [] } saidPrompts rnd
      (fails .randomRead
        (str "failed to encode authentication subkey packet: failed to read random IV: no random bytes")) := by
  have hl : (rnd.drop 16).length = 24 + (24 + 10) := by rw [List.length_drop, hr]
  refine .good (.inl rfl) (.good .all (.good (seed := rnd.take 16) (left := rnd.drop 16)
    (.system (by rw [List.length_take, hr]; rfl) (List.take_append_drop 16 rnd).symm)
    (.good (.inl rfl) (by decide +kernel) (by decide +kernel) (.typed rfl rfl (.random rfl ?_)))))
  rw [hl]
  exact .later trivial (.later trivial (.iv trivial (by decide) (by decide)))

example (rnd : Bytes) (hr : rnd.length = 74) :
    (generateAndPrintKeyE roughFmt sampleOs toyWordList toyCrypto (envWith id)
      { key := { sampleFlags with ttl := [], encryptKeys := true }, outputWordFile := str "old"
        encryptPhrase := true, unsafeEntropy := [] } ⟨saidPrompts, rnd, []⟩).1 = .err ⟨.randomRead,
      str "failed to encode authentication subkey packet: failed to read random IV: no random bytes"⟩ :=
  (c93_generate roughFmt sampleOs toyWordList_lawful toyCrypto_lawful _ _ _ saidPrompts_ok rnd _).2
    (short_random rnd hr)

/-- An index that is too large, an unknown part and a file that is not there: recover names the index. With a good
index it names the part, and with a good part what the system says of the file. -/
example (rnd : Bytes) :
    let ends (index : Nat) (only text : String) := ∃ k,
      (recoverAndPrintKeyE roughFmt sampleOs toyWordList toyCrypto (envWith id)
        { key := { sampleFlags with ttl := [], only := str only }, input := ⟨false, str "new"⟩, selfCert := true
          encIndex := 0, authIndex := index, sigIndex := 0 } ⟨saidPrompts, rnd, []⟩).1 = .err ⟨k, str text⟩
    ends 65536 "master,x" "invalid subkey index; must be less than or equal to 65535" ∧
    ends 65535 "master,x" "incorrect usage: unknown -only list element \"x\"" ∧
    ends 65535 "" "open old: permission denied" := by
  have iff := fun index only => c93_recover roughFmt sampleOs toyWordList_lawful toyCrypto_lawful (envWith id)
    { key := { sampleFlags with ttl := [], only := only }, input := ⟨false, str "new"⟩, selfCert := true
      encIndex := 0, authIndex := index, sigIndex := 0 } saidPrompts saidPrompts_ok rnd
  refine ⟨⟨.badSubkeyIndex, (iff _ _ _).2 (.good (.inl rfl) (.large (by decide)))⟩,
    ⟨.badOnlyElement, (iff _ _ _).2 (.good (.inl rfl) (.good (by decide) (by decide) (by decide)
      (.bad (known := [str "master"]) (e := str "x") (rest := []) (by decide)
        ⟨by decide, by decide, by decide⟩ (by decide) (by decide))))⟩,
    ⟨.fileOpen, (iff _ _ _).2 (.good (.inl rfl) (.good (by decide) (by decide) (by decide)
      (.good .all (.noFile (by decide) (by decide)))))⟩⟩

/-- convert, of a file whose third word is not in the list -/
example : ConvertEnds sampleOs toyWordList (offer toyWordList) (indexOf toyWordList) toyCrypto.toPhraseCrypto
    (envWith fun ws => ws.take 2 ++ [str "?"] ++ ws.drop 3) ⟨⟨false, str "old"⟩, [], true⟩ saidPrompts []
    (fails .fileBadWord (str "found word in old not present in wordlist")) :=
  (c93_convert sampleOs toyWordList_lawful toyCrypto_lawful _ _ _ saidPrompts_ok _ _).1 (by decide +kernel)

/-- The process: what it writes for 74 random bytes, whatever they are -/
example (rnd : Bytes) (hr : rnd.length = 74) :
    let r := mainE roughFmt sampleOs toyWordList toyCrypto (envWith id)
      [str "generate", str "-encrypt-keys", str "-encrypt-phrase", str "-out-word-file=old"] ⟨saidPrompts, rnd, []⟩
    r.2.1 = str
      "ERROR: failed to encode authentication subkey packet: failed to read random IV: no random bytes\n" ∧
    r.2.2.1 = .exited 1 := by
  have hm : Means [str "generate", str "-encrypt-keys", str "-encrypt-phrase", str "-out-word-file=old"]
      (.run .generate [(str "encrypt-keys", .bool true), (str "encrypt-phrase", .bool true),
        (str "out-word-file", .string (str "old"))]) :=
    .positional (by decide) (.positional _ ((classify_positional _).1 (by decide)))
      (.run (positional := []) .generate (by decide)
        ((c63_accepted .generate _ _ _).1 (by decide +kernel)))
  obtain ⟨o, ho, h, -⟩ := c93_process roughFmt sampleOs toyWordList_lawful toyCrypto_lawful (envWith id) _ _ _ hm
    saidPrompts saidPrompts_ok rnd
  have hl : (rnd.drop 16).length = 24 + (24 + 10) := by rw [List.length_drop, hr]
  obtain rfl := (h rfl (fails .randomRead
    (str "failed to encode authentication subkey packet: failed to read random IV: no random bytes"))).1 (by
    refine .good (.inl (by decide)) (.good .all (.good (seed := rnd.take 16) (left := rnd.drop 16)
      (.system (by rw [List.length_take, hr]; rfl) (List.take_append_drop 16 rnd).symm)
      (.good (.inl (by decide)) (by decide +kernel) (by decide +kernel)
        (.typed (by decide) rfl (.random (by decide) ?_)))))
    rw [hl]
    exact .later trivial (.later trivial (.iv trivial (by decide) (by decide))))
  dsimp only
  generalize (mainE roughFmt sampleOs toyWordList toyCrypto (envWith id)
      [str "generate", str "-encrypt-keys", str "-encrypt-phrase", str "-out-word-file=old"]
      ⟨saidPrompts, rnd, []⟩) = r at ho ⊢
  obtain ⟨out, err, status, st⟩ := r
  cases ho with
  | usage hk => rcases hk with hk | hk <;> cases hk
  | narrow hk => rcases hk with hk | hk <;> cases hk
  | error => exact ⟨(by decide +kernel : str "ERROR: " ++ str _ ++ str "\n" = str _), rfl⟩

end Verif.Props
