import Verif.Proofs.Renaming
import Verif.Props.Parallel

/-! # What is shown of a seed (C122) -/

namespace Verif.Props

open Verif.Model Verif.Model.Cli Verif.Spec Verif.Spec.OpenPGP Verif.Proofs Verif.Instances Verif.Armor

/-- The phrases that a command with these settings can be given are encrypted ones. -/
def OnlyEncrypted (L : WordList) (env : Env) (settings : List (Bytes × Value)) : Prop :=
  ∀ words seed offset, Gets L (offer L) env ⟨switchedOn settings "simple" false, text settings "in-word-file" []⟩ words →
    readPhrase (indexOf L) words ≠ .ok (.plaintext seed offset)

theorem onlyEncrypted_locked {L : WordList} (hL : L.Lawful) {env : Env} {settings : List (Bytes × Value)}
    (h : OnlyEncrypted L env settings) :
    Locked L env ⟨switchedOn settings "simple" false, text settings "in-word-file" []⟩ := by
  intro words dm h1 h2
  obtain ⟨c, -, rfl, -, hr⟩ := decode_ok_words hL h2
  cases c with
  | plaintext s o => exact absurd hr (h words s o ((gets_iff hL).1 h1))
  | encrypted e s v o => rfl

/-- Renamed primitives keep the contracts, and renaming back gives the primitives themselves. -/
theorem c122_back (π : Renaming) {C : Crypto} (hC : C.Lawful) :
    (renamed π C).Lawful ∧ renamed π.back (renamed π C) = C := by
  refine ⟨renamed_lawful π hC, ?_⟩
  obtain ⟨⟨a, e, d⟩, _⟩ := C
  have h1 : (fun p s t m th n => if n = 32 then (if n = 32 then a (π.back.perm (π.back.back.perm p)) s t m th n
      else a (π.back.back.perm p) s t m th n) else if n = 32 then a (π.back.perm p) s t m th n else a p s t m th n) = a := by
    funext p s t m th n
    by_cases hn : n = 32
    · rw [if_pos hn, if_pos hn]
      rw [show π.back.perm (π.back.back.perm p) = p from π.perm.symm_apply_apply p]
    · rw [if_neg hn, if_neg hn]
  have h2 : (fun k b => e k (π.back.perm (π.back.back.perm b))) = e := by
    funext k b
    rw [show π.back.perm (π.back.back.perm b) = b from π.perm.symm_apply_apply b]
  have h3 : (fun k b => π.back.perm (π.perm (d k b))) = d := by
    funext k b
    exact π.perm.symm_apply_apply _
  show Crypto.mk ⟨_, _, _⟩ .. = _
  congr 2

/-- Runs that are given encrypted phrases, and print no plaintext one, are the same with renamed primitives: everything
written and done, and the exit status. -/
theorem c122_run (π : Renaming) {L : WordList} (hL : L.Lawful) {C : Crypto} (hC : C.Lawful) (F : Fmt) (os : OsText)
    (env : Env) (args : List Bytes)
    (h : ∀ cmd s, Means args (.run cmd s) → cmd ≠ .generate ∧ OnlyEncrypted L env (settingsOf s) ∧
      (cmd = .convert → switchedOn (settingsOf s) "encrypt-phrase" false = true))
    (prompts : List (ResE Bytes)) (rnd : Bytes) (st : St) :
    mainV F os L (renamed π C) env args prompts rnd = mainV F os L C env args prompts rnd ∧
      main L (renamed π C) env args st = main L C env args st := by
  refine process_congr (fun cmd s hm => ?_) prompts rnd st
  obtain ⟨hg, ho, hc⟩ := h cmd s hm
  have hl := onlyEncrypted_locked hL ho
  obtain ⟨rest, positional, hcl⟩ := means_settings hm
  cases cmd with
  | root => exact ⟨rfl, rfl, rfl⟩
  | generate => exact absurd rfl hg
  | recover =>
    have hl : Locked L env (recoverOptions s).input := by rw [c63_recover _ _ _ hcl]; exact hl
    exact ⟨recover_renamed π hC _ hl, recoverV_renamed π hC F _ hl _, recoverE_renamed π hC F os _ hl⟩
  | convert =>
    have hl : Locked L env (convertOptions s).input := by rw [c63_convert _ _ _ hcl]; exact hl
    have he : (convertOptions s).encryptPhrase = true := by rw [c63_convert _ _ _ hcl]; exact hc rfl
    exact ⟨convert_renamed π hC _ hl he, convertV_renamed π hC _ hl he _, convertE_renamed π hC os _ hl he⟩

/-- Processes whose subcommands write and return the same write the same and end with the same status. -/
theorem process_same {F : Fmt} {os : OsText} {L : WordList} {C C' : Crypto} {env env' : Env} {args : List Bytes}
    {prompts prompts' : List (ResE Bytes)} {rnd rnd' : Bytes} (hcol : env'.columns = env.columns)
    (h : ∀ cmd s, Means args (.run cmd s) →
      (programV F L C' env' s cmd ⟨prompts'.map ResE.plain, rnd', []⟩).2.events =
        (programV F L C env s cmd ⟨prompts.map ResE.plain, rnd, []⟩).2.events ∧
      (programE F os L C' env' s cmd ⟨prompts', rnd', []⟩).1 = (programE F os L C env s cmd ⟨prompts, rnd, []⟩).1) :
    mainV F os L C' env' args prompts' rnd' = mainV F os L C env args prompts rnd := by
  have : runCommandV F env'.columns .root (fun _ rest => rootExecuteV F os L C' env' prompts' rnd' rest) args =
      runCommandV F env.columns .root (fun _ rest => rootExecuteV F os L C env prompts rnd rest) args := by
    rw [hcol]
    refine runCommandV_congr F _ _ fun s r hne hp => ?_
    rw [parseArgsE_ok] at hp
    cases no_settings hp
    cases r with
    | nil => rfl
    | cons name rest =>
      unfold rootExecuteV
      dsimp only
      by_cases hn : name = str "help"
      · rw [if_pos hn, if_pos hn]
      · rw [if_neg hn, if_neg hn]
        cases hs : subcommands name with
        | none => rfl
        | some cmd =>
          dsimp only
          unfold runSubV
          rw [hcol]
          refine runCommandV_congr F _ _ fun s r hne' hp' => ?_
          rw [parseArgsE_ok] at hp'
          obtain ⟨h2, h3⟩ := h cmd s (.positional hne ((c63_accepted .root args [] _).1 hp)
            (.run ((subcommands_iff name cmd).1 hs) hne' ((c63_accepted cmd rest s r).1 hp')))
          show DoneV.mk _ _ = DoneV.mk _ _
          rw [h2, h3]
  unfold mainV
  rw [this]

/-- `generate` with `-encrypt-phrase`: with renamed primitives and a renamed seed from the system's random bytes,
everything written and done is the same, and the exit status. -/
theorem c122_generate (π : Renaming) {C : Crypto} (hC : C.Lawful) (F : Fmt) (os : OsText) (L : WordList)
    (env : Env) (args : List Bytes)
    (h : ∀ cmd s, Means args (.run cmd s) → cmd = .generate ∧ text (settingsOf s) "unsafe-entropy" [] = [] ∧
      switchedOn (settingsOf s) "encrypt-phrase" false = true)
    (prompts : List (ResE Bytes)) {e : Bytes} (he : e.length = 16) (rest : Bytes) :
    mainV F os L (renamed π C) env args prompts (π.perm e ++ rest) = mainV F os L C env args prompts (e ++ rest) := by
  refine process_same rfl fun cmd s hm => ?_
  obtain ⟨rfl, h1, h2⟩ := h cmd s hm
  obtain ⟨rest', positional, hcl⟩ := means_settings hm
  have ho := c63_generate _ _ _ hcl
  have e1 : (generateOptions s).encryptPhrase = true := by rw [ho]; exact h2
  have e2 : (generateOptions s).unsafeEntropy = [] := by rw [ho]; exact h1
  exact ⟨generateV_renamed π hC L env _ e1 e2 he rest F _ _ _, generateE_renamed π hC L env _ e1 e2 he rest F os _ _⟩

section
variable (π : Renaming) {C : Crypto} {L : WordList} (env : Env) (typed typed' : Bytes) (input : InputFlags)
  {words words' : List Bytes} {n n' offset : Nat}
  (h1 : inputWords L { env with stdin := typed } input = .ok words)
  (h2 : inputWords L { env with stdin := typed' } input = .ok words')
  (d1 : decodeMnemonic L words = .ok (decodedOf (.plaintext n offset)))
  (d2 : decodeMnemonic L words' = .ok (decodedOf (.plaintext n' offset)))
  (hn : n < 2 ^ 128) (hn' : n' < 2 ^ 128) (hr : rename π ⟨0, n⟩ = ⟨0, n'⟩)

/-- The same phrase for another seed -/
def other (r : Seed × DecodedMnemonic) : Seed × DecodedMnemonic := (rename π r.1, { r.2 with entropy := n' })

theorem loop_plain (C : Crypto) (hn : n < 2 ^ 128) (ps : List (Res Bytes)) :
    seedLoop C (decodedOf (.plaintext n offset)) ps = (.ok ⟨0, n⟩, ps) := by
  have h : (decodedOf (.plaintext n offset)).decryptSeed C.toPhraseCrypto [] = .ok ⟨0, (n : Int)⟩ :=
    (newSeed_ok_iff 0 n _).mpr ⟨rfl, by simpa using hn, rfl⟩
  unfold seedLoop
  rw [if_neg (show ¬ (decodedOf (.plaintext n offset)).encrypted = true from Bool.false_ne_true), h]

include h1 h2 d1 d2 hn hn' hr

theorem inputV_other (verbose : Bool) : Mapped mapOut (other π (n' := n'))
    (decodeMnemonicFromInputV L C { env with stdin := typed } input verbose)
    (decodeMnemonicFromInputV L (renamed π C) { env with stdin := typed' } input verbose) := by
  have ask : Mapped mapOut (other π (n' := n'))
      (askSeedV C (decodedOf (.plaintext n offset)) >>= fun seed => pure (seed, decodedOf (.plaintext n offset)))
      (askSeedV (renamed π C) (decodedOf (.plaintext n' offset)) >>= fun seed => pure (seed, decodedOf (.plaintext n' offset))) := by
    intro st
    show ProgV.bind _ _ _ = (mapOut _ (ProgV.bind _ _ _).1, (ProgV.bind _ _ _).2)
    have e1 : askSeedV C (decodedOf (.plaintext n offset)) st = (.ok ⟨0, n⟩, ⟨st.prompts, st.rnd, st.events ++ []⟩) := by
      unfold askSeedV
      rw [if_neg (show ¬ (decodedOf (.plaintext n offset)).encrypted = true from Bool.false_ne_true)]
      unfold silent askSeed
      simp only [loop_plain C hn]
      rfl
    have e2 : askSeedV (renamed π C) (decodedOf (.plaintext n' offset)) st =
        (.ok ⟨0, n'⟩, ⟨st.prompts, st.rnd, st.events ++ []⟩) := by
      unfold askSeedV
      rw [if_neg (show ¬ (decodedOf (.plaintext n' offset)).encrypted = true from Bool.false_ne_true)]
      unfold silent askSeed
      simp only [loop_plain (renamed π C) hn']
      rfl
    unfold ProgV.bind
    rw [e1, e2]
    show (Outcome.ok _, _) = (Outcome.ok (rename π _, _), _)
    rw [hr]
    rfl
  have key : ∀ verbose : Bool, Mapped mapOut (other π (n' := n'))
      (silent (lift (inputWords L { env with stdin := typed } input)) >>= fun words =>
        silent (lift (decodeMnemonic L words)) >>= fun dm =>
        if verbose then do
          eprintln (str "Decoded mnemonic recovery phrase:")
          printDebugInfo (phraseDebugInfo dm)
          eprintln []
          let seed ← askSeedV C dm
          pure (seed, dm)
        else do
          let seed ← askSeedV C dm
          pure (seed, dm))
      (silent (lift (inputWords L { env with stdin := typed' } input)) >>= fun words =>
        silent (lift (decodeMnemonic L words)) >>= fun dm =>
        if verbose then do
          eprintln (str "Decoded mnemonic recovery phrase:")
          printDebugInfo (phraseDebugInfo dm)
          eprintln []
          let seed ← askSeedV (renamed π C) dm
          pure (seed, dm)
        else do
          let seed ← askSeedV (renamed π C) dm
          pure (seed, dm)) := by
    intro verbose st
    rw [h1, h2]
    show (silent (lift (decodeMnemonic L words')) >>= _ : ProgV _) _ =
      (mapOut _ ((silent (lift (decodeMnemonic L words)) >>= _ : ProgV _) _).1,
        ((silent (lift (decodeMnemonic L words)) >>= _ : ProgV _) _).2)
    rw [d1, d2]
    cases verbose with
    | false => exact ask _
    | true => exact (mappedV_bind (eprintln (str "Decoded mnemonic recovery phrase:")) fun _ =>
        mappedV_bind (printDebugInfo (phraseDebugInfo (decodedOf (.plaintext n offset)))) fun _ =>
          mappedV_bind (eprintln []) fun _ => ask) ⟨st.prompts, st.rnd, st.events ++ [] ++ []⟩
  unfold decodeMnemonicFromInputV
  by_cases hi : input.inputWordFile = []
  · simp only [hi, if_true]
    refine mappedV_bind _ fun _ => ?_
    cases verbose
    · exact key false
    · exact key true
  · simp only [hi, if_false]
    cases verbose
    · exact key false
    · exact key true

theorem inputE_other (os : OsText) : Mapped mapOutE (other π (n' := n'))
    (decodeMnemonicFromInputE os L C { env with stdin := typed } input)
    (decodeMnemonicFromInputE os L (renamed π C) { env with stdin := typed' } input) := by
  have toE : ∀ {e : Env} {w : List Bytes}, inputWords L e input = .ok w → inputWordsE os L e input = .ok w := by
    intro e w h
    have := plain_inputWords os L e input
    rw [h] at this
    cases hx : inputWordsE os L e input with
    | ok y => rw [hx] at this; cases this; rfl
    | err e => rw [hx] at this; cases this
    | panic p => rw [hx] at this; cases this
  have deE : ∀ {w : List Bytes} {dm}, decodeMnemonic L w = .ok dm → decodeMnemonicE L w = .ok dm := by
    intro w dm h
    unfold decodeMnemonicE
    rw [h]
    rfl
  have e1 : ∀ st : StE, askSeedE C (decodedOf (.plaintext n offset)) st = (.ok ⟨0, n⟩, st) := by
    intro st
    unfold askSeedE
    rw [if_neg (show ¬ (decodedOf (.plaintext n offset)).encrypted = true from Bool.false_ne_true)]
    unfold noErrorE askSeed
    simp only [loop_plain C hn]
  have e2 : ∀ st : StE, askSeedE (renamed π C) (decodedOf (.plaintext n' offset)) st = (.ok ⟨0, n'⟩, st) := by
    intro st
    unfold askSeedE
    rw [if_neg (show ¬ (decodedOf (.plaintext n' offset)).encrypted = true from Bool.false_ne_true)]
    unfold noErrorE askSeed
    simp only [loop_plain (renamed π C) hn']
  intro st
  unfold decodeMnemonicFromInputE
  rw [toE h1, toE h2]
  show (liftE (decodeMnemonicE L words') >>= _ : ProgE _) st =
    (mapOutE _ ((liftE (decodeMnemonicE L words) >>= _ : ProgE _) st).1,
      ((liftE (decodeMnemonicE L words) >>= _ : ProgE _) st).2)
  rw [deE d1, deE d2]
  show (askSeedE (renamed π C) (decodedOf (.plaintext n' offset)) >>= fun seed =>
      (pure (seed, decodedOf (.plaintext n' offset)) : ProgE _)) st =
    (mapOutE _ ((askSeedE C (decodedOf (.plaintext n offset)) >>= fun seed =>
      (pure (seed, decodedOf (.plaintext n offset)) : ProgE _)) st).1,
      ((askSeedE C (decodedOf (.plaintext n offset)) >>= fun seed =>
        (pure (seed, decodedOf (.plaintext n offset)) : ProgE _)) st).2)
  show ProgE.bind _ _ _ = (mapOutE _ (ProgE.bind _ _ _).1, (ProgE.bind _ _ _).2)
  unfold ProgE.bind
  rw [e1, e2]
  show (OutcomeE.ok _, _) = (OutcomeE.ok (rename π _, _), _)
  rw [hr]
  rfl

end

/-- The keys pressed, or lines entered, are a plaintext phrase. -/
def Types (L : WordList) (env : Env) (typed : Bytes) (simple : Bool) (n offset : Nat) : Prop :=
  ∃ words, Gets L (offer L) { env with stdin := typed } ⟨simple, []⟩ words ∧
    readPhrase (indexOf L) words = .ok (.plaintext n offset)

/-- Phrases entered at the prompt for a seed and for its new name, with the same creation time -/
def Both (π : Renaming) (L : WordList) (env : Env) (typed typed' : Bytes) (simple : Bool) : Prop :=
  ∃ n n' offset : Nat, octets 16 n' = π.perm (octets 16 n) ∧ Types L env typed simple n offset ∧
    Types L env typed' simple n' offset

theorem both_read {π : Renaming} {L : WordList} (hL : L.Lawful) {env : Env} {typed typed' : Bytes} {simple : Bool}
    (h : Both π L env typed typed' simple) (C : Crypto) : ∃ n' : Nat,
    (∀ verbose, Mapped mapOut (other π (n' := n'))
      (decodeMnemonicFromInputV L C { env with stdin := typed } ⟨simple, []⟩ verbose)
      (decodeMnemonicFromInputV L (renamed π C) { env with stdin := typed' } ⟨simple, []⟩ verbose)) ∧
    ∀ os, Mapped mapOutE (other π (n' := n'))
      (decodeMnemonicFromInputE os L C { env with stdin := typed } ⟨simple, []⟩)
      (decodeMnemonicFromInputE os L (renamed π C) { env with stdin := typed' } ⟨simple, []⟩) := by
  obtain ⟨n, n', offset, hn, ⟨words, h3, h4⟩, words', h5, h6⟩ := h
  obtain ⟨d1, f1⟩ := decode_of_read hL h4
  obtain ⟨d2, f2⟩ := decode_of_read hL h6
  rw [← gets_iff hL] at h3 h5
  have b1 : setBytes (octets 16 n) = n := by
    rw [octets_eq, setBytes_beBytes]
    exact Nat.mod_eq_of_lt f1.1
  have b2 : setBytes (octets 16 n') = n' := by
    rw [octets_eq, setBytes_beBytes]
    exact Nat.mod_eq_of_lt f2.1
  have hr : rename π ⟨0, n⟩ = ⟨0, n'⟩ := by
    rw [← b1, ← b2, hn]
    exact rename_of π (octets_length ..)
  exact ⟨n', fun verbose => inputV_other π env typed typed' _ h3 h5 d1 d2 f1.1 f2.1 hr verbose,
    fun os => inputE_other π env typed typed' _ h3 h5 d1 d2 f1.1 f2.1 hr os⟩

/-- `convert` with `-encrypt-phrase`, of plaintext phrases entered at the prompt that differ in the seed: with renamed
primitives the phrase of the renamed seed brings up what the other does. -/
theorem c122_convert (π : Renaming) {L : WordList} (hL : L.Lawful) (C : Crypto) (F : Fmt) (os : OsText)
    (env : Env) (typed typed' : Bytes) (args : List Bytes)
    (h : ∀ cmd s, Means args (.run cmd s) → cmd = .convert ∧ text (settingsOf s) "in-word-file" [] = [] ∧
      switchedOn (settingsOf s) "encrypt-phrase" false = true ∧
      Both π L env typed typed' (switchedOn (settingsOf s) "simple" false))
    (prompts : List (ResE Bytes)) (rnd : Bytes) :
    mainV F os L (renamed π C) { env with stdin := typed' } args prompts rnd =
      mainV F os L C { env with stdin := typed } args prompts rnd := by
  refine process_same rfl fun cmd s hm => ?_
  obtain ⟨rfl, h1, h2, h3⟩ := h cmd s hm
  obtain ⟨rest', positional, hcl⟩ := means_settings hm
  have ho := c63_convert _ _ _ hcl
  have e1 : (convertOptions s).encryptPhrase = true := by rw [ho]; exact h2
  have e2 : (convertOptions s).input = ⟨switchedOn (settingsOf s) "simple" false, []⟩ := by
    rw [ho]; show InputFlags.mk _ _ = _; rw [h1]
  obtain ⟨n', hV, hE⟩ := both_read hL h3 C
  constructor
  · show (decodeAndConvertPhraseV L (renamed π C) _ (convertOptions s) _ _).2.events =
      (decodeAndConvertPhraseV L C _ (convertOptions s) _ _).2.events
    refine congrArg (fun x : Outcome Unit × StV => x.2.events) (congrFun ?_ _)
    unfold decodeAndConvertPhraseV
    rw [e2]
    refine bindV_mapped (hV _) fun r => ?_
    simp only [e1, if_true, other, encrypted_renamed]
    rfl
  · show (decodeAndConvertPhraseE os L (renamed π C) _ (convertOptions s) _).1 =
      (decodeAndConvertPhraseE os L C _ (convertOptions s) _).1
    refine congrArg (fun x : OutcomeE Unit × StE => x.1) (congrFun ?_ _)
    unfold decodeAndConvertPhraseE
    rw [e2]
    refine bindE_mapped (hE _) fun r => ?_
    simp only [e1, if_true, other, phraseE_renamed]
    rfl

/-- `recover` of plaintext phrases entered at the prompt that differ in the seed -/
theorem c122_recover (π : Renaming) {L : WordList} (hL : L.Lawful) {C : Crypto} (hC : C.Lawful) (F : Fmt) (os : OsText)
    (env : Env) (typed typed' : Bytes) (args : List Bytes)
    (h : ∀ cmd s, Means args (.run cmd s) → cmd = .recover ∧ text (settingsOf s) "in-word-file" [] = [] ∧
      Both π L env typed typed' (switchedOn (settingsOf s) "simple" false))
    (prompts : List (ResE Bytes)) (rnd : Bytes) :
    mainV F os L (renamed π C) { env with stdin := typed' } args prompts rnd =
      mainV F os L C { env with stdin := typed } args prompts rnd := by
  refine process_same rfl fun cmd s hm => ?_
  obtain ⟨rfl, h1, h2⟩ := h cmd s hm
  obtain ⟨rest', positional, hcl⟩ := means_settings hm
  have ho := c63_recover _ _ _ hcl
  have e2 : (recoverOptions s).input = ⟨switchedOn (settingsOf s) "simple" false, []⟩ := by
    rw [ho]; show InputFlags.mk _ _ = _; rw [h1]
  obtain ⟨n', hV, hE⟩ := both_read hL h2 C
  constructor
  · show (recoverAndPrintKeyV F L (renamed π C) _ (recoverOptions s) _ _).2.events =
      (recoverAndPrintKeyV F L C _ (recoverOptions s) _ _).2.events
    refine congrArg (fun x : Outcome Unit × StV => x.2.events) (congrFun ?_ _)
    unfold recoverAndPrintKeyV
    rw [e2]
    refine silent_congr fun ttl _ => ?_
    split
    · rfl
    · refine silent_congr fun a _ => bindV_mapped (hV _) fun r => ?_
      show (silent (lift (new (renamed π C) (rename π r.1) r.2.creation _)) >>= _ : ProgV _) =
        (silent (lift (new C r.1 r.2.creation _)) >>= _ : ProgV _)
      rw [new_renamed]
      exact bindV_mapped (silent_mapped (lift_mapped _ _)) fun m => by rw [export_renamed π hC, debug_renamed]
  · show (recoverAndPrintKeyE F os L (renamed π C) _ (recoverOptions s) _).1 =
      (recoverAndPrintKeyE F os L C _ (recoverOptions s) _).1
    refine congrArg (fun x : OutcomeE Unit × StE => x.1) (congrFun ?_ _)
    unfold recoverAndPrintKeyE
    rw [e2]
    refine liftE_congr fun ttl _ => ?_
    split
    · rfl
    · refine liftE_congr fun a _ => bindE_mapped (hE _) fun r => ?_
      show (liftE ((newE (renamed π C) (rename π r.1) r.2.creation _).wrap _) >>= _ : ProgE _) =
        (liftE ((newE C r.1 r.2.creation _).wrap _) >>= _ : ProgE _)
      rw [newE_renamed, wrap_mapped]
      exact bindE_mapped (liftE_mapped _ _) fun m => by rw [exportE_renamed π hC]

/-- Two seeds exchanged -/
def exchanged (e e' : Bytes) (h : e.length = e'.length) : Renaming where
  perm := Equiv.swap e e'
  length b := by
    by_cases h1 : b = e
    · rw [h1, Equiv.swap_apply_left, h]
    · by_cases h2 : b = e'
      · rw [h2, Equiv.swap_apply_right, h]
      · rw [Equiv.swap_apply_of_ne_of_ne h1 h2]

/-- Whatever keys and encrypted phrases were seen, any other seed could have made them: for every two seeds there are
primitives with which the second does what the first does with the given ones, in every such run at once. They differ
from the given ones in Argon2id and in the AES of phrases alone. -/
theorem c122_seeds {C : Crypto} (hC : C.Lawful) {e e' : Bytes} (he : e.length = 16) (he' : e'.length = 16) :
    ∃ C' : Crypto, C'.Lawful ∧ { C' with toPhraseCrypto := C.toPhraseCrypto } = C ∧
      (∀ p s t m th, C'.argon2id p s t m th 17 = C.argon2id p s t m th 17) ∧
      ∀ (F : Fmt) (os : OsText) (L : WordList), L.Lawful → ∀ (env : Env) (args : List Bytes) (prompts : List (ResE Bytes)),
        ((∀ cmd s, Means args (.run cmd s) → cmd = .generate ∧ text (settingsOf s) "unsafe-entropy" [] = [] ∧
            switchedOn (settingsOf s) "encrypt-phrase" false = true) →
          ∀ rest, mainV F os L C' env args prompts (e' ++ rest) = mainV F os L C env args prompts (e ++ rest)) ∧
        ((∀ cmd s, Means args (.run cmd s) → cmd ≠ .generate ∧ OnlyEncrypted L env (settingsOf s) ∧
            (cmd = .convert → switchedOn (settingsOf s) "encrypt-phrase" false = true)) →
          ∀ rnd, mainV F os L C' env args prompts rnd = mainV F os L C env args prompts rnd) ∧
        ∀ typed typed', (∀ cmd s, Means args (.run cmd s) →
            (cmd = .recover ∨ cmd = .convert ∧ switchedOn (settingsOf s) "encrypt-phrase" false = true) ∧
            text (settingsOf s) "in-word-file" [] = [] ∧
            ∃ offset, Types L env typed (switchedOn (settingsOf s) "simple" false) (num e) offset ∧
              Types L env typed' (switchedOn (settingsOf s) "simple" false) (num e') offset) →
          ∀ rnd, mainV F os L C' { env with stdin := typed' } args prompts rnd =
            mainV F os L C { env with stdin := typed } args prompts rnd := by
  have hs : (exchanged e e' (he.trans he'.symm)).perm e = e' := Equiv.swap_apply_left e e'
  refine ⟨renamed (exchanged e e' (he.trans he'.symm)) C, renamed_lawful _ hC, rfl, fun p s t m th => rfl,
    fun F os L hL env args prompts => ⟨fun h rest => ?_, fun h rnd => ?_, fun typed typed' h rnd => ?_⟩⟩
  · have := c122_generate (exchanged e e' (he.trans he'.symm)) hC F os L env args h prompts he rest
    rwa [hs] at this
  · exact (c122_run _ hL hC F os env args h prompts rnd ⟨[], [], []⟩).1
  · have both : ∀ simple offset, Types L env typed simple (num e) offset → Types L env typed' simple (num e') offset →
        Both (exchanged e e' (he.trans he'.symm)) L env typed typed' simple := by
      intro simple offset h1 h2
      refine ⟨num e, num e', offset, ?_, h1, h2⟩
      rw [num_eq, num_eq, octets_setBytes he, octets_setBytes he', hs]
    by_cases hx : ∃ s, Means args (.run .recover s)
    · obtain ⟨s0, hm0⟩ := hx
      refine c122_recover _ hL hC F os env typed typed' args (fun cmd s hm => ?_) prompts rnd
      obtain ⟨-, h2, offset, h3, h4⟩ := h cmd s hm
      cases c58_unique _ _ _ hm hm0
      exact ⟨rfl, h2, both _ _ h3 h4⟩
    · refine c122_convert _ hL C F os env typed typed' args (fun cmd s hm => ?_) prompts rnd
      obtain ⟨h1, h2, offset, h3, h4⟩ := h cmd s hm
      rcases h1 with rfl | ⟨rfl, h1⟩
      · exact absurd ⟨s, hm⟩ hx
      · exact ⟨rfl, h2, h1, both _ _ h3 h4⟩

/-! ## examples -/

theorem encryptPhrase_means {name : Bytes} {cmd : Cmd}
    (h : (name, cmd) ∈ [(str "generate", Cmd.generate), (str "convert", .convert)]) :
    Means [name, str "-encrypt-phrase"] (.run cmd [(str "encrypt-phrase", .bool true)]) := by
  simp only [List.mem_cons, List.not_mem_nil, or_false, Prod.mk.injEq] at h
  rcases h with ⟨rfl, rfl⟩ | ⟨rfl, rfl⟩
  · exact .positional (rest := [str "generate", str "-encrypt-phrase"]) (by decide)
      ((c63_accepted .root _ [] _).1 (by decide +kernel))
      (.run .generate (by decide) ((c63_accepted .generate _ [(str "encrypt-phrase", .bool true)] []).1 (by decide +kernel)))
  · exact .positional (rest := [str "convert", str "-encrypt-phrase"]) (by decide)
      ((c63_accepted .root _ [] _).1 (by decide +kernel))
      (.run .convert (by decide) ((c63_accepted .convert _ [(str "encrypt-phrase", .bool true)] []).1 (by decide +kernel)))

/-- At the prompt the phrase of `sampleEncrypted` is typed. -/
def encryptedEnv : Env := { sampleEnv with stdin := sampleEncrypted.flatMap (· ++ [13]) }

theorem encryptedEnv_only : OnlyEncrypted toyWordList encryptedEnv [] := by
  intro words seed offset hg hr
  rw [← gets_iff toyWordList_lawful] at hg
  rw [show inputWords toyWordList encryptedEnv ⟨switchedOn [] "simple" false, text [] "in-word-file" []⟩ = .ok sampleEncrypted by
    decide +kernel] at hg
  cases hg
  rw [show readPhrase (indexOf toyWordList) sampleEncrypted =
    .ok (.encrypted 52006880893628896709768386229699380622 460551 16 27468800) by decide +kernel] at hr
  cases hr

theorem recover_means : Means [str "recover"] (.run .recover []) :=
  .positional (rest := [str "recover"]) (by decide) ((c63_accepted .root _ [] _).1 (by decide +kernel))
    (.run .recover (by decide) ((c63_accepted .recover _ [] []).1 (by decide +kernel)))

/-- One choice of primitives makes 16 times 8 do in a first run what 16 times 7 does, and leaves a later `recover` as it
is. -/
example : ∃ C' : Crypto, C'.Lawful ∧ C'.argon2id (List.replicate 16 8) [0, 0, 0, 1] 4 0x80000 2 32 =
      toyCrypto.argon2id (List.replicate 16 7) [0, 0, 0, 1] 4 0x80000 2 32 ∧
    ∀ (prompts : List (ResE Bytes)) (rest : Bytes),
      mainV sampleFmt sampleOs toyWordList C' sampleEnv [str "generate", str "-encrypt-phrase"] prompts
          (List.replicate 16 8 ++ rest) =
        mainV sampleFmt sampleOs toyWordList toyCrypto sampleEnv [str "generate", str "-encrypt-phrase"] prompts
          (List.replicate 16 7 ++ rest) ∧
      mainV sampleFmt sampleOs toyWordList C' encryptedEnv [str "recover"] prompts rest =
        mainV sampleFmt sampleOs toyWordList toyCrypto encryptedEnv [str "recover"] prompts rest := by
  have hs : (exchanged (List.replicate 16 7) (List.replicate 16 8) rfl).perm (List.replicate 16 7) = List.replicate 16 8 :=
    Equiv.swap_apply_left _ _
  refine ⟨renamed (exchanged (List.replicate 16 7) (List.replicate 16 8) rfl) toyCrypto, renamed_lawful _ toyCrypto_lawful,
    ?_, fun prompts rest => ⟨?_, ?_⟩⟩
  · show toyCrypto.argon2id ((Equiv.swap _ _).symm (List.replicate 16 8)) [0, 0, 0, 1] 4 0x80000 2 32 = _
    rw [Equiv.symm_swap, Equiv.swap_apply_right]
  · have := c122_generate (exchanged (List.replicate 16 7) (List.replicate 16 8) rfl) toyCrypto_lawful sampleFmt sampleOs
      toyWordList sampleEnv [str "generate", str "-encrypt-phrase"] (fun cmd s hm => by
        cases c58_unique _ _ _ hm (encryptPhrase_means (cmd := .generate) (by simp))
        exact ⟨rfl, by decide +kernel, by decide +kernel⟩) prompts (e := List.replicate 16 7) rfl rest
    rwa [hs] at this
  · exact (c122_run _ toyWordList_lawful toyCrypto_lawful sampleFmt sampleOs encryptedEnv [str "recover"] (fun cmd s hm => by
      cases c58_unique _ _ _ hm recover_means
      exact ⟨by decide, encryptedEnv_only, by rintro ⟨⟩⟩) prompts rest ⟨[], [], []⟩).1

/-- The keys pressed for a plaintext phrase -/
def pressed (n : Nat) : Bytes := ((Contents.plaintext n 77).words toyWordList.word).flatMap (· ++ [13])

theorem pressed_reads {n : Nat} (h : n = 1 ∨ n = 2) : Types toyWordList sampleEnv (pressed n) false n 77 := by
  refine ⟨(Contents.plaintext n 77).words toyWordList.word, (gets_iff toyWordList_lawful).1 ?_, ?_⟩
  · rcases h with rfl | rfl <;> decide +kernel
  · rcases h with rfl | rfl <;> decide +kernel

theorem pressed_both :
    Both (exchanged (octets 16 1) (octets 16 2) (by simp)) toyWordList sampleEnv (pressed 1) (pressed 2) false :=
  ⟨1, 2, 77, (Equiv.swap_apply_left _ _).symm, pressed_reads (.inl rfl), pressed_reads (.inr rfl)⟩

/-- The plaintext phrases of the seeds 1 and 2, encrypted -/
example (prompts : List (ResE Bytes)) (rnd : Bytes) :
    mainV sampleFmt sampleOs toyWordList (renamed (exchanged (octets 16 1) (octets 16 2) (by simp)) toyCrypto)
        { sampleEnv with stdin := pressed 2 } [str "convert", str "-encrypt-phrase"] prompts rnd =
      mainV sampleFmt sampleOs toyWordList toyCrypto { sampleEnv with stdin := pressed 1 }
        [str "convert", str "-encrypt-phrase"] prompts rnd :=
  c122_convert _ toyWordList_lawful toyCrypto sampleFmt sampleOs sampleEnv _ _ _ (fun cmd s hm => by
      cases c58_unique _ _ _ hm (encryptPhrase_means (cmd := .convert) (by simp))
      exact ⟨rfl, by decide +kernel, by decide +kernel, pressed_both⟩) prompts rnd

/-- The keys of the seeds 1 and 2 -/
example (prompts : List (ResE Bytes)) (rnd : Bytes) :
    mainV sampleFmt sampleOs toyWordList (renamed (exchanged (octets 16 1) (octets 16 2) (by simp)) toyCrypto)
        { sampleEnv with stdin := pressed 2 } [str "recover"] prompts rnd =
      mainV sampleFmt sampleOs toyWordList toyCrypto { sampleEnv with stdin := pressed 1 } [str "recover"] prompts rnd :=
  c122_recover _ toyWordList_lawful toyCrypto_lawful sampleFmt sampleOs sampleEnv _ _ _ (fun cmd s hm => by
      cases c58_unique _ _ _ hm recover_means
      exact ⟨rfl, rfl, pressed_both⟩) prompts rnd

end Verif.Props
