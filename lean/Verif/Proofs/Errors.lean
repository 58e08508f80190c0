import Verif.Spec.Message
import Verif.Proofs.Failure

/-!
# Texts of errors: the commands with texts do what the commands do
-/

namespace Verif.Proofs

open Verif.Model Verif.Model.Pgp Verif.Model.Cli Verif.Spec

/-! ## Results -/

@[simp] theorem plainE_bind {α β : Type} (x : ResE α) (f : α → ResE β) :
    (x >>= f).plain = x.plain >>= fun a => (f a).plain := by cases x <;> rfl

@[simp] theorem plain_explain {α : Type} (r : Res α) (t : Err → Bytes) : (explain r t).plain = r := by
  cases r <;> rfl

@[simp] theorem plain_noError {α : Type} (r : Res α) : (noError r).plain = r := plain_explain _ _

@[simp] theorem plain_wrap {α : Type} (b : Bytes) (x : ResE α) : (x.wrap b).plain = x.plain := by
  cases x <;> rfl

@[simp] theorem plain_ok {α : Type} (a : α) : (ResE.ok a).plain = .ok a := rfl
@[simp] theorem plain_err {α : Type} (e : GoErr) : (ResE.err e : ResE α).plain = .err e.kind := rfl

theorem plain_generateSeed (t rnd : Bytes) : (generateSeedE t rnd).plain = generateSeed rnd := by
  simp only [generateSeedE, generateSeed, plainE_bind, plain_wrap, plain_explain, plain_noError, plain_ok]

theorem plain_encryptS2K (os : OsText) (C : Crypto) (h : Byte) (p w rnd : Bytes) :
    (encryptS2KE os C h p w rnd).plain = encryptS2K C h p w rnd := by
  simp only [encryptS2KE, encryptS2K, plainE_bind, plain_wrap, plain_explain, plain_noError, plain_ok]

theorem plain_encodePrivate (os : OsText) (C : Crypto) (key : ECKey) (password rnd : Bytes) :
    (encodePrivateE os C key password rnd).plain = key.encodePrivate C password rnd := by
  unfold encodePrivateE
  split
  · rename_i h
    simp only [ECKey.encodePrivate, if_pos h, plainE_bind, plain_encryptS2K, plain_ok]
  · simp

theorem plain_encodePrivatePacket (os : OsText) (C : Crypto) (tag : Byte) (key : ECKey) (password rnd : Bytes) :
    (encodePrivatePacketE os C tag key password rnd).plain = key.encodePrivatePacket C tag password rnd := by
  simp only [encodePrivatePacketE, ECKey.encodePrivatePacket, plainE_bind, plain_encodePrivate, plain_ok]

theorem plain_subkey (os : OsText) (C : Crypto) (what : Bytes) (m : EdKey) (base : ECKey) (flags : Byte)
    (expiry : Int) (password rnd : Bytes) :
    (encodeSubkeyPacketsE os C what m base flags expiry password rnd).plain =
      encodeSubkeyPackets C m base flags expiry password rnd := by
  simp only [encodeSubkeyPacketsE, encodeSubkeyPackets, plainE_bind, plain_wrap, plain_encodePrivatePacket,
    plain_noError, plain_ok]

theorem plain_encryption (os : OsText) (C : Crypto) (ks : KeySet) (password rnd : Bytes) :
    (encodeEncryptionE os C ks password rnd).plain = ks.encodeEncryption C password rnd := by
  unfold encodeEncryptionE KeySet.encodeEncryption
  cases ks.encryptionSubkey <;> simp [plain_subkey]

theorem plain_authentication (os : OsText) (C : Crypto) (ks : KeySet) (password rnd : Bytes) :
    (encodeAuthenticationE os C ks password rnd).plain = ks.encodeAuthentication C password rnd := by
  unfold encodeAuthenticationE KeySet.encodeAuthentication
  cases ks.authenticationSubkey <;> simp [plain_subkey]

theorem plain_signing (os : OsText) (C : Crypto) (ks : KeySet) (password rnd : Bytes) :
    (encodeSigningE os C ks password rnd).plain = ks.encodeSigning C password rnd := by
  unfold encodeSigningE KeySet.encodeSigning
  cases ks.signingSubkey <;> simp [plain_subkey]

theorem plain_all (os : OsText) (C : Crypto) (ks : KeySet) (password rnd : Bytes) :
    (encodeAllSubkeyPacketsE os C ks password rnd).plain = ks.encodeAllSubkeyPackets C password rnd := by
  simp only [encodeAllSubkeyPacketsE, KeySet.encodeAllSubkeyPackets, plainE_bind, plain_encryption,
    plain_authentication, plain_signing, plain_noError, plain_ok]

theorem plain_packets (os : OsText) (C : Crypto) (ks : KeySet) (password rnd : Bytes) :
    (encodePacketsE os C ks password rnd).plain = ks.encodePackets C password rnd := by
  simp only [encodePacketsE, KeySet.encodePackets, plainE_bind, plain_wrap, plain_encodePrivatePacket,
    plain_all, plain_noError, plain_ok]

theorem plain_onlySubkeys (os : OsText) (C : Crypto) (ks : KeySet) (password : Bytes) (cert : Bool)
    (rnd : Bytes) :
    (encodeOnlySubkeyPacketsE os C ks password cert rnd).plain =
      ks.encodeSubkeyPackets C password cert rnd := by
  simp only [encodeOnlySubkeyPacketsE, KeySet.encodeSubkeyPackets, plainE_bind,
    plain_all, plain_noError, plain_ok]

theorem plain_onlyLoop (F : Fmt) : ∀ (ks : List Bytes) (m : Bool) (acc : List Bytes),
    (onlyLoopE F m acc ks).plain = onlyLoop m acc ks
  | [], _, _ => rfl
  | k :: ks, m, acc => by
    unfold onlyLoopE onlyLoop
    split
    · exact plain_onlyLoop F ks _ _
    · split
      · exact plain_onlyLoop F ks _ _
      · rfl

theorem plain_only (F : Fmt) (o : Bytes) : (decodeOnlyKeyTypesE F o).plain = decodeOnlyKeyTypes o := by
  unfold decodeOnlyKeyTypesE decodeOnlyKeyTypes
  split
  · exact plain_onlyLoop F _ _ _
  · rfl

theorem plain_readLoop (L : WordList) (path : Bytes) : ∀ (ts acc : List Bytes),
    (readLoopE L path acc ts).plain = readLoop L acc ts
  | [], _ => rfl
  | t :: ts, acc => by
    unfold readLoopE readLoop
    dsimp only
    cases L.lookup (L.toLower t) with
    | none => rfl
    | some _ =>
      dsimp only
      split
      · rfl
      · exact plain_readLoop L path ts _

theorem plain_readWordFile (os : OsText) (L : WordList) (path : Bytes) (content : Option Bytes) :
    (readWordFileE os L path content).plain = readWordFile L content := by
  unfold readWordFileE readWordFile
  cases content with
  | none => rfl
  | some content =>
    simp only [plainE_bind, plain_readLoop]
    congr 1
    funext words
    cases words with
    | nil => rfl
    | cons w ws =>
      dsimp only
      split <;> rfl

theorem plain_inputWords (os : OsText) (L : WordList) (env : Env) (opts : InputFlags) :
    (inputWordsE os L env opts).plain = inputWords L env opts := by
  unfold inputWordsE inputWords
  split
  · exact plain_readWordFile os L _ _
  · split <;> simp

/-! ## Programs -/

/-- The program with texts does the same as the other. -/
def Erases {α : Type} (x : ProgE α) (y : Prog α) : Prop :=
  ∀ st, ((x st).1.plain, (x st).2.plain) = y st.plain

theorem sim_pure {α : Type} (a : α) : Erases (pure a : ProgE α) (pure a) := fun _ => rfl

theorem sim_bind {α β : Type} {x : ProgE α} {y : Prog α} {f : α → ProgE β} {g : α → Prog β} (h : Erases x y)
    (hf : ∀ a, Erases (f a) (g a)) : Erases (x >>= f) (y >>= g) := by
  intro st
  have h1 := h st
  change ((ProgE.bind x f st).1.plain, (ProgE.bind x f st).2.plain) = Prog.bind y g st.plain
  unfold ProgE.bind Prog.bind
  rw [← h1]
  rcases hx : x st with ⟨o, st'⟩
  cases o <;> first | exact hf _ _ | rfl

theorem sim_lift {α : Type} {r : ResE α} {r' : Res α} (h : r.plain = r') : Erases (liftE r) (lift r') := by
  subst h
  intro st
  cases r <;> rfl

theorem sim_password (confirm : Bool) : Erases (userInputPasswordE confirm) (userInputPassword confirm) := by
  intro st
  obtain ⟨prompts, rnd, acts⟩ := st
  cases prompts with
  | nil => rfl
  | cons p ps => cases p <;> rfl

theorem sim_random {α : Type} {f : Bytes → ResE (α × Bytes)} {g : Bytes → Res (α × Bytes)}
    (h : ∀ rnd, (f rnd).plain = g rnd) : Erases (randomE f) (random g) := by
  intro st
  obtain ⟨prompts, rnd, acts⟩ := st
  unfold randomE random StE.plain
  dsimp only
  rw [← h rnd]
  cases f rnd <;> rfl

theorem sim_noError {α : Type} {x : Prog α}
    (h : ∀ ps rnd acts, x ⟨ps, rnd, acts⟩ =
      ((x ⟨[], rnd, acts⟩).1, ⟨ps, (x ⟨[], rnd, acts⟩).2.rnd, (x ⟨[], rnd, acts⟩).2.acts⟩)) :
    Erases (noErrorE x) x := by
  intro st
  obtain ⟨prompts, rnd, acts⟩ := st
  unfold noErrorE StE.plain
  dsimp only
  rw [h (prompts.map ResE.plain)]
  cases (x ⟨[], rnd, acts⟩).1 <;> rfl

theorem sim_emit (acts : List Act) : Erases (noErrorE (emit acts)) (emit acts) := sim_noError fun _ _ _ => rfl

theorem sim_print (env : Env) (words : List Bytes) :
    Erases (noErrorE (printMnemonic env words)) (printMnemonic env words) := by
  refine sim_noError fun ps rnd acts => ?_
  unfold printMnemonic
  dsimp only
  cases justifyTerminalWidth 19 env.columns 0 notice with
  | none => rfl
  | some r => cases r <;> rfl

theorem sim_save (os : OsText) (env : Env) (words : List Bytes) (file : Bytes) :
    Erases (saveE os env words file) (save env words file) :=
  sim_bind (sim_emit _) fun _ => sim_lift (by simp)

theorem sim_ite {α : Type} {p : Prop} [Decidable p] {x x' : ProgE α} {y y' : Prog α} (h : Erases x y)
    (h' : Erases x' y') : Erases (if p then x else x') (if p then y else y') := by
  split <;> assumption

theorem plain_passwordLoop (C : Crypto) (dm : DecodedMnemonic) : ∀ (ps : List (ResE Bytes)),
    ((passwordLoopE C dm ps).1.plain, (passwordLoopE C dm ps).2.map ResE.plain) =
      passwordLoop C dm (ps.map ResE.plain)
  | [] => rfl
  | .err e :: _ => rfl
  | .panic p :: _ => rfl
  | .ok p :: ps => by
    simp only [passwordLoopE, passwordLoop, List.map_cons, plain_ok]
    cases dm.decryptSeed C.toPhraseCrypto p with
    | ok s => rfl
    | panic p => rfl
    | err e =>
      cases e with
      | mnemonicDecryption => exact plain_passwordLoop C dm ps
      | _ => rfl

theorem sim_askSeed (C : Crypto) (dm : DecodedMnemonic) : Erases (askSeedE C dm) (askSeed C dm) := by
  intro st
  unfold askSeedE
  split
  · rename_i h
    have := plain_passwordLoop C dm st.prompts
    unfold askSeed seedLoop
    simp only [if_pos h]
    change _ = ((passwordLoop C dm (st.prompts.map ResE.plain)).1, _)
    simp only [StE.plain]
    rw [← this]
  · rename_i h
    refine sim_noError (fun ps rnd acts => ?_) st
    unfold askSeed seedLoop
    simp only [if_neg h]
    cases dm.decryptSeed C.toPhraseCrypto [] with
    | ok s => rfl
    | panic p => rfl
    | err e => cases e <;> rfl

theorem sim_seedOf (os : OsText) (env : Env) (u : Bytes) : Erases (seedOfE os env u) (seedOf env u) := by
  unfold seedOfE seedOf
  refine sim_ite (sim_lift ?_) (sim_random fun rnd => plain_generateSeed _ _)
  simp only [plainE_bind, plain_generateSeed, plain_ok]
  congr 1
  split
  · rfl
  · cases env.fs.read u <;> rfl

theorem sim_export (os : OsText) (C : Crypto) (mnk : Mnemonikey) (master cert : Bool) (password : Bytes) :
    Erases (exportKeyE os C mnk master cert password) (exportKey C mnk master cert password) :=
  sim_ite (sim_random fun _ => plain_packets _ _ _ _ _) (sim_random fun _ => plain_onlySubkeys _ _ _ _ _ _)

theorem sim_keyPassword (b : Bool) :
    Erases (if b then userInputPasswordE true else pure [] : ProgE Bytes) (keyPassword b) :=
  sim_ite (sim_password true) (sim_pure _)

theorem sim_ttl (F : Fmt) (ttl : Bytes) : Erases (liftE (ttlOfE F ttl)) (lift (ttlOf ttl)) :=
  sim_lift (by simp [ttlOfE])

theorem sim_generate (F : Fmt) (os : OsText) (L : WordList) (C : Crypto) (env : Env) (opts : GenerateOptions) :
    Erases (generateAndPrintKeyE F os L C env opts) (generateAndPrintKey L C env opts) := by
  unfold generateAndPrintKeyE generateAndPrintKey
  refine sim_bind (sim_ttl F _) fun ttl => ?_
  refine sim_bind (sim_lift (plain_only F _)) fun ms => ?_
  refine sim_bind (sim_seedOf os env _) fun seed => ?_
  refine sim_bind (sim_lift (plain_explain _ _)) fun mnk => ?_
  refine sim_bind (sim_keyPassword _) fun password => ?_
  refine sim_bind (sim_export os C mnk _ _ password) fun key => ?_
  refine sim_bind (sim_ite (sim_bind (sim_password true) fun p =>
    sim_random fun rnd => plain_explain _ _) (sim_lift (plain_noError _))) fun words => ?_
  have rest : ∀ x : Unit, Erases (do
      noErrorE (printKey (env.armor key))
      if opts.outputWordFile = [] then noErrorE (printMnemonic env words)) (do
      printKey (env.armor key)
      if opts.outputWordFile = [] then printMnemonic env words) := fun _ =>
    sim_bind (sim_emit _) fun _ => sim_ite (sim_print env words) (sim_pure _)
  by_cases ho : opts.outputWordFile = []
  · simp only [ho, ne_eq, not_true_eq_false, if_false, if_true] at rest ⊢
    exact rest ()
  · simp only [ho, ne_eq, not_false_eq_true, if_true] at rest ⊢
    exact sim_bind (sim_save os env words _) rest

theorem sim_decode (os : OsText) (L : WordList) (C : Crypto) (env : Env) (opts : InputFlags) :
    Erases (decodeMnemonicFromInputE os L C env opts) (decodeMnemonicFromInput L C env opts) :=
  sim_bind (sim_lift (plain_inputWords os L env opts)) fun _ =>
    sim_bind (sim_lift (plain_explain _ _)) fun dm =>
      sim_bind (sim_askSeed C dm) fun _ => sim_pure _

theorem sim_recover (F : Fmt) (os : OsText) (L : WordList) (C : Crypto) (env : Env) (opts : RecoverOptions) :
    Erases (recoverAndPrintKeyE F os L C env opts) (recoverAndPrintKey L C env opts) := by
  unfold recoverAndPrintKeyE recoverAndPrintKey
  refine sim_bind (sim_ttl F _) fun ttl => ?_
  refine sim_ite (sim_lift rfl) ?_
  refine sim_bind (sim_lift (plain_only F _)) fun ms => ?_
  refine sim_bind (sim_decode os L C env _) fun sd => ?_
  refine sim_bind (sim_lift (by simp [newE])) fun mnk => ?_
  refine sim_bind (sim_keyPassword _) fun password => ?_
  exact sim_bind (sim_export os C mnk _ _ password) fun key => sim_emit _

theorem sim_convert (os : OsText) (L : WordList) (C : Crypto) (env : Env) (opts : ConvertOptions) :
    Erases (decodeAndConvertPhraseE os L C env opts) (decodeAndConvertPhrase L C env opts) := by
  unfold decodeAndConvertPhraseE decodeAndConvertPhrase
  refine sim_bind (sim_decode os L C env _) fun sd => ?_
  refine sim_bind (sim_ite (sim_bind (sim_password true) fun p =>
    sim_random fun rnd => plain_explain _ _) (sim_lift (plain_noError _))) fun words => ?_
  exact sim_ite (sim_print env words) (sim_save os env words _)

theorem sim_program (F : Fmt) (os : OsText) (L : WordList) (C : Crypto) (env : Env)
    (settings : List (Bytes × FlagValue)) (cmd : Cmd) :
    Erases (programE F os L C env settings cmd) (program L C env settings cmd) := by
  cases cmd with
  | root => exact sim_pure _
  | generate => exact sim_generate F os L C env _
  | recover => exact sim_recover F os L C env _
  | convert => exact sim_convert os L C env _

/-! ## The process -/

theorem plain_execEnds (o : OutcomeE Unit) : (execEndsE o).plain = execEnds o.plain := by cases o <;> rfl

theorem plain_printUsage (columns : Nat) (cmd : Cmd) (printed : List Cmd) (ends : EndsE) (st : StE) :
    (printUsageE columns cmd printed ends st).plain = printUsage columns cmd printed ends.plain st.plain := by
  unfold printUsageE printUsage
  cases usage columns cmd <;> rfl

theorem plain_runCommand (columns : Nat) (cmd : Cmd)
    (executeE : List (Bytes × FlagValue) → List Bytes → StE → DoneE)
    (execute : List (Bytes × FlagValue) → List Bytes → St → Done)
    (h : ∀ s r st, (executeE s r st).plain = execute s r st.plain) (args : List Bytes) (st : StE) :
    (runCommandE columns cmd executeE args st).plain = runCommand columns cmd execute args st.plain := by
  unfold runCommandE runCommand
  split
  · exact plain_printUsage ..
  · cases parseArgs (formal cmd) args with
    | help => exact plain_printUsage ..
    | failed => exact plain_printUsage ..
    | ok s r =>
      dsimp only
      rw [← h s r st]
      rcases executeE s r st with ⟨printed, ends, st'⟩
      cases ends with
      | returns e =>
        cases e with
        | none => rfl
        | some e =>
          obtain ⟨k, t⟩ := e
          cases k with
          | usage => exact plain_printUsage ..
          | graceful => rfl
          | other => rfl
      | exits c => rfl
      | waits => rfl
      | loops => rfl

theorem plain_runSub (F : Fmt) (os : OsText) (L : WordList) (C : Crypto) (env : Env) (cmd : Cmd)
    (args : List Bytes) (st : StE) :
    (runSubE F os L C env cmd args st).plain = runSub L C env cmd args st.plain := by
  refine plain_runCommand _ _ _ _ (fun s r st => ?_) args st
  have := sim_program F os L C env s cmd st
  dsimp only
  rw [← this]
  simp only [DoneE.plain, plain_execEnds]

theorem plain_root (F : Fmt) (os : OsText) (L : WordList) (C : Crypto) (env : Env) (rest : List Bytes)
    (st : StE) : (rootExecuteE F os L C env rest st).plain = rootExecute L C env rest st.plain := by
  cases rest with
  | nil => rfl
  | cons name rest =>
    simp only [rootExecuteE, rootExecute]
    split
    · rfl
    · cases subcommands name with
      | none => rfl
      | some cmd => exact plain_runSub F os L C env cmd rest st

end Verif.Proofs
