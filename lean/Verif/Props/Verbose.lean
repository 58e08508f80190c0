import Verif.Proofs.Verbose
import Verif.Props.PhraseScreen

/-! # C80 -verbose only adds tables, and they describe the key -/

namespace Verif.Props

open Verif.Model Verif.Model.Cli Verif.Proofs Verif.Spec Verif.Spec.Term Verif.Instances

/-! ## What a command does -/

/-- The actions among some events -/
def actions : List Ev → List Act
  | [] => []
  | .act a :: es => a :: actions es
  | .err _ :: es => actions es
  | .words _ :: es => actions es
  | .password _ _ :: es => actions es

theorem actions_eq : ∀ es : List Ev, actions es = es.filterMap actOf
  | [] => rfl
  | .act a :: es => by rw [actions, actions_eq es]; rfl
  | .err _ :: es => by rw [actions, actions_eq es]; rfl
  | .words _ :: es => by rw [actions, actions_eq es]; rfl
  | .password _ _ :: es => by rw [actions, actions_eq es]; rfl

/-- Whatever was typed, the command with its messages ends as the command without them, takes the same prompts and
random bytes, and does the same to files and standard output in the same order. -/
theorem c80_same (F : Fmt) (L : WordList) (C : Crypto) (env : Env) (settings : List (Bytes × FlagValue)) (cmd : Cmd)
    (hcmd : cmd ≠ .root) (prompts : List (Res Bytes)) (rnd : Bytes) :
    let v := programV F L C env settings cmd ⟨prompts, rnd, []⟩
    let p := program L C env settings cmd ⟨prompts, rnd, []⟩
    v.1 = p.1 ∧ v.2.prompts = p.2.prompts ∧ v.2.rnd = p.2.rnd ∧ actions v.2.events = p.2.acts := by
  have key : ∀ {x : ProgV Unit} {y : Prog Unit}, Refines x y →
      (x ⟨prompts, rnd, []⟩).1 = (y ⟨prompts, rnd, []⟩).1 ∧
      (x ⟨prompts, rnd, []⟩).2.prompts = (y ⟨prompts, rnd, []⟩).2.prompts ∧
      (x ⟨prompts, rnd, []⟩).2.rnd = (y ⟨prompts, rnd, []⟩).2.rnd ∧
      actions (x ⟨prompts, rnd, []⟩).2.events = (y ⟨prompts, rnd, []⟩).2.acts := by
    intro x y h
    obtain ⟨h1, h2⟩ := h ⟨prompts, rnd, []⟩
    refine ⟨h1, congrArg St.prompts h2, congrArg St.rnd h2, ?_⟩
    rw [actions_eq]
    exact congrArg St.acts h2
  cases cmd with
  | root => exact absurd rfl hcmd
  | generate => exact key (refines_generate F L C env _ _)
  | recover => exact key (refines_recover F L C env _ _)
  | convert => exact key (refines_convert L C env _ _)

/-- Whatever was typed, a run with -verbose is the run without it, with messages added. -/
theorem c80_only_adds (F : Fmt) (L : WordList) (C : Crypto) (env : Env) (st : StV) :
    (∀ opts, MoreMessages (generateAndPrintKeyV F L C env opts false st).2.events
      (generateAndPrintKeyV F L C env opts true st).2.events) ∧
    (∀ opts, MoreMessages (recoverAndPrintKeyV F L C env opts false st).2.events
      (recoverAndPrintKeyV F L C env opts true st).2.events) ∧
    ∀ opts, MoreMessages (decodeAndConvertPhraseV L C env opts false st).2.events
      (decodeAndConvertPhraseV L C env opts true st).2.events :=
  ⟨fun opts => (adding_generate F L C env opts st st rfl rfl (more_refl _)).2.2.2,
    fun opts => (adding_recover F L C env opts st st rfl rfl (more_refl _)).2.2.2,
    fun opts => (adding_convert L C env opts st st rfl rfl (more_refl _)).2.2.2⟩

/-- The option is on when its last occurrence on the command line says so. -/
theorem c80_option (cmd : Cmd) (args rest : List Bytes) (s : List (Bytes × FlagValue))
    (h : CommandLine (options cmd) (settingsOf s) rest args) :
    verboseOption s = switchedOn (settingsOf s) "verbose" false := by
  have hk := commandLine_kinds h
  clear h
  induction s using List.reverseRecOn with
  | nil => rfl
  | append_singleton l p ih =>
    rw [settingsOf_snoc] at hk ⊢
    have ih := ih (fun q hq => hk q (by simp [hq]))
    obtain ⟨k, hk, hv⟩ := hk (p.1, valueOf p.2) (by simp)
    unfold verboseOption at ih ⊢
    rw [List.foldl_append, ih]
    unfold switchedOn
    rw [lastOf_snoc]
    obtain ⟨name, value⟩ := p
    by_cases hn : name = str "verbose"
    · subst hn
      have : k = .bool := by
        cases cmd with
        | root => cases hk
        | generate =>
          have : options .generate (str "verbose") = some .bool := by decide
          exact (Option.some.inj (this.symm.trans hk)).symm
        | recover =>
          have : options .recover (str "verbose") = some .bool := by decide
          exact (Option.some.inj (this.symm.trans hk)).symm
        | convert =>
          have : options .convert (str "verbose") = some .bool := by decide
          exact (Option.some.inj (this.symm.trans hk)).symm
      subst this
      cases value <;> first | exact hv.elim | simp [setVerbose, valueOf]
    · simp only [List.foldl_cons, List.foldl_nil, if_neg hn]
      cases value <;> simp [setVerbose, hn]

/-! ## generate -/

/-- A table that -verbose adds -/
def Tells (texts : List Bytes) (rows : List (Bytes × Bytes)) : Prop :=
  ∀ t, TableRoom t rows → ShowsTable t (t.feed (sent texts)) rows

theorem generateV_ok (F : Fmt) {L : WordList} (hL : L.Lawful) {C : Crypto} (hC : C.Lawful) (env : Env)
    (opts : GenerateOptions) {w : Wanted} {master : Prop} (hask : AsksFor opts.key 0 0 0 w master)
    (hu : w.userID.length < 2 ^ 32)
    (hnow : 1672531200 * 10 ^ 9 ≤ env.now) (hnow' : env.now ≤ (1672531200 + 2 ^ 31 - 1) * 10 ^ 9)
    {rnd e rnd' : Bytes} (hseed : SeedBytes env rnd opts.unsafeEntropy e rnd') (hrnd : 99 ≤ rnd'.length)
    {keyPw phrasePw : Option Bytes} (htyped : Typed opts.key.encryptKeys opts.encryptPhrase keyPw phrasePw)
    (more : List (Res Bytes)) :
    ∃ mnk key words rest ev,
      keyDebugInfo F C mnk = keyTable C F.quote (fun second => F.time (second * 10 ^ 9)) (valueOfBytes e)
        (env.now / 10 ^ 9).toNat w ∧
      ∀ v, generateAndPrintKeyV F L C env opts v
        ⟨keyPw.toList.map .ok ++ phrasePw.toList.map .ok ++ more, rnd, []⟩ =
        (do
          if opts.outputWordFile ≠ [] then silent (save env words opts.outputWordFile)
          if v then do
            eprint (str "Generated OpenPGP private key with " ++ formatInt entropyBitCount ++ str " bits of entropy:\n")
            printKeyDebugInfo F C mnk
            eprintln []
          printKeyV (env.armor key)
          if opts.outputWordFile = [] then printMnemonicV env words : ProgV Unit) ⟨more, rest, ev⟩ := by
  obtain ⟨ttl, m, subkeys, httl, h0, h63, honly, hm, hw⟩ :=
    asked_options hC hask (by decide) (by decide) (by decide)
  obtain ⟨hexact, hpos⟩ := ttl_exact hask.expires
  have ettl : ttl = ((w.expires.getD 0 * 10 ^ 9 : Nat) : Int) := Res.ok.inj (httl.symm.trans hexact)
  obtain ⟨hs1, hs2⟩ := seed_of_bytes hseed
    (keyPw.toList.map .ok ++ phrasePw.toList.map .ok ++ more) []
  obtain ⟨-, hn, -⟩ := (newSeed_ok_iff _ _ _).mp hs2
  obtain ⟨mnk, hnew, -⟩ := (c20_new hC ((valueOfBytes e : Nat) : Int) hn 0 env.now
    (some (optionsFor opts.key 0 0 0 ttl subkeys))).2.2.2.2 rfl h0 hnow hnow'
  have hkey : (keyPw.getD []).length ≤ 65011704 := by
    cases hk : keyPw with
    | none => simp
    | some p => exact (htyped.keyGood p hk).2
  obtain ⟨key, rnd2, hexp, hlen, -⟩ := export_contains hC hs2 hnew h63 (by rw [hw]; exact hu) m true
    (keyPw.getD []) rnd' (.inr (by omega)) hkey
  obtain ⟨hpl, hen⟩ := phrase_holds hL hC hs2 hnew
  have htable := keyDebugInfo_eq F hC hs2 hnew hw ettl hpos
  obtain ⟨words, rest, ev2, hwords⟩ : ∃ words rest ev2, ∀ ev,
      (if opts.encryptPhrase then do
        let phrasePassword ← askPassword phrasePasswordPrompt true
        silent (random (mnk.encodeMnemonicEncrypted L C phrasePassword))
      else silent (lift (mnk.encodeMnemonicPlaintext L)) : ProgV (List Bytes))
        ⟨phrasePw.toList.map .ok ++ more, rnd2, ev⟩ = (.ok words, ⟨more, rest, ev ++ ev2⟩) := by
    rw [← htyped.phrase]
    cases hp : phrasePw with
    | none =>
      obtain ⟨ws, h1, h2⟩ := hpl
      refine ⟨ws, rnd2, [], fun ev => ?_⟩
      rw [h1, if_neg (by simp), List.append_nil]
      exact silent_quiet rfl _
    | some p =>
      obtain ⟨ws, rest, h1, h2⟩ := hen p rnd2 (htyped.phraseGood p hp) (by omega)
      refine ⟨ws, rest, [.password phrasePasswordPrompt true], fun ev => ?_⟩
      rw [if_pos (show (some p).isSome = true from rfl)]
      have := bindV_ok (askPassword_ok phrasePasswordPrompt true p more rnd2 ev) (fun p =>
        silent (random (mnk.encodeMnemonicEncrypted L C p)))
      exact this.trans (silent_quiet (random_ok (st := ⟨more, rnd2, []⟩) h1) _)
  obtain ⟨ev1, hpw⟩ : ∃ ev1, ∀ ev, (if opts.key.encryptKeys then askPassword keyPasswordPrompt true else pure [] :
        ProgV Bytes) ⟨keyPw.toList.map .ok ++ (phrasePw.toList.map .ok ++ more), rnd', ev⟩ =
      (.ok (keyPw.getD []), ⟨phrasePw.toList.map .ok ++ more, rnd', ev ++ ev1⟩) := by
    rw [← htyped.key]
    cases keyPw with
    | none => exact ⟨[], fun ev => by rw [List.append_nil]; rfl⟩
    | some p => exact ⟨[.password keyPasswordPrompt true], fun ev => askPassword_ok keyPasswordPrompt true p _ rnd' ev⟩
  have hnew' : new C ⟨0, (valueOfBytes e : Nat)⟩ env.now (some
    { name := trimSpace opts.key.name, email := trimSpace opts.key.email, ttl := ttl
      encryptionSubkeyIndex := 0, authenticationSubkeyIndex := 0, signingSubkeyIndex := 0
      subkeys := subkeys }) = .ok mnk := hnew
  have hrest : ∀ ev0 (K : Mnemonikey → Bytes → List Bytes → ProgV Unit), (do
      let seed ← silent (seedOf env opts.unsafeEntropy)
      let mnk ← silent (lift (new C seed env.now (some
        { name := trimSpace opts.key.name, email := trimSpace opts.key.email, ttl := ttl
          encryptionSubkeyIndex := 0, authenticationSubkeyIndex := 0, signingSubkeyIndex := 0
          subkeys := subkeys })))
      let password ← (if opts.key.encryptKeys then askPassword keyPasswordPrompt true else pure [] : ProgV Bytes)
      let key ← silent (exportKey C mnk m true password)
      let words ← (if opts.encryptPhrase then do
          let phrasePassword ← askPassword phrasePasswordPrompt true
          silent (random (mnk.encodeMnemonicEncrypted L C phrasePassword))
        else silent (lift (mnk.encodeMnemonicPlaintext L)) : ProgV (List Bytes))
      K mnk key words : ProgV Unit) ⟨keyPw.toList.map .ok ++ phrasePw.toList.map .ok ++ more, rnd, ev0⟩ =
      K mnk key words ⟨more, rest, ev0 ++ ev1 ++ ev2⟩ := by
    intro ev0 K
    rw [bindV_ok (silent_quiet hs1 _), hnew', bindV_ok (silent_quiet (lift_ok mnk _) _), List.append_assoc, bindV_ok (hpw _),
      bindV_ok (silent_quiet (exportKey_ok hexp _ _) _), bindV_ok (hwords _)]
  by_cases hun : opts.unsafeEntropy = []
  · refine ⟨mnk, key, words, rest, [] ++ ev1 ++ ev2, htable, fun v => ?_⟩
    unfold generateAndPrintKeyV
    rw [httl, bindV_ok (silent_quiet (lift_ok ttl _) _), honly, bindV_ok (silent_quiet (lift_ok _ _) _)]
    dsimp only
    rw [if_neg (by simp [hun])]
    exact hrest [] _
  · refine ⟨mnk, key, words, rest, [.err (entropyWarning ++ str "\n")] ++ ev1 ++ ev2, htable, fun v => ?_⟩
    unfold generateAndPrintKeyV
    rw [httl, bindV_ok (silent_quiet (lift_ok ttl _) _), honly, bindV_ok (silent_quiet (lift_ok _ _) _)]
    dsimp only
    rw [if_pos hun, eprintln, bindV_ok (eprint_ok _ _ _ _)]
    exact hrest _ _

/-- With the options, passwords and surroundings of C70, generate with -verbose does all that it does without, and
in one place adds a table: the fingerprint, user ID, creation time and expiry of the key that it prints, and the
fingerprints of its subkeys. -/
theorem c80_generate (F : Fmt) {L : WordList} (hL : L.Lawful) {C : Crypto} (hC : C.Lawful) (env : Env)
    (opts : GenerateOptions) {w : Wanted} {master : Prop}
    (hask : AsksFor opts.key 0 0 0 w master) (hu : w.userID.length < 2 ^ 32)
    (hnow : 1672531200 * 10 ^ 9 ≤ env.now) (hnow' : env.now ≤ (1672531200 + 2 ^ 31 - 1) * 10 ^ 9)
    {rnd e rnd' : Bytes} (hseed : SeedBytes env rnd opts.unsafeEntropy e rnd') (hrnd : 99 ≤ rnd'.length)
    {keyPw phrasePw : Option Bytes} (htyped : Typed opts.key.encryptKeys opts.encryptPhrase keyPw phrasePw)
    (more : List (Res Bytes))
    (hsave : opts.outputWordFile ≠ [] → env.fs.read opts.outputWordFile = none ∧
      env.save = ⟨false, false, none⟩)
    (hshow : opts.outputWordFile = [] → 17 ≤ env.columns) :
    let run v := generateAndPrintKeyV F L C env opts v
      ⟨keyPw.toList.map .ok ++ phrasePw.toList.map .ok ++ more, rnd, []⟩
    ∃ before texts after, (∀ v, (run v).1 = .ok ()) ∧
      (run false).2.events = before ++ after ∧ (run true).2.events = before ++ texts.map .err ++ after ∧
      Tells texts (keyTable C F.quote (fun second => F.time (second * 10 ^ 9)) (valueOfBytes e)
        (env.now / 10 ^ 9).toNat w) := by
  obtain ⟨mnk, key, words, rest, ev, htable, hrun⟩ := generateV_ok F hL hC env opts hask hu hnow hnow' hseed hrnd
    htyped more
  dsimp only
  rw [← htable]
  have htitle : str "Generated OpenPGP private key with " ++ formatInt entropyBitCount ++ str " bits of entropy:\n" =
      str "Generated OpenPGP private key with 128 bits of entropy:" ++ str "\n" := by decide +kernel
  have htells : Tells (tableTexts (str "Generated OpenPGP private key with 128 bits of entropy:")
      (keyDebugInfo F C mnk)) (keyDebugInfo F C mnk) := fun t ht => table_screen (by decide +kernel) ht
  have hprint : ∃ es, Steps (do
      printKeyV (env.armor key)
      if opts.outputWordFile = [] then printMnemonicV env words) more rest () more rest es := by
    obtain ⟨es, hes⟩ := steps_printKey (env.armor key) more rest
    by_cases ho : opts.outputWordFile = []
    · obtain ⟨out, h1, -⟩ := notice_text (hshow ho)
      rw [if_pos ho]
      exact ⟨_, steps_bind hes fun ev => printMnemonicV_ok h1 words _⟩
    · rw [if_neg ho]
      exact ⟨_, steps_bind hes (steps_pure _ _ _)⟩
  obtain ⟨es, hes⟩ := hprint
  have htab := steps_table htitle (keyDebugInfo F C mnk) (f := fun _ => do
      printKeyV (env.armor key)
      if opts.outputWordFile = [] then printMnemonicV env words) hes
  obtain ⟨before, h⟩ : ∃ before, ∀ v, generateAndPrintKeyV F L C env opts v
      ⟨keyPw.toList.map .ok ++ phrasePw.toList.map .ok ++ more, rnd, []⟩ = (.ok (), ⟨more, rest, before ++
        ((if v then (tableTexts (str "Generated OpenPGP private key with 128 bits of entropy:")
          (keyDebugInfo F C mnk)).map .err else []) ++ es)⟩) := by
    by_cases ho : opts.outputWordFile = []
    · refine ⟨ev, fun v => ?_⟩
      rw [hrun]
      dsimp only
      rw [if_neg (by simp [ho])]
      cases v
      · exact hes ev
      · exact htab ev
    · obtain ⟨hnone, hsv⟩ := hsave ho
      have hok := save_good (ws := words) hnone hsv
      refine ⟨ev ++ (saveMnemonic env.fs env.save words opts.outputWordFile).1.map .act, fun v => ?_⟩
      rw [hrun]
      dsimp only
      rw [if_pos ho, bindV_ok (silent_ok (save_ok hok _) _)]
      cases v
      · exact hes _
      · exact htab _
  refine ⟨before, _, es, fun v => by rw [h], ?_, ?_, htells⟩
  · rw [h]; rfl
  · rw [h]
    simp only [if_true, List.append_assoc]

/-! ## recover and convert -/

/-- What is said of a phrase -/
theorem holds_table {L : WordList} (hL : L.Lawful) {C : PhraseCrypto} {words : List Bytes} {phrasePw : Option Bytes}
    {seed offset : Nat} (h : Holds (indexOf L) C words phrasePw seed offset) {dm : DecodedMnemonic}
    (hd : decodeMnemonic L words = .ok dm) : phraseDebugInfo dm = phraseTable phrasePw.isSome := by
  have e : ∀ c, readPhrase (indexOf L) words = .ok c → dm = decodedOf c := by
    intro c hr
    have := (decode_of_read hL hr).1
    rw [hd] at this
    exact Res.ok.inj this
  cases phrasePw with
  | none =>
    rw [e _ (show readPhrase (indexOf L) words = .ok (.plaintext seed offset) from h)]
    have : ∀ (n : Int), phraseDebugInfo ⟨0, n, none, 0, offset⟩ = phraseTable false := by
      intro n
      show [(str "version", formatInt 0), (str "era", formatInt (versionEra 0)), (str "encrypted", str "false")] = _
      decide +kernel
    exact this _
  | some p =>
    obtain ⟨e', salt, v, hr, -⟩ := h
    rw [e _ hr]
    have : ∀ (n s : Int) (v : Byte), phraseDebugInfo ⟨1, n, some s, v, offset⟩ = phraseTable true := by
      intro n s v
      show [(str "version", formatInt 1), (str "era", formatInt (versionEra 1)), (str "encrypted", str "true")] = _
      decide +kernel
    exact this _ _ _

/-- Asking for the seed -/
theorem steps_askSeed {C : Crypto} {dm : DecodedMnemonic} {ps ps' : List (Res Bytes)} {s : Seed}
    (h : seedLoop C dm ps = (.ok s, ps')) (rnd : Bytes) : ∃ es, Steps (askSeedV C dm) ps rnd s ps' rnd es := by
  by_cases he : dm.encrypted = true
  · obtain ⟨h1, h2, -⟩ := passwordLoopV_same C dm ps
    rw [seedLoop, if_pos he] at h
    refine ⟨(passwordLoopV C dm ps).2.2, fun ev => ?_⟩
    unfold askSeedV
    rw [if_pos he]
    dsimp only
    rw [h1, h2, h]
  · refine ⟨[], fun ev => ?_⟩
    unfold askSeedV
    rw [if_neg he]
    exact steps_silent (as := []) (by unfold askSeed; rw [h]) ev

theorem steps_decode {L : WordList} (hL : L.Lawful) {C : Crypto} (env : Env) (input : InputFlags) {words : List Bytes}
    (hin : inputWords L env input = .ok words) {phrasePw : Option Bytes} {seed offset : Nat}
    (hholds : Holds (indexOf L) C.toPhraseCrypto words phrasePw seed offset) {dm : DecodedMnemonic}
    (hd : decodeMnemonic L words = .ok dm) {ps ps' : List (Res Bytes)}
    (hloop : seedLoop C dm ps = (.ok ⟨0, seed⟩, ps')) (rnd : Bytes) :
    ∃ a texts b, Tells texts (phraseTable phrasePw.isSome) ∧ ∀ v,
      Steps (decodeMnemonicFromInputV L C env input v) ps rnd (⟨0, (seed : Int)⟩, dm) ps' rnd
        (a ++ ((if v then texts.map .err else []) ++ b)) := by
  obtain ⟨es, hes⟩ := steps_askSeed hloop rnd
  have htitle : str "Decoded mnemonic recovery phrase:" ++ str "\n" = str "Decoded mnemonic recovery phrase:" ++ str "\n" := rfl
  have htells : Tells (tableTexts (str "Decoded mnemonic recovery phrase:") (phraseDebugInfo dm)) (phraseDebugInfo dm) :=
    fun t ht => table_screen (by decide +kernel) ht
  rw [holds_table hL hholds hd] at htells
  have hend := steps_bind (f := fun s => (pure (s, dm) : ProgV (Seed × DecodedMnemonic))) hes (steps_pure _ _ _)
  have htab := steps_table htitle (phraseDebugInfo dm) (f := fun _ => do
    let s ← askSeedV C dm
    pure (s, dm)) hend
  have hmid : ∀ v : Bool, Steps (do
      let words ← silent (lift (inputWords L env input))
      let dm ← silent (lift (decodeMnemonic L words))
      if v then do
        eprintln (str "Decoded mnemonic recovery phrase:")
        printDebugInfo (phraseDebugInfo dm)
        eprintln []
      let seed ← askSeedV C dm
      pure (seed, dm)) ps rnd (⟨0, (seed : Int)⟩, dm) ps' rnd
        ((if v then (tableTexts (str "Decoded mnemonic recovery phrase:") (phraseTable phrasePw.isSome)).map .err
          else []) ++ (es ++ [])) := by
    intro v ev
    rw [hin, bindV_ok (silent_quiet (lift_ok words _) _), hd, bindV_ok (silent_quiet (lift_ok dm _) _),
      ← holds_table hL hholds hd]
    dsimp only
    cases v
    · exact hend ev
    · exact htab ev
  by_cases hf : input.inputWordFile = []
  · refine ⟨(rawWarnings env input).map .err ++ [.words (byLine env input)], _, es ++ [], htells, fun v => ?_⟩
    unfold decodeMnemonicFromInputV
    dsimp only
    rw [if_pos hf]
    refine steps_bind (x := askWordsV env input) (a := ()) (fun ev => ?_) (hmid v)
    unfold askWordsV
    rw [bindV_ok (eprints_ok _ _ _ _)]
    simp [event]
  · refine ⟨[], _, es ++ [], htells, fun v => ?_⟩
    unfold decodeMnemonicFromInputV
    dsimp only
    rw [if_neg hf]
    exact hmid v

/-- With the options, passwords and phrase of C71, recover with -verbose does all that it does without, and in two
places adds a table: of the phrase, and of the key that it prints. -/
theorem c80_recover (F : Fmt) {L : WordList} (hL : L.Lawful) {C : Crypto} (hC : C.Lawful) (env : Env)
    (opts : RecoverOptions) {w : Wanted} {master : Prop}
    (hask : AsksFor opts.key opts.encIndex opts.authIndex opts.sigIndex w master)
    (henc : opts.encIndex ≤ 65535) (hauth : opts.authIndex ≤ 65535) (hsig : opts.sigIndex ≤ 65535)
    (hu : w.userID.length < 2 ^ 32) {words : List Bytes} (hin : Gets L (offer L) env opts.input words)
    {phrasePw keyPw : Option Bytes} {seed offset : Nat}
    (hholds : Holds (indexOf L) C.toPhraseCrypto words phrasePw seed offset)
    (wrong : List Bytes) (hwrong : ∀ p ∈ wrong, WrongPassword L C words p)
    (hkey : keyPw.isSome = opts.key.encryptKeys)
    (hgood : ∀ p, keyPw = some p → p ≠ [] ∧ p.length ≤ 65011704)
    (more : List (Res Bytes)) {rnd : Bytes} (hrnd : 96 ≤ rnd.length) :
    let run v := recoverAndPrintKeyV F L C env opts v
      ⟨wrong.map .ok ++ phrasePw.toList.map .ok ++ keyPw.toList.map .ok ++ more, rnd, []⟩
    ∃ before phrase between key after, (∀ v, (run v).1 = .ok ()) ∧
      (run false).2.events = before ++ between ++ after ∧
      (run true).2.events = before ++ phrase.map .err ++ between ++ key.map .err ++ after ∧
      Tells phrase (phraseTable phrasePw.isSome) ∧
      Tells key (keyTable C F.quote (fun second => F.time (second * 10 ^ 9)) seed (1672531200 + offset) w) := by
  replace hin := (gets_iff hL).2 hin
  obtain ⟨ttl, m, subkeys, httl, h0, h63, honly, hm, hw⟩ :=
    asked_options hC hask (by omega) (by omega) (by omega)
  obtain ⟨hexact, hpos⟩ := ttl_exact hask.expires
  have ettl : ttl = ((w.expires.getD 0 * 10 ^ 9 : Nat) : Int) := Res.ok.inj (httl.symm.trans hexact)
  obtain ⟨dm, hd, hoff, holt, hslt, hloop⟩ := holds_decodes hL hC hholds wrong hwrong
  have hs2 : newSeed 0 ((seed : Nat) : Int) = .ok ⟨0, (seed : Int)⟩ :=
    (newSeed_ok_iff 0 seed _).mpr ⟨rfl, by simpa using hslt, rfl⟩
  have hcr : dm.creation = ((1672531200 + offset : Nat) : Int) * 10 ^ 9 :=
    creation_eq dm (1672531200 + offset) (by omega) (by omega) (by omega)
  obtain ⟨mnk, hnew, -⟩ := (c20_new hC ((seed : Nat) : Int) (by simpa using hslt) 0 dm.creation
    (some (optionsFor opts.key opts.encIndex opts.authIndex opts.sigIndex ttl subkeys))).2.2.2.2 rfl h0
      (by rw [hcr]; omega) (by rw [hcr]; omega)
  have hkl : (keyPw.getD []).length ≤ 65011704 := by
    cases hk : keyPw with
    | none => simp
    | some p => exact (hgood p hk).2
  obtain ⟨key, rest, hexp, -, -⟩ := export_contains hC hs2 hnew h63 (by rw [hw]; exact hu) m opts.selfCert
    (keyPw.getD []) rnd (.inr hrnd) hkl
  have hsec : (dm.creation / 10 ^ 9).toNat = 1672531200 + offset := by
    rw [hcr, Int.mul_ediv_cancel _ (by decide), Int.toNat_natCast]
  have htable := keyDebugInfo_eq F hC hs2 hnew hw ettl hpos
  rw [hsec] at htable
  have hidx : ¬ IndexTooLarge opts := by unfold IndexTooLarge maxSubkeyIndex; omega
  have hnew' : new C ⟨0, (seed : Int)⟩ dm.creation (some (recoveredOptions opts ttl subkeys)) = .ok mnk := hnew
  unfold recoveredOptions at hnew'
  obtain ⟨a, texts, b, htells, hdec⟩ := steps_decode hL env opts.input hin hholds hd
    (hloop (keyPw.toList.map .ok ++ more)) rnd
  obtain ⟨ev1, hpw⟩ : ∃ ev1, ∀ ev, (if opts.key.encryptKeys then askPassword keyPasswordPrompt true else pure [] :
        ProgV Bytes) ⟨keyPw.toList.map .ok ++ more, rnd, ev⟩ =
      (.ok (keyPw.getD []), ⟨more, rnd, ev ++ ev1⟩) := by
    rw [← hkey]
    cases keyPw with
    | none => exact ⟨[], fun ev => by rw [List.append_nil]; rfl⟩
    | some p => exact ⟨[.password keyPasswordPrompt true], fun ev => askPassword_ok keyPasswordPrompt true p _ rnd ev⟩
  obtain ⟨es, hes⟩ := steps_printKey (env.armor key) more rest
  have htab := steps_table (title := str "Re-derived OpenPGP key:") rfl (keyDebugInfo F C mnk)
    (f := fun _ => printKeyV (env.armor key)) hes
  have h : ∀ v, recoverAndPrintKeyV F L C env opts v
      ⟨wrong.map .ok ++ phrasePw.toList.map .ok ++ keyPw.toList.map .ok ++ more, rnd, []⟩ =
      (.ok (), ⟨more, rest, [] ++ (a ++ ((if v then texts.map .err else []) ++ b)) ++ ev1 ++
        ((if v then (tableTexts (str "Re-derived OpenPGP key:") (keyDebugInfo F C mnk)).map .err else []) ++ es)⟩) := by
    intro v
    unfold recoverAndPrintKeyV
    rw [httl, bindV_ok (silent_quiet (lift_ok ttl _) _), if_neg hidx, honly, bindV_ok (silent_quiet (lift_ok _ _) _)]
    dsimp only
    rw [List.append_assoc, bindV_ok (hdec v _)]
    dsimp only
    rw [hnew', bindV_ok (silent_quiet (lift_ok mnk _) _), bindV_ok (hpw _),
      bindV_ok (silent_quiet (exportKey_ok hexp _ _) _)]
    cases v
    · exact hes _
    · exact htab _
  dsimp only
  refine ⟨a, texts, b ++ ev1, tableTexts (str "Re-derived OpenPGP key:") (keyDebugInfo F C mnk), es, fun v => by rw [h], ?_, ?_, htells, ?_⟩
  rotate_left 2
  · rw [← htable]
    exact fun t ht => table_screen (title := str "Re-derived OpenPGP key:") (by decide +kernel) ht
  · rw [h]
    simp
  · rw [h]
    simp

/-- With the passwords and phrase of C72, convert with -verbose does all that it does without, and in one place adds
a table of the phrase it was given. -/
theorem c80_convert {L : WordList} (hL : L.Lawful) {C : Crypto} (hC : C.Lawful) (env : Env)
    (opts : ConvertOptions) {words : List Bytes} (hin : Gets L (offer L) env opts.input words)
    {phrasePw : Option Bytes} {seed offset : Nat}
    (hholds : Holds (indexOf L) C.toPhraseCrypto words phrasePw seed offset)
    (wrong : List Bytes) (hwrong : ∀ p ∈ wrong, WrongPassword L C words p)
    (more : List (Res Bytes)) (rnd : Bytes) :
    let run v := decodeAndConvertPhraseV L C env opts v
      ⟨wrong.map .ok ++ phrasePw.toList.map .ok ++ more, rnd, []⟩
    ∃ before texts after, (run false).2.events = before ++ after ∧
      (run true).2.events = before ++ texts.map .err ++ after ∧ Tells texts (phraseTable phrasePw.isSome) := by
  replace hin := (gets_iff hL).2 hin
  obtain ⟨dm, hd, hoff, holt, hslt, hloop⟩ := holds_decodes hL hC hholds wrong hwrong
  obtain ⟨a, texts, b, htells, hdec⟩ := steps_decode hL env opts.input hin hholds hd (hloop more) rnd
  obtain ⟨o, ps', rnd', es, hK⟩ : ∃ o ps' rnd' es, ∀ ev, (do
      let words ← (if opts.encryptPhrase then do
          let phrasePassword ← askPassword phrasePasswordPrompt true
          silent (random (encodeMnemonicEncrypted L C.toPhraseCrypto ⟨0, seed⟩ dm.creationOffset phrasePassword))
        else silent (lift (encodeMnemonicPlaintext L ⟨0, seed⟩ dm.creationOffset)) : ProgV (List Bytes))
      if opts.input.inputWordFile = [] then printMnemonicV env words
      else silent (save env words opts.input.inputWordFile) : ProgV Unit) ⟨more, rnd, ev⟩ =
        (o, ⟨ps', rnd', ev ++ es⟩) := by
    refine uniform_bind (uniform_ite (uniform_bind (uniform_bind (uniform_event _) fun _ => uniform_silent _) fun _ =>
      uniform_silent _) (uniform_silent _)) (fun ws => ?_) more rnd
    exact uniform_ite (uniform_printMnemonic _ _) (uniform_silent _)
  have h : ∀ v, decodeAndConvertPhraseV L C env opts v
      ⟨wrong.map .ok ++ phrasePw.toList.map .ok ++ more, rnd, []⟩ =
      (o, ⟨ps', rnd', [] ++ (a ++ ((if v then texts.map .err else []) ++ b)) ++ es⟩) := by
    intro v
    unfold decodeAndConvertPhraseV
    rw [bindV_ok (hdec v _)]
    exact hK _
  dsimp only
  refine ⟨a, texts, b ++ es, ?_, ?_, htells⟩
  · rw [h]
    simp
  · rw [h]
    simp

/-! ## examples -/

/-- The rows of a table on the screen -/
example : tableRow 9 (str "era", str "0") = faintly (str "era:") ++ plain (str "       0") ∧
    tableRow 9 (str "encrypted", str "true") = faintly (str "encrypted:") ++ plain (str " true") := by
  decide +kernel

example : upperHex [0x00, 0x9F, 0xA5] = str "009FA5" := by decide +kernel

example : TableRoom (emptyTerm 80 24) (phraseTable true) :=
  ⟨rfl, rfl, by decide, by decide, fun _ _ _ => rfl, by decide +kernel, by decide +kernel⟩

/-- What is written for a phrase with a password -/
example : tableTexts (str "Decoded mnemonic recovery phrase:") (phraseTable true) = [
    str "Decoded mnemonic recovery phrase:\n",
    str "\x1b[2mversion:\x1b[22m   \x1b[36m1\x1b[39m\n",
    str "\x1b[2mera:\x1b[22m       \x1b[36m0\x1b[39m\n",
    str "\x1b[2mencrypted:\x1b[22m \x1b[36mtrue\x1b[39m\n", str "\n"] := by
  decide +kernel

/-- generate with both passwords, a name and email, an expiry and two subkeys -/
example (F : Fmt) : ∃ before texts after,
    (generateAndPrintKeyV F toyWordList toyCrypto sampleEnv
      { key := sampleKeyFlags, outputWordFile := [], encryptPhrase := true, unsafeEntropy := [] } true
      ⟨(some (str "key password")).toList.map .ok ++ (some (str "phrase password")).toList.map .ok ++ [],
        List.replicate 115 7, []⟩).2.events = before ++ texts.map .err ++ after ∧
      Tells texts (keyTable toyCrypto F.quote (fun second => F.time (second * 10 ^ 9))
        (valueOfBytes (List.replicate 16 7)) (sampleEnv.now / 10 ^ 9).toNat (sampleWanted 0 0)) := by
  obtain ⟨before, texts, after, -, -, h, h'⟩ := c80_generate F toyWordList_lawful toyCrypto_lawful sampleEnv
    { key := sampleKeyFlags, outputWordFile := [], encryptPhrase := true, unsafeEntropy := [] }
    (sample_asks 0 0 0) (by decide) (by decide) (by decide)
    (.system (rnd := List.replicate 115 7) (e := List.replicate 16 7) (rest := List.replicate 99 7) rfl rfl)
    (by decide) (keyPw := some (str "key password")) (phrasePw := some (str "phrase password"))
    ⟨rfl, rfl, by rintro p ⟨⟩; decide, by rintro p ⟨⟩; decide⟩ [] (fun h => absurd rfl h) (by decide)
  beta_reduce at h
  exact ⟨before, texts, after, h, h'⟩

/-- The names in the table of that key -/
example (C : Crypto) (q : Bytes → Bytes) (t : Nat → Bytes) : (keyTable C q t 5 1700000000 (sampleWanted 0 0)).map (·.1) =
    [str "Master key Fingerprint", str "User ID", str "Created at", str "Expires at",
      str "Encryption subkey fingerprint", str "Authentication subkey fingerprint"] := rfl

/-- recover and convert from the phrase that a key was generated with -/
example (F : Fmt) : ∃ words before, ∃ phrase : List Bytes, ∃ between, ∃ key : List Bytes, ∃ after,
    (recoverAndPrintKeyV F toyWordList toyCrypto
      { sampleEnv with fs := { dir := fun _ => some 0, data := fun _ => phraseText words, next := 1 } }
      { key := sampleKeyFlags, input := ⟨false, str "words"⟩, selfCert := false, encIndex := 3, authIndex := 65535
        sigIndex := 7 } true
      ⟨[] ++ (some (str "phrase password")).toList.map .ok ++ (some (str "new password")).toList.map .ok ++ [],
        List.replicate 96 7, []⟩).2.events =
        before ++ phrase.map .err ++ between ++ key.map .err ++ after ∧
      Tells phrase (phraseTable true) ∧
    ∃ before', ∃ texts' : List Bytes, ∃ after', (decodeAndConvertPhraseV toyWordList toyCrypto
      { sampleEnv with fs := { dir := fun _ => some 0, data := fun _ => phraseText words, next := 1 } }
      { input := ⟨false, str "words"⟩, outputWordFile := str "", encryptPhrase := false } true
      ⟨[] ++ (some (str "phrase password")).toList.map .ok ++ [], [], []⟩).2.events =
        before' ++ texts'.map .err ++ after' ∧ Tells texts' (phraseTable true) := by
  obtain ⟨-, key0, words, -, -, hc, hh, -⟩ := c70_generate toyWordList_lawful toyCrypto_lawful sampleEnv
    sampleFS_wf
    { key := sampleKeyFlags, outputWordFile := str "new", encryptPhrase := true, unsafeEntropy := [] }
    (sample_asks 0 0 0) (by decide) (by decide) (by decide)
    (.system (rnd := List.replicate 115 7) (e := List.replicate 16 7) (rest := List.replicate 99 7) rfl rfl)
    (by decide) (keyPw := some (str "key password")) (phrasePw := some (str "phrase password"))
    ⟨rfl, rfl, by rintro p ⟨⟩; decide, by rintro p ⟨⟩; decide⟩ []
    (fun _ => ⟨by decide +kernel, rfl⟩) (by decide)
  obtain ⟨before, phrase, between, key, after, -, -, h1, h2, -⟩ := c80_recover F toyWordList_lawful toyCrypto_lawful
    { sampleEnv with fs := { dir := fun _ => some 0, data := fun _ => phraseText words, next := 1 } }
    { key := sampleKeyFlags, input := ⟨false, str "words"⟩, selfCert := false, encIndex := 3, authIndex := 65535
      sigIndex := 7 }
    (sample_asks 3 65535 7) (by decide) (by decide) (by decide) (by decide)
    (gets_file toyWordList_lawful (by decide) rfl hc) hh [] (by simp)
    (keyPw := some (str "new password")) rfl (by rintro p ⟨⟩; decide) [] (rnd := List.replicate 96 7) (by decide)
  obtain ⟨before', texts', after', -, h3, h4⟩ := c80_convert toyWordList_lawful toyCrypto_lawful
    { sampleEnv with fs := { dir := fun _ => some 0, data := fun _ => phraseText words, next := 1 } }
    { input := ⟨false, str "words"⟩, outputWordFile := str "", encryptPhrase := false }
    (gets_file toyWordList_lawful (by decide) rfl hc) hh [] (by simp) [] []
  exact ⟨words, before, phrase, between, key, after, h1, h2, before', texts', after', h3, h4⟩

/-- The command line `-verbose` -/
example : ∃ s, CommandLine (options .generate) (settingsOf s) [] [str "-verbose"] ∧ verboseOption s = true :=
  ⟨[(str "verbose", .bool true)], (c63_accepted .generate _ _ _).1 (by decide +kernel), by decide +kernel⟩

end Verif.Props
