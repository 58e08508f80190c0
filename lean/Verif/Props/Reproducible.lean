import Verif.Props.Request

/-!
# The key printed depends on seed, second and options only (C91)
-/

namespace Verif.Props

open Verif.Model Verif.Model.Pgp Verif.Model.Cli Verif.Proofs Verif.Spec Verif.Spec.OpenPGP Verif.Instances

/-! ## the export depends on what is wanted -/

theorem packets_userID (C : Crypto) (ks : KeySet) (u u' : UserID) (h : u.encode = u'.encode) (password rnd : Bytes) :
    KeySet.encodePackets C { ks with userID := u } password rnd =
      KeySet.encodePackets C { ks with userID := u' } password rnd ∧
    ∀ cert, KeySet.encodeSubkeyPackets C { ks with userID := u } password cert rnd =
      KeySet.encodeSubkeyPackets C { ks with userID := u' } password cert rnd := by
  have hc : KeySet.encodeSelfCertification C { ks with userID := u } =
      KeySet.encodeSelfCertification C { ks with userID := u' } := by
    unfold KeySet.encodeSelfCertification EdKey.selfCertify
    dsimp only
    rw [h]
  have hp : u.encodePacket = u'.encodePacket := by
    unfold UserID.encodePacket
    rw [h]
  refine ⟨?_, fun cert => ?_⟩
  · unfold KeySet.encodePackets
    rw [hc]
    dsimp only
    rw [hp]
    rfl
  · unfold KeySet.encodeSubkeyPackets
    rw [hc]
    dsimp only
    rw [hp]
    rfl

/-- The lifetime in nanoseconds -/
def lifetime : Option Nat → Int
  | none => 0
  | some n => (n : Int) * 10 ^ 9

/-- The key with the whole user ID as name -/
def plainKey (C : Crypto) (w : Wanted) (seed second : Nat) : KeySet :=
  mkKS C ⟨w.userID, []⟩ (masterSeed C seed second) (second * 10 ^ 9)
    (expiryOf (second * 10 ^ 9) (lifetime w.expires)) (selSeed C seed second "encryption" w.encryption)
    (selSeed C seed second "authentication" w.authentication) (selSeed C seed second "signing" w.signing)

def okOf (r : Res (Bytes × Bytes)) : Bytes :=
  match r with
  | .ok (b, _) => b
  | _ => []

/-- The packets without a password -/
def plainExport (C : Crypto) (w : Wanted) (seed second : Nat) (master cert : Bool) : Bytes :=
  okOf (if master then (plainKey C w seed second).encodePackets C [] []
    else (plainKey C w seed second).encodeSubkeyPackets C [] cert [])

theorem ttl_lifetime {t : Bytes} {x : Option Nat} (h : Expiry t x) {ttl : Int} (ht : ttlOf t = .ok ttl) :
    ttl = lifetime x := by
  have nonempty : ∀ {t : Bytes} {q u : Nat}, IsTTL t q u → t ≠ [] := by
    rintro t q u ⟨ds, c, rfl, -⟩
    simp
  cases h with
  | absent =>
    cases ht
    rfl
  | zero hz =>
    unfold ttlOf at ht
    rw [if_pos (nonempty hz), c43_value t _ _ hz (by simp)] at ht
    cases ht
    simp [lifetime]
  | @after _ q u hz hq hlt =>
    unfold ttlOf at ht
    rw [if_pos (nonempty hz), c43_value t _ _ hz (by omega)] at ht
    cases ht
    simp [lifetime]

theorem export_plain {C : Crypto} (hC : C.Lawful) {x : Nat} {s : Seed} (hs : newSeed 0 (x : Int) = .ok s)
    {creation : Int} {o : KeyOptions} {mnk : Mnemonikey} (h : new C s creation (some o) = .ok mnk)
    {w : Wanted} (hw : wanted C o = w) (ht : o.ttl = lifetime w.expires) (rnd : Bytes) (m cert : Bool) :
    (if m then mnk.encodePGP C [] rnd else mnk.encodeSubkeysPGP C [] cert rnd) =
      .ok (plainExport C w x (creation / 10 ^ 9).toNat m cert, rnd) := by
  obtain ⟨d1, d2⟩ := c37_deterministic hC 0 x s hs creation (some o) mnk h
  obtain ⟨second, hsec, h1, h2, h3, rfl, hx2, rfl⟩ := new_shape hC hs h
  have hks : keySetOf C (x : Int).natAbs second (second * 10 ^ 9) (expiryOf (second * 10 ^ 9)
      ((some o).getD KeyOptions.zero).ttl) ((some o).getD KeyOptions.zero) =
      { plainKey C w x second with userID := ⟨o.name, o.email⟩ } := by
    simp only [Option.getD_some]
    rw [keySetOf_eq, Int.natAbs_natCast, ht, hw]
    rfl
  have hue : (UserID.mk o.name o.email).encode = (UserID.mk w.userID []).encode := by
    rw [show (UserID.mk w.userID []).encode = w.userID from rfl, ← hw, userID_encode]
    rfl
  have e1 : (creation / 10 ^ 9).toNat = second := by rw [hsec, Int.toNat_natCast]
  have p := packets_userID C (plainKey C w x second) _ _ hue []
  rw [e1]
  unfold plainExport
  cases m
  · simp only [Bool.false_eq_true, if_false]
    obtain ⟨out, hd⟩ := d2 cert
    have h0 := hd []
    rw [hd rnd]
    unfold Mnemonikey.encodeSubkeysPGP at h0
    rw [hks, (p []).2 cert] at h0
    have e : KeySet.encodeSubkeyPackets C (plainKey C w x second) [] cert [] = .ok (out, []) := h0
    rw [e]
    rfl
  · simp only [if_true]
    obtain ⟨out, hd⟩ := d1
    have h0 := hd []
    rw [hd rnd]
    unfold Mnemonikey.encodePGP at h0
    rw [hks, (p []).1] at h0
    have e : KeySet.encodePackets C (plainKey C w x second) [] [] = .ok (out, []) := h0
    rw [e]
    rfl

/-! ## the commands -/

theorem recover_plain {L : WordList} (hL : L.Lawful) {C : Crypto} (hC : C.Lawful) (env : Env)
    (opts : RecoverOptions) {w : Wanted} {master : Prop}
    (hask : AsksFor opts.key opts.encIndex opts.authIndex opts.sigIndex w master)
    (henc : opts.encIndex ≤ 65535) (hauth : opts.authIndex ≤ 65535) (hsig : opts.sigIndex ≤ 65535)
    {words : List Bytes} (hin : inputWords L env opts.input = .ok words)
    {phrasePw : Option Bytes} {seed offset : Nat}
    (hholds : Holds (indexOf L) C.toPhraseCrypto words phrasePw seed offset)
    (wrong : List Bytes) (hwrong : ∀ p ∈ wrong, WrongPassword L C words p)
    (hkey : opts.key.encryptKeys = false) (more : List (Res Bytes)) (rnd : Bytes) (m : Bool) (hm : m = true ↔ master) :
    recoverAndPrintKey L C env opts ⟨wrong.map .ok ++ phrasePw.toList.map .ok ++ more, rnd, []⟩ =
      (.ok (), ⟨more, rnd, (env.armor (plainExport C w seed (1672531200 + offset) m opts.selfCert) ++
        str "\n").map .stdout⟩) := by
  obtain ⟨ttl, m', subkeys, httl, h0, h63, honly, hm', hw⟩ :=
    asked_options hC hask (by omega) (by omega) (by omega)
  obtain rfl : m = m' := Bool.eq_iff_iff.2 (hm.trans hm'.symm)
  obtain ⟨dm, hd, hoff, holt, hslt, hloop⟩ := holds_decodes hL hC hholds wrong hwrong
  have hs2 : newSeed 0 ((seed : Nat) : Int) = .ok ⟨0, (seed : Int)⟩ :=
    (newSeed_ok_iff 0 seed _).mpr ⟨rfl, by simpa using hslt, rfl⟩
  have hcr : dm.creation = ((1672531200 + offset : Nat) : Int) * 10 ^ 9 :=
    creation_eq dm (1672531200 + offset) (by omega) (by omega) (by omega)
  obtain ⟨mnk, hnew, -⟩ := (c20_new hC ((seed : Nat) : Int) (by simpa using hslt) 0 dm.creation
    (some (optionsFor opts.key opts.encIndex opts.authIndex opts.sigIndex ttl subkeys))).2.2.2.2 rfl h0
      (by rw [hcr]; omega) (by rw [hcr]; omega)
  have hexp := export_plain hC hs2 hnew hw (ttl_lifetime hask.expires httl) rnd m opts.selfCert
  have hsec : (dm.creation / 10 ^ 9).toNat = 1672531200 + offset := by
    rw [hcr, Int.mul_ediv_cancel _ (by decide), Int.toNat_natCast]
  rw [hsec] at hexp
  have hidx : ¬ IndexTooLarge opts := by unfold IndexTooLarge maxSubkeyIndex; omega
  unfold recoverAndPrintKey
  rw [httl, bind_run_ok (lift_ok ttl _), if_neg hidx, honly, bind_run_ok (lift_ok _ _)]
  dsimp only
  rw [bind_run_ok (decode_run hin hd (st := ⟨_, rnd, []⟩) (hloop _))]
  dsimp only
  have hnew' : new C ⟨0, (seed : Int)⟩ dm.creation (some (recoveredOptions opts ttl subkeys)) = .ok mnk := hnew
  unfold recoveredOptions at hnew'
  have hk := keyPassword_typed (keyPw := none) (b := opts.key.encryptKeys) (by rw [hkey]; rfl) more rnd []
  rw [Option.toList_none, List.map_nil, List.nil_append, Option.getD_none] at hk
  rw [hnew', bind_run_ok (lift_ok mnk _), bind_run_ok hk, bind_run_ok (exportKey_ok hexp _ _)]
  rfl

theorem generate_plain {L : WordList} (hL : L.Lawful) {C : Crypto} (hC : C.Lawful) (env : Env)
    (hwf : env.fs.Wf) (opts : GenerateOptions) {w : Wanted} {master : Prop} (hask : AsksFor opts.key 0 0 0 w master)
    {rnd e rnd' : Bytes} (hseed : SeedBytes env rnd opts.unsafeEntropy e rnd')
    (hkey : opts.key.encryptKeys = false) (prompts : List (Res Bytes)) (m : Bool) (hm : m = true ↔ master)
    (hok : (generateAndPrintKey L C env opts).outcome prompts rnd = .ok ()) :
    ((atStart env.fs).run ((generateAndPrintKey L C env opts).acts prompts rnd)).stdout =
      env.armor (plainExport C w (valueOfBytes e) (env.now / 10 ^ 9).toNat m true) ++ [0x0A] := by
  obtain ⟨ttl, m', subkeys, httl, h0, h63, honly, hm', hw⟩ :=
    asked_options hC hask (by decide) (by decide) (by decide)
  obtain rfl : m = m' := Bool.eq_iff_iff.2 (hm.trans hm'.symm)
  obtain ⟨hs1, hs2⟩ := seed_of_bytes hseed prompts []
  have start : generateAndPrintKey L C env opts ⟨prompts, rnd, []⟩ =
      (lift (new C ⟨0, (valueOfBytes e : Nat)⟩ env.now (some
        { name := trimSpace opts.key.name, email := trimSpace opts.key.email, ttl := ttl
          encryptionSubkeyIndex := 0, authenticationSubkeyIndex := 0, signingSubkeyIndex := 0
          subkeys := subkeys })) >>= fun mnk => do
        let password ← keyPassword opts.key.encryptKeys
        let key ← exportKey C mnk m true password
        let words ← (if opts.encryptPhrase then do
            let phrasePassword ← userInputPassword true
            random (mnk.encodeMnemonicEncrypted L C phrasePassword)
          else lift (mnk.encodeMnemonicPlaintext L) : Prog (List Bytes))
        generateEnd env opts.outputWordFile key words) ⟨prompts, rnd', []⟩ := by
    unfold generateAndPrintKey
    rw [httl, bind_run_ok (lift_ok ttl _), honly, bind_run_ok (lift_ok _ _)]
    dsimp only
    rw [bind_run_ok hs1]
    rfl
  have step : ∀ mnk, new C ⟨0, (valueOfBytes e : Nat)⟩ env.now (some (optionsFor opts.key 0 0 0 ttl subkeys)) = .ok mnk →
      generateAndPrintKey L C env opts ⟨prompts, rnd, []⟩ =
        ((if opts.encryptPhrase then do
          let phrasePassword ← userInputPassword true
          random (mnk.encodeMnemonicEncrypted L C phrasePassword)
        else lift (mnk.encodeMnemonicPlaintext L) : Prog (List Bytes)) >>= fun words =>
          generateEnd env opts.outputWordFile (plainExport C w (valueOfBytes e) (env.now / 10 ^ 9).toNat m true) words)
        ⟨prompts, rnd', []⟩ := by
    intro mnk hnew
    have hexp := export_plain hC hs2 hnew hw (ttl_lifetime hask.expires httl) rnd' m true
    have hnew' : new C ⟨0, (valueOfBytes e : Nat)⟩ env.now (some
      { name := trimSpace opts.key.name, email := trimSpace opts.key.email, ttl := ttl
        encryptionSubkeyIndex := 0, authenticationSubkeyIndex := 0, signingSubkeyIndex := 0
        subkeys := subkeys }) = .ok mnk := hnew
    have hk := keyPassword_typed (keyPw := none) (b := opts.key.encryptKeys) (by rw [hkey]; rfl) prompts rnd' []
    rw [Option.toList_none, List.map_nil, List.nil_append, Option.getD_none] at hk
    rw [start, hnew', bind_run_ok (lift_ok mnk _), bind_run_ok hk, bind_run_ok (exportKey_ok hexp _ _)]
  unfold Prog.acts Prog.outcome at *
  rcases bind_run (lift (new C ⟨0, (valueOfBytes e : Nat)⟩ env.now (some
        { name := trimSpace opts.key.name, email := trimSpace opts.key.email, ttl := ttl
          encryptionSubkeyIndex := 0, authenticationSubkeyIndex := 0, signingSubkeyIndex := 0
          subkeys := subkeys }))) (fun mnk => do
        let password ← keyPassword opts.key.encryptKeys
        let key ← exportKey C mnk m true password
        let words ← (if opts.encryptPhrase then do
            let phrasePassword ← userInputPassword true
            random (mnk.encodeMnemonicEncrypted L C phrasePassword)
          else lift (mnk.encodeMnemonicPlaintext L) : Prog (List Bytes))
        generateEnd env opts.outputWordFile key words) ⟨prompts, rnd', []⟩ with
    ⟨mnk, st1, h1, -⟩ | ⟨o, st1, h1, -, o', e', hf⟩
  swap
  · rw [start, e'] at hok
    exact absurd hok (hf _)
  have hnew := (lift_run h1).2 _ rfl
  rw [step mnk hnew] at hok ⊢
  generalize plainExport C w (valueOfBytes e) (env.now / 10 ^ 9).toNat m true = key at *
  have quiet : Verif.Proofs.Quiet (if opts.encryptPhrase then do
          let phrasePassword ← userInputPassword true
          random (mnk.encodeMnemonicEncrypted L C phrasePassword)
        else lift (mnk.encodeMnemonicPlaintext L) : Prog (List Bytes)) := by
    cases opts.encryptPhrase
    · exact quiet_lift _
    · exact quiet_bind (quiet_password true) (fun p => quiet_random (mnk.encodeMnemonicEncrypted L C p))
  generalize (if opts.encryptPhrase then do
          let phrasePassword ← userInputPassword true
          random (mnk.encodeMnemonicEncrypted L C phrasePassword)
        else lift (mnk.encodeMnemonicPlaintext L) : Prog (List Bytes)) = P at *
  rcases bind_run P (fun words => generateEnd env opts.outputWordFile key words) ⟨prompts, rnd', []⟩ with
    ⟨words, st2, h2, e2⟩ | ⟨o, st2, h2, -, o', e2, hf⟩
  swap
  · rw [e2] at hok
    exact absurd hok (hf _)
  have ha : st2.acts = [] := by
    have := quiet ⟨prompts, rnd', []⟩
    rw [h2] at this
    exact this
  rw [e2] at hok ⊢
  by_cases ho : opts.outputWordFile = []
  · rw [ho] at hok ⊢
    rw [generateEnd_shown, ha, List.nil_append, run_append, run_stdout]
    rfl
  · rcases generateEnd_file (env := env) (key := key) (ws := words) ho st2 with ⟨hs, hg⟩ | ⟨hf, -⟩
    swap
    · exact absurd hok (hf _)
    rw [hg]
    dsimp only
    rw [ha, List.nil_append, run_append, run_stdout]
    have hnone := (c47_round_trip hL (atStart env.fs) hwf env.save words _ hs).1
    have h := (c47_crash (atStart env.fs) hwf env.save words opts.outputWordFile hnone
      (saveMnemonic env.fs env.save words opts.outputWordFile).1.length).2.2.1
    have h' : ((atStart env.fs).run ((saveMnemonic env.fs env.save words
      opts.outputWordFile).1.take (saveMnemonic env.fs env.save words
      opts.outputWordFile).1.length)).stdout = [] := h
    rw [List.take_length] at h'
    dsimp only
    rw [h']
    rfl

/-- C91. For everything that can be wanted, every seed and every second there is one key. recover prints it
whenever it is asked for it: by whatever options, from any phrase over any word list that holds the seed and
the second, read from anywhere, on any machine at any time. So does generate. -/
theorem c91_one_key {C : Crypto} (hC : C.Lawful) (w : Wanted) (master cert : Prop) (seed offset : Nat) :
    ∃ key,
      (∀ (L : WordList), L.Lawful → ∀ (env : Env) (opts : RecoverOptions) (words : List Bytes)
        (phrasePw : Option Bytes) (wrong : List Bytes) (more : List (Res Bytes)) (rnd : Bytes),
        AsksFor opts.key opts.encIndex opts.authIndex opts.sigIndex w master →
        opts.encIndex ≤ 65535 → opts.authIndex ≤ 65535 → opts.sigIndex ≤ 65535 →
        (opts.selfCert = true ↔ cert) → opts.key.encryptKeys = false →
        Gets L (offer L) env opts.input words →
        Holds (indexOf L) C.toPhraseCrypto words phrasePw seed offset →
        (∀ p ∈ wrong, WrongPassword L C words p) →
        let prompts := wrong.map .ok ++ phrasePw.toList.map .ok ++ more
        (recoverAndPrintKey L C env opts).outcome prompts rnd = .ok () ∧
        (atStart env.fs).run ((recoverAndPrintKey L C env opts).acts prompts rnd) =
          ⟨env.fs, none, env.armor key ++ [0x0A], []⟩) ∧
      (∀ (L : WordList), L.Lawful → ∀ (env : Env), env.fs.Wf → ∀ (opts : GenerateOptions) (e rnd rnd' : Bytes)
        (prompts : List (Res Bytes)),
        AsksFor opts.key 0 0 0 w master → cert → opts.key.encryptKeys = false →
        SeedBytes env rnd opts.unsafeEntropy e rnd' → valueOfBytes e = seed →
        (env.now / 10 ^ 9).toNat = 1672531200 + offset →
        (generateAndPrintKey L C env opts).outcome prompts rnd = .ok () →
        ((atStart env.fs).run ((generateAndPrintKey L C env opts).acts prompts rnd)).stdout =
          env.armor key ++ [0x0A]) := by
  classical
  refine ⟨plainExport C w seed (1672531200 + offset) (decide master) (decide cert), ?_, ?_⟩
  · intro L hL env opts words phrasePw wrong more rnd hask h1 h2 h3 hcert hkey hin hholds hwrong
    replace hin := (gets_iff hL).2 hin
    have h := recover_plain hL hC env opts hask h1 h2 h3 hin hholds wrong hwrong hkey more rnd (decide master)
      (by simp)
    have hc : opts.selfCert = decide cert := Bool.eq_iff_iff.2 (by simpa using hcert)
    rw [hc] at h
    dsimp only
    unfold Prog.outcome Prog.acts
    rw [h]
    refine ⟨rfl, ?_⟩
    dsimp only
    rw [run_stdout]
    rfl
  · intro L hL env hwf opts e rnd rnd' prompts hask hcert hkey hseed hv hnow hok
    have h := generate_plain hL hC env hwf opts hask hseed hkey prompts (decide master) (by simp) hok
    rw [h, hv, hnow, decide_eq_true hcert]

/-- C91. The same for processes: any command line of recover without -encrypt-keys that asks for this, with
the phrase in any file. -/
theorem c91_process {C : Crypto} (hC : C.Lawful) (w : Wanted) (master cert : Prop) (seed offset : Nat) :
    ∃ key, ∀ (L : WordList), L.Lawful → ∀ (env : Env) (args positional : List Bytes)
      (settings : List (Bytes × Value)) (words : List Bytes) (phrasePw : Option Bytes) (wrong : List Bytes)
      (more : List (Res Bytes)) (rnd : Bytes),
      args ≠ [str "help"] → CommandLine (options .recover) settings positional args →
      AsksFor (recoverMeans settings).key (number settings "enc-index") (number settings "auth-index")
        (number settings "sig-index") w master →
      number settings "enc-index" ≤ 65535 → number settings "auth-index" ≤ 65535 →
      number settings "sig-index" ≤ 65535 → (switchedOn settings "self-cert" true = true ↔ cert) →
      switchedOn settings "encrypt-keys" false = false → text settings "in-word-file" [] ≠ [] →
      env.fs.read (text settings "in-word-file" []) = some (phraseText words) → Complete L.word words →
      Holds (indexOf L) C.toPhraseCrypto words phrasePw seed offset →
      (∀ p ∈ wrong, WrongPassword L C words p) →
      let prompts := wrong.map .ok ++ phrasePw.toList.map .ok ++ more
      (main L C env (str "recover" :: args) ⟨prompts, rnd, []⟩).2.1 = .exited 0 ∧
      leaves L C env (str "recover" :: args) prompts rnd = ⟨env.fs, none, env.armor key ++ [0x0A], []⟩ := by
  obtain ⟨key, hkey, -⟩ := c91_one_key hC w master cert seed offset
  refine ⟨key, ?_⟩
  intro L hL env args positional settings words phrasePw wrong more rnd hargs hcl hask henc hauth hsig hcert hk
    hf hr hc hholds hwrong
  rw [← settingsOf_surj settings] at hcl
  have hopt := c63_recover _ _ _ hcl
  rw [settingsOf_surj] at hopt
  obtain ⟨hok, h1⟩ := hkey L hL env (recoverMeans settings) words phrasePw wrong more rnd hask henc hauth hsig
    hcert hk (gets_file hL hf hr hc) hholds hwrong
  have hprog : program L C env (settings.map fun s => (s.1, valueTo s.2)) .recover =
      recoverAndPrintKey L C env (recoverMeans settings) := by rw [← hopt]; rfl
  rw [← hprog] at hok h1
  obtain ⟨-, p2, p3⟩ := process_ok .recover hargs hcl hok
  dsimp only
  rw [p3]
  exact ⟨p2, h1⟩

/-- The options of the sample, said in other words -/
def otherFlags : KeyFlags :=
  { name := str "alice ", email := str "a@b.c", ttl := str "730d", encryptKeys := false
    only := str "authentication,encryption" }

theorem other_asks : AsksFor otherFlags 0 0 7 (sampleWanted 0 0) False := by
  refine ⟨⟨str "alice", str "a@b.c", ?_, ?_, show str "alice <a@b.c>" = _ by decide⟩, ?_, _, .listed (by decide)
    (elems := [str "authentication", str "encryption"]) ⟨by simp, by decide +kernel, by decide +kernel⟩
    (by decide +kernel), by decide +kernel, fun _ => rfl, fun h => absurd (by decide +kernel) h,
    fun _ => rfl, fun h => absurd (by decide +kernel) h, fun h => absurd h (by decide +kernel), fun _ => rfl⟩
  · have : trimSpace (str "alice ") = str "alice" := by decide +kernel
    rw [← this]; exact trimSpace_trimmed _
  · have : trimSpace (str "a@b.c") = str "a@b.c" := by decide +kernel
    have h := trimSpace_trimmed (str "a@b.c")
    rw [this] at h; exact h
  · exact .after (q := 730) (u := 86400) ⟨str "730", 0x64, by decide, by decide, by decide +kernel,
      by decide +kernel, by norm_num, .day _ (by decide)⟩ (by decide) (by norm_num)

/-- A key generated with an encrypted phrase, and recovered at another time, without random bytes, with options
in other words, after a wrong password: the same text is printed. -/
example : ∃ words, ∀ p, WrongPassword toyWordList toyCrypto words p →
    ((atStart sampleFS).run ((generateAndPrintKey toyWordList toyCrypto sampleEnv
      { key := { sampleKeyFlags with encryptKeys := false }, outputWordFile := str "new", encryptPhrase := true
        unsafeEntropy := [] }).acts [.ok (str "phrase password")] (List.replicate 115 7))).stdout =
    ((atStart { dir := fun _ => some 0, data := fun _ => phraseText words, next := 1 }).run
      ((recoverAndPrintKey toyWordList toyCrypto { sampleEnv with
          fs := { dir := fun _ => some 0, data := fun _ => phraseText words, next := 1 }, now := 0 }
        { key := otherFlags, input := ⟨false, str "words"⟩, selfCert := true, encIndex := 0, authIndex := 0
          sigIndex := 7 }).acts [.ok p, .ok (str "phrase password")] [])).stdout := by
  have asks : AsksFor { sampleKeyFlags with encryptKeys := false } 0 0 0 (sampleWanted 0 0) False :=
    ⟨(sample_asks 0 0 0).user, (sample_asks 0 0 0).expires, (sample_asks 0 0 0).parts⟩
  have hseed : SeedBytes sampleEnv (List.replicate 115 7) [] (List.replicate 16 7) (List.replicate 99 7) :=
    .system rfl rfl
  obtain ⟨hok, key0, words, -, -, hc, hh, -⟩ := c70_generate toyWordList_lawful toyCrypto_lawful sampleEnv
    sampleFS_wf
    { key := { sampleKeyFlags with encryptKeys := false }, outputWordFile := str "new", encryptPhrase := true
      unsafeEntropy := [] }
    asks (by decide) (by decide) (by decide) hseed
    (by decide) (keyPw := none) (phrasePw := some (str "phrase password"))
    ⟨rfl, rfl, by rintro p ⟨⟩, by rintro p ⟨⟩; decide⟩ []
    (fun _ => ⟨by decide +kernel, rfl⟩) (by decide)
  refine ⟨words, fun p hp => ?_⟩
  obtain ⟨key, h1, h2⟩ := c91_one_key toyCrypto_lawful (sampleWanted 0 0) False True
    (valueOfBytes (List.replicate 16 7)) ((sampleEnv.now / 10 ^ 9).toNat - 1672531200)
  have a := h1 toyWordList toyWordList_lawful { sampleEnv with
      fs := { dir := fun _ => some 0, data := fun _ => phraseText words, next := 1 }, now := 0 }
    { key := otherFlags, input := ⟨false, str "words"⟩, selfCert := true, encIndex := 0, authIndex := 0
      sigIndex := 7 } words (some (str "phrase password")) [p] [] [] other_asks (by decide) (by decide) (by decide)
    (by simp) rfl (gets_file toyWordList_lawful (by decide) rfl hc) hh (by simpa using hp)
  have b := h2 toyWordList toyWordList_lawful sampleEnv sampleFS_wf
    { key := { sampleKeyFlags with encryptKeys := false }, outputWordFile := str "new", encryptPhrase := true
      unsafeEntropy := [] } _ _ _ [.ok (str "phrase password")] asks trivial rfl hseed rfl (by decide) hok
  refine b.trans ?_
  exact (congrArg World.stdout a.2).symm

/-- Two command lines that ask for the same, on two machines; the second one types a password wrong. -/
example : ∃ words, ∀ p, WrongPassword toyWordList toyCrypto words p →
    let fs : FS := { dir := fun _ => some 0, data := fun _ => phraseText words, next := 1 }
    leaves toyWordList toyCrypto { sampleEnv with fs := fs, now := 0 }
      ([str "recover", str "-in-word-file", str "a", str "-name", str " alice", str "-email", str "a@b.c", str "-ttl",
        str "2y", str "-only", str "encryption,authentication"])
      [.ok (str "phrase password")] (List.replicate 30 1) =
    leaves toyWordList toyCrypto { sampleEnv with fs := fs }
      ([str "recover", str "-only=authentication,encryption", str "--ttl=730d", str "-in-word-file=b",
        str "--name=alice ", str "-email=a@b.c", str "-sig-index", str "7", str "words"])
      [.ok p, .ok (str "phrase password"), .ok (str "more")] [] := by
  have asks : AsksFor { sampleKeyFlags with encryptKeys := false } 0 0 0 (sampleWanted 0 0) False :=
    ⟨(sample_asks 0 0 0).user, (sample_asks 0 0 0).expires, (sample_asks 0 0 0).parts⟩
  have hseed : SeedBytes sampleEnv (List.replicate 115 7) [] (List.replicate 16 7) (List.replicate 99 7) :=
    .system rfl rfl
  obtain ⟨-, key0, words, -, -, hc, hh, -⟩ := c70_generate toyWordList_lawful toyCrypto_lawful sampleEnv
    sampleFS_wf
    { key := { sampleKeyFlags with encryptKeys := false }, outputWordFile := str "new", encryptPhrase := true
      unsafeEntropy := [] }
    asks (by decide) (by decide) (by decide) hseed
    (by decide) (keyPw := none) (phrasePw := some (str "phrase password"))
    ⟨rfl, rfl, by rintro p ⟨⟩, by rintro p ⟨⟩; decide⟩ []
    (fun _ => ⟨by decide +kernel, rfl⟩) (by decide)
  refine ⟨words, fun p hp => ?_⟩
  intro fs
  obtain ⟨key, h⟩ := c91_process toyCrypto_lawful (sampleWanted 0 0) False True
    (valueOfBytes (List.replicate 16 7)) ((sampleEnv.now / 10 ^ 9).toNat - 1672531200)
  have a := h toyWordList toyWordList_lawful { sampleEnv with fs := fs, now := 0 }
    [str "-in-word-file", str "a", str "-name", str " alice", str "-email", str "a@b.c", str "-ttl",
        str "2y", str "-only", str "encryption,authentication"] []
    [(str "in-word-file", .string (str "a")), (str "name", .string (str " alice")),
      (str "email", .string (str "a@b.c")), (str "ttl", .string (str "2y")),
      (str "only", .string (str "encryption,authentication"))] words (some (str "phrase password")) [] []
    (List.replicate 30 1) (by decide)
    ((c63_accepted .recover _ [(str "in-word-file", .string (str "a")), (str "name", .string (str " alice")),
      (str "email", .string (str "a@b.c")), (str "ttl", .string (str "2y")),
      (str "only", .string (str "encryption,authentication"))] _).1 (by decide +kernel))
    asks (by decide) (by decide) (by decide) (by decide) (by decide) (by decide) rfl hc hh (by simp)
  have b := h toyWordList toyWordList_lawful { sampleEnv with fs := fs }
    [str "-only=authentication,encryption", str "--ttl=730d", str "-in-word-file=b",
        str "--name=alice ", str "-email=a@b.c", str "-sig-index", str "7", str "words"] [str "words"]
    [(str "only", .string (str "authentication,encryption")), (str "ttl", .string (str "730d")),
      (str "in-word-file", .string (str "b")), (str "name", .string (str "alice ")),
      (str "email", .string (str "a@b.c")), (str "sig-index", .uint 7)] words (some (str "phrase password")) [p]
    [.ok (str "more")] [] (by decide)
    ((c63_accepted .recover _ [(str "only", .string (str "authentication,encryption")), (str "ttl", .string (str "730d")),
      (str "in-word-file", .string (str "b")), (str "name", .string (str "alice ")),
      (str "email", .string (str "a@b.c")), (str "sig-index", .uint 7)] _).1 (by decide +kernel))
    other_asks (by decide) (by decide) (by decide) (by decide) (by decide) (by decide) rfl hc hh (by simpa using hp)
  exact a.2.trans b.2.symm

end Verif.Props
