import Verif.Props.Request
import Verif.Props.Simple
import Verif.Spec.Words

/-!
# convert at work, and phrases entered by hand: C72, C73
-/

namespace Verif.Props

open Verif.Model Verif.Model.Cli Verif.Proofs Verif.Spec Verif.Spec.OpenPGP Verif.Instances

/-! ## C72 convert encrypts or decrypts the phrase -/

/-- A phrase for a seed and a creation offset can be made. -/
theorem encoded_holds {L : WordList} (hL : L.Lawful) {C : Crypto} (hC : C.Lawful) {n off : Nat}
    (hn : n < 2 ^ 128) (ho : off < 2 ^ 31) :
    (∃ ws, encodeMnemonicPlaintext L ⟨0, n⟩ off = .ok ws ∧ Complete L.word ws ∧
      Holds (indexOf L) C.toPhraseCrypto ws none n off) ∧
    ∀ pw rnd, pw ≠ [] → 3 ≤ rnd.length → ∃ ws rest,
      encodeMnemonicEncrypted L C.toPhraseCrypto ⟨0, n⟩ off pw rnd = .ok (ws, rest) ∧
      Complete L.word ws ∧ Holds (indexOf L) C.toPhraseCrypto ws (some pw) n off := by
  constructor
  · have hs : newSeed 0 (n : Int) = .ok ⟨0, (n : Int)⟩ := (newSeed_ok_iff 0 n _).mpr ⟨rfl, by simpa using hn, rfl⟩
    obtain ⟨ws, dm, hw, hd, -, henc, hoff, hsd, -, -⟩ := c01_plaintext_round_trip hL 0 n (by omega)
      ⟨0, n⟩ hs off ho
    refine ⟨ws, hw, decoded_complete hL hd ?_, plain_holds hL hd henc hoff hsd⟩
    unfold encodeMnemonicPlaintext at hw
    obtain ⟨_, -, hw⟩ := Res.bind_eq_ok.mp hw
    obtain ⟨_, -, hw⟩ := Res.bind_eq_ok.mp hw
    obtain ⟨_, -, hw⟩ := Res.bind_eq_ok.mp hw
    obtain ⟨_, -, hw⟩ := Res.bind_eq_ok.mp hw
    exact encodeMnemonic_mem hw
  · intro pw rnd hp hr
    obtain ⟨ws, rest, dm, hw, hd, -, henc, hoff, hsd⟩ := c09_encrypted_round_trip hL hC.phrase n
      off hn ho pw hp rnd hr
    refine ⟨ws, rest, hw, decoded_complete hL hd ?_, enc_holds hL hC.phrase hd henc hoff hsd⟩
    unfold encodeMnemonicEncrypted at hw
    obtain ⟨_, -, hw⟩ := Res.bind_eq_ok.mp hw
    split at hw
    · cases hw
    · dsimp only at hw
      obtain ⟨_, -, hw⟩ := Res.bind_eq_ok.mp hw
      obtain ⟨_, -, hw⟩ := Res.bind_eq_ok.mp hw
      obtain ⟨_, -, hw⟩ := Res.bind_eq_ok.mp hw
      obtain ⟨_, -, hw⟩ := Res.bind_eq_ok.mp hw
      obtain ⟨_, -, hw⟩ := Res.bind_eq_ok.mp hw
      obtain ⟨_, -, hw⟩ := Res.bind_eq_ok.mp hw
      obtain ⟨_, -, hw⟩ := Res.bind_eq_ok.mp hw
      obtain ⟨_, -, hw⟩ := Res.bind_eq_ok.mp hw
      obtain ⟨_, -, hw⟩ := Res.bind_eq_ok.mp hw
      obtain ⟨ws2, hw2, hw⟩ := Res.bind_eq_ok.mp hw
      cases hw
      exact encodeMnemonic_mem hw2

theorem convert_ok {L : WordList} (hL : L.Lawful) {C : Crypto} (hC : C.Lawful) (env : Env)
    (opts : ConvertOptions) {words : List Bytes} (hin : inputWords L env opts.input = .ok words)
    (hfile : opts.input.inputWordFile = []) {phrasePw newPw : Option Bytes} {seed offset : Nat}
    (hholds : Holds (indexOf L) C.toPhraseCrypto words phrasePw seed offset)
    (wrong : List Bytes) (hwrong : ∀ p ∈ wrong, WrongPassword L C words p)
    (hnew : newPw.isSome = opts.encryptPhrase) (hgood : newPw ≠ some [])
    (more : List (Res Bytes)) {rnd : Bytes} (hrnd : 3 ≤ rnd.length) (hcol : 17 ≤ env.columns) :
    ∃ words' rest, decodeAndConvertPhrase L C env opts
        ⟨wrong.map .ok ++ phrasePw.toList.map .ok ++ newPw.toList.map .ok ++ more, rnd, []⟩ =
          (.ok (), ⟨more, rest, [.showPhrase words']⟩) ∧
      Complete L.word words' ∧ Holds (indexOf L) C.toPhraseCrypto words' newPw seed offset := by
  obtain ⟨dm, hd, hoff, holt, hslt, hloop⟩ := holds_decodes hL hC hholds wrong hwrong
  obtain ⟨hpl, hen⟩ := encoded_holds hL hC hslt holt
  obtain ⟨words', rest, hw, hc, hh⟩ : ∃ words' rest,
      (if opts.encryptPhrase then do
        let phrasePassword ← userInputPassword true
        random (encodeMnemonicEncrypted L C.toPhraseCrypto ⟨0, seed⟩ dm.creationOffset phrasePassword)
      else lift (encodeMnemonicPlaintext L ⟨0, seed⟩ dm.creationOffset) : Prog (List Bytes))
        ⟨newPw.toList.map .ok ++ more, rnd, []⟩ = (.ok words', ⟨more, rest, []⟩) ∧
      Complete L.word words' ∧ Holds (indexOf L) C.toPhraseCrypto words' newPw seed offset := by
    rw [← hnew, hoff]
    cases hp : newPw with
    | none =>
      obtain ⟨ws, h1, h2, h3⟩ := hpl
      exact ⟨ws, rnd, by rw [h1]; rfl, h2, h3⟩
    | some p =>
      obtain ⟨ws, rest, h1, h2, h3⟩ := hen p rnd (fun h => hgood (by rw [hp, h])) hrnd
      refine ⟨ws, rest, ?_, h2, h3⟩
      rw [if_pos (show (some p).isSome = true from rfl)]
      have := bind_run_ok (password_ok true p more rnd []) (fun p =>
        random (encodeMnemonicEncrypted L C.toPhraseCrypto ⟨0, seed⟩ offset p))
      exact this.trans (random_ok h1)
  refine ⟨words', rest, ?_, hc, hh⟩
  unfold decodeAndConvertPhrase
  rw [List.append_assoc, bind_run_ok (decode_run hin hd (st := ⟨_, rnd, []⟩) (hloop _))]
  dsimp only
  rw [bind_run_ok hw, if_pos hfile, printMnemonic_ok hcol]
  rfl

/-- A phrase that holds a seed and a creation offset, the passwords typed (after any number of wrong ones),
three random bytes and a terminal of 17 columns: convert succeeds and shows one phrase, which holds the same
seed and creation offset, under the new password or under none. Nothing is printed and no file changes. -/
theorem c72_convert {L : WordList} (hL : L.Lawful) {C : Crypto} (hC : C.Lawful) (env : Env)
    (opts : ConvertOptions) {words : List Bytes} (hin : Gets L (offer L) env opts.input words)
    (hfile : opts.input.inputWordFile = []) {phrasePw newPw : Option Bytes} {seed offset : Nat}
    (hholds : Holds (indexOf L) C.toPhraseCrypto words phrasePw seed offset)
    (wrong : List Bytes) (hwrong : ∀ p ∈ wrong, WrongPassword L C words p)
    (hnew : newPw.isSome = opts.encryptPhrase) (hgood : newPw ≠ some [])
    (more : List (Res Bytes)) {rnd : Bytes} (hrnd : 3 ≤ rnd.length) (hcol : 17 ≤ env.columns) :
    let prompts := wrong.map .ok ++ phrasePw.toList.map .ok ++ newPw.toList.map .ok ++ more
    (decodeAndConvertPhrase L C env opts).outcome prompts rnd = .ok () ∧
    ∃ words', (atStart env.fs).run ((decodeAndConvertPhrase L C env opts).acts prompts rnd) =
        ⟨env.fs, none, [], [words']⟩ ∧
      Complete L.word words' ∧ Holds (indexOf L) C.toPhraseCrypto words' newPw seed offset := by
  replace hin := (gets_iff hL).2 hin
  obtain ⟨words', rest, hrun, hc, hh⟩ := convert_ok hL hC env opts hin hfile hholds wrong hwrong hnew hgood
    more hrnd hcol
  dsimp only
  unfold Prog.outcome Prog.acts
  rw [hrun]
  exact ⟨rfl, words', rfl, hc, hh⟩

/-- The same for a process. -/
theorem c72_process {L : WordList} (hL : L.Lawful) {C : Crypto} (hC : C.Lawful) (env : Env)
    (args positional : List Bytes) (settings : List (Bytes × Value))
    (hargs : args ≠ [str "help"]) (hcl : CommandLine (options .convert) settings positional args)
    {words : List Bytes}
    (hin : Gets L (offer L) env ⟨switchedOn settings "simple" false, []⟩ words)
    (hfile : text settings "in-word-file" [] = []) {phrasePw newPw : Option Bytes} {seed offset : Nat}
    (hholds : Holds (indexOf L) C.toPhraseCrypto words phrasePw seed offset)
    (wrong : List Bytes) (hwrong : ∀ p ∈ wrong, WrongPassword L C words p)
    (hnew : newPw.isSome = switchedOn settings "encrypt-phrase" false) (hgood : newPw ≠ some [])
    (more : List (Res Bytes)) {rnd : Bytes} (hrnd : 3 ≤ rnd.length) (hcol : 17 ≤ env.columns) :
    let prompts := wrong.map .ok ++ phrasePw.toList.map .ok ++ newPw.toList.map .ok ++ more
    let d := main L C env (str "convert" :: args) ⟨prompts, rnd, []⟩
    d.1 = [] ∧ d.2.1 = .exited 0 ∧
    ∃ words', leaves L C env (str "convert" :: args) prompts rnd = ⟨env.fs, none, [], [words']⟩ ∧
      Complete L.word words' ∧ Holds (indexOf L) C.toPhraseCrypto words' newPw seed offset := by
  rw [← settingsOf_surj settings] at hcl
  have hopt := c63_convert _ _ _ hcl
  rw [settingsOf_surj] at hopt
  have hin' : Gets L (offer L) env (convertMeans settings).input words := by
    unfold convertMeans
    rw [hfile]
    exact hin
  obtain ⟨hok, words', h1, h2⟩ := c72_convert hL hC env (convertMeans settings) hin' hfile hholds wrong hwrong
    hnew hgood more hrnd hcol
  have hprog : program L C env (settings.map fun s => (s.1, valueTo s.2)) .convert =
      decodeAndConvertPhrase L C env (convertMeans settings) := by rw [← hopt]; rfl
  rw [← hprog] at hok h1
  obtain ⟨p1, p2, p3⟩ := process_ok .convert hargs hcl hok
  dsimp only
  rw [p3]
  exact ⟨p1, p2, words', h1, h2⟩

/-! ## C73 A phrase shown and entered by hand brings back the key -/

/-- The words are entered by hand: at the interactive prompt each followed by return or space; at the simple
prompt each on a line of its own. -/
inductive ByHand : Bool → Bytes → List Bytes → Prop where
  | keys (entries : List (Bytes × Byte)) (rest : Bytes) : (∀ e ∈ entries, e.2 = 13 ∨ e.2 = 32) →
    ByHand false (entries.flatMap (fun e => e.1 ++ [e.2]) ++ rest) (entries.map Prod.fst)
  | lines (ls : List TypedLine) (words : List Bytes) (tail : Bytes) :
    List.Forall₂ TypedLine.Enters ls words → (tail = [] ∨ ∃ rest, tail = 0x0A :: rest) →
    ByHand true (((ls.map TypedLine.text).intersperse [0x0A]).flatten ++ tail) words

theorem gets_byHand {L : WordList} (hL : L.Lawful) {env : Env} {input : InputFlags} {words : List Bytes}
    (hf : input.inputWordFile = []) (hc : Complete L.word words)
    (h : ByHand (lineByLine env input) env.stdin words) : Gets L (offer L) env input words := by
  rw [← gets_iff hL]
  unfold inputWords
  rw [if_neg (by simp [hf])]
  have e : byLine env input = lineByLine env input := rfl
  rw [e]
  generalize lineByLine env input = b at h
  generalize env.stdin = stdin at h
  cases h with
  | keys entries rest he => rw [if_neg (by simp)]; exact c51_typed hL entries rest he hc
  | lines ls words tail hl ht => rw [if_pos rfl]; exact c50_by_hand hL words hc ls hl tail ht

/-- generate shows the phrase of the key it prints. Entered by hand into recover, with its password after any
number of wrong ones, it brings back whatever is then asked for of the same key, whichever prompt is used. -/
theorem c73_by_hand {L : WordList} (hL : L.Lawful) {C : Crypto} (hC : C.Lawful) (env : Env)
    (hwf : env.fs.Wf) (opts : GenerateOptions) {w : Wanted} {master : Prop}
    (hask : AsksFor opts.key 0 0 0 w master) (hu : w.userID.length < 2 ^ 32)
    (hnow : 1672531200 * 10 ^ 9 ≤ env.now) (hnow' : env.now ≤ (1672531200 + 2 ^ 31 - 1) * 10 ^ 9)
    {rnd e rnd' : Bytes} (hseed : SeedBytes env rnd opts.unsafeEntropy e rnd') (hrnd : 99 ≤ rnd'.length)
    {keyPw phrasePw : Option Bytes} (htyped : Typed opts.key.encryptKeys opts.encryptPhrase keyPw phrasePw)
    (hout : opts.outputWordFile = []) (hshow : 17 ≤ env.columns) :
    let prompts := keyPw.toList.map .ok ++ phrasePw.toList.map .ok
    let after := (atStart env.fs).run ((generateAndPrintKey L C env opts).acts prompts rnd)
    ∃ key words, after.stdout = env.armor key ++ [0x0A] ∧ after.shown = [words] ∧ after.fs = env.fs ∧
      Contains C key (keyPw.getD []) (valueOfBytes e) (env.now / 10 ^ 9).toNat w master True ∧
      ∀ (env2 : Env) (opts2 : RecoverOptions) (w2 : Wanted) (master2 : Prop) (keyPw2 : Option Bytes)
        (wrong : List Bytes) (rnd2 : Bytes),
        AsksFor opts2.key opts2.encIndex opts2.authIndex opts2.sigIndex w2 master2 →
        opts2.encIndex ≤ 65535 → opts2.authIndex ≤ 65535 → opts2.sigIndex ≤ 65535 →
        w2.userID.length < 2 ^ 32 → opts2.input.inputWordFile = [] →
        ByHand (lineByLine env2 opts2.input) env2.stdin words → (∀ p ∈ wrong, WrongPassword L C words p) →
        keyPw2.isSome = opts2.key.encryptKeys →
        (∀ p, keyPw2 = some p → p ≠ [] ∧ p.length ≤ 65011704) → 96 ≤ rnd2.length →
        let prompts2 := wrong.map .ok ++ phrasePw.toList.map .ok ++ keyPw2.toList.map .ok
        (recoverAndPrintKey L C env2 opts2).outcome prompts2 rnd2 = .ok () ∧
        ∃ key2, (atStart env2.fs).run ((recoverAndPrintKey L C env2 opts2).acts prompts2 rnd2) =
            ⟨env2.fs, none, env2.armor key2 ++ [0x0A], []⟩ ∧
          Contains C key2 (keyPw2.getD []) (valueOfBytes e) (env.now / 10 ^ 9).toNat w2 master2
            (opts2.selfCert = true) := by
  obtain ⟨-, key, words, h1, h2, hc, hh, -, h4⟩ := c70_generate hL hC env hwf opts hask hu hnow hnow' hseed hrnd
    htyped [] (fun h => absurd hout h) (fun _ => hshow)
  obtain ⟨h5, h6⟩ := h4 hout
  rw [List.append_nil] at h1 h5 h6
  refine ⟨key, words, h1, h5, h6, h2, ?_⟩
  intro env2 opts2 w2 master2 keyPw2 wrong rnd2 a1 a2 a3 a4 a5 a6 a7 a8 a9 a10 a11
  have := c71_recover hL hC env2 opts2 a1 a2 a3 a4 a5 (gets_byHand hL a6 hc a7) hh wrong a8 a9 a10 [] a11
  rw [List.append_nil] at this
  have hs : 1672531200 + ((env.now / 10 ^ 9).toNat - 1672531200) = (env.now / 10 ^ 9).toNat := by omega
  rw [hs] at this
  exact this

/-- The same for a phrase that convert shows: entered by hand, it stands for the key of the phrase it was made
from. -/
theorem c73_converted {L : WordList} (hL : L.Lawful) {C : Crypto} (hC : C.Lawful) (env : Env)
    (opts : ConvertOptions) {words : List Bytes} (hc0 : Complete L.word words)
    (hin : ByHand (lineByLine env opts.input) env.stdin words)
    (hfile : opts.input.inputWordFile = []) {phrasePw newPw : Option Bytes} {seed offset : Nat}
    (hholds : Holds (indexOf L) C.toPhraseCrypto words phrasePw seed offset)
    (hnew : newPw.isSome = opts.encryptPhrase) (hgood : newPw ≠ some [])
    {rnd : Bytes} (hrnd : 3 ≤ rnd.length) (hcol : 17 ≤ env.columns) :
    let prompts := phrasePw.toList.map .ok ++ newPw.toList.map .ok
    ∃ words', (atStart env.fs).run ((decodeAndConvertPhrase L C env opts).acts prompts rnd) =
        ⟨env.fs, none, [], [words']⟩ ∧
      ∀ (env2 : Env) (opts2 : RecoverOptions) (w2 : Wanted) (master2 : Prop) (keyPw2 : Option Bytes)
        (wrong : List Bytes) (rnd2 : Bytes),
        AsksFor opts2.key opts2.encIndex opts2.authIndex opts2.sigIndex w2 master2 →
        opts2.encIndex ≤ 65535 → opts2.authIndex ≤ 65535 → opts2.sigIndex ≤ 65535 →
        w2.userID.length < 2 ^ 32 → opts2.input.inputWordFile = [] →
        ByHand (lineByLine env2 opts2.input) env2.stdin words' → (∀ p ∈ wrong, WrongPassword L C words' p) →
        keyPw2.isSome = opts2.key.encryptKeys →
        (∀ p, keyPw2 = some p → p ≠ [] ∧ p.length ≤ 65011704) → 96 ≤ rnd2.length →
        let prompts2 := wrong.map .ok ++ newPw.toList.map .ok ++ keyPw2.toList.map .ok
        (recoverAndPrintKey L C env2 opts2).outcome prompts2 rnd2 = .ok () ∧
        ∃ key2, (atStart env2.fs).run ((recoverAndPrintKey L C env2 opts2).acts prompts2 rnd2) =
            ⟨env2.fs, none, env2.armor key2 ++ [0x0A], []⟩ ∧
          Contains C key2 (keyPw2.getD []) seed (1672531200 + offset) w2 master2 (opts2.selfCert = true) := by
  obtain ⟨-, words', h1, hc, hh⟩ := c72_convert hL hC env opts (gets_byHand hL hfile hc0 hin) hfile hholds
    [] (by simp) hnew hgood [] hrnd hcol
  rw [List.map_nil, List.nil_append, List.append_nil] at h1
  refine ⟨words', h1, ?_⟩
  intro env2 opts2 w2 master2 keyPw2 wrong rnd2 a1 a2 a3 a4 a5 a6 a7 a8 a9 a10 a11
  have := c71_recover hL hC env2 opts2 a1 a2 a3 a4 a5 (gets_byHand hL a6 hc a7) hh wrong a8 a9 a10 [] a11
  rw [List.append_nil] at this
  exact this

/-! ## examples -/

/-- generate shows an encrypted phrase; its words are typed into convert, followed by return, which shows a
phrase without password. -/
example : ∃ words, ByHand false (words.flatMap (fun w => w ++ [13])) words ∧
    ∃ words', (atStart sampleEnv.fs).run ((decodeAndConvertPhrase toyWordList toyCrypto
        { sampleEnv with stdin := words.flatMap (fun w => w ++ [13]) }
        { input := ⟨false, []⟩, outputWordFile := [], encryptPhrase := false }).acts
          [.ok (str "phrase password")] [1, 2, 3]) = ⟨sampleEnv.fs, none, [], [words']⟩ ∧
      Holds (indexOf toyWordList) toyCrypto.toPhraseCrypto words' none (valueOfBytes (List.replicate 16 7))
        27468800 := by
  obtain ⟨-, key0, words, -, -, hc, hh, -⟩ := c70_generate toyWordList_lawful toyCrypto_lawful sampleEnv
    sampleFS_wf
    { key := sampleKeyFlags, outputWordFile := [], encryptPhrase := true, unsafeEntropy := [] }
    (sample_asks 0 0 0) (by decide) (by decide) (by decide)
    (.system (rnd := List.replicate 115 7) (e := List.replicate 16 7) (rest := List.replicate 99 7) rfl rfl)
    (by decide) (keyPw := some (str "key password")) (phrasePw := some (str "phrase password"))
    ⟨rfl, rfl, by rintro p ⟨⟩; decide, by rintro p ⟨⟩; decide⟩ [] (fun h => absurd rfl h) (by decide)
  have hby : ByHand false (words.flatMap (fun w => w ++ [13])) words := by
    have := ByHand.keys (words.map (fun w => (w, (13 : Byte)))) [] (by simp)
    simpa [List.flatMap_map, Function.comp_def] using this
  refine ⟨words, hby, ?_⟩
  obtain ⟨-, words', h1, -, h2⟩ := c72_convert toyWordList_lawful toyCrypto_lawful
    { sampleEnv with stdin := words.flatMap (fun w => w ++ [13]) }
    { input := ⟨false, []⟩, outputWordFile := [], encryptPhrase := false }
    (gets_byHand toyWordList_lawful rfl hc hby) rfl hh [] (by simp) (newPw := none) rfl (by simp) []
    (rnd := [1, 2, 3]) (by decide) (show 17 ≤ sampleEnv.columns by decide)
  exact ⟨words', h1, h2⟩

/-- `convert -encrypt-phrase` of the phrase of a run of generate, typed by hand: the new phrase opens with the new
password. -/
example : ∃ words words' : List Bytes,
    leaves toyWordList toyCrypto { sampleEnv with stdin := words.flatMap (fun w => w ++ [13]) }
      [str "convert", str "-encrypt-phrase"] [.ok (str "phrase password"), .ok [9]] [1, 2, 3] =
        ⟨sampleEnv.fs, none, [], [words']⟩ ∧
      Holds (indexOf toyWordList) toyCrypto.toPhraseCrypto words' (some [9]) (valueOfBytes (List.replicate 16 7))
        27468800 := by
  obtain ⟨-, key0, words, -, -, hc, hh, -⟩ := c70_generate toyWordList_lawful toyCrypto_lawful sampleEnv
    sampleFS_wf
    { key := sampleKeyFlags, outputWordFile := [], encryptPhrase := true, unsafeEntropy := [] }
    (sample_asks 0 0 0) (by decide) (by decide) (by decide)
    (.system (rnd := List.replicate 115 7) (e := List.replicate 16 7) (rest := List.replicate 99 7) rfl rfl)
    (by decide) (keyPw := some (str "key password")) (phrasePw := some (str "phrase password"))
    ⟨rfl, rfl, by rintro p ⟨⟩; decide, by rintro p ⟨⟩; decide⟩ [] (fun h => absurd rfl h) (by decide)
  have hby : ByHand false (words.flatMap (fun w => w ++ [13])) words := by
    have := ByHand.keys (words.map (fun w => (w, (13 : Byte)))) [] (by simp)
    simpa [List.flatMap_map, Function.comp_def] using this
  have hcl : CommandLine (options .convert) [(str "encrypt-phrase", .bool true)] [] [str "-encrypt-phrase"] :=
    (c63_accepted .convert _ [(str "encrypt-phrase", .bool true)] _).1 (by decide +kernel)
  obtain ⟨-, -, words', h1, -, h2⟩ := c72_process toyWordList_lawful toyCrypto_lawful
    { sampleEnv with stdin := words.flatMap (fun w => w ++ [13]) } _ [] _ (by decide) hcl
    (gets_byHand toyWordList_lawful (by decide +kernel) hc (by exact hby)) (by decide +kernel) hh [] (by simp)
    (newPw := some [9]) (by decide +kernel) (by simp) [] (rnd := [1, 2, 3]) (by decide)
    (show 17 ≤ sampleEnv.columns by decide)
  exact ⟨words, words', h1, h2⟩

/-! Schedules that meet the hypotheses of C69, with `c68_realised` -/

/-- generate with the key encrypted -/
def sampleKeyEncrypted : Prog Unit := generateAndPrintKey toyWordList toyCrypto sampleEnv
  { key := sampleKeyFlags, outputWordFile := str "new", encryptPhrase := false, unsafeEntropy := [] }

example : ∃ ms s, (Proc.start sampleEnv.fs).run sampleKeyEncrypted (List.replicate 115 7) ms = some s ∧
    s.Finished sampleKeyEncrypted (List.replicate 115 7) (.ok ()) := by
  obtain ⟨hok, -⟩ := c70_generate toyWordList_lawful toyCrypto_lawful sampleEnv sampleFS_wf
    { key := sampleKeyFlags, outputWordFile := str "new", encryptPhrase := false, unsafeEntropy := [] }
    (sample_asks 0 0 0) (by decide) (by decide) (by decide)
    (.system (rnd := List.replicate 115 7) (e := List.replicate 16 7) (rest := List.replicate 99 7) rfl rfl)
    (by decide) (keyPw := some (str "key password")) (phrasePw := none)
    ⟨rfl, rfl, by rintro p ⟨⟩; decide, by rintro p ⟨⟩⟩ []
    (fun _ => ⟨by decide +kernel, rfl⟩) (by decide)
  obtain ⟨ms, s, h1, h2, -⟩ := c68_realised (L := toyWordList) (C := toyCrypto) sampleEnv sampleKeyEncrypted
    (.generate _) (List.replicate 115 7) [.ok (str "key password")]
    (by simp; decide) (by
      intro k hk
      have : k = 0 := by simp at hk; exact hk
      subst this
      exact ⟨true, by decide +kernel⟩) (.ok ()) hok (by simp)
  exact ⟨ms, s, h1, h2⟩

/-- convert of an encrypted phrase: a wrong password and the right one are asked for once, the new one twice. -/
def sampleReencrypt : Prog Unit := decodeAndConvertPhrase toyWordList toyCrypto
  { sampleEnv with stdin := sampleEncrypted.flatMap (· ++ [10]) }
  { input := ⟨true, []⟩, outputWordFile := [], encryptPhrase := true }

theorem sampleReencrypt_asks :
    sampleReencrypt.outcome [] sampleRandom = .waits false ∧
    sampleReencrypt.outcome [.ok [2]] sampleRandom = .waits false ∧
    sampleReencrypt.outcome [.ok [2], .ok [1]] sampleRandom = .waits true ∧
    sampleReencrypt.outcome [.ok [2], .ok [1], .ok [9]] sampleRandom = .ok () := by
  decide +kernel

example : ∃ ms s, (Proc.start sampleEnv.fs).run sampleReencrypt sampleRandom ms = some s ∧
    s.Finished sampleReencrypt sampleRandom (.ok ()) := by
  obtain ⟨h0, h1, h2, h3⟩ := sampleReencrypt_asks
  obtain ⟨ms, s, h1, h2, -⟩ := c68_realised (L := toyWordList) (C := toyCrypto)
    { sampleEnv with stdin := sampleEncrypted.flatMap (· ++ [10]) } sampleReencrypt
    (.convert _) sampleRandom [.ok [2], .ok [1], .ok [9]] (by simp) (by
      intro k hk
      have : k = 0 ∨ k = 1 ∨ k = 2 := by simp at hk; omega
      rcases this with rfl | rfl | rfl
      · exact ⟨_, h0⟩
      · exact ⟨_, h1⟩
      · exact ⟨_, h2⟩) (.ok ()) h3 (by simp)
  exact ⟨ms, s, h1, h2⟩

/-- recover from the file of a phrase without password, with a password for the key -/
example :
    let w := afterGenerate (str "new") false []
    let P := recoverAndPrintKey toyWordList toyCrypto { sampleEnv with fs := w.fs }
      { key := sampleKeyFlags, input := ⟨false, str "new"⟩, selfCert := true, encIndex := 0, authIndex := 0
        sigIndex := 0 }
    P.outcome [] (List.replicate 96 7) = .waits true := by
  decide +kernel

end Verif.Props
