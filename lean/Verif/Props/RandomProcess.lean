import Verif.Props.Randomness
import Verif.Props.Length

/-!
# C119 for whole processes: what a process takes from the system's random source
-/

namespace Verif.Props

open Verif.Model Verif.Model.Pgp Verif.Model.Cli Verif.Proofs Verif.Spec Verif.Spec.OpenPGP Verif.Instances
  Verif.Armor

theorem process_rnd {L : WordList} {C : Crypto} {env : Env} {name : Bytes} {cmd : Cmd}
    {args rest : List Bytes} {settings} {prompts : List (Res Bytes)} {rnd : Bytes} (hn : Named name cmd)
    (hh : args ≠ [str "help"]) (hcl : CommandLine (options cmd) (settingsOf settings) rest args) :
    (main L C env (name :: args) ⟨prompts, rnd, []⟩).2.2.rnd =
      (program L C env settings cmd ⟨prompts, rnd, []⟩).2.rnd := by
  rw [main_sub L C env ⟨prompts, rnd, []⟩ hn hh hcl, answer_acts]

/-- A process `generate`: the random parts of the key it prints and of the phrase it saves or shows are the bytes that
follow those of the seed, in order, each used once; what follows them is left. -/
theorem c119_generate_process {L : WordList} (hL : L.Lawful) {C : Crypto} (hC : C.Lawful) (env : Env)
    (hwf : env.fs.Wf) (args positional : List Bytes) (settings : List (Bytes × Value))
    (hargs : args ≠ [str "help"]) (hcl : CommandLine (options .generate) settings positional args)
    {w : Wanted} {master : Prop} (hask : AsksFor (generateMeans settings).key 0 0 0 w master)
    (hu : w.userID.length < 2 ^ 32)
    (hnow : 1672531200 * 10 ^ 9 ≤ env.now) (hnow' : env.now ≤ (1672531200 + 2 ^ 31 - 1) * 10 ^ 9)
    {rnd e rnd' : Bytes} (hseed : SeedBytes env rnd (text settings "unsafe-entropy" []) e rnd')
    (hrnd : 99 ≤ rnd'.length) {keyPw phrasePw : Option Bytes}
    (htyped : Typed (switchedOn settings "encrypt-keys" false) (switchedOn settings "encrypt-phrase" false)
      keyPw phrasePw) (more : List (Res Bytes))
    (hsave : text settings "out-word-file" [] ≠ [] →
      env.fs.read (text settings "out-word-file" []) = none ∧ env.save = ⟨false, false, none⟩)
    (hshow : text settings "out-word-file" [] = [] → 17 ≤ env.columns) :
    let prompts := keyPw.toList.map .ok ++ phrasePw.toList.map .ok ++ more
    let d := main L C env (str "generate" :: args) ⟨prompts, rnd, []⟩
    let after := leaves L C env (str "generate" :: args) prompts rnd
    d.2.1 = .exited 0 ∧
    ∃ key words k drawn salt, after.stdout = env.armor key ++ [0x0A] ∧
      (text settings "out-word-file" [] ≠ [] →
        after.fs.read (text settings "out-word-file" []) = some (phraseText words)) ∧
      (text settings "out-word-file" [] = [] → after.shown = [words]) ∧
      importKey C key = some k ∧ MakesUp k drawn ∧ SaltOf (indexOf L) words salt ∧
      rnd' = drawn ++ salt ++ d.2.2.rnd ∧
      (salt ≠ [] ↔ switchedOn settings "encrypt-phrase" false = true) ∧
      (switchedOn settings "encrypt-keys" false = true →
        (master → Protected k.secret) ∧ ∀ s ∈ k.subkeys, Protected s.secret) := by
  rw [← settingsOf_surj settings] at hcl
  have hopt := c63_generate _ _ _ hcl
  rw [settingsOf_surj] at hopt
  obtain ⟨hok, key, words, k, drawn, salt, h1, h2, h3, h4, h5, h6, h7, h8, h9⟩ := c119_generate hL hC env hwf
    (generateMeans settings) hask hu hnow hnow' hseed hrnd htyped more hsave hshow
  have hprog : program L C env (settings.map fun s => (s.1, valueTo s.2)) .generate =
      generateAndPrintKey L C env (generateMeans settings) := by rw [← hopt]; rfl
  rw [← hprog] at hok h1 h2 h3 h7
  obtain ⟨-, p2, p3⟩ := process_ok .generate hargs hcl hok
  dsimp only
  rw [p3, process_rnd .generate hargs hcl]
  exact ⟨p2, key, words, k, drawn, salt, h1, h2, h3, h4, h5, h6, h7, h8, h9⟩

/-- A process `recover`: only the random parts of the key -/
theorem c119_recover_process {L : WordList} (hL : L.Lawful) {C : Crypto} (hC : C.Lawful) (env : Env)
    (args positional : List Bytes) (settings : List (Bytes × Value))
    (hargs : args ≠ [str "help"]) (hcl : CommandLine (options .recover) settings positional args)
    {w : Wanted} {master : Prop} (hask : AsksFor (recoverMeans settings).key (number settings "enc-index")
      (number settings "auth-index") (number settings "sig-index") w master)
    (henc : number settings "enc-index" ≤ 65535) (hauth : number settings "auth-index" ≤ 65535)
    (hsig : number settings "sig-index" ≤ 65535) (hu : w.userID.length < 2 ^ 32) {words : List Bytes}
    (hin : Gets L (offer L) env ⟨switchedOn settings "simple" false, text settings "in-word-file" []⟩ words)
    {phrasePw keyPw : Option Bytes} {seed offset : Nat}
    (hholds : Holds (indexOf L) C.toPhraseCrypto words phrasePw seed offset)
    (wrong : List Bytes) (hwrong : ∀ p ∈ wrong, WrongPassword L C words p)
    (hkey : keyPw.isSome = switchedOn settings "encrypt-keys" false)
    (hgood : ∀ p, keyPw = some p → p ≠ [] ∧ p.length ≤ 65011704)
    (more : List (Res Bytes)) {rnd : Bytes} (hrnd : 96 ≤ rnd.length) :
    let prompts := wrong.map .ok ++ phrasePw.toList.map .ok ++ keyPw.toList.map .ok ++ more
    let d := main L C env (str "recover" :: args) ⟨prompts, rnd, []⟩
    d.2.1 = .exited 0 ∧
    ∃ key k drawn, leaves L C env (str "recover" :: args) prompts rnd = ⟨env.fs, none, env.armor key ++ [0x0A], []⟩ ∧
      importKey C key = some k ∧ MakesUp k drawn ∧ rnd = drawn ++ d.2.2.rnd ∧
      (switchedOn settings "encrypt-keys" false = true →
        (master → Protected k.secret) ∧ ∀ s ∈ k.subkeys, Protected s.secret) := by
  rw [← settingsOf_surj settings] at hcl
  have hopt := c63_recover _ _ _ hcl
  rw [settingsOf_surj] at hopt
  obtain ⟨hok, key, k, drawn, h1, h2, h3, h4, h5⟩ := c119_recover hL hC env (recoverMeans settings) hask henc hauth hsig
    hu hin hholds wrong hwrong hkey hgood more hrnd
  have hprog : program L C env (settings.map fun s => (s.1, valueTo s.2)) .recover =
      recoverAndPrintKey L C env (recoverMeans settings) := by rw [← hopt]; rfl
  rw [← hprog] at hok h1 h4
  obtain ⟨-, p2, p3⟩ := process_ok .recover hargs hcl hok
  dsimp only
  rw [p3, process_rnd .recover hargs hcl]
  exact ⟨p2, key, k, drawn, h1, h2, h3, h4, h5⟩

/-- A process `convert`: only the salt of the phrase -/
theorem c119_convert_process {L : WordList} (hL : L.Lawful) {C : Crypto} (hC : C.Lawful) (env : Env)
    (args positional : List Bytes) (settings : List (Bytes × Value))
    (hargs : args ≠ [str "help"]) (hcl : CommandLine (options .convert) settings positional args)
    {words : List Bytes}
    (hin : Gets L (offer L) env ⟨switchedOn settings "simple" false, []⟩ words)
    (hfile : text settings "in-word-file" [] = []) {phrasePw newPw : Option Bytes} {seed offset : Nat}
    (hholds : Holds (indexOf L) C.toPhraseCrypto words phrasePw seed offset)
    (wrong : List Bytes) (hwrong : ∀ p ∈ wrong, WrongPassword L C words p)
    (hnew : newPw.isSome = switchedOn settings "encrypt-phrase" false) (hgood : newPw ≠ some [])
    (more : List (Res Bytes)) {rnd : Bytes} (hrnd : 3 ≤ rnd.length) (hcol : 17 ≤ env.columns) :
    let prompts := wrong.map .ok ++ phrasePw.toList.map .ok ++ newPw.toList.map .ok ++ more
    let d := main L C env (str "convert" :: args) ⟨prompts, rnd, []⟩
    d.2.1 = .exited 0 ∧
    ∃ words' salt, leaves L C env (str "convert" :: args) prompts rnd = ⟨env.fs, none, [], [words']⟩ ∧
      SaltOf (indexOf L) words' salt ∧ (salt ≠ [] ↔ switchedOn settings "encrypt-phrase" false = true) ∧
      rnd = salt ++ d.2.2.rnd := by
  rw [← settingsOf_surj settings] at hcl
  have hopt := c63_convert _ _ _ hcl
  rw [settingsOf_surj] at hopt
  have hin' : Gets L (offer L) env (convertMeans settings).input words := by
    unfold convertMeans
    rw [hfile]
    exact hin
  obtain ⟨hok, words', salt, h1, h2, h3, h4⟩ := c119_convert hL hC env (convertMeans settings) hin' hfile hholds wrong hwrong
    hnew hgood more hrnd hcol
  have hprog : program L C env (settings.map fun s => (s.1, valueTo s.2)) .convert =
      decodeAndConvertPhrase L C env (convertMeans settings) := by rw [← hopt]; rfl
  rw [← hprog] at hok h1 h4
  obtain ⟨-, p2, p3⟩ := process_ok .convert hargs hcl hok
  dsimp only
  rw [p3, process_rnd .convert hargs hcl]
  exact ⟨p2, words', salt, h1, h2, h3, h4⟩

/-! ## examples -/

/-- The bytes 0, 1, 2 and so on -/
def counting : Bytes := (List.range 115).map UInt8.ofNat

def generateArgs : List Bytes := [str "-out-word-file=new", str "-encrypt-keys"]

def generateSettings : List (Bytes × FlagValue) :=
  [(str "out-word-file", .string (str "new")), (str "encrypt-keys", .bool true)]

/-- `generate -out-word-file=new -encrypt-keys`: no phrase salt, and the random parts of the key are the bytes from 16 on. -/
theorem counting_printed {C : Crypto} (hC : C.Lawful) : ∃ t key k drawn rest words offset,
    Printed C (valueOfBytes (counting.take 16)) 1700000000
      ⟨t, str "key", ⟨str "anonymous", none, some 0, some 0, some 0⟩, True, True⟩ ∧
    dearmor t = some key ∧ importKey C key = some k ∧ MakesUp k drawn ∧ counting.drop 16 = drawn ++ rest ∧
    Protected k.secret ∧ (∀ s ∈ k.subkeys, Protected s.secret) ∧ k.subkeys ≠ [] ∧
    Complete toyWordList.word words ∧
    Holds (indexOf toyWordList) C.toPhraseCrypto words none (valueOfBytes (counting.take 16)) offset ∧
    t = goArmor key ++ [0x0A] := by
  have hcl : CommandLine (options .generate) (settingsOf generateSettings) [] generateArgs :=
    (c63_accepted .generate _ _ _).1 (by decide +kernel)
  have hseed : SeedBytes armorEnv counting [] (counting.take 16) (counting.drop 16) := .system rfl rfl
  have htyped : Typed true false (some (str "key")) none := ⟨rfl, rfl, by rintro p ⟨⟩; decide, by rintro p ⟨⟩⟩
  have hp := Printed.generate (C := C) (second := 1700000000)
    toyWordList_lawful goArmor_lawful sampleFS_wf (by decide) hcl encryptKeys_asks (by decide) (by decide) (by decide) hseed
    (by decide) htyped (fun _ => ⟨by decide +kernel, rfl⟩) (by decide) rfl (by decide)
  obtain ⟨-, key, words, k, drawn, salt, hout, -, -, hk, hd, -, hr, hs, hprot⟩ := c119_generate_process toyWordList_lawful hC
    armorEnv sampleFS_wf _ _ _ (by decide) hcl encryptKeys_asks (by decide) (by decide) (by decide) hseed
    (by decide) htyped [] (fun _ => ⟨by decide +kernel, rfl⟩) (by decide)
  obtain ⟨-, -, -, words', -, -, hcomp, hh, -⟩ := c70_process toyWordList_lawful hC armorEnv
    sampleFS_wf _ _ _ (by decide) hcl encryptKeys_asks (by decide) (by decide) (by decide) hseed (by decide) htyped []
    (fun _ => ⟨by decide +kernel, rfl⟩) (by decide)
  have hsalt : salt = [] := by
    by_contra hne
    exact absurd (hs.1 hne) (by decide)
  rw [hsalt, List.append_nil] at hr
  rw [List.append_nil] at hout
  obtain ⟨p1, p2⟩ := hprot (by decide)
  have hp : Printed C (valueOfBytes (counting.take 16)) 1700000000
      ⟨_, str "key", ⟨str "anonymous", none, some 0, some 0, some 0⟩, True, True⟩ := hp
  generalize (leaves ..).stdout = t at hp hout
  obtain ⟨key', k', hd', hk', -, -, hlen, -⟩ := c125_run hC hp (show str "key" ≠ [] by decide)
  have hdear := (congrArg dearmor hout).trans ((dearmor_end (armorEnv.armor key)).trans (goArmor_lawful.reads key))
  obtain rfl : key = key' := Option.some.inj (hdear.symm.trans hd')
  obtain rfl : k = k' := Option.some.inj (hk.symm.trans hk')
  refine ⟨_, key, k, drawn, _, words', _, hp, hdear, hk, hd, hr, p1 trivial, p2, ?_, hcomp, hh, hout⟩
  intro h0
  rw [h0] at hlen
  exact absurd hlen (by simp [wantedSubkeys])

/-- `recover -ttl 2y -in-word-file=new` and `convert -encrypt-phrase` for that phrase: no byte for the key without a
password, three for the phrase -/
example : ∃ words words' key k drawn salt fs keys,
    (main toyWordList toyCrypto { armorEnv with fs := fs } (str "recover" :: laterArgs)
      ⟨[], counting, []⟩).2.1 = .exited 0 ∧ importKey toyCrypto key = some k ∧ MakesUp k drawn ∧
    counting = drawn ++ (main toyWordList toyCrypto { armorEnv with fs := fs } (str "recover" :: laterArgs)
      ⟨[], counting, []⟩).2.2.rnd ∧
    ByHand false keys words ∧ SaltOf (indexOf toyWordList) words' salt ∧ salt ≠ [] ∧
    counting = salt ++ (main toyWordList toyCrypto { armorEnv with stdin := keys } [str "convert", str "-encrypt-phrase"]
      ⟨[.ok (str "secret")], counting, []⟩).2.2.rnd := by
  obtain ⟨-, -, -, -, -, words, offset, -, -, -, -, -, -, -, -, hcomp, hh, -⟩ := counting_printed toyCrypto_lawful
  have hcl : CommandLine (options .recover) (settingsOf laterSettings) [] laterArgs :=
    (c63_accepted .recover _ _ _).1 (by decide +kernel)
  have hcl' : CommandLine (options .convert) (settingsOf [(str "encrypt-phrase", .bool true)]) [] [str "-encrypt-phrase"] :=
    (c63_accepted .convert _ _ _).1 (by decide +kernel)
  have hfs : ({ dir := fun _ => some 0, data := fun _ => phraseText words, next := 1 } : FS).read (str "new") = some (phraseText words) := rfl
  have hby : ByHand false (words.flatMap (fun w => w ++ [13])) words := by
    have := ByHand.keys (words.map (fun w => (w, (13 : Byte)))) [] (by simp)
    simpa [List.flatMap_map, Function.comp_def] using this
  obtain ⟨h1, key, k, drawn, -, h2, h3, h4, -⟩ := c119_recover_process toyWordList_lawful toyCrypto_lawful
    { armorEnv with fs := { dir := fun _ => some 0, data := fun _ => phraseText words, next := 1 } } laterArgs [] _ (by decide) hcl later_asks
    (by decide) (by decide) (by decide) (by decide) (gets_file toyWordList_lawful (by decide) hfs hcomp) hh [] (by simp)
    (keyPw := none) rfl (by rintro p ⟨⟩) [] (rnd := counting) (by decide)
  obtain ⟨-, words', salt, -, h5, h6, h7⟩ := c119_convert_process toyWordList_lawful toyCrypto_lawful
    { armorEnv with stdin := words.flatMap (fun w => w ++ [13]) } [str "-encrypt-phrase"] [] _ (by decide) hcl'
    (gets_byHand toyWordList_lawful rfl hcomp hby) (by decide) hh [] (by simp) (newPw := some (str "secret")) rfl (by decide)
    [] (rnd := counting) (by decide) (show 17 ≤ armorEnv.columns by decide)
  exact ⟨words, words', key, k, drawn, salt, _, _, h1, h2, h3, h4, hby, h5, h6.2 (by decide), h7⟩

end Verif.Props
