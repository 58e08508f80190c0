import Verif.Spec.Keyring
import Verif.Props.Armor
import Verif.Props.Request

/-! # Keys of one phrase in a keyring (C102) -/

namespace Verif.Props

open Verif.Model Verif.Model.Cli Verif.Spec Verif.Spec.OpenPGP Verif.Proofs Verif.Instances Verif.Armor

/-- What somebody gets out of one run: the text printed, the password of its secrets, and what was asked for: user ID,
lifetime and subkeys, whether with the master key, and whether with the certification -/
structure Output where
  text : Bytes
  password : Bytes
  wanted : Wanted
  master : Prop
  cert : Prop

/-- The output of a process `generate` that made a key with this seed and creation second, or of a process `recover`
for a phrase that holds them -/
inductive Printed (C : Crypto) (seed second : Nat) : Output → Prop where
  | generate {L : WordList} (hL : L.Lawful) {env : Env} (hA : ArmorLawful env.armor)
    (hwf : env.fs.Wf) {args positional : List Bytes} {settings : List (Bytes × Value)}
    (hargs : args ≠ [str "help"]) (hcl : CommandLine (options .generate) settings positional args)
    {w : Wanted} {master : Prop} (hask : AsksFor (generateMeans settings).key 0 0 0 w master)
    (hu : w.userID.length < 2 ^ 32)
    (hnow : 1672531200 * 10 ^ 9 ≤ env.now) (hnow' : env.now ≤ (1672531200 + 2 ^ 31 - 1) * 10 ^ 9)
    {rnd e rnd' : Bytes} (hseed : SeedBytes env rnd (text settings "unsafe-entropy" []) e rnd')
    (hrnd : 99 ≤ rnd'.length) {keyPw phrasePw : Option Bytes}
    (htyped : Typed (switchedOn settings "encrypt-keys" false) (switchedOn settings "encrypt-phrase" false)
      keyPw phrasePw)
    (hsave : text settings "out-word-file" [] ≠ [] →
      env.fs.read (text settings "out-word-file" []) = none ∧ env.save = ⟨false, false, none⟩)
    (hshow : text settings "out-word-file" [] = [] → 17 ≤ env.columns)
    (hs : valueOfBytes e = seed) (ht : (env.now / 10 ^ 9).toNat = second) :
    Printed C seed second ⟨(leaves L C env (str "generate" :: args)
      (keyPw.toList.map .ok ++ phrasePw.toList.map .ok) rnd).stdout, keyPw.getD [], w, master, True⟩
  | recover {L : WordList} (hL : L.Lawful) {env : Env} (hA : ArmorLawful env.armor)
    {args positional : List Bytes} {settings : List (Bytes × Value)}
    (hargs : args ≠ [str "help"]) (hcl : CommandLine (options .recover) settings positional args)
    {w : Wanted} {master : Prop} (hask : AsksFor (recoverMeans settings).key (number settings "enc-index")
      (number settings "auth-index") (number settings "sig-index") w master)
    (henc : number settings "enc-index" ≤ 65535) (hauth : number settings "auth-index" ≤ 65535)
    (hsig : number settings "sig-index" ≤ 65535) (hu : w.userID.length < 2 ^ 32) {words : List Bytes}
    (hin : Gets L (offer L) env ⟨switchedOn settings "simple" false, text settings "in-word-file" []⟩ words)
    {phrasePw keyPw : Option Bytes} {offset : Nat}
    (hholds : Holds (indexOf L) C.toPhraseCrypto words phrasePw seed offset)
    {wrong : List Bytes} (hwrong : ∀ p ∈ wrong, WrongPassword L C words p)
    (hkey : keyPw.isSome = switchedOn settings "encrypt-keys" false)
    (hgood : ∀ p, keyPw = some p → p ≠ [] ∧ p.length ≤ 65011704) {rnd : Bytes} (hrnd : 96 ≤ rnd.length)
    (ht : 1672531200 + offset = second) :
    Printed C seed second ⟨(leaves L C env (str "recover" :: args)
      (wrong.map .ok ++ phrasePw.toList.map .ok ++ keyPw.toList.map .ok) rnd).stdout, keyPw.getD [], w, master,
      switchedOn settings "self-cert" true = true⟩

theorem printed_contains {C : Crypto} (hC : C.Lawful) {seed second : Nat} {o : Output} (h : Printed C seed second o) :
    ∃ key, dearmor o.text = some key ∧ Contains C key o.password seed second o.wanted o.master o.cert := by
  cases h with
  | @generate L hL env hA hwf args positional settings hargs hcl w master hask hu hnow hnow' rnd e rnd' hseed hrnd
      keyPw phrasePw htyped hsave hshow hs ht =>
    obtain ⟨-, -, key, words, hout, hc, -⟩ := c70_process hL hC env hwf args positional settings hargs hcl hask hu hnow
      hnow' hseed hrnd htyped [] hsave hshow
    rw [List.append_nil] at hout
    refine ⟨key, ?_, ?_⟩
    · show dearmor (leaves ..).stdout = _
      rw [hout, dearmor_end, hA.reads]
    · rw [hs, ht] at hc; exact hc
  | @recover L hL env hA args positional settings hargs hcl w master hask henc hauth hsig hu words hin phrasePw keyPw
      offset hholds wrong hwrong hkey hgood rnd hrnd ht =>
    obtain ⟨-, -, key, hout, hc⟩ := c71_process hL hC env args positional settings hargs hcl hask henc hauth hsig hu hin
      hholds wrong hwrong hkey hgood [] hrnd
    rw [List.append_nil] at hout
    refine ⟨key, ?_, ?_⟩
    · show dearmor (leaves ..).stdout = _
      rw [hout, dearmor_end, hA.reads]
    · rw [ht] at hc; exact hc

theorem unlocked {C : Crypto} {password : Bytes} {ks subs : List SubkeyInfo}
    (h : ks.mapM (unlockSubkey C password) = some subs) :
    (∀ k ∈ ks, ∃ s ∈ subs, ∃ n, openSecret C password k.secret = some n ∧ s = { k with secret := .clear n }) ∧
    (∀ s ∈ subs, ∃ k ∈ ks, ∃ n, openSecret C password k.secret = some n ∧ s = { k with secret := .clear n }) := by
  have e := (mapM_eq_some_iff _ _ _).1 h
  have key : ∀ k s, unlockSubkey C password k = some s →
      ∃ n, openSecret C password k.secret = some n ∧ s = { k with secret := .clear n } := by
    intro k s hk
    unfold unlockSubkey at hk
    cases ho : openSecret C password k.secret with
    | none => rw [ho] at hk; cases hk
    | some n => rw [ho] at hk; exact ⟨n, rfl, (Option.some.inj hk).symm⟩
  constructor
  · intro k hk
    have hm : unlockSubkey C password k ∈ subs.map some := by rw [← e]; exact List.mem_map_of_mem hk
    obtain ⟨s, hs, hks⟩ := List.mem_map.1 hm
    exact ⟨s, hs, key k s hks.symm⟩
  · intro s hs
    have hm : some s ∈ ks.map (unlockSubkey C password) := by rw [e]; exact List.mem_map_of_mem hs
    obtain ⟨k, hk, hks⟩ := List.mem_map.1 hm
    exact ⟨k, hk, key k s hks⟩

/-- What the output of one run tells -/
def Teaches (C : Crypto) (seed second : Nat) (w : Wanted) (master cert : Prop) : Fact → Prop
  | .primary p => p = edPublic C second (masterSeed C seed second)
  | .primarySecret p n => p = edPublic C second (masterSeed C seed second) ∧
      n = num (masterSeed C seed second) ∧ master
  | .user p uid c => p = edPublic C second (masterSeed C seed second) ∧
      (master ∨ cert) ∧ uid = w.userID ∧ c = wantedCert second w
  | .subkey p s b x => p = edPublic C second (masterSeed C seed second) ∧
      ∃ sk ∈ wantedSubkeys C seed second w, s = sk.key ∧ b = sk.binding ∧ x = sk.cross
  | .subkeySecret s n => ∃ sk ∈ wantedSubkeys C seed second w, s = sk.key ∧ sk.secret = .clear n

theorem learned_iff {C : Crypto} {seed second : Nat} {key password : Bytes} {w : Wanted} {master cert : Prop}
    (h : Contains C key password seed second w master cert) {k : KeyInfo} (hk : importKey C key = some k) (f : Fact) :
    Learned C k password f ↔ Teaches C seed second w master cert f := by
  obtain ⟨k', subs, hk', hkey, huid, hc1, hc2, hm1, hm2, hsub, hperm, -, -⟩ := h.imported
  obtain rfl : k = k' := Option.some.inj (hk.symm.trans hk')
  obtain ⟨hu1, hu2⟩ := unlocked hsub
  constructor
  · intro hl
    cases hl with
    | primary => exact hkey
    | @primarySecret n hn =>
      by_cases hm : master
      · exact ⟨hkey, Option.some.inj (hn.symm.trans (hm1 hm)), hm⟩
      · rw [hm2 hm] at hn; cases hn
    | @user c hc =>
      by_cases hmc : master ∨ cert
      · exact ⟨hkey, hmc, huid, Option.some.inj (hc.symm.trans (hc1 hmc))⟩
      · rw [hc2 (fun h => hmc (.inl h)) (fun h => hmc (.inr h))] at hc; cases hc
    | @subkey s hs =>
      obtain ⟨s', hs', n, -, rfl⟩ := hu1 s hs
      exact ⟨hkey, _, hperm.mem_iff.1 hs', rfl, rfl, rfl⟩
    | @subkeySecret s n hs hn =>
      obtain ⟨s', hs', n', hn', rfl⟩ := hu1 s hs
      refine ⟨_, hperm.mem_iff.1 hs', rfl, ?_⟩
      rw [hn] at hn'
      rw [Option.some.inj hn']
  · intro ht
    cases f with
    | primary p =>
      obtain rfl : p = _ := ht
      rw [← hkey]; exact .primary
    | primarySecret p n =>
      obtain ⟨rfl, rfl, hm⟩ := ht
      rw [← hkey]; exact .primarySecret (hm1 hm)
    | user p uid c =>
      obtain ⟨rfl, hmc, rfl, rfl⟩ := ht
      rw [← hkey, ← huid]; exact .user (hc1 hmc)
    | subkey p s b x =>
      obtain ⟨rfl, sk, hsk, rfl, rfl, rfl⟩ := ht
      obtain ⟨s', hs', n, -, rfl⟩ := hu2 sk (hperm.mem_iff.2 hsk)
      rw [← hkey]; exact .subkey (s := s') hs'
    | subkeySecret s n =>
      obtain ⟨sk, hsk, rfl, hn⟩ := ht
      obtain ⟨s', hs', n', hn', rfl⟩ := hu2 sk (hperm.mem_iff.2 hsk)
      exact .subkeySecret (s := s') hs' (by rw [hn']; exact congrArg some (Secret.clear.inj hn))

theorem imported_iff {C : Crypto} (hC : C.Lawful) {seed second : Nat} {o : Output} (h : Printed C seed second o)
    (ring : Fact → Prop) (f : Fact) :
    Imported C ring o.text o.password f ↔ ring f ∨ Teaches C seed second o.wanted o.master o.cert f := by
  obtain ⟨key, hd, hc⟩ := printed_contains hC h
  obtain ⟨k, -, hk, -⟩ := hc.imported
  constructor
  · intro hf
    cases hf with
    | old hf => exact .inl hf
    | @new data k' hd' hk' hl =>
      obtain rfl : key = data := Option.some.inj (hd.symm.trans hd')
      obtain rfl : k = k' := Option.some.inj (hk.symm.trans hk')
      exact .inr ((learned_iff hc hk f).1 hl)
  · rintro (hf | hf)
    · exact .old hf
    · exact .new hd hk ((learned_iff hc hk f).2 hf)

/-- The keyring after some runs, the last one first in the list -/
def ringOf (C : Crypto) (os : List Output) : Fact → Prop := keyring C (os.map fun o => (o.text, o.password))

theorem ring_iff {C : Crypto} (hC : C.Lawful) {seed second : Nat} : ∀ (os : List Output),
    (∀ o ∈ os, Printed C seed second o) → ∀ f, ringOf C os f ↔
      ∃ o ∈ os, Teaches C seed second o.wanted o.master o.cert f
  | [], _, f => by simp [ringOf, keyring]
  | o :: os, h, f => by
    show Imported C (ringOf C os) o.text o.password f ↔ _
    rw [imported_iff hC (h o List.mem_cons_self), ring_iff hC os fun o ho => h o (List.mem_cons_of_mem _ ho)]
    simp only [List.mem_cons, exists_eq_or_imp]
    rw [or_comm]

/-- C102. Who imports what runs for phrases with one seed and creation time print has one primary key in the keyring;
its secret if one of the runs printed it; every user ID asked for in a run with a certification; every subkey asked
for in a run, with its secret, bound with every lifetime asked for; and nothing else. -/
theorem c102_keyring {C : Crypto} (hC : C.Lawful) {seed second : Nat} (os : List Output)
    (h : ∀ o ∈ os, Printed C seed second o) :
    let key := edPublic C second (masterSeed C seed second)
    let ring := keyring C (os.map fun o => (o.text, o.password))
    (∀ p, ring (.primary p) ↔ os ≠ [] ∧ p = key) ∧
    (∀ p n, ring (.primarySecret p n) ↔ p = key ∧ n = num (masterSeed C seed second) ∧ ∃ o ∈ os, o.master) ∧
    (∀ p uid c, ring (.user p uid c) ↔ p = key ∧ ∃ o ∈ os, (o.master ∨ o.cert) ∧ uid = o.wanted.userID ∧
      c = wantedCert second o.wanted) ∧
    (∀ p s b x, ring (.subkey p s b x) ↔ p = key ∧ ∃ o ∈ os, ∃ sk ∈ wantedSubkeys C seed second o.wanted,
      s = sk.key ∧ b = sk.binding ∧ x = sk.cross) ∧
    (∀ s n, ring (.subkeySecret s n) ↔ ∃ o ∈ os, ∃ sk ∈ wantedSubkeys C seed second o.wanted,
      s = sk.key ∧ sk.secret = .clear n) := by
  have hr := ring_iff hC os h
  dsimp only
  refine ⟨fun p => (hr _).trans ?_, fun p n => (hr _).trans ?_, fun p uid c => (hr _).trans ?_,
    fun p s b x => (hr _).trans ?_, fun s n => (hr _).trans ?_⟩
  · constructor
    · rintro ⟨o, ho, hp⟩
      exact ⟨List.ne_nil_of_mem ho, hp⟩
    · rintro ⟨hne, hp⟩
      obtain ⟨o, ho⟩ := List.exists_mem_of_ne_nil os hne
      exact ⟨o, ho, hp⟩
  · constructor
    · rintro ⟨o, ho, h1, h2, h3⟩
      exact ⟨h1, h2, o, ho, h3⟩
    · rintro ⟨h1, h2, o, ho, h3⟩
      exact ⟨o, ho, h1, h2, h3⟩
  · constructor
    · rintro ⟨o, ho, h1, h2⟩
      exact ⟨h1, o, ho, h2⟩
    · rintro ⟨h1, o, ho, h2⟩
      exact ⟨o, ho, h1, h2⟩
  · constructor
    · rintro ⟨o, ho, h1, h2⟩
      exact ⟨h1, o, ho, h2⟩
    · rintro ⟨h1, o, ho, h2⟩
      exact ⟨o, ho, h1, h2⟩
  · exact Iff.rfl

/-- Neither order nor number of imports of the same outputs matters. -/
theorem c102_order {C : Crypto} (hC : C.Lawful) {seed second : Nat} (os os' : List Output)
    (h : ∀ o ∈ os, Printed C seed second o) (hm : ∀ o, o ∈ os ↔ o ∈ os') :
    keyring C (os.map fun o => (o.text, o.password)) = keyring C (os'.map fun o => (o.text, o.password)) := by
  funext f
  refine propext ?_
  have h1 := ring_iff hC os h f
  have h2 := ring_iff hC os' (fun o ho => h o ((hm o).2 ho)) f
  refine h1.trans (Iff.trans ?_ h2.symm)
  simp only [hm]

/-- The workflow of README.md: a later run for one subkey alone, without master key and certification, adds that
subkey and its secret to the keyring, and changes nothing else. -/
theorem c102_cycle {C : Crypto} (hC : C.Lawful) {seed second : Nat} (os : List Output) (hne : os ≠ [])
    (h : ∀ o ∈ os, Printed C seed second o) (o : Output) (ho : Printed C seed second o)
    (hm : ¬ o.master) (hc : ¬ o.cert) {n : Nat} (he : o.wanted.encryption = none)
    (ha : o.wanted.authentication = none) (hs : o.wanted.signing = some n) (f : Fact) :
    let before := keyring C (os.map fun o => (o.text, o.password))
    let sub := edPublic C second (subkeySeed C seed second "signing" n)
    Imported C before o.text o.password f ↔ before f ∨
      f = .subkey (edPublic C second (masterSeed C seed second)) sub ⟨second, 0x02, o.wanted.expires⟩ (some second) ∨
      f = .subkeySecret sub (num (subkeySeed C seed second "signing" n)) := by
  intro before sub
  have hsk : wantedSubkeys C seed second o.wanted = [signingSubkey C seed second o.wanted.expires n] := by
    simp [wantedSubkeys, he, ha, hs]
  refine (imported_iff hC ho before f).trans ?_
  refine ⟨?_, ?_⟩
  · rintro (hf | hf)
    · exact .inl hf
    · cases f with
      | primary p => exact .inl (((c102_keyring hC os h).1 p).2 ⟨hne, hf⟩)
      | primarySecret p n => exact absurd hf.2.2 hm
      | user p uid c => exact absurd hf.2.1 (not_or.2 ⟨hm, hc⟩)
      | subkey p s b x =>
        obtain ⟨rfl, sk, hmem, rfl, rfl, rfl⟩ := hf
        rw [hsk, List.mem_singleton] at hmem
        subst hmem
        exact .inr (.inl rfl)
      | subkeySecret s m =>
        obtain ⟨sk, hmem, rfl, hn⟩ := hf
        rw [hsk, List.mem_singleton] at hmem
        subst hmem
        rw [← Secret.clear.inj hn]
        exact .inr (.inr rfl)
  · rintro (hf | rfl | rfl)
    · exact .inl hf
    · exact .inr ⟨rfl, _, by rw [hsk]; exact List.mem_singleton.2 rfl, rfl, rfl, rfl⟩
    · exact .inr ⟨_, by rw [hsk]; exact List.mem_singleton.2 rfl, rfl, rfl⟩

/-- All certifications and bindings are as old as the key, whenever they are made: two runs for one user ID with
different lifetimes leave two certifications, and neither is the more recent. -/
theorem c102_same_age {C : Crypto} (hC : C.Lawful) {seed second : Nat} (os : List Output)
    (h : ∀ o ∈ os, Printed C seed second o) :
    let ring := keyring C (os.map fun o => (o.text, o.password))
    (∀ p uid c, ring (.user p uid c) → c.info.created = second) ∧
    (∀ p s b x, ring (.subkey p s b x) → b.created = second) ∧
    ∀ o ∈ os, ∀ o' ∈ os, (o.master ∨ o.cert) → (o'.master ∨ o'.cert) → o.wanted.userID = o'.wanted.userID →
      ∃ p c c', ring (.user p o.wanted.userID c) ∧ ring (.user p o.wanted.userID c') ∧
        c.info.expires = o.wanted.expires ∧ c'.info.expires = o'.wanted.expires ∧
        c.info.created = c'.info.created := by
  obtain ⟨-, -, hu, hs, -⟩ := c102_keyring hC os h
  refine ⟨?_, ?_, ?_⟩
  · intro p uid c hc
    obtain ⟨-, o, -, -, -, rfl⟩ := (hu p uid c).1 hc
    rfl
  · intro p s b x hb
    obtain ⟨-, o, -, sk, hsk, -, rfl, -⟩ := (hs p s b x).1 hb
    simp only [wantedSubkeys, List.mem_append, Option.mem_toList, Option.map_eq_some_iff] at hsk
    rcases hsk with (⟨i, -, rfl⟩ | ⟨i, -, rfl⟩) | ⟨i, -, rfl⟩ <;> rfl
  · intro o ho o' ho' hc hc' huid
    exact ⟨_, _, _, (hu _ _ _).2 ⟨rfl, o, ho, hc, rfl, rfl⟩, (hu _ _ _).2 ⟨rfl, o', ho', hc', huid, rfl⟩, rfl, rfl, rfl⟩

/-! Examples: `generate` with a new word file, and `recover -only signing -sig-index 1 -self-cert=false` from it. -/

theorem trimmed_same {t : Bytes} (h : trimSpace t = t) : Trimmed t t := by
  have := trimSpace_trimmed t
  rw [h] at this
  exact this

def cycleArgs : List Bytes :=
  [str "-only", str "signing", str "-sig-index", str "1", str "-self-cert=false", str "-in-word-file", str "new"]

def cycleSettings : List (Bytes × FlagValue) :=
  [(str "only", .string (str "signing")), (str "sig-index", .uint 1), (str "self-cert", .bool false),
    (str "in-word-file", .string (str "new"))]

theorem generate_asks : AsksFor (generateMeans (settingsOf [(str "out-word-file", .string (str "new"))])).key 0 0 0
    ⟨str "anonymous", none, some 0, some 0, some 0⟩ True :=
  ⟨⟨str "anonymous", [], trimmed_same (by decide +kernel), trimmed_same (by decide +kernel), by decide⟩, .absent, _, .all,
    Iff.rfl, fun _ => rfl, fun h => absurd trivial h, fun _ => rfl, fun h => absurd trivial h, fun _ => rfl,
    fun h => absurd trivial h⟩

theorem cycle_asks : AsksFor (recoverMeans (settingsOf cycleSettings)).key 0 0 1
    ⟨str "anonymous", none, none, none, some 1⟩ False :=
  ⟨⟨str "anonymous", [], trimmed_same (by decide +kernel), trimmed_same (by decide +kernel), by decide⟩, .absent, _,
    .listed (elems := [str "signing"]) (by decide) ⟨by simp, by decide +kernel, by decide +kernel⟩ (by decide +kernel),
    by decide +kernel, fun h => absurd h (by decide +kernel), fun _ => rfl, fun h => absurd h (by decide +kernel),
    fun _ => rfl, fun _ => rfl, fun h => absurd (by decide +kernel) h⟩

def laterArgs : List Bytes := [str "-ttl", str "2y", str "-in-word-file=new"]

def laterSettings : List (Bytes × FlagValue) :=
  [(str "ttl", .string (str "2y")), (str "in-word-file", .string (str "new"))]

theorem later_asks : AsksFor (recoverMeans (settingsOf laterSettings)).key 0 0 0
    ⟨str "anonymous", some 63072000, some 0, some 0, some 0⟩ True :=
  ⟨⟨str "anonymous", [], trimmed_same (by decide +kernel), trimmed_same (by decide +kernel), by decide⟩,
    .after (q := 2) (u := 31536000) ⟨str "2", 0x79, by decide, by decide, by decide +kernel,
      by decide +kernel, by norm_num, .year _ (by decide)⟩ (by decide) (by norm_num), _, .all,
    Iff.rfl, fun _ => rfl, fun h => absurd trivial h, fun _ => rfl, fun h => absurd trivial h, fun _ => rfl,
    fun h => absurd trivial h⟩

def sampleSeed : Nat := valueOfBytes (List.replicate 16 7)

def generated (text : Bytes) : Output :=
  ⟨text, [], ⟨str "anonymous", none, some 0, some 0, some 0⟩, True, True⟩

def cycled (text : Bytes) : Output :=
  ⟨text, [], ⟨str "anonymous", none, none, none, some 1⟩, False,
    switchedOn (settingsOf cycleSettings) "self-cert" true = true⟩

def later (text : Bytes) : Output :=
  ⟨text, [], ⟨str "anonymous", some 63072000, some 0, some 0, some 0⟩, True,
    switchedOn (settingsOf laterSettings) "self-cert" true = true⟩

/-- Three processes: `generate`; `recover` for the signing subkey with index 1 alone; `recover -ttl 2y`. -/
theorem sample_outputs : ∃ t1 t2 t3 : Bytes, Printed toyCrypto sampleSeed 1700000000 (generated t1) ∧
    Printed toyCrypto sampleSeed 1700000000 (cycled t2) ∧ Printed toyCrypto sampleSeed 1700000000 (later t3) := by
  have hcl : CommandLine (options .generate) (settingsOf [(str "out-word-file", .string (str "new"))]) []
      [str "-out-word-file=new"] := (c63_accepted .generate _ _ _).1 (by decide +kernel)
  have hcl' : CommandLine (options .recover) (settingsOf cycleSettings) [] cycleArgs :=
    (c63_accepted .recover _ _ _).1 (by decide +kernel)
  have hcl'' : CommandLine (options .recover) (settingsOf laterSettings) [] laterArgs :=
    (c63_accepted .recover _ _ _).1 (by decide +kernel)
  have hseed : SeedBytes armorEnv (List.replicate 115 7) [] (List.replicate 16 7) (List.replicate 99 7) :=
    .system rfl rfl
  have htyped : Typed false false none none := ⟨rfl, rfl, by rintro p ⟨⟩, by rintro p ⟨⟩⟩
  obtain ⟨-, -, key, words, -, -, hcomplete, hh, hsaved, -⟩ := c70_process toyWordList_lawful toyCrypto_lawful armorEnv
    sampleFS_wf _ _ _ (by decide) hcl generate_asks (by decide) (by decide) (by decide) hseed (by decide) htyped []
    (fun _ => ⟨by decide +kernel, rfl⟩) (by decide)
  have ho := Printed.generate (C := toyCrypto) (seed := sampleSeed) (second := 1700000000)
    toyWordList_lawful goArmor_lawful sampleFS_wf (by decide) hcl generate_asks (by decide) (by decide) (by decide) hseed
    (by decide) htyped (fun _ => ⟨by decide +kernel, rfl⟩) (by decide) rfl (by decide)
  obtain ⟨fs, hfs⟩ : ∃ fs : FS, fs.read (str "new") = some (phraseText words) := ⟨_, (hsaved (by decide)).2.1⟩
  have ho' := Printed.recover (C := toyCrypto) (seed := sampleSeed) (second := 1700000000) toyWordList_lawful
    (env := { armorEnv with fs := fs }) goArmor_lawful (by decide) hcl' cycle_asks (by decide) (by decide) (by decide)
    (by decide) (gets_file toyWordList_lawful (by decide) hfs hcomplete) hh (wrong := []) (by simp)
    (keyPw := none) rfl (by rintro p ⟨⟩) (rnd := List.replicate 96 7) (by decide) (by decide)
  have ho'' := Printed.recover (C := toyCrypto) (seed := sampleSeed) (second := 1700000000) toyWordList_lawful
    (env := { armorEnv with fs := fs }) goArmor_lawful (by decide) hcl'' later_asks (by decide) (by decide) (by decide)
    (by decide) (gets_file toyWordList_lawful (by decide) hfs hcomplete) hh (wrong := []) (by simp)
    (keyPw := none) rfl (by rintro p ⟨⟩) (rnd := List.replicate 96 7) (by decide) (by decide)
  exact ⟨_, _, _, ho, ho', ho''⟩

/-- The signing subkey with index 1 comes into the keyring that `generate` gave; then there are two signing subkeys. -/
example : ∃ t1 t2 : Bytes,
    (∀ f, Imported toyCrypto (keyring toyCrypto [(t1, [])]) t2 [] f ↔ keyring toyCrypto [(t1, [])] f ∨
      f = .subkey (edPublic toyCrypto 1700000000 (masterSeed toyCrypto sampleSeed 1700000000))
        (edPublic toyCrypto 1700000000 (subkeySeed toyCrypto sampleSeed 1700000000 "signing" 1))
        ⟨1700000000, 0x02, none⟩ (some 1700000000) ∨
      f = .subkeySecret (edPublic toyCrypto 1700000000 (subkeySeed toyCrypto sampleSeed 1700000000 "signing" 1))
        (num (subkeySeed toyCrypto sampleSeed 1700000000 "signing" 1))) ∧
    (∃ p b x, keyring toyCrypto [(t1, [])]
      (.subkey p (edPublic toyCrypto 1700000000 (subkeySeed toyCrypto sampleSeed 1700000000 "signing" 0)) b x)) ∧
    keyring toyCrypto [(t2, []), (t1, [])] = keyring toyCrypto [(t1, []), (t2, []), (t1, [])] := by
  obtain ⟨t1, t2, t3, h1, h2, -⟩ := sample_outputs
  refine ⟨t1, t2, c102_cycle toyCrypto_lawful [generated t1] (by simp) (by simpa using h1) (cycled t2) h2 id
    (show ¬ switchedOn (settingsOf cycleSettings) "self-cert" true = true by decide) rfl rfl rfl, ?_, ?_⟩
  · exact ⟨_, _, _, ((c102_keyring toyCrypto_lawful [generated t1] (by simpa using h1)).2.2.2.1 _ _ _ _).2
      ⟨rfl, _, List.mem_singleton.2 rfl, signingSubkey toyCrypto sampleSeed 1700000000 none 0, by
        simp [wantedSubkeys, generated], rfl, rfl, rfl⟩⟩
  · exact c102_order toyCrypto_lawful [cycled t2, generated t1] [generated t1, cycled t2, generated t1] (by
      intro o ho
      simp only [List.mem_cons, List.not_mem_nil, or_false] at ho
      rcases ho with rfl | rfl
      · exact h2
      · exact h1) (by intro o; simp only [List.mem_cons, List.not_mem_nil, or_false]; tauto)

/-- Two lifetimes, and neither signature is the later one. -/
example : ∃ t1 t3 : Bytes, ∃ p c c', keyring toyCrypto [(t3, []), (t1, [])] (.user p (str "anonymous") c) ∧
    keyring toyCrypto [(t3, []), (t1, [])] (.user p (str "anonymous") c') ∧
    c.info.expires = some 63072000 ∧ c'.info.expires = none ∧ c.info.created = c'.info.created := by
  obtain ⟨t1, t2, t3, h1, -, h3⟩ := sample_outputs
  exact ⟨t1, t3, (c102_same_age toyCrypto_lawful [later t3, generated t1] (by
    intro o ho
    simp only [List.mem_cons, List.not_mem_nil, or_false] at ho
    rcases ho with rfl | rfl
    · exact h3
    · exact h1)).2.2 _ List.mem_cons_self _ (List.mem_cons_of_mem _ (List.mem_singleton.2 rfl)) (.inl trivial)
    (.inl trivial) rfl⟩

end Verif.Props
