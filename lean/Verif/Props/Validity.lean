import Verif.Spec.Validity
import Verif.Props.Keyring

/-! # When printed keys are valid (C120) -/

namespace Verif.Props

open Verif.Model Verif.Model.Cli Verif.Spec Verif.Spec.OpenPGP Verif.Proofs Verif.Instances Verif.Armor

theorem expiry_pos {t : Bytes} {x : Option Nat} (h : Expiry t x) : ∀ d, x = some d → 0 < d := by
  intro d hd
  cases h with
  | absent => cases hd
  | zero => cases hd
  | after h hq _ =>
    obtain ⟨ds, c, -, -, -, -, -, hu⟩ := h
    cases hd
    cases hu <;> omega

theorem printed_pos {C : Crypto} {seed second : Nat} {o : Output} (h : Printed C seed second o) :
    ∀ d, o.wanted.expires = some d → 0 < d := by
  cases h with
  | generate _ _ _ _ _ hask => exact expiry_pos hask.expires
  | recover _ _ _ _ hask => exact expiry_pos hask.expires

theorem valid_iff {key : PublicKey} {sig : SigInfo} {second : Nat} {x : Option Nat} (hk : key.created = second)
    (hs : sig.created = second) (he : sig.expires = x) (hpos : ∀ d, x = some d → 0 < d) (t : Nat) :
    ValidAt key sig t ↔ Lasts second x t := by
  unfold ValidAt Lasts
  rw [hk, hs, he]
  constructor
  · rintro ⟨h1, -, h2⟩
    exact ⟨h1, fun d hd => (h2 d hd).resolve_left (hpos d hd).ne'⟩
  · rintro ⟨h1, h2⟩
    exact ⟨h1, h1, fun d hd => .inr (h2 d hd)⟩

theorem subkey_times {C : Crypto} {seed second : Nat} {w : Wanted} {sk : SubkeyInfo}
    (h : sk ∈ wantedSubkeys C seed second w) :
    sk.key.created = second ∧ sk.binding.created = second ∧ sk.binding.expires = w.expires := by
  simp only [wantedSubkeys, List.mem_append, Option.mem_toList, Option.map_eq_some_iff] at h
  rcases h with (⟨i, -, rfl⟩ | ⟨i, -, rfl⟩) | ⟨i, -, rfl⟩ <;> exact ⟨rfl, rfl, rfl⟩

theorem contains_valid {C : Crypto} {key password : Bytes} {seed second : Nat} {w : Wanted} {master cert : Prop}
    (hc : Contains C key password seed second w master cert) (hpos : ∀ d, w.expires = some d → 0 < d)
    {k : KeyInfo} (hk : importKey C key = some k) (t : Nat) :
    (∀ c, k.cert = some c → (ValidAt k.key c.info t ↔ Lasts second w.expires t)) ∧
    ∀ s ∈ k.subkeys, (ValidAt s.key s.binding t ↔ Lasts second w.expires t) := by
  constructor
  · intro c hcert
    obtain ⟨-, -, -, rfl⟩ := (learned_iff hc hk _).1 (.user hcert)
    have h1 := (learned_iff hc hk _).1 .primary
    exact valid_iff (by rw [h1]; rfl) rfl rfl hpos t
  · intro s hs
    obtain ⟨-, sk, hsk, h1, h2, -⟩ := (learned_iff hc hk _).1 (.subkey hs)
    obtain ⟨e1, e2, e3⟩ := subkey_times hsk
    exact valid_iff (by rw [h1]; exact e1) (by rw [h2]; exact e2) (by rw [h2]; exact e3) hpos t

/-- A key printed by generate or recover: its master key (for who has the certification) and all its subkeys are
valid from the second of creation on, for ever or for the lifetime that -ttl asks for, whenever the command was
run. In that second they are valid. -/
theorem c120_run {C : Crypto} (hC : C.Lawful) {seed second : Nat} {o : Output} (h : Printed C seed second o) :
    ∃ key k, dearmor o.text = some key ∧ importKey C key = some k ∧
      (∀ t, (∀ c, k.cert = some c → (ValidAt k.key c.info t ↔ Lasts second o.wanted.expires t)) ∧
        ∀ s ∈ k.subkeys, (ValidAt s.key s.binding t ↔ Lasts second o.wanted.expires t)) ∧
      Lasts second o.wanted.expires second := by
  obtain ⟨key, hd, hc⟩ := printed_contains hC h
  obtain ⟨k, -, hk, -⟩ := hc.imported
  refine ⟨key, k, hd, hk, contains_valid hc (printed_pos h) hk, le_rfl, fun d hd => ?_⟩
  have := printed_pos h d hd
  omega

/-- A keyring with the outputs of several runs for one phrase has signatures with all their lifetimes, and which of
them counts is up to the reader (`c102_same_age`). Whichever it is: as long as no lifetime has passed, everything is
valid; when the lifetimes of all runs have passed, nothing is. And in between it does matter: by the signatures of a
run whose lifetime has not passed its keys are valid, by those of a run whose lifetime has passed they are not. -/
theorem c120_keyring {C : Crypto} (hC : C.Lawful) {seed second : Nat} (os : List Output)
    (h : ∀ o ∈ os, Printed C seed second o) (t : Nat) :
    let ring := keyring C (os.map fun o => (o.text, o.password))
    ((∀ o ∈ os, Lasts second o.wanted.expires t) →
      (∀ p uid c, ring (.user p uid c) → ValidAt p c.info t) ∧
      ∀ p s b x, ring (.subkey p s b x) → ValidAt s b t) ∧
    ((∀ o ∈ os, ¬ Lasts second o.wanted.expires t) →
      (∀ p uid c, ring (.user p uid c) → ¬ ValidAt p c.info t) ∧
      ∀ p s b x, ring (.subkey p s b x) → ¬ ValidAt s b t) ∧
    ∀ o ∈ os, (o.master ∨ o.cert) → ∃ p c, ring (.user p o.wanted.userID c) ∧
      (ValidAt p c.info t ↔ Lasts second o.wanted.expires t) := by
  obtain ⟨-, -, hu, hs, -⟩ := c102_keyring hC os h
  have user : ∀ p uid c, keyring C (os.map fun o => (o.text, o.password)) (.user p uid c) →
      ∃ o ∈ os, (ValidAt p c.info t ↔ Lasts second o.wanted.expires t) := by
    intro p uid c hc
    obtain ⟨rfl, o, ho, -, -, rfl⟩ := (hu p uid c).1 hc
    exact ⟨o, ho, valid_iff rfl rfl rfl (printed_pos (h o ho)) t⟩
  have sub : ∀ p s b x, keyring C (os.map fun o => (o.text, o.password)) (.subkey p s b x) →
      ∃ o ∈ os, (ValidAt s b t ↔ Lasts second o.wanted.expires t) := by
    intro p s b x hb
    obtain ⟨-, o, ho, sk, hsk, rfl, rfl, -⟩ := (hs p s b x).1 hb
    obtain ⟨e1, e2, e3⟩ := subkey_times hsk
    exact ⟨o, ho, valid_iff e1 e2 e3 (printed_pos (h o ho)) t⟩
  refine ⟨fun hall => ⟨fun p uid c hc => ?_, fun p s b x hb => ?_⟩,
    fun hall => ⟨fun p uid c hc => ?_, fun p s b x hb => ?_⟩, ?_⟩
  · obtain ⟨o, ho, hv⟩ := user p uid c hc
    exact hv.2 (hall o ho)
  · obtain ⟨o, ho, hv⟩ := sub p s b x hb
    exact hv.2 (hall o ho)
  · obtain ⟨o, ho, hv⟩ := user p uid c hc
    exact fun hx => hall o ho (hv.1 hx)
  · obtain ⟨o, ho, hv⟩ := sub p s b x hb
    exact fun hx => hall o ho (hv.1 hx)
  · intro o ho hmc
    exact ⟨_, _, (hu _ _ _).2 ⟨rfl, o, ho, hmc, rfl, rfl⟩, valid_iff rfl rfl rfl (printed_pos (h o ho)) t⟩

/-- The lifetime counts from the creation of the key, also for recover. If it has passed when recover is run, then
recover succeeds all the same, and prints a key of which no part is valid. -/
theorem c120_expired {L : WordList} (hL : L.Lawful) {C : Crypto} (hC : C.Lawful) (env : Env)
    (args positional : List Bytes) (settings : List (Bytes × Value))
    (hargs : args ≠ [str "help"]) (hcl : CommandLine (options .recover) settings positional args)
    {w : Wanted} {master : Prop} (hask : AsksFor (recoverMeans settings).key (number settings "enc-index")
      (number settings "auth-index") (number settings "sig-index") w master)
    (henc : number settings "enc-index" ≤ 65535) (hauth : number settings "auth-index" ≤ 65535)
    (hsig : number settings "sig-index" ≤ 65535) (hu : w.userID.length < 2 ^ 32) {words : List Bytes}
    (hin : Gets L (offer L) env ⟨switchedOn settings "simple" false, text settings "in-word-file" []⟩ words)
    {phrasePw keyPw : Option Bytes} {seed offset : Nat}
    (hholds : Holds (indexOf L) C.toPhraseCrypto words phrasePw seed offset)
    (wrong : List Bytes) (hwrong : ∀ p ∈ wrong, WrongPassword L C words p)
    (hkey : keyPw.isSome = switchedOn settings "encrypt-keys" false)
    (hgood : ∀ p, keyPw = some p → p ≠ [] ∧ p.length ≤ 65011704)
    (more : List (Res Bytes)) {rnd : Bytes} (hrnd : 96 ≤ rnd.length)
    {d : Nat} (hd : w.expires = some d) (hnow : ((1672531200 + offset + d : Nat) : Int) * 10 ^ 9 ≤ env.now) :
    let prompts := wrong.map .ok ++ phrasePw.toList.map .ok ++ keyPw.toList.map .ok ++ more
    (main L C env (str "recover" :: args) ⟨prompts, rnd, []⟩).2.1 = .exited 0 ∧
    ∃ key k, leaves L C env (str "recover" :: args) prompts rnd = ⟨env.fs, none, env.armor key ++ [0x0A], []⟩ ∧
      importKey C key = some k ∧
      (∀ c, k.cert = some c → ¬ ValidAt k.key c.info (env.now / 10 ^ 9).toNat) ∧
      ∀ s ∈ k.subkeys, ¬ ValidAt s.key s.binding (env.now / 10 ^ 9).toNat := by
  obtain ⟨-, hex, key, hout, hc⟩ := c71_process hL hC env args positional settings hargs hcl hask henc hauth hsig hu
    hin hholds wrong hwrong hkey hgood more hrnd
  obtain ⟨k, -, hk, -⟩ := hc.imported
  obtain ⟨h1, h2⟩ := contains_valid hc (expiry_pos hask.expires) hk (env.now / 10 ^ 9).toNat
  have hnot : ¬ Lasts (1672531200 + offset) w.expires (env.now / 10 ^ 9).toNat := by
    rintro ⟨-, hw⟩
    have := hw d hd
    omega
  exact ⟨hex, key, k, hout, hk, fun c hcert hv => hnot ((h1 c hcert).1 hv), fun s hs hv => hnot ((h2 s hs).1 hv)⟩

/-! ## examples -/

/-- Two years after creation, less one second: the key of `recover -ttl 2y` is valid; a second later it is not, and
the keyring with the one of `generate` too has both answers. -/
example : ∃ t1 t3 : Bytes, ∃ key k, dearmor t3 = some key ∧ importKey toyCrypto key = some k ∧
    (∀ c, k.cert = some c → ValidAt k.key c.info 1763071999 ∧ ¬ ValidAt k.key c.info 1763072000) ∧
    ∃ p c p' c', keyring toyCrypto [(t3, []), (t1, [])] (.user p (str "anonymous") c) ∧
      keyring toyCrypto [(t3, []), (t1, [])] (.user p' (str "anonymous") c') ∧
      ¬ ValidAt p c.info 1763072000 ∧ ValidAt p' c'.info 1763072000 := by
  obtain ⟨t1, t2, t3, h1, -, h3⟩ := sample_outputs
  obtain ⟨key, k, e1, e2, e3, -⟩ := c120_run toyCrypto_lawful h3
  have w1 : Lasts 1700000000 (some 63072000) 1763071999 := ⟨by norm_num, by rintro d ⟨⟩; norm_num⟩
  have w2 : ¬ Lasts 1700000000 (some 63072000) 1763072000 := fun h => absurd (h.2 _ rfl) (by norm_num)
  have w3 : Lasts 1700000000 none 1763072000 := ⟨by norm_num, by rintro d ⟨⟩⟩
  obtain ⟨-, -, hr⟩ := c120_keyring toyCrypto_lawful [later t3, generated t1] (by
    intro o ho
    simp only [List.mem_cons, List.not_mem_nil, or_false] at ho
    rcases ho with rfl | rfl
    · exact h3
    · exact h1) 1763072000
  obtain ⟨p, c, f1, f2⟩ := hr (later t3) (by simp) (.inl trivial)
  obtain ⟨p', c', g1, g2⟩ := hr (generated t1) (by simp) (.inl trivial)
  exact ⟨t1, t3, key, k, e1, e2, fun c hc => ⟨((e3 _).1 c hc).2 w1, fun h => w2 (((e3 _).1 c hc).1 h)⟩,
    p, c, p', c', f1, g1, fun h => w2 (f2.1 h), g2.2 w3⟩

/-- recover -ttl 2y in the third year of the key -/
example : ∃ words : List Bytes, ∃ fs : FS,
    (main toyWordList toyCrypto { armorEnv with fs := fs, now := 1770000000 * 10 ^ 9 } (str "recover" :: laterArgs)
      ⟨[], List.replicate 96 7, []⟩).2.1 = .exited 0 ∧
    ∃ key k, leaves toyWordList toyCrypto { armorEnv with fs := fs, now := 1770000000 * 10 ^ 9 }
        (str "recover" :: laterArgs) [] (List.replicate 96 7) = ⟨fs, none, armorEnv.armor key ++ [0x0A], []⟩ ∧
      importKey toyCrypto key = some k ∧ fs.read (str "new") = some (phraseText words) ∧
      ∀ s ∈ k.subkeys, ¬ ValidAt s.key s.binding 1770000000 := by
  have hcl : CommandLine (options .generate) (settingsOf [(str "out-word-file", .string (str "new"))]) []
      [str "-out-word-file=new"] := (c63_accepted .generate _ _ _).1 (by decide +kernel)
  have hcl'' : CommandLine (options .recover) (settingsOf laterSettings) [] laterArgs :=
    (c63_accepted .recover _ _ _).1 (by decide +kernel)
  have hseed : SeedBytes armorEnv (List.replicate 115 7) [] (List.replicate 16 7) (List.replicate 99 7) :=
    .system rfl rfl
  have htyped : Typed false false none none := ⟨rfl, rfl, by rintro p ⟨⟩, by rintro p ⟨⟩⟩
  obtain ⟨-, -, key, words, -, -, hcomplete, hh, hsaved, -⟩ := c70_process toyWordList_lawful toyCrypto_lawful armorEnv
    sampleFS_wf _ _ _ (by decide) hcl generate_asks (by decide) (by decide) (by decide) hseed (by decide) htyped []
    (fun _ => ⟨by decide +kernel, rfl⟩) (by decide)
  have e : (armorEnv.now / 10 ^ 9).toNat - 1672531200 = 27468800 := by decide
  rw [e] at hh
  obtain ⟨fs, hfs⟩ : ∃ fs : FS, fs.read (str "new") = some (phraseText words) := ⟨_, (hsaved (by decide)).2.1⟩
  obtain ⟨h1, key', k, h2, h3, -, h4⟩ := c120_expired toyWordList_lawful toyCrypto_lawful
    { armorEnv with fs := fs, now := 1770000000 * 10 ^ 9 } laterArgs [] _ (by decide) hcl'' later_asks (by decide)
    (by decide) (by decide) (by decide) (gets_file toyWordList_lawful (by decide) hfs hcomplete) hh [] (by simp)
    (keyPw := none) rfl (by rintro p ⟨⟩) [] (rnd := List.replicate 96 7) (by decide) (d := 63072000) rfl (by norm_num)
  exact ⟨words, fs, h1, key', k, h2, h3, hfs, h4⟩

end Verif.Props
