import Verif.Model.Cli.Commands
import Verif.Proofs.CliFiles
import Verif.Props.Keys
import Verif.Props.Seed
import Verif.Props.Protect

/-!
# Running the subcommands
-/

namespace Verif.Proofs

open Verif.Model Verif.Model.Cli Verif.Spec Verif.Props

/-! ## programs -/

/-- Not finished normally -/
def Fails {α : Type} (o : Outcome α) : Prop := ∀ a, o ≠ .ok a

theorem bind_run {α β : Type} (x : Prog α) (f : α → Prog β) (st : St) :
    (∃ a st1, x st = (.ok a, st1) ∧ (x >>= f) st = f a st1) ∨
    (∃ o st1, x st = (o, st1) ∧ Fails o ∧ ∃ o', (x >>= f) st = (o', st1) ∧ Fails o') := by
  change (∃ a st1, x st = (.ok a, st1) ∧ Prog.bind x f st = f a st1) ∨
    (∃ o st1, x st = (o, st1) ∧ Fails o ∧ ∃ o', Prog.bind x f st = (o', st1) ∧ Fails o')
  unfold Prog.bind
  rcases x st with ⟨o, st1⟩
  cases o with
  | ok a => exact .inl ⟨a, st1, rfl, rfl⟩
  | err e => exact .inr ⟨_, _, rfl, by simp [Fails], _, rfl, by simp [Fails]⟩
  | panic p => exact .inr ⟨_, _, rfl, by simp [Fails], _, rfl, by simp [Fails]⟩
  | waits => exact .inr ⟨_, _, rfl, by simp [Fails], _, rfl, by simp [Fails]⟩
  | loops => exact .inr ⟨_, _, rfl, by simp [Fails], _, rfl, by simp [Fails]⟩

theorem bind_run_ok {α β : Type} {x : Prog α} {st st1 : St} {a : α} (h : x st = (.ok a, st1))
    (f : α → Prog β) : (x >>= f) st = f a st1 := by
  change Prog.bind x f st = _
  unfold Prog.bind
  rw [h]

theorem bind_run_err {α β : Type} {x : Prog α} {st st1 : St} {e : Err} (h : x st = (.err e, st1))
    (f : α → Prog β) : (x >>= f) st = (.err e, st1) := by
  change Prog.bind x f st = _
  unfold Prog.bind
  rw [h]

theorem lift_ok {α : Type} (a : α) (st : St) : lift (.ok a : Res α) st = (.ok a, st) := rfl
theorem lift_err {α : Type} (e : Err) (st : St) : lift (.err e : Res α) st = (.err e, st) := rfl

theorem pure_run {α : Type} (a : α) (st : St) : (pure a : Prog α) st = (.ok a, st) := rfl

theorem lift_run {α : Type} {r : Res α} {st : St} {o : Outcome α} {st1 : St}
    (h : lift r st = (o, st1)) : st1 = st ∧ (∀ a, o = .ok a → r = .ok a) := by
  cases r <;> cases h <;> simp

/-- Nothing visible is done. -/
def Quiet {α : Type} (x : Prog α) : Prop := ∀ st, (x st).2.acts = st.acts

theorem quiet_lift {α : Type} (r : Res α) : Quiet (lift r) := by
  intro st; cases r <;> rfl

theorem quiet_pure {α : Type} (a : α) : Quiet (pure a : Prog α) := fun _ => rfl

theorem quiet_password (confirm : Bool) : Quiet (userInputPassword confirm) := by
  intro st
  unfold userInputPassword
  split <;> rfl

theorem quiet_random {α : Type} (f : Bytes → Res (α × Bytes)) : Quiet (random f) := by
  intro st
  unfold random
  split <;> rfl

theorem quiet_bind {α β : Type} {x : Prog α} {f : α → Prog β} (hx : Quiet x)
    (hf : ∀ a, Quiet (f a)) : Quiet (x >>= f) := by
  intro st
  have h := hx st
  rcases bind_run x f st with ⟨a, st1, h1, h2⟩ | ⟨o, st1, h1, -, o', h2, -⟩
  · rw [h2, hf a st1]
    rw [h1] at h; exact h
  · rw [h2]
    rw [h1] at h; exact h

theorem random_run {α : Type} {f : Bytes → Res (α × Bytes)} {st st1 : St} {a : α}
    (h : random f st = (.ok a, st1)) :
    f st.rnd = .ok (a, st1.rnd) ∧ st1.prompts = st.prompts ∧ st1.acts = st.acts := by
  unfold random at h
  split at h
  · rename_i a' r hf
    cases h
    exact ⟨hf, rfl, rfl⟩
  · cases h
  · cases h

theorem password_run {confirm : Bool} {st st1 : St} {p : Bytes} (h : userInputPassword confirm st = (.ok p, st1)) :
    st.prompts = .ok p :: st1.prompts ∧ st1.rnd = st.rnd ∧ st1.acts = st.acts := by
  unfold userInputPassword at h
  split at h
  · cases h
  · rename_i p' rest hp
    cases h
    exact ⟨hp, rfl, rfl⟩
  · cases h
  · cases h

theorem quiet_seedOf (env : Env) (u : Bytes) : Quiet (seedOf env u) := by
  unfold seedOf
  split
  · exact quiet_lift _
  · exact quiet_random _

theorem quiet_keyPassword (b : Bool) : Quiet (keyPassword b) := by
  unfold keyPassword
  split
  · exact quiet_password _
  · exact quiet_pure _

theorem quiet_exportKey (C : Crypto) (mnk : Mnemonikey) (m s : Bool) (p : Bytes) :
    Quiet (exportKey C mnk m s p) := by
  unfold exportKey
  split <;> exact quiet_random _

theorem quiet_decode (L : WordList) (C : Crypto) (env : Env) (opts : InputFlags) :
    Quiet (decodeMnemonicFromInput L C env opts) := by
  refine quiet_bind (quiet_lift _) (fun ws => quiet_bind (quiet_lift _) (fun dm =>
    quiet_bind (fun st => ?_) (fun s => quiet_pure _)))
  rfl

/-! ## seeds, keys and phrases -/

theorem seedOf_run {env : Env} {u : Bytes} {st st1 : St} {s : Seed}
    (h : seedOf env u st = (.ok s, st1)) :
    ∃ n : Nat, newSeed 0 (n : Int) = .ok s := by
  have key : ∀ r r' (s' : Seed), generateSeed r = .ok (s', r') → ∃ n : Nat, newSeed 0 (n : Int) = .ok s' := by
    intro r r' s' h
    unfold generateSeed at h
    obtain ⟨⟨n, rest⟩, -, h⟩ := Res.bind_eq_ok.mp h
    dsimp only at h
    obtain ⟨s2, h1, h2⟩ := Res.bind_eq_ok.mp h
    cases h2
    exact ⟨n, h1⟩
  unfold seedOf at h
  split at h
  · have h := (lift_run h).2 s rfl
    obtain ⟨src, -, h⟩ := Res.bind_eq_ok.mp h
    obtain ⟨⟨s2, r⟩, h1, h2⟩ := Res.bind_eq_ok.mp h
    cases h2
    exact key _ _ _ h1
  · exact key _ _ _ (random_run h).1

theorem encodeToWords_mem {L : WordList} : ∀ {is : List Nat} {ws : List Bytes},
    encodeToWords L is = .ok ws → ∀ w ∈ ws, IsWord L.word w := by
  intro is ws h
  by_cases hi : ∀ i ∈ is, i < 4096
  · rw [encodeToWords_ok L is hi] at h
    cases h
    intro w hw
    obtain ⟨i, him, rfl⟩ := List.mem_map.mp hw
    exact ⟨i, hi i him, rfl⟩
  · rw [encodeToWords_err L is (by push Not at hi; exact hi)] at h
    cases h

theorem encodeMnemonic_mem {L : WordList} {v : Nat} {b : BitBuffer} {ws : List Bytes}
    (h : encodeMnemonic L v b = .ok ws) : ∀ w ∈ ws, IsWord L.word w := by
  unfold encodeMnemonic at h
  obtain ⟨_, -, h⟩ := Res.bind_eq_ok.mp h
  obtain ⟨_, -, h⟩ := Res.bind_eq_ok.mp h
  split at h
  · cases h
  · obtain ⟨_, -, h⟩ := Res.bind_eq_ok.mp h
    exact encodeToWords_mem h

/-- A phrase that decodes is complete. -/
theorem decoded_complete {L : WordList} (hL : L.Lawful) {ws : List Bytes} {dm : DecodedMnemonic}
    (h : decodeMnemonic L ws = .ok dm) (hw : ∀ w ∈ ws, IsWord L.word w) : Complete L.word ws := by
  obtain ⟨is, i, h1, h2, h3⟩ := decode_ok_shape h
  have h4 := decodeWords_map_lower hL h1
  rw [lower_words hL hw] at h4
  refine ⟨hw, ?_⟩
  cases is with
  | nil => cases h2
  | cons j js =>
    cases h2
    refine ⟨L.word i, js.map L.word, h4, ?_⟩
    rcases h3 with ⟨hv, hl⟩ | ⟨hv, hl⟩
    · rw [hl]; exact .plaintext i hv
    · rw [hl]; exact .encrypted i hv

/-- What a phrase for a key is good for. `pw` is the password used, if any. -/
structure PhraseFor (L : WordList) (C : Crypto) (mnk : Mnemonikey) (o : Option KeyOptions)
    (pw : Option Bytes) (ws : List Bytes) (dm : DecodedMnemonic) : Prop where
  complete : Complete L.word ws
  decodes : decodeMnemonic L ws = .ok dm
  encrypted : dm.encrypted = pw.isSome
  seed : dm.decryptSeed C.toPhraseCrypto (pw.getD []) = .ok mnk.seed
  again : new C mnk.seed dm.creation o = .ok mnk

theorem new_seed {C : Crypto} (hC : C.Lawful) {n : Nat} {s : Seed} (hs : newSeed 0 (n : Int) = .ok s)
    {now : Int} {o : Option KeyOptions} {mnk : Mnemonikey} (h : new C s now o = .ok mnk) :
    mnk.seed = s := by
  obtain ⟨second, -, -, -, -, -, -, rfl⟩ := new_shape hC hs h
  rfl

theorem plaintext_for {L : WordList} (hL : L.Lawful) {C : Crypto} (hC : C.Lawful) {n : Nat} {s : Seed}
    (hs : newSeed 0 (n : Int) = .ok s) {now : Int} {o : Option KeyOptions} {mnk : Mnemonikey}
    (h : new C s now o = .ok mnk) {ws : List Bytes} (hw : mnk.encodeMnemonicPlaintext L = .ok ws) :
    ∃ dm, PhraseFor L C mnk o none ws dm := by
  have hagain := new_again hC hs h
  have hseed := new_seed hC hs h
  obtain ⟨second, -, h1, h2, h3, rfl, hx2, hm⟩ := new_shape hC hs h
  have ho : mnk.creationOffset = second - 1672531200 := by
    rw [hm]; exact creationOffset_eq (n : Int) _ second h1 h2
  have hca : mnk.createdAt = second * 10 ^ 9 := by rw [hm]; rfl
  unfold Mnemonikey.encodeMnemonicPlaintext at hw
  rw [hseed, ho] at hw
  obtain ⟨ws', dm, hw', hd, -, henc, hoff, hsd, -, -⟩ := c01_plaintext_round_trip hL 0 n (by omega)
    ⟨0, n⟩ hs (second - 1672531200) (by omega)
  rw [hw] at hw'
  cases hw'
  have hmem : ∀ w ∈ ws, IsWord L.word w := by
    unfold encodeMnemonicPlaintext at hw
    obtain ⟨_, -, hw⟩ := Res.bind_eq_ok.mp hw
    obtain ⟨_, -, hw⟩ := Res.bind_eq_ok.mp hw
    obtain ⟨_, -, hw⟩ := Res.bind_eq_ok.mp hw
    obtain ⟨_, -, hw⟩ := Res.bind_eq_ok.mp hw
    exact encodeMnemonic_mem hw
  refine ⟨dm, decoded_complete hL hd hmem, hd, henc, ?_, ?_⟩
  · rcases c11_seed_access hL C.toPhraseCrypto ws dm hd with ⟨-, he, -⟩ | ⟨-, -, x, -, hx, hall⟩
    · rw [he] at henc; cases henc
    · rw [hseed, hall]
      rw [hsd] at hx
      exact hx.symm
  · rw [hseed, creation_eq dm second h1 h2 hoff, ← hca]
    exact hagain

theorem encrypted_for {L : WordList} (hL : L.Lawful) {C : Crypto} (hC : C.Lawful) {n : Nat} {s : Seed}
    (hs : newSeed 0 (n : Int) = .ok s) {now : Int} {o : Option KeyOptions} {mnk : Mnemonikey}
    (h : new C s now o = .ok mnk) {ws : List Bytes} {pw rnd rest : Bytes}
    (hw : mnk.encodeMnemonicEncrypted L C pw rnd = .ok (ws, rest)) :
    ∃ dm, PhraseFor L C mnk o (some pw) ws dm := by
  have hagain := new_again hC hs h
  have hseed := new_seed hC hs h
  obtain ⟨second, -, h1, h2, h3, rfl, hx2, hm⟩ := new_shape hC hs h
  have ho : mnk.creationOffset = second - 1672531200 := by
    rw [hm]; exact creationOffset_eq (n : Int) _ second h1 h2
  have hca : mnk.createdAt = second * 10 ^ 9 := by rw [hm]; rfl
  have hn : n < 2 ^ 128 := by simpa using hx2
  unfold Mnemonikey.encodeMnemonicEncrypted at hw
  rw [hseed, ho] at hw
  have hp : pw ≠ [] := by
    rintro rfl
    simp [encodeMnemonicEncrypted, eraCheck, eraLatest] at hw
  have hr : 3 ≤ rnd.length := by
    by_contra hlt
    rw [c09_short_random L C.toPhraseCrypto n _ pw hp rnd (by omega)] at hw
    cases hw
  obtain ⟨ws', rest', dm, hw', hd, -, henc, hoff, hsd⟩ := c09_encrypted_round_trip hL hC.phrase n
    (second - 1672531200) hn (by omega) pw hp rnd hr
  rw [hw] at hw'
  cases hw'
  have hmem : ∀ w ∈ ws, IsWord L.word w := by
    unfold encodeMnemonicEncrypted at hw
    obtain ⟨_, -, hw⟩ := Res.bind_eq_ok.mp hw
    split at hw
    · cases hw
    · dsimp only at hw
      obtain ⟨_, -, hw⟩ := Res.bind_eq_ok.mp hw
      obtain ⟨_, -, hw⟩ := Res.bind_eq_ok.mp hw
      obtain ⟨_, -, hw⟩ := Res.bind_eq_ok.mp hw
      obtain ⟨_, -, hw⟩ := Res.bind_eq_ok.mp hw
      obtain ⟨_, -, hw⟩ := Res.bind_eq_ok.mp hw
      obtain ⟨_, -, hw⟩ := Res.bind_eq_ok.mp hw
      obtain ⟨_, -, hw⟩ := Res.bind_eq_ok.mp hw
      obtain ⟨_, -, hw⟩ := Res.bind_eq_ok.mp hw
      obtain ⟨_, -, hw⟩ := Res.bind_eq_ok.mp hw
      obtain ⟨ws2, hw2, hw⟩ := Res.bind_eq_ok.mp hw
      cases hw
      exact encodeMnemonic_mem hw2
  refine ⟨dm, decoded_complete hL hd hmem, hd, henc, ?_, ?_⟩
  · rw [hseed]; exact hsd
  · rw [hseed, creation_eq dm second h1 h2 hoff, ← hca]
    exact hagain

/-! ## generate -/

/-- The exported key, for some random bytes -/
def Exported (C : Crypto) (mnk : Mnemonikey) (master selfCert : Bool) (password key : Bytes) : Prop :=
  ∃ r r', (if master then mnk.encodePGP C password r else mnk.encodeSubkeysPGP C password selfCert r) =
    .ok (key, r')

theorem exportKey_run {C : Crypto} {mnk : Mnemonikey} {m c : Bool} {p key : Bytes} {st st1 : St}
    (h : exportKey C mnk m c p st = (.ok key, st1)) :
    Exported C mnk m c p key ∧ st1.prompts = st.prompts := by
  unfold exportKey at h
  unfold Exported
  cases m
  · rw [if_neg (by simp)] at h
    obtain ⟨h1, h2, -⟩ := random_run h
    exact ⟨⟨_, _, h1⟩, h2⟩
  · rw [if_pos rfl] at h
    obtain ⟨h1, h2, -⟩ := random_run h
    exact ⟨⟨_, _, h1⟩, h2⟩

theorem keyPassword_run {b : Bool} {st st1 : St} {p : Bytes} (h : keyPassword b st = (.ok p, st1)) :
    st.prompts = (if b then [.ok p] else []) ++ st1.prompts ∧ (b = false → p = []) ∧ st1.rnd = st.rnd := by
  unfold keyPassword at h
  cases b
  · rw [if_neg (by simp)] at h
    cases h
    exact ⟨rfl, fun _ => rfl, rfl⟩
  · rw [if_pos rfl] at h
    obtain ⟨h1, h2, -⟩ := password_run h
    exact ⟨h1, by simp, h2⟩

theorem seedOf_prompts {env : Env} {u : Bytes} {st st1 : St} {s : Seed}
    (h : seedOf env u st = (.ok s, st1)) : st1.prompts = st.prompts := by
  unfold seedOf at h
  split at h
  · rw [(lift_run h).1]
  · exact (random_run h).2.1

/-- The options of a generated key -/
def generatedOptions (f : KeyFlags) (ttl : Int) (subkeys : Option (List Bytes)) : KeyOptions :=
  { name := trimSpace f.name, email := trimSpace f.email, ttl := ttl
    encryptionSubkeyIndex := 0, authenticationSubkeyIndex := 0, signingSubkeyIndex := 0
    subkeys := subkeys }

/-- What generate has made before it shows anything -/
structure Generated (L : WordList) (C : Crypto) (env : Env) (opts : GenerateOptions)
    (prompts : List (Res Bytes)) (mnk : Mnemonikey) (o : KeyOptions) (master : Bool)
    (keyPw : Bytes) (phrasePw : Option Bytes) (key : Bytes) (words : List Bytes) : Prop where
  ttl : ttlOf opts.key.ttl = .ok o.ttl
  only : decodeOnlyKeyTypes opts.key.only = .ok (master, o.subkeys)
  options : o = generatedOptions opts.key o.ttl o.subkeys
  made : ∃ (n : Nat) (s : Seed), newSeed 0 (n : Int) = .ok s ∧ new C s env.now (some o) = .ok mnk
  exported : Exported C mnk master true keyPw key
  keyPlain : opts.key.encryptKeys = false → keyPw = []
  phraseMode : phrasePw.isSome = opts.encryptPhrase
  phrase : ∃ dm, PhraseFor L C mnk (some o) phrasePw words dm
  prompted : ∃ rest, prompts = (if opts.key.encryptKeys then [.ok keyPw] else []) ++
    phrasePw.toList.map .ok ++ rest

/-- The end of generateAndPrintKey -/
def generateEnd (env : Env) (out : Bytes) (key : Bytes) (words : List Bytes) : Prog Unit := do
  if out ≠ [] then save env words out
  printKey (env.armor key)
  if out = [] then printMnemonic env words

theorem generate_cases {L : WordList} (hL : L.Lawful) {C : Crypto} (hC : C.Lawful) (env : Env)
    (opts : GenerateOptions) (st : St) :
    (Fails (generateAndPrintKey L C env opts st).1 ∧
      (generateAndPrintKey L C env opts st).2.acts = st.acts) ∨
    ∃ mnk o master keyPw phrasePw key words st1, st1.acts = st.acts ∧
      Generated L C env opts st.prompts mnk o master keyPw phrasePw key words ∧
      generateAndPrintKey L C env opts st = generateEnd env opts.outputWordFile key words st1 := by
  unfold generateAndPrintKey
  rcases bind_run (lift (ttlOf opts.key.ttl)) _ st with ⟨ttl, st1, h1, e⟩ | ⟨o, st1, h1, -, o', e, hf⟩
  swap
  · rw [e]; exact .inl ⟨hf, by rw [(lift_run h1).1]⟩
  rw [e]; clear e
  obtain ⟨rfl, g1⟩ := lift_run h1
  have httl := g1 _ rfl
  rcases bind_run (lift (decodeOnlyKeyTypes opts.key.only)) _ st1 with
    ⟨⟨master, subkeys⟩, st2, h2, e⟩ | ⟨o, st2, h2, -, o', e, hf⟩
  swap
  · rw [e]; exact .inl ⟨hf, by rw [(lift_run h2).1]⟩
  rw [e]; clear e
  obtain ⟨rfl, g2⟩ := lift_run h2
  have honly := g2 _ rfl
  dsimp only
  rcases bind_run (seedOf env opts.unsafeEntropy) _ st2 with ⟨seed, st3, h3, e⟩ | ⟨o, st3, h3, -, o', e, hf⟩
  swap
  · rw [e]; exact .inl ⟨hf, by have := quiet_seedOf env opts.unsafeEntropy st2; rw [h3] at this; exact this⟩
  rw [e]; clear e
  have q3 : st3.acts = st2.acts := by
    have := quiet_seedOf env opts.unsafeEntropy st2; rw [h3] at this; exact this
  obtain ⟨n, hseed⟩ := seedOf_run h3
  have p3 := seedOf_prompts h3
  rcases bind_run (lift (new C seed env.now (some (generatedOptions opts.key ttl subkeys)))) _ st3 with
    ⟨mnk, st4, h4, e⟩ | ⟨o, st4, h4, -, o', e, hf⟩
  swap
  · erw [e]; exact .inl ⟨hf, by rw [(lift_run h4).1, q3]⟩
  erw [e]; clear e
  obtain ⟨rfl, g4⟩ := lift_run h4
  have hnew := g4 _ rfl
  rcases bind_run (keyPassword opts.key.encryptKeys) _ st4 with ⟨keyPw, st5, h5, e⟩ | ⟨o, st5, h5, -, o', e, hf⟩
  swap
  · rw [e]
    exact .inl ⟨hf, by
      have := quiet_keyPassword opts.key.encryptKeys st4; rw [h5] at this; exact this.trans q3⟩
  rw [e]; clear e
  have q5 : st5.acts = st2.acts := by
    have := quiet_keyPassword opts.key.encryptKeys st4; rw [h5] at this; exact this.trans q3
  obtain ⟨p5, hplain, -⟩ := keyPassword_run h5
  rcases bind_run (exportKey C mnk master true keyPw) _ st5 with ⟨key, st6, h6, e⟩ | ⟨o, st6, h6, -, o', e, hf⟩
  swap
  · rw [e]
    exact .inl ⟨hf, by
      have := quiet_exportKey C mnk master true keyPw st5; rw [h6] at this; exact this.trans q5⟩
  rw [e]; clear e
  have q6 : st6.acts = st2.acts := by
    have := quiet_exportKey C mnk master true keyPw st5; rw [h6] at this; exact this.trans q5
  obtain ⟨hexp, p6⟩ := exportKey_run h6
  have hp6 : st2.prompts = (if opts.key.encryptKeys then [.ok keyPw] else []) ++ st6.prompts := by
    rw [p6, ← p5, p3]
  cases henc : opts.encryptPhrase
  · simp only [Bool.false_eq_true, if_false]
    rcases bind_run (lift (mnk.encodeMnemonicPlaintext L)) _ st6 with
      ⟨words, st7, h7, e⟩ | ⟨o, st7, h7, -, o', e, hf⟩
    swap
    · rw [e]; exact .inl ⟨hf, by rw [(lift_run h7).1, q6]⟩
    rw [e]; clear e
    obtain ⟨rfl, g7⟩ := lift_run h7
    have hw := g7 _ rfl
    refine .inr ⟨mnk, generatedOptions opts.key ttl subkeys, master, keyPw, none, key, words, st7, q6,
      ⟨httl, honly, rfl, ⟨n, seed, hseed, hnew⟩, hexp, hplain, by rw [henc]; rfl,
        plaintext_for hL hC hseed hnew hw, st7.prompts, by simpa using hp6⟩, rfl⟩
  · simp only [if_true]
    rcases bind_run (userInputPassword true >>= fun p => random (mnk.encodeMnemonicEncrypted L C p)) _ st6 with
      ⟨words, st7, h7, e⟩ | ⟨o, st7, h7, -, o', e, hf⟩
    swap
    · rw [e]
      exact .inl ⟨hf, by
        have := quiet_bind (quiet_password true) (fun p => quiet_random (mnk.encodeMnemonicEncrypted L C p)) st6
        rw [h7] at this; exact this.trans q6⟩
    rw [e]; clear e
    have q7 : st7.acts = st2.acts := by
      have := quiet_bind (quiet_password true) (fun p => quiet_random (mnk.encodeMnemonicEncrypted L C p)) st6
      rw [h7] at this; exact this.trans q6
    rcases bind_run (userInputPassword true) (fun p => random (mnk.encodeMnemonicEncrypted L C p)) st6 with
      ⟨pw, st8, h8, e⟩ | ⟨o, st8, h8, -, o', e, hf⟩
    swap
    · rw [e] at h7; cases h7; exact absurd rfl (hf _)
    rw [e] at h7
    obtain ⟨p8, -, -⟩ := password_run h8
    refine .inr ⟨mnk, generatedOptions opts.key ttl subkeys, master, keyPw, some pw, key, words, st7, q7,
      ⟨httl, honly, rfl, ⟨n, seed, hseed, hnew⟩, hexp, hplain, by rw [henc]; rfl,
        encrypted_for hL hC hseed hnew (random_run h7).1, st8.prompts, ?_⟩, rfl⟩
    rw [hp6, p8]
    simp

theorem printKey_run (b : Bytes) (st : St) :
    printKey b st = (.ok (), { st with acts := st.acts ++ (b ++ str "\n").map .stdout }) := rfl

theorem printMnemonic_run (env : Env) (ws : List Bytes) (st : St) :
    (printMnemonic env ws st).2 = { st with acts := st.acts ++ [.showPhrase ws] } := by
  unfold printMnemonic
  dsimp only
  split <;> rfl

theorem save_ok {env : Env} {ws : List Bytes} {p : Bytes} (h : (saveMnemonic env.fs env.save ws p).2 = .ok ())
    (st : St) : save env ws p st =
      (.ok (), { st with acts := st.acts ++ (saveMnemonic env.fs env.save ws p).1 }) := by
  unfold save
  rw [bind_run_ok (rfl : emit _ st = (.ok (), _)), h]
  rfl

theorem save_fails {env : Env} {ws : List Bytes} {p : Bytes}
    (h : (saveMnemonic env.fs env.save ws p).2 ≠ .ok ()) (st : St) :
    (save env ws p st).2 = { st with acts := st.acts ++ (saveMnemonic env.fs env.save ws p).1 } ∧
    ∃ e, (save env ws p st).1 = .err e := by
  have he : ∃ e, (saveMnemonic env.fs env.save ws p).2 = .err e := by
    by_cases hd : env.fs.dir p = none
    · rcases save_shape env.fs env.save ws p hd with ⟨e, he⟩ | ⟨k, he⟩ | he
      · exact ⟨e, by rw [he]⟩
      · exact ⟨_, by rw [he]⟩
      · exact absurd (by rw [he]) h
    · obtain ⟨e, he⟩ := save_existing env.fs env.save ws p hd
      exact ⟨e, by rw [he]⟩
  obtain ⟨e, he⟩ := he
  unfold save
  rw [bind_run_ok (rfl : emit _ st = (.ok (), _)), he]
  exact ⟨rfl, e, rfl⟩

theorem generateEnd_file {env : Env} {out key : Bytes} {ws : List Bytes} (h : out ≠ []) (st : St) :
    ((saveMnemonic env.fs env.save ws out).2 = .ok () ∧
      generateEnd env out key ws st = (.ok (), { st with
        acts := st.acts ++ (saveMnemonic env.fs env.save ws out).1 ++
          (env.armor key ++ str "\n").map .stdout })) ∨
    (Fails (generateEnd env out key ws st).1 ∧
      (generateEnd env out key ws st).2.acts = st.acts ++ (saveMnemonic env.fs env.save ws out).1) := by
  unfold generateEnd
  by_cases hs : (saveMnemonic env.fs env.save ws out).2 = .ok ()
  · refine .inl ⟨hs, ?_⟩
    rw [if_pos h, if_neg h, bind_run_ok (save_ok hs st)]
    rfl
  · right
    obtain ⟨h1, e, h2⟩ := save_fails hs st
    rw [if_pos h, bind_run_err (show save env ws out st = (.err e, _) from Prod.ext h2 h1)]
    exact ⟨by simp [Fails], rfl⟩

theorem generateEnd_shown {env : Env} {key : Bytes} {ws : List Bytes} (st : St) :
    (generateEnd env [] key ws st).2.acts =
      st.acts ++ (env.armor key ++ str "\n").map .stdout ++ [.showPhrase ws] := by
  unfold generateEnd
  rw [if_neg (by simp), if_pos rfl]
  change ((printKey (env.armor key) >>= fun _ => printMnemonic env ws) st).2.acts = _
  rw [bind_run_ok (printKey_run (env.armor key) st), printMnemonic_run]

/-! ## running the actions -/

theorem run_stdout : ∀ (bs : Bytes) (w : World),
    w.run (bs.map .stdout) = { w with stdout := w.stdout ++ bs }
  | [], w => by simp
  | b :: bs, w => by
    rw [List.map_cons, run_cons, run_stdout bs]
    simp [World.step]

/-! ## the phrase password -/

theorem passwordLoop_wrong {C : Crypto} {dm : DecodedMnemonic} : ∀ (wrong : List Bytes) (ps : List (Res Bytes)),
    (∀ p ∈ wrong, dm.decryptSeed C.toPhraseCrypto p = .err .mnemonicDecryption) →
    passwordLoop C dm (wrong.map .ok ++ ps) = passwordLoop C dm ps
  | [], ps, _ => rfl
  | p :: wrong, ps, h => by
    rw [List.map_cons, List.cons_append, passwordLoop, h p List.mem_cons_self]
    exact passwordLoop_wrong wrong ps (fun q hq => h q (List.mem_cons_of_mem _ hq))

theorem seedLoop_wrong {C : Crypto} {dm : DecodedMnemonic} (he : dm.encrypted = true) (wrong : List Bytes)
    (ps : List (Res Bytes))
    (h : ∀ p ∈ wrong, dm.decryptSeed C.toPhraseCrypto p = .err .mnemonicDecryption) :
    seedLoop C dm (wrong.map .ok ++ ps) = seedLoop C dm ps := by
  unfold seedLoop
  rw [if_pos he, if_pos he]
  exact passwordLoop_wrong wrong ps h

theorem seedLoop_right {C : Crypto} {dm : DecodedMnemonic} (he : dm.encrypted = true) {p : Bytes} {s : Seed}
    (h : dm.decryptSeed C.toPhraseCrypto p = .ok s) (ps : List (Res Bytes)) :
    seedLoop C dm (.ok p :: ps) = (.ok s, ps) := by
  unfold seedLoop
  rw [if_pos he, passwordLoop, h]

theorem seedLoop_plain {C : Crypto} {dm : DecodedMnemonic} (he : dm.encrypted = false) {s : Seed}
    (h : dm.decryptSeed C.toPhraseCrypto [] = .ok s) (ps : List (Res Bytes)) :
    seedLoop C dm ps = (.ok s, ps) := by
  unfold seedLoop
  rw [if_neg (by simp [he]), h]

/-- The loop ends normally only with a seed the phrase holds. -/
theorem passwordLoop_ok {C : Crypto} {dm : DecodedMnemonic} {s : Seed} : ∀ {ps rest : List (Res Bytes)},
    passwordLoop C dm ps = (.ok s, rest) →
    ∃ p, .ok p ∈ ps ∧ dm.decryptSeed C.toPhraseCrypto p = .ok s
  | [], _, h => by cases h
  | .err _ :: _, _, h => by cases h
  | .panic _ :: _, _, h => by cases h
  | .ok p :: ps, rest, h => by
    rw [passwordLoop] at h
    split at h
    · obtain ⟨q, hq, hs⟩ := passwordLoop_ok h
      exact ⟨q, List.mem_cons_of_mem _ hq, hs⟩
    · cases h
    · cases h
    · rename_i s' hs
      cases h
      exact ⟨p, List.mem_cons_self, hs⟩

theorem seedLoop_ok {C : Crypto} {dm : DecodedMnemonic} {s : Seed} {ps rest : List (Res Bytes)}
    (h : seedLoop C dm ps = (.ok s, rest)) :
    ∃ p, dm.decryptSeed C.toPhraseCrypto p = .ok s ∧ (dm.encrypted = true → .ok p ∈ ps) := by
  unfold seedLoop at h
  split at h
  · obtain ⟨p, hm, hp⟩ := passwordLoop_ok h
    exact ⟨p, hp, fun _ => hm⟩
  · rename_i hne
    split at h
    · cases h
    · cases h
    · cases h
    · rename_i s' hs
      cases h
      exact ⟨_, hs, fun he => absurd he hne⟩

theorem decode_run {L : WordList} {C : Crypto} {env : Env} {opts : InputFlags} {ws : List Bytes}
    {dm : DecodedMnemonic} {s : Seed} {rest : List (Res Bytes)} {st : St}
    (hin : inputWords L env opts = .ok ws) (hd : decodeMnemonic L ws = .ok dm)
    (hs : seedLoop C dm st.prompts = (.ok s, rest)) :
    decodeMnemonicFromInput L C env opts st = (.ok (s, dm), { st with prompts := rest }) := by
  unfold decodeMnemonicFromInput
  rw [hin, bind_run_ok (lift_ok ws st), hd, bind_run_ok (lift_ok dm st)]
  have : askSeed C dm st = (.ok s, { st with prompts := rest }) := by
    unfold askSeed; rw [hs]
  rw [bind_run_ok this]
  rfl

theorem decode_run_inv {L : WordList} {C : Crypto} {env : Env} {opts : InputFlags} {st st1 : St}
    {r : Seed × DecodedMnemonic} (h : decodeMnemonicFromInput L C env opts st = (.ok r, st1)) :
    ∃ ws, inputWords L env opts = .ok ws ∧ decodeMnemonic L ws = .ok r.2 ∧
      seedLoop C r.2 st.prompts = (.ok r.1, st1.prompts) ∧ st1.rnd = st.rnd ∧ st1.acts = st.acts := by
  unfold decodeMnemonicFromInput at h
  rcases bind_run (lift (inputWords L env opts)) (fun ws => do
      let dm ← lift (decodeMnemonic L ws)
      let seed ← askSeed C dm
      pure (seed, dm)) st with ⟨ws, st2, h1, e⟩ | ⟨o, st2, -, -, o', e, hf⟩
  swap
  · rw [e] at h; cases h; exact absurd rfl (hf _)
  rw [e] at h
  obtain ⟨rfl, g1⟩ := lift_run h1
  rcases bind_run (lift (decodeMnemonic L ws)) (fun dm => do
      let seed ← askSeed C dm
      pure (seed, dm)) st2 with ⟨dm, st3, h2, e⟩ | ⟨o, st3, -, -, o', e, hf⟩
  swap
  · rw [e] at h; cases h; exact absurd rfl (hf _)
  rw [e] at h
  obtain ⟨rfl, g2⟩ := lift_run h2
  rcases bind_run (askSeed C dm) (fun seed => (pure (seed, dm) : Prog _)) st3 with
    ⟨s, st4, h3, e⟩ | ⟨o, st4, -, -, o', e, hf⟩
  swap
  · rw [e] at h; cases h; exact absurd rfl (hf _)
  rw [e] at h
  cases h
  refine ⟨ws, g1 _ rfl, g2 _ rfl, ?_⟩
  unfold askSeed at h3
  rw [Prod.mk.injEq] at h3
  obtain ⟨h4, rfl⟩ := h3
  exact ⟨Prod.ext h4 rfl, rfl, rfl⟩

/-! ## recover -/

def recoveredOptions (opts : RecoverOptions) (ttl : Int) (subkeys : Option (List Bytes)) : KeyOptions :=
  { name := trimSpace opts.key.name, email := trimSpace opts.key.email, ttl := ttl
    encryptionSubkeyIndex := UInt16.ofNat opts.encIndex
    authenticationSubkeyIndex := UInt16.ofNat opts.authIndex
    signingSubkeyIndex := UInt16.ofNat opts.sigIndex
    subkeys := subkeys }

abbrev IndexTooLarge (opts : RecoverOptions) : Prop :=
  opts.encIndex > maxSubkeyIndex ∨ opts.authIndex > maxSubkeyIndex ∨ opts.sigIndex > maxSubkeyIndex

theorem recover_too_large {L : WordList} {C : Crypto} {env : Env} {opts : RecoverOptions}
    (h : IndexTooLarge opts) (st : St) :
    (∃ e, recoverAndPrintKey L C env opts st = (.err e, st)) ∨
    ∃ p, ttlOf opts.key.ttl = .panic p := by
  unfold recoverAndPrintKey
  cases ht : ttlOf opts.key.ttl with
  | ok ttl =>
    left
    rw [bind_run_ok (lift_ok ttl st), if_pos h]
    exact ⟨_, rfl⟩
  | err e =>
    left
    rw [bind_run_err (lift_err e st)]
    exact ⟨_, rfl⟩
  | panic p => exact .inr ⟨p, rfl⟩

theorem recover_run {L : WordList} {C : Crypto} {env : Env} {opts : RecoverOptions} {ttl : Int}
    {master : Bool} {subkeys : Option (List Bytes)} {ws : List Bytes} {dm : DecodedMnemonic} {s : Seed}
    {rest : List (Res Bytes)} {mnk : Mnemonikey} {key : Bytes} {st : St}
    (httl : ttlOf opts.key.ttl = .ok ttl) (hi : ¬ IndexTooLarge opts)
    (honly : decodeOnlyKeyTypes opts.key.only = .ok (master, subkeys))
    (hin : inputWords L env opts.input = .ok ws) (hd : decodeMnemonic L ws = .ok dm)
    (hs : seedLoop C dm st.prompts = (.ok s, rest))
    (hnew : new C s dm.creation (some (recoveredOptions opts ttl subkeys)) = .ok mnk)
    (hk : opts.key.encryptKeys = false)
    (hexp : (if master then mnk.encodePGP C [] st.rnd else mnk.encodeSubkeysPGP C [] opts.selfCert st.rnd) =
      .ok (key, st.rnd)) :
    recoverAndPrintKey L C env opts st =
      (.ok (), { st with prompts := rest, acts := st.acts ++ (env.armor key ++ str "\n").map .stdout }) := by
  unfold recoverAndPrintKey
  rw [httl, bind_run_ok (lift_ok ttl st), if_neg hi, honly, bind_run_ok (lift_ok _ st)]
  dsimp only
  rw [bind_run_ok (decode_run hin hd hs)]
  dsimp only
  unfold recoveredOptions at hnew
  rw [hnew, bind_run_ok (lift_ok mnk _), hk]
  have hp : ∀ st : St, keyPassword false st = (.ok [], st) := fun _ => rfl
  rw [bind_run_ok (hp _)]
  have he : exportKey C mnk master opts.selfCert [] { st with prompts := rest } =
      (.ok key, { st with prompts := rest }) := by
    unfold exportKey
    cases master
    · simp only [Bool.false_eq_true, if_false] at hexp ⊢
      simp [random, hexp]
    · simp only [if_true] at hexp ⊢
      simp [random, hexp]
  rw [bind_run_ok he]
  rfl

theorem recover_cases {L : WordList} {C : Crypto} (env : Env) (opts : RecoverOptions) (st : St) :
    (Fails (recoverAndPrintKey L C env opts st).1 ∧
      (recoverAndPrintKey L C env opts st).2.acts = st.acts) ∨
    ∃ ttl master subkeys ws dm s mnk keyPw key, ¬ IndexTooLarge opts ∧
      ttlOf opts.key.ttl = .ok ttl ∧ decodeOnlyKeyTypes opts.key.only = .ok (master, subkeys) ∧
      inputWords L env opts.input = .ok ws ∧ decodeMnemonic L ws = .ok dm ∧
      (∃ p, dm.decryptSeed C.toPhraseCrypto p = .ok s ∧ (dm.encrypted = true → .ok p ∈ st.prompts)) ∧
      new C s dm.creation (some (recoveredOptions opts ttl subkeys)) = .ok mnk ∧
      Exported C mnk master opts.selfCert keyPw key ∧
      (recoverAndPrintKey L C env opts st).1 = .ok () ∧
      (recoverAndPrintKey L C env opts st).2.acts =
        st.acts ++ (env.armor key ++ str "\n").map .stdout := by
  unfold recoverAndPrintKey
  rcases bind_run (lift (ttlOf opts.key.ttl)) _ st with ⟨ttl, st1, h1, e⟩ | ⟨o, st1, h1, -, o', e, hf⟩
  swap
  · rw [e]; exact .inl ⟨hf, by rw [(lift_run h1).1]⟩
  rw [e]; clear e
  obtain ⟨rfl, g1⟩ := lift_run h1
  by_cases hi : IndexTooLarge opts
  · rw [if_pos hi]; exact .inl ⟨by simp [lift, Fails], rfl⟩
  rw [if_neg hi]
  rcases bind_run (lift (decodeOnlyKeyTypes opts.key.only)) _ st1 with
    ⟨⟨master, subkeys⟩, st2, h2, e⟩ | ⟨o, st2, h2, -, o', e, hf⟩
  swap
  · rw [e]; exact .inl ⟨hf, by rw [(lift_run h2).1]⟩
  rw [e]; clear e
  obtain ⟨rfl, g2⟩ := lift_run h2
  dsimp only
  rcases bind_run (decodeMnemonicFromInput L C env opts.input) _ st2 with
    ⟨⟨s, dm⟩, st3, h3, e⟩ | ⟨o, st3, h3, -, o', e, hf⟩
  swap
  · rw [e]
    exact .inl ⟨hf, by have := quiet_decode L C env opts.input st2; rw [h3] at this; exact this⟩
  rw [e]; clear e
  obtain ⟨ws, hin, hd, hl, -, q3⟩ := decode_run_inv h3
  dsimp only at hd hl ⊢
  rcases bind_run (lift (new C s dm.creation (some (recoveredOptions opts ttl subkeys)))) _ st3 with
    ⟨mnk, st4, h4, e⟩ | ⟨o, st4, h4, -, o', e, hf⟩
  swap
  · erw [e]; exact .inl ⟨hf, by rw [(lift_run h4).1, q3]⟩
  erw [e]; clear e
  obtain ⟨rfl, g4⟩ := lift_run h4
  rcases bind_run (keyPassword opts.key.encryptKeys) _ st4 with ⟨keyPw, st5, h5, e⟩ | ⟨o, st5, h5, -, o', e, hf⟩
  swap
  · rw [e]
    exact .inl ⟨hf, by
      have := quiet_keyPassword opts.key.encryptKeys st4; rw [h5] at this; exact this.trans q3⟩
  rw [e]; clear e
  have q5 : st5.acts = st2.acts := by
    have := quiet_keyPassword opts.key.encryptKeys st4; rw [h5] at this; exact this.trans q3
  rcases bind_run (exportKey C mnk master opts.selfCert keyPw) _ st5 with
    ⟨key, st6, h6, e⟩ | ⟨o, st6, h6, -, o', e, hf⟩
  swap
  · rw [e]
    exact .inl ⟨hf, by
      have := quiet_exportKey C mnk master opts.selfCert keyPw st5; rw [h6] at this; exact this.trans q5⟩
  rw [e]; clear e
  have q6 : st6.acts = st2.acts := by
    have := quiet_exportKey C mnk master opts.selfCert keyPw st5; rw [h6] at this; exact this.trans q5
  exact .inr ⟨ttl, master, subkeys, ws, dm, s, mnk, keyPw, key, hi, g1 _ rfl, g2 _ rfl, hin, hd,
    seedLoop_ok hl, g4 _ rfl, (exportKey_run h6).1, rfl, by rw [printKey_run, ← q6]⟩

/-! ## convert -/

/-- Before convert shows or saves anything -/
theorem convert_cases {L : WordList} {C : Crypto} (env : Env) (opts : ConvertOptions) (st : St) :
    (Fails (decodeAndConvertPhrase L C env opts st).1 ∧
      (decodeAndConvertPhrase L C env opts st).2.acts = st.acts) ∨
    ∃ ws dm s words st1, inputWords L env opts.input = .ok ws ∧ decodeMnemonic L ws = .ok dm ∧
      (∃ p, dm.decryptSeed C.toPhraseCrypto p = .ok s ∧ (dm.encrypted = true → .ok p ∈ st.prompts)) ∧
      ((opts.encryptPhrase = false ∧ encodeMnemonicPlaintext L s dm.creationOffset = .ok words) ∨
        (opts.encryptPhrase = true ∧ ∃ pw r r', .ok pw ∈ st.prompts ∧
          encodeMnemonicEncrypted L C.toPhraseCrypto s dm.creationOffset pw r = .ok (words, r'))) ∧
      st1.acts = st.acts ∧
      decodeAndConvertPhrase L C env opts st =
        (if opts.input.inputWordFile = [] then printMnemonic env words
         else save env words opts.input.inputWordFile) st1 := by
  unfold decodeAndConvertPhrase
  rcases bind_run (decodeMnemonicFromInput L C env opts.input) _ st with
    ⟨⟨s, dm⟩, st3, h3, e⟩ | ⟨o, st3, h3, -, o', e, hf⟩
  swap
  · rw [e]
    exact .inl ⟨hf, by have := quiet_decode L C env opts.input st; rw [h3] at this; exact this⟩
  rw [e]; clear e
  obtain ⟨ws, hin, hd, hl, -, q3⟩ := decode_run_inv h3
  dsimp only at hd hl ⊢
  cases henc : opts.encryptPhrase
  · simp only [Bool.false_eq_true, if_false]
    rcases bind_run (lift (encodeMnemonicPlaintext L s dm.creationOffset)) _ st3 with
      ⟨words, st7, h7, e⟩ | ⟨o, st7, h7, -, o', e, hf⟩
    swap
    · rw [e]; exact .inl ⟨hf, by rw [(lift_run h7).1, q3]⟩
    rw [e]; clear e
    obtain ⟨rfl, g7⟩ := lift_run h7
    exact .inr ⟨ws, dm, s, words, st7, hin, hd, seedLoop_ok hl, .inl ⟨trivial, g7 _ rfl⟩, q3, rfl⟩
  · simp only [if_true]
    rcases bind_run (userInputPassword true >>= fun p =>
        random (encodeMnemonicEncrypted L C.toPhraseCrypto s dm.creationOffset p)) _ st3 with
      ⟨words, st7, h7, e⟩ | ⟨o, st7, h7, -, o', e, hf⟩
    swap
    · rw [e]
      exact .inl ⟨hf, by
        have := quiet_bind (quiet_password true) (fun p =>
          quiet_random (encodeMnemonicEncrypted L C.toPhraseCrypto s dm.creationOffset p)) st3
        rw [h7] at this; exact this.trans q3⟩
    rw [e]; clear e
    have q7 : st7.acts = st.acts := by
      have := quiet_bind (quiet_password true) (fun p =>
          quiet_random (encodeMnemonicEncrypted L C.toPhraseCrypto s dm.creationOffset p)) st3
      rw [h7] at this; exact this.trans q3
    rcases bind_run (userInputPassword true) (fun p =>
        random (encodeMnemonicEncrypted L C.toPhraseCrypto s dm.creationOffset p)) st3 with
      ⟨pw, st8, h8, e⟩ | ⟨o, st8, h8, -, o', e, hf⟩
    swap
    · rw [e] at h7; cases h7; exact absurd rfl (hf _)
    rw [e] at h7
    obtain ⟨p8, -, -⟩ := password_run h8
    have hsuf : ∀ {ps : List (Res Bytes)} {r}, passwordLoop C dm ps = r → r.2 <:+ ps := by
      intro ps
      induction ps with
      | nil => rintro r rfl; exact List.suffix_refl _
      | cons a ps ih =>
        rintro r rfl
        cases a with
        | err e => exact List.suffix_cons _ _
        | panic p => exact List.suffix_cons _ _
        | ok p =>
          rw [passwordLoop]
          split
          · exact (ih rfl).trans (List.suffix_cons _ _)
          all_goals exact List.suffix_cons _ _
    have hmem : (.ok pw : Res Bytes) ∈ st.prompts := by
      have h9 : st3.prompts <:+ st.prompts := by
        unfold seedLoop at hl
        split at hl
        · exact hsuf hl
        · have h10 : st.prompts = st3.prompts := by split at hl <;> exact congrArg Prod.snd hl
          rw [h10]; exact List.suffix_refl _
      exact h9.subset (by rw [p8]; exact List.mem_cons_self)
    exact .inr ⟨ws, dm, s, words, st7, hin, hd, seedLoop_ok hl,
      .inr ⟨trivial, pw, _, _, hmem, (random_run h7).1⟩, q7, rfl⟩

end Verif.Proofs
