import Verif.Spec.Randomness
import Verif.Props.Convert

/-!
# C119: every random byte has one use
-/

namespace Verif.Props

open Verif.Model Verif.Model.Pgp Verif.Model.Cli Verif.Proofs Verif.Spec Verif.Spec.OpenPGP Verif.Instances

theorem secView_nonce (C : Crypto) (password rnd priv : Bytes) :
    nonce (secView C password rnd priv) ++ Proofs.after password rnd = rnd := by
  by_cases hp : password = []
  · simp [secView, Proofs.after, hp, nonce]
  · simp only [secView, Proofs.after, if_neg hp, lockedView, nonce]
    have h : rnd.drop 24 = (rnd.drop 8).drop 16 := by rw [List.drop_drop]
    rw [h, List.append_assoc, List.take_append_drop, List.take_append_drop]

theorem grps_nonces (C : Crypto) (ks : KeySet) (password rnd : Bytes) :
    (((ksGrps C ks password rnd).filterMap (fun o => o.map Grp.info)).map (fun s => nonce s.secret)).flatten ++
      ksRnd ks password rnd = rnd := by
  unfold ksGrps ksRnd
  dsimp only
  cases ks.encryptionSubkey <;> cases ks.authenticationSubkey <;> cases ks.signingSubkey <;>
    simp [afterIf, encGrp, authGrp, signGrp, secView_nonce]

theorem infos_nonces (C : Crypto) (ks : KeySet) (order : List Nat) (h : order.Perm [0, 1, 2])
    (password rnd : Bytes) :
    ∃ pieces : List Bytes, pieces.Perm ((ksInfos C ks order password rnd).map fun s => nonce s.secret) ∧
      rnd = pieces.flatten ++ ksRnd ks password rnd :=
  ⟨_, ((ksInfos_perm C ks order h password rnd).map _).symm, (grps_nonces C ks password rnd).symm⟩

theorem order_perm {C : Crypto} (hC : C.Lawful) {b : Bytes} {order : List Nat}
    (hord : ∀ g : Nat → Bytes, shuffleLoop (C.shuffleDraw (shuffleSeed C b)) 2 [g 0, g 1, g 2] =
      .ok (order.map g)) : order.Perm [0, 1, 2] := by
  obtain ⟨order', hp, hf⟩ := shuffle_perm (C.shuffleDraw (shuffleSeed C b)) (hC.shuffle_le _) 2 [0, 1, 2] (by simp)
  have h1 := hord (fun i => List.replicate i 0)
  rw [show [List.replicate 0 (0 : Byte), List.replicate 1 0, List.replicate 2 0] =
    [0, 1, 2].map (fun i => List.replicate i 0) from rfl, hf, Res.ok.injEq] at h1
  rw [← List.map_injective_iff.2 (fun a b hab => by simpa using congrArg List.length hab) h1]
  exact hp

/-- The phrase for a seed and a creation offset, and the random bytes it takes -/
theorem encoded_salt {L : WordList} (hL : L.Lawful) {C : PhraseCrypto} (hC : C.Lawful) {n off : Nat}
    (hn : n < 2 ^ 128) (ho : off < 2 ^ 31) :
    (∀ ws, encodeMnemonicPlaintext L ⟨0, n⟩ off = .ok ws → SaltOf (indexOf L) ws []) ∧
    ∀ pw rnd, pw ≠ [] → 3 ≤ rnd.length → ∀ ws rest,
      encodeMnemonicEncrypted L C ⟨0, n⟩ off pw rnd = .ok (ws, rest) →
      SaltOf (indexOf L) ws (rnd.take 3) ∧ rnd = rnd.take 3 ++ rest := by
  constructor
  · intro ws hw
    have hs : newSeed 0 (n : Int) = .ok ⟨0, (n : Int)⟩ := (newSeed_ok_iff 0 n _).mpr ⟨rfl, by simpa using hn, rfl⟩
    obtain ⟨ws', dm, hw', hd, -, henc, hoff, hsd, -, -⟩ := c01_plaintext_round_trip hL 0 n (by omega)
      ⟨0, n⟩ hs off ho
    rw [hw] at hw'
    cases hw'
    exact .inl ⟨n, off, plain_holds (C := C) hL hd henc hoff hsd, rfl⟩
  · intro pw rnd hp hr ws rest hw
    match rnd, hr with
    | a :: b :: c :: more, _ =>
      have h1 := (c02_encrypted_layout L hC n off hn ho pw hp a b c more).1
      rw [hw] at h1
      cases h1
      have hlt : valueOfBytes [a, b, c] % 2 ^ 19 < 2 ^ 19 := Nat.mod_lt _ (by norm_num)
      exact ⟨.inr ⟨_, _, _, readPhrase_words hL (encryptSeed_fits hC pw (s := n) hlt ho), rfl⟩, rfl⟩

theorem same_slots {α : Type} (f g : Nat → Option α) (h : ∀ i, (f i).isSome = (g i).isSome) :
    ∀ l : List Nat, l.filterMap f = l.filterMap g → ∀ i ∈ l, f i = g i
  | [], _ => by simp
  | a :: l, e => by
    have ha := h a
    have ih := same_slots f g h l
    cases h1 : f a with
    | none =>
      have h2 : g a = none := by rw [h1] at ha; cases h3 : g a <;> simp_all
      rw [List.filterMap_cons_none h1, List.filterMap_cons_none h2] at e
      intro i hi
      rcases List.mem_cons.1 hi with rfl | hi
      · rw [h1, h2]
      · exact ih e i hi
    | some x =>
      obtain ⟨y, h2⟩ : ∃ y, g a = some y := Option.isSome_iff_exists.1 (by rw [← ha, h1]; rfl)
      rw [List.filterMap_cons_some h1, List.filterMap_cons_some h2, List.cons.injEq] at e
      intro i hi
      rcases List.mem_cons.1 hi with rfl | hi
      · rw [h1, h2, e.1]
      · exact ih e.2 i hi

theorem ksGrps_isSome (C : Crypto) (ks : KeySet) (password rnd rnd' : Bytes) (i : Nat) :
    ((ksGrps C ks password rnd).getD i none).isSome = ((ksGrps C ks password rnd').getD i none).isSome := by
  unfold ksGrps
  dsimp only
  match i with
  | 0 => cases ks.encryptionSubkey <;> rfl
  | 1 => cases ks.authenticationSubkey <;> rfl
  | 2 => cases ks.signingSubkey <;> rfl
  | n + 3 => rfl

/-- With the same random parts in the subkeys, the same random bytes were taken. -/
theorem infos_unique (C : Crypto) (ks : KeySet) (order : List Nat) (h : order.Perm [0, 1, 2])
    (password rnd rnd' : Bytes)
    (e : (ksInfos C ks order password rnd).map (fun s => nonce s.secret) =
      (ksInfos C ks order password rnd').map fun s => nonce s.secret) :
    ∃ drawn, rnd = drawn ++ ksRnd ks password rnd ∧ rnd' = drawn ++ ksRnd ks password rnd' := by
  refine ⟨_, (grps_nonces C ks password rnd).symm, ?_⟩
  have key : ((ksGrps C ks password rnd).filterMap (fun o => o.map Grp.info)).map (fun s => nonce s.secret) =
      ((ksGrps C ks password rnd').filterMap (fun o => o.map Grp.info)).map (fun s => nonce s.secret) := by
    have hf : ∀ r, (ksInfos C ks order password r).map (fun s => nonce s.secret) =
        order.filterMap fun i => ((ksGrps C ks password r).getD i none).map fun g => nonce g.info.secret := by
      intro r
      unfold ksInfos
      rw [List.filterMap_map, List.map_filterMap]
      congr 1
      funext i
      simp only [Function.comp_apply, Option.map_map]
      rfl
    have hg : ∀ r, ((ksGrps C ks password r).filterMap (fun o => o.map Grp.info)).map (fun s => nonce s.secret) =
        [0, 1, 2].filterMap fun i => ((ksGrps C ks password r).getD i none).map fun g => nonce g.info.secret := by
      intro r
      have hl : ksGrps C ks password r =
          [0, 1, 2].map fun i => (ksGrps C ks password r).getD i none := rfl
      conv_lhs => rw [hl]
      rw [List.filterMap_map, List.map_filterMap]
      congr 1
      funext i
      simp only [Function.comp_apply, Option.map_map]
      rfl
    rw [hf, hf] at e
    rw [hg, hg]
    have := same_slots _ _ (fun i => by
      rw [Option.isSome_map, Option.isSome_map]; exact ksGrps_isSome C ks password rnd rnd' i) order e
    exact List.filterMap_congr fun i hi => this i (h.mem_iff.2 hi)
  rw [key]
  exact (grps_nonces C ks password rnd').symm

/-- An export of a key built by New: the random bytes it takes, cut in pieces, are the salts and initialisation
vectors of its secrets, one piece for each; the rest is left for later use. With a password each secret has one:
24 bytes by `Protected`. -/
theorem c119_export {C : Crypto} (hC : C.Lawful) {era x : Int} {s : Seed}
    (hs : newSeed era x = .ok s) {creation : Int} {opts : Option KeyOptions} {mnk : Mnemonikey}
    (h : new C s creation opts = .ok mnk) (htt : (inForce opts).ttl < 2 ^ 63)
    (hu : mnk.userID.length < 2 ^ 32) (m cert : Bool) (password rnd : Bytes)
    (hr : password = [] ∨ 96 ≤ rnd.length) :
    ∃ key rest k drawn,
      (if m then mnk.encodePGP C password rnd else mnk.encodeSubkeysPGP C password cert rnd) = .ok (key, rest) ∧
      importKey C key = some k ∧ MakesUp k drawn ∧ rnd = drawn ++ rest ∧
      (password ≠ [] → (m = true → Protected k.secret) ∧ ∀ s ∈ k.subkeys, Protected s.secret) := by
  obtain ⟨second, e, order, hord, subs, hsubs, hperm, -, hcore⟩ := export_core hC hs h htt hu
  have hp3 := order_perm hC hord
  cases m with
  | true =>
    have h4 : Enough 4 password rnd := hr.imp id (by omega)
    obtain ⟨c1, -, c3⟩ := (hcore password rnd).1 h4
    obtain ⟨pieces, hpp, hpr⟩ := infos_nonces C mnk.pgpKeySet order hp3 password (Proofs.after password rnd)
    rw [if_pos rfl]
    refine ⟨_, _, _, _, c1, c3, ⟨pieces, hpp, rfl⟩, ?_, fun hne => ⟨fun _ =>
      secView_protected C password rnd _ hne (enough_mono (by omega) h4),
      infos_protected _ _ _ _ hne (enough_after h4)⟩⟩
    dsimp only
    rw [List.append_assoc, ← hpr, secView_nonce]
  | false =>
    have h3 : Enough 3 password rnd := hr.imp id (by omega)
    obtain ⟨c1, -, c3⟩ := (hcore password rnd).2.1 h3 cert
    obtain ⟨pieces, hpp, hpr⟩ := infos_nonces C mnk.pgpKeySet order hp3 password rnd
    rw [if_neg (by simp)]
    refine ⟨_, _, _, _, c1, c3, ⟨pieces, hpp, rfl⟩, hpr, fun hne => ⟨by simp, infos_protected _ _ _ _ hne h3⟩⟩

/-- Whoever knows the random parts of an exported key knows the random bytes: two exports of one key whose random
parts are the same took the same bytes. So bytes chosen uniformly give random parts chosen uniformly, and
independently for each secret. -/
theorem c119_unique {C : Crypto} (hC : C.Lawful) {era x : Int} {s : Seed}
    (hs : newSeed era x = .ok s) {creation : Int} {opts : Option KeyOptions} {mnk : Mnemonikey}
    (h : new C s creation opts = .ok mnk) (htt : (inForce opts).ttl < 2 ^ 63)
    (hu : mnk.userID.length < 2 ^ 32) (m cert : Bool) (password rnd rnd' : Bytes)
    (hr : password = [] ∨ 96 ≤ rnd.length) (hr' : password = [] ∨ 96 ≤ rnd'.length)
    {key key' rest rest' : Bytes} {k k' : KeyInfo}
    (h1 : (if m then mnk.encodePGP C password rnd else mnk.encodeSubkeysPGP C password cert rnd) = .ok (key, rest))
    (h1' : (if m then mnk.encodePGP C password rnd' else mnk.encodeSubkeysPGP C password cert rnd') =
      .ok (key', rest'))
    (h2 : importKey C key = some k) (h2' : importKey C key' = some k')
    (hm : nonce k.secret = nonce k'.secret)
    (hsub : (k.subkeys.map fun s => nonce s.secret) = k'.subkeys.map fun s => nonce s.secret) :
    ∃ drawn, rnd = drawn ++ rest ∧ rnd' = drawn ++ rest' := by
  obtain ⟨second, e, order, hord, subs, hsubs, hperm, -, hcore⟩ := export_core hC hs h htt hu
  have hp3 := order_perm hC hord
  cases m with
  | true =>
    rw [if_pos rfl] at h1 h1'
    obtain ⟨c1, -, c3⟩ := (hcore password rnd).1 (hr.imp id (by omega))
    obtain ⟨d1, -, d3⟩ := (hcore password rnd').1 (hr'.imp id (by omega))
    rw [c1] at h1; cases h1
    rw [d1] at h1'; cases h1'
    rw [c3] at h2; cases h2
    rw [d3] at h2'; cases h2'
    obtain ⟨drawn, f1, f2⟩ := infos_unique C mnk.pgpKeySet order hp3 password _ _ hsub
    refine ⟨nonce (secView C password rnd (Spec.masterSeed C x.natAbs second)) ++ drawn, ?_, ?_⟩
    · rw [List.append_assoc, ← f1, secView_nonce]
    · dsimp only at hm
      rw [hm, List.append_assoc, ← f2, secView_nonce]
  | false =>
    rw [if_neg (by simp)] at h1 h1'
    obtain ⟨c1, -, c3⟩ := (hcore password rnd).2.1 (hr.imp id (by omega)) cert
    obtain ⟨d1, -, d3⟩ := (hcore password rnd').2.1 (hr'.imp id (by omega)) cert
    rw [c1] at h1; cases h1
    rw [d1] at h1'; cases h1'
    rw [c3] at h2; cases h2
    rw [d3] at h2'; cases h2'
    exact infos_unique C mnk.pgpKeySet order hp3 password _ _ hsub

theorem generate_draws {L : WordList} (hL : L.Lawful) {C : Crypto} (hC : C.Lawful) (env : Env)
    (opts : GenerateOptions) {w : Wanted} {master : Prop} (hask : AsksFor opts.key 0 0 0 w master)
    (hu : w.userID.length < 2 ^ 32)
    (hnow : 1672531200 * 10 ^ 9 ≤ env.now) (hnow' : env.now ≤ (1672531200 + 2 ^ 31 - 1) * 10 ^ 9)
    {rnd e rnd' : Bytes} (hseed : SeedBytes env rnd opts.unsafeEntropy e rnd') (hrnd : 99 ≤ rnd'.length)
    {keyPw phrasePw : Option Bytes} (htyped : Typed opts.key.encryptKeys opts.encryptPhrase keyPw phrasePw)
    (more : List (Res Bytes)) :
    ∃ key words rest k drawn salt, generateAndPrintKey L C env opts
        ⟨keyPw.toList.map .ok ++ phrasePw.toList.map .ok ++ more, rnd, []⟩ =
          generateEnd env opts.outputWordFile key words ⟨more, rest, []⟩ ∧
      importKey C key = some k ∧ MakesUp k drawn ∧ SaltOf (indexOf L) words salt ∧
      rnd' = drawn ++ salt ++ rest ∧ (salt ≠ [] ↔ opts.encryptPhrase = true) ∧
      (opts.key.encryptKeys = true → (master → Protected k.secret) ∧ ∀ s ∈ k.subkeys, Protected s.secret) := by
  obtain ⟨ttl, m, subkeys, httl, h0, h63, honly, hm, hw⟩ :=
    asked_options hC hask (by decide) (by decide) (by decide)
  obtain ⟨hs1, hs2⟩ := seed_of_bytes hseed
    (keyPw.toList.map .ok ++ phrasePw.toList.map .ok ++ more) []
  obtain ⟨-, hn, -⟩ := (newSeed_ok_iff _ _ _).mp hs2
  obtain ⟨mnk, hnew, -⟩ := (c20_new hC ((valueOfBytes e : Nat) : Int) hn 0 env.now
    (some (optionsFor opts.key 0 0 0 ttl subkeys))).2.2.2.2 rfl h0 hnow hnow'
  have hkey : (keyPw.getD []).length ≤ 65011704 := by
    cases hk : keyPw with
    | none => simp
    | some p => exact (htyped.keyGood p hk).2
  have hu' : mnk.userID.length < 2 ^ 32 := by
    obtain ⟨second, -, -, -, -, -, -, rfl⟩ := new_shape hC hs2 hnew
    refine lt_of_eq_of_lt (congrArg List.length (userID_encode _ _)) ?_
    rw [← hw] at hu
    exact hu
  obtain ⟨key, rnd2, hexp, hlen, -⟩ := export_contains hC hs2 hnew h63 (by rw [hw]; exact hu) m true
    (keyPw.getD []) rnd' (.inr (by omega)) hkey
  obtain ⟨key', rnd2', k, drawn, hexp', hk, hmk, hdr, hprot⟩ := c119_export hC hs2 hnew h63 hu' m true
    (keyPw.getD []) rnd' (.inr (by omega))
  rw [hexp] at hexp'
  cases hexp'
  have hseed := new_seed hC hs2 hnew
  have hoff : mnk.creationOffset < 2 ^ 31 := by
    obtain ⟨second, e, h1, h2, h3, -, hx2, hm⟩ := new_shape hC hs2 hnew
    rw [hm, creationOffset_eq _ _ second h1 h2]
    omega
  obtain ⟨hpl, hen⟩ := phrase_holds hL hC hs2 hnew
  obtain ⟨spl, sen⟩ := encoded_salt (L := L) hL hC.phrase (n := valueOfBytes e) (by simpa using hn) hoff
  obtain ⟨words, rest, salt, hwords, hsalt, hrest, hiff⟩ : ∃ words rest salt,
      (if opts.encryptPhrase then do
        let phrasePassword ← userInputPassword true
        random (mnk.encodeMnemonicEncrypted L C phrasePassword)
      else lift (mnk.encodeMnemonicPlaintext L) : Prog (List Bytes))
        ⟨phrasePw.toList.map .ok ++ more, rnd2, []⟩ = (.ok words, ⟨more, rest, []⟩) ∧
      SaltOf (indexOf L) words salt ∧ rnd2 = salt ++ rest ∧ (salt ≠ [] ↔ opts.encryptPhrase = true) := by
    rw [← htyped.phrase]
    cases hp : phrasePw with
    | none =>
      obtain ⟨ws, h1, -⟩ := hpl
      refine ⟨ws, rnd2, [], by rw [h1]; rfl, spl ws ?_, rfl, by simp⟩
      unfold Mnemonikey.encodeMnemonicPlaintext at h1
      rwa [hseed] at h1
    | some p =>
      obtain ⟨ws, rest, h1, -⟩ := hen p rnd2 (htyped.phraseGood p hp) (by omega)
      have h2 := h1
      unfold Mnemonikey.encodeMnemonicEncrypted at h2
      rw [hseed] at h2
      obtain ⟨h3, h4⟩ := sen p rnd2 (htyped.phraseGood p hp) (by omega) ws rest h2
      refine ⟨ws, rest, rnd2.take 3, ?_, h3, h4, ?_⟩
      · rw [if_pos (show (some p).isSome = true from rfl)]
        have := bind_run_ok (password_ok true p more rnd2 []) (fun p =>
          random (mnk.encodeMnemonicEncrypted L C p))
        exact this.trans (random_ok h1)
      · refine iff_of_true (fun hnil => ?_) rfl
        have := congrArg List.length hnil
        rw [List.length_take, List.length_nil] at this
        omega
  refine ⟨key, words, rest, k, drawn, salt, ?_, hk, hmk, hsalt, by rw [hdr, hrest, List.append_assoc], hiff, ?_⟩
  · unfold generateAndPrintKey
    rw [httl, bind_run_ok (lift_ok ttl _), honly, bind_run_ok (lift_ok _ _)]
    dsimp only
    rw [bind_run_ok hs1]
    have hnew' : new C ⟨0, (valueOfBytes e : Nat)⟩ env.now (some
      { name := trimSpace opts.key.name, email := trimSpace opts.key.email, ttl := ttl
        encryptionSubkeyIndex := 0, authenticationSubkeyIndex := 0, signingSubkeyIndex := 0
        subkeys := subkeys }) = .ok mnk := hnew
    rw [hnew', bind_run_ok (lift_ok mnk _), List.append_assoc,
      bind_run_ok (keyPassword_typed htyped.key _ _ _), bind_run_ok (exportKey_ok hexp _ _),
      bind_run_ok hwords]
    rfl
  · intro hek
    rw [← htyped.key] at hek
    obtain ⟨p, rfl⟩ := Option.isSome_iff_exists.1 hek
    obtain ⟨h1, h2⟩ := hprot (htyped.keyGood p rfl).1
    exact ⟨fun h => h1 (hm.2 h), h2⟩

/-- generate, as in C70: the random bytes are used in this order, each once: 16 for the seed (unless
-unsafe-entropy names another source), the random parts of the key that is printed, the salt of the phrase that is
saved or shown. The rest is not touched. -/
theorem c119_generate {L : WordList} (hL : L.Lawful) {C : Crypto} (hC : C.Lawful) (env : Env)
    (hwf : env.fs.Wf) (opts : GenerateOptions) {w : Wanted} {master : Prop}
    (hask : AsksFor opts.key 0 0 0 w master) (hu : w.userID.length < 2 ^ 32)
    (hnow : 1672531200 * 10 ^ 9 ≤ env.now) (hnow' : env.now ≤ (1672531200 + 2 ^ 31 - 1) * 10 ^ 9)
    {rnd e rnd' : Bytes} (hseed : SeedBytes env rnd opts.unsafeEntropy e rnd') (hrnd : 99 ≤ rnd'.length)
    {keyPw phrasePw : Option Bytes} (htyped : Typed opts.key.encryptKeys opts.encryptPhrase keyPw phrasePw)
    (more : List (Res Bytes))
    (hsave : opts.outputWordFile ≠ [] → env.fs.read opts.outputWordFile = none ∧
      env.save = ⟨false, false, none⟩)
    (hshow : opts.outputWordFile = [] → 17 ≤ env.columns) :
    let prompts := keyPw.toList.map .ok ++ phrasePw.toList.map .ok ++ more
    let after := (atStart env.fs).run ((generateAndPrintKey L C env opts).acts prompts rnd)
    (generateAndPrintKey L C env opts).outcome prompts rnd = .ok () ∧
    ∃ key words k drawn salt, after.stdout = env.armor key ++ [0x0A] ∧
      (opts.outputWordFile ≠ [] → after.fs.read opts.outputWordFile = some (phraseText words)) ∧
      (opts.outputWordFile = [] → after.shown = [words]) ∧
      importKey C key = some k ∧ MakesUp k drawn ∧ SaltOf (indexOf L) words salt ∧
      rnd' = drawn ++ salt ++ (generateAndPrintKey L C env opts ⟨prompts, rnd, []⟩).2.rnd ∧
      (salt ≠ [] ↔ opts.encryptPhrase = true) ∧
      (opts.key.encryptKeys = true → (master → Protected k.secret) ∧ ∀ s ∈ k.subkeys, Protected s.secret) := by
  obtain ⟨key, words, rest, k, drawn, salt, hrun, h1, h2, h3, h4, h5, h6⟩ := generate_draws hL hC env opts hask hu
    hnow hnow' hseed hrnd htyped more
  dsimp only
  unfold Prog.outcome Prog.acts
  rw [hrun]
  by_cases ho : opts.outputWordFile = []
  · rw [ho]
    have hend : generateEnd env [] key words ⟨more, rest, []⟩ =
        (.ok (), ⟨more, rest, (env.armor key ++ str "\n").map .stdout ++ [.showPhrase words]⟩) := by
      unfold generateEnd
      rw [if_neg (by simp), if_pos rfl]
      change (printKey (env.armor key) >>= fun _ => printMnemonic env words) _ = _
      rw [bind_run_ok (printKey_run (env.armor key) _), printMnemonic_ok (hshow ho)]
      rfl
    rw [hend]
    refine ⟨rfl, key, words, k, drawn, salt, ?_, by simp, fun _ => ?_, h1, h2, h3, h4, h5, h6⟩
    · dsimp only
      rw [run_append, run_stdout]
      rfl
    · dsimp only
      rw [run_append, run_stdout]
      rfl
  · obtain ⟨hnone, hsv⟩ := hsave ho
    have hok := save_good (ws := words) hnone hsv
    rcases generateEnd_file (env := env) (key := key) (ws := words) ho ⟨more, rest, []⟩ with ⟨-, hg⟩ | ⟨hf, -⟩
    swap
    · exfalso
      unfold generateEnd at hf
      rw [if_pos ho, if_neg ho, bind_run_ok (save_ok hok _)] at hf
      exact hf () rfl
    rw [hg]
    dsimp only
    rw [List.nil_append, run_append, run_stdout]
    obtain ⟨-, hread, -⟩ := c47_round_trip hL (atStart env.fs) hwf env.save words _ hok
    obtain ⟨-, -, hso, -⟩ := c47_crash (atStart env.fs) hwf env.save words opts.outputWordFile hnone
      (saveMnemonic env.fs env.save words opts.outputWordFile).1.length
    have e1 : ((atStart env.fs).run (saveMnemonic env.fs env.save words opts.outputWordFile).1).stdout = [] := by
      have : ((atStart env.fs).run ((saveMnemonic env.fs env.save words opts.outputWordFile).1.take
        (saveMnemonic env.fs env.save words opts.outputWordFile).1.length)).stdout = [] := hso
      rwa [List.take_length] at this
    refine ⟨rfl, key, words, k, drawn, salt, ?_, fun _ => hread, fun h => absurd h ho, h1, h2, h3, h4, h5, h6⟩
    dsimp only
    rw [e1]
    rfl

/-- recover, as in C71: the random bytes are the random parts of the key that is printed and the rest. -/
theorem c119_recover {L : WordList} (hL : L.Lawful) {C : Crypto} (hC : C.Lawful) (env : Env)
    (opts : RecoverOptions) {w : Wanted} {master : Prop}
    (hask : AsksFor opts.key opts.encIndex opts.authIndex opts.sigIndex w master)
    (henc : opts.encIndex ≤ 65535) (hauth : opts.authIndex ≤ 65535) (hsig : opts.sigIndex ≤ 65535)
    (hu : w.userID.length < 2 ^ 32) {words : List Bytes} (hin : Gets L (offer L) env opts.input words)
    {phrasePw keyPw : Option Bytes} {seed offset : Nat}
    (hholds : Holds (indexOf L) C.toPhraseCrypto words phrasePw seed offset)
    (wrong : List Bytes) (hwrong : ∀ p ∈ wrong, WrongPassword L C words p)
    (hkey : keyPw.isSome = opts.key.encryptKeys)
    (hgood : ∀ p, keyPw = some p → p ≠ [] ∧ p.length ≤ 65011704)
    (more : List (Res Bytes)) {rnd : Bytes} (hrnd : 96 ≤ rnd.length) :
    let prompts := wrong.map .ok ++ phrasePw.toList.map .ok ++ keyPw.toList.map .ok ++ more
    (recoverAndPrintKey L C env opts).outcome prompts rnd = .ok () ∧
    ∃ key k drawn, (atStart env.fs).run ((recoverAndPrintKey L C env opts).acts prompts rnd) =
        ⟨env.fs, none, env.armor key ++ [0x0A], []⟩ ∧
      importKey C key = some k ∧ MakesUp k drawn ∧
      rnd = drawn ++ (recoverAndPrintKey L C env opts ⟨prompts, rnd, []⟩).2.rnd ∧
      (opts.key.encryptKeys = true → (master → Protected k.secret) ∧ ∀ s ∈ k.subkeys, Protected s.secret) := by
  replace hin := (gets_iff hL).2 hin
  obtain ⟨ttl, m, subkeys, httl, h0, h63, honly, hm, hw⟩ :=
    asked_options hC hask (by omega) (by omega) (by omega)
  obtain ⟨dm, hd, hoff, holt, hslt, hloop⟩ := holds_decodes hL hC hholds wrong hwrong
  have hs2 : newSeed 0 ((seed : Nat) : Int) = .ok ⟨0, (seed : Int)⟩ :=
    (newSeed_ok_iff 0 seed _).mpr ⟨rfl, by simpa using hslt, rfl⟩
  have hcr : dm.creation = ((1672531200 + offset : Nat) : Int) * 10 ^ 9 :=
    creation_eq dm (1672531200 + offset) (by omega) (by omega) (by omega)
  obtain ⟨mnk, hnew, -⟩ := (c20_new hC ((seed : Nat) : Int) (by simpa using hslt) 0 dm.creation
    (some (optionsFor opts.key opts.encIndex opts.authIndex opts.sigIndex ttl subkeys))).2.2.2.2 rfl h0
      (by rw [hcr]; omega) (by rw [hcr]; omega)
  have hu' : mnk.userID.length < 2 ^ 32 := by
    obtain ⟨second, -, -, -, -, -, -, rfl⟩ := new_shape hC hs2 hnew
    refine lt_of_eq_of_lt (congrArg List.length (userID_encode _ _)) ?_
    rw [← hw] at hu
    exact hu
  obtain ⟨key, rest, k, drawn, hexp, hk, hmk, hdr, hprot⟩ := c119_export hC hs2 hnew h63 hu' m opts.selfCert
    (keyPw.getD []) rnd (.inr hrnd)
  have hrun : recoverAndPrintKey L C env opts
      ⟨wrong.map .ok ++ phrasePw.toList.map .ok ++ keyPw.toList.map .ok ++ more, rnd, []⟩ =
        (.ok (), ⟨more, rest, (env.armor key ++ str "\n").map .stdout⟩) := by
    have hidx : ¬ IndexTooLarge opts := by unfold IndexTooLarge maxSubkeyIndex; omega
    unfold recoverAndPrintKey
    rw [httl, bind_run_ok (lift_ok ttl _), if_neg hidx, honly, bind_run_ok (lift_ok _ _)]
    dsimp only
    rw [List.append_assoc, bind_run_ok (decode_run hin hd (st := ⟨_, rnd, []⟩) (hloop _))]
    dsimp only
    have hnew' : new C ⟨0, (seed : Int)⟩ dm.creation (some (recoveredOptions opts ttl subkeys)) = .ok mnk := hnew
    unfold recoveredOptions at hnew'
    rw [hnew', bind_run_ok (lift_ok mnk _), bind_run_ok (keyPassword_typed hkey _ _ _),
      bind_run_ok (exportKey_ok hexp _ _)]
    rfl
  dsimp only
  unfold Prog.outcome Prog.acts
  rw [hrun]
  refine ⟨rfl, key, k, drawn, ?_, hk, hmk, hdr, ?_⟩
  · dsimp only
    rw [run_stdout]
    rfl
  · intro hek
    rw [← hkey] at hek
    obtain ⟨p, rfl⟩ := Option.isSome_iff_exists.1 hek
    obtain ⟨h1, h2⟩ := hprot (hgood p rfl).1
    exact ⟨fun h => h1 (hm.2 h), h2⟩

/-- convert, as in C72: three random bytes for an encrypted phrase, none for a plain one. -/
theorem c119_convert {L : WordList} (hL : L.Lawful) {C : Crypto} (hC : C.Lawful) (env : Env)
    (opts : ConvertOptions) {words : List Bytes} (hin : Gets L (offer L) env opts.input words)
    (hfile : opts.input.inputWordFile = []) {phrasePw newPw : Option Bytes} {seed offset : Nat}
    (hholds : Holds (indexOf L) C.toPhraseCrypto words phrasePw seed offset)
    (wrong : List Bytes) (hwrong : ∀ p ∈ wrong, WrongPassword L C words p)
    (hnew : newPw.isSome = opts.encryptPhrase) (hgood : newPw ≠ some [])
    (more : List (Res Bytes)) {rnd : Bytes} (hrnd : 3 ≤ rnd.length) (hcol : 17 ≤ env.columns) :
    let prompts := wrong.map .ok ++ phrasePw.toList.map .ok ++ newPw.toList.map .ok ++ more
    (decodeAndConvertPhrase L C env opts).outcome prompts rnd = .ok () ∧
    ∃ words' salt, (atStart env.fs).run ((decodeAndConvertPhrase L C env opts).acts prompts rnd) =
        ⟨env.fs, none, [], [words']⟩ ∧
      SaltOf (indexOf L) words' salt ∧ (salt ≠ [] ↔ opts.encryptPhrase = true) ∧
      rnd = salt ++ (decodeAndConvertPhrase L C env opts ⟨prompts, rnd, []⟩).2.rnd := by
  replace hin := (gets_iff hL).2 hin
  obtain ⟨dm, hd, hoff, holt, hslt, hloop⟩ := holds_decodes hL hC hholds wrong hwrong
  obtain ⟨hpl, hen⟩ := encoded_holds hL hC hslt holt
  obtain ⟨spl, sen⟩ := encoded_salt hL hC.phrase hslt holt
  obtain ⟨words', rest, salt, hw, hsalt, hrest, hiff⟩ : ∃ words' rest salt,
      (if opts.encryptPhrase then do
        let phrasePassword ← userInputPassword true
        random (encodeMnemonicEncrypted L C.toPhraseCrypto ⟨0, seed⟩ dm.creationOffset phrasePassword)
      else lift (encodeMnemonicPlaintext L ⟨0, seed⟩ dm.creationOffset) : Prog (List Bytes))
        ⟨newPw.toList.map .ok ++ more, rnd, []⟩ = (.ok words', ⟨more, rest, []⟩) ∧
      SaltOf (indexOf L) words' salt ∧ rnd = salt ++ rest ∧ (salt ≠ [] ↔ opts.encryptPhrase = true) := by
    rw [← hnew, hoff]
    cases hp : newPw with
    | none =>
      obtain ⟨ws, h1, -⟩ := hpl
      exact ⟨ws, rnd, [], by rw [h1]; rfl, spl ws h1, rfl, by simp⟩
    | some p =>
      have hne : p ≠ [] := fun h => hgood (by rw [hp, h])
      obtain ⟨ws, rest, h1, -⟩ := hen p rnd hne hrnd
      obtain ⟨h3, h4⟩ := sen p rnd hne hrnd ws rest h1
      refine ⟨ws, rest, rnd.take 3, ?_, h3, h4, ?_⟩
      · rw [if_pos (show (some p).isSome = true from rfl)]
        have := bind_run_ok (password_ok true p more rnd []) (fun p =>
          random (encodeMnemonicEncrypted L C.toPhraseCrypto ⟨0, seed⟩ offset p))
        exact this.trans (random_ok h1)
      · refine iff_of_true (fun hnil => ?_) rfl
        have := congrArg List.length hnil
        rw [List.length_take, List.length_nil] at this
        omega
  have hrun : decodeAndConvertPhrase L C env opts
      ⟨wrong.map .ok ++ phrasePw.toList.map .ok ++ newPw.toList.map .ok ++ more, rnd, []⟩ =
        (.ok (), ⟨more, rest, [.showPhrase words']⟩) := by
    unfold decodeAndConvertPhrase
    rw [List.append_assoc, bind_run_ok (decode_run hin hd (st := ⟨_, rnd, []⟩) (hloop _))]
    dsimp only
    rw [bind_run_ok hw, if_pos hfile, printMnemonic_ok hcol]
    rfl
  dsimp only
  unfold Prog.outcome Prog.acts
  rw [hrun]
  exact ⟨rfl, words', salt, rfl, hsalt, hiff, hrest⟩

/-! ## examples -/

/-- A protected key: 24 bytes for each secret -/
example (k : KeyInfo) (drawn : Bytes) (h : MakesUp k drawn) (hm : Protected k.secret)
    (hs : ∀ s ∈ k.subkeys, Protected s.secret) : drawn.length = 24 * (k.subkeys.length + 1) := by
  have h24 : ∀ s : Secret, Protected s → (nonce s).length = 24 := by
    intro s h
    cases s <;> simp only [Protected] at h
    simp [nonce, h.2.2.1, h.2.2.2.2]
  obtain ⟨pieces, hp, rfl⟩ := h
  have hl : ∀ l : List Bytes, (∀ p ∈ l, p.length = 24) → l.flatten.length = 24 * l.length := by
    intro l hl
    induction l with
    | nil => rfl
    | cons a l ih =>
      rw [List.flatten_cons, List.length_append, hl a (by simp), ih fun p hp => hl p (by simp [hp]),
        List.length_cons]
      ring
  rw [List.length_append, h24 _ hm, hl pieces, hp.length_eq, List.length_map]
  · ring
  · intro p hp'
    obtain ⟨s, hs', rfl⟩ := List.mem_map.1 (hp.mem_iff.1 hp')
    exact h24 _ (hs s hs')

example : ∃ mnk out rest k drawn, new toyCrypto ⟨0, 5⟩ sampleTime (some sampleOpts) = .ok mnk ∧
    mnk.encodePGP toyCrypto [1, 2, 3] (List.replicate 96 9) = .ok (out, rest) ∧
    importKey toyCrypto out = some k ∧ MakesUp k drawn ∧ List.replicate 96 9 = drawn ++ rest ∧
    Protected k.secret := by
  obtain ⟨mnk, hs, h, h1, h2⟩ := sample_key
  obtain ⟨out, rest, k, drawn, ho, hi, hd, hr, hp⟩ := c119_export toyCrypto_lawful hs h h1 h2 true true
    [1, 2, 3] (List.replicate 96 9) (.inr (by simp))
  exact ⟨mnk, out, rest, k, drawn, h, ho, hi, hd, hr, (hp (by simp)).1 rfl⟩

/-- Two sources that differ from the first byte on: the random parts of the two exports are not all the same. -/
example : ∃ mnk out rest out' rest' k k', new toyCrypto ⟨0, 5⟩ sampleTime (some sampleOpts) = .ok mnk ∧
    mnk.encodePGP toyCrypto [1, 2, 3] (List.replicate 96 9) = .ok (out, rest) ∧
    mnk.encodePGP toyCrypto [1, 2, 3] (List.replicate 96 8) = .ok (out', rest') ∧
    importKey toyCrypto out = some k ∧ importKey toyCrypto out' = some k' ∧
    ¬ (nonce k.secret = nonce k'.secret ∧
      (k.subkeys.map fun s => nonce s.secret) = k'.subkeys.map fun s => nonce s.secret) := by
  obtain ⟨mnk, hs, h, h1, h2⟩ := sample_key
  obtain ⟨out, rest, k, drawn, ho, hi, hd, hr, hp⟩ := c119_export toyCrypto_lawful hs h h1 h2 true true
    [1, 2, 3] (List.replicate 96 9) (.inr (by simp))
  obtain ⟨out', rest', k', drawn', ho', hi', -⟩ := c119_export toyCrypto_lawful hs h h1 h2 true true
    [1, 2, 3] (List.replicate 96 8) (.inr (by simp))
  refine ⟨mnk, out, rest, out', rest', k, k', h, ho, ho', hi, hi', ?_⟩
  rintro ⟨hn, hsub⟩
  obtain ⟨d, e1, e2⟩ := c119_unique toyCrypto_lawful hs h h1 h2 true true [1, 2, 3] _ _ (.inr (by simp))
    (.inr (by simp)) ho ho' hi hi' hn hsub
  have hmp := (hp (by simp)).1 rfl
  cases d with
  | nil =>
    -- then nothing was taken, but the master key has a salt of 8 bytes
    obtain ⟨pieces, -, rfl⟩ := hd
    have hl := congrArg List.length (hr.symm.trans e1)
    rw [List.length_append, List.length_append, List.nil_append] at hl
    cases hsec : k.secret with
    | locked c hh salt n iv body =>
      rw [hsec] at hl hmp
      obtain ⟨-, -, h8, -⟩ := hmp
      simp only [nonce, List.length_append] at hl
      omega
    | _ => rw [hsec] at hmp; exact hmp
  | cons a d =>
    rw [List.replicate_succ, List.cons_append, List.cons.injEq] at e1 e2
    exact absurd (e1.1.trans e2.1.symm) (by decide)

/-- The key and the phrase both encrypted, the phrase saved in a new file -/
example : ∃ key words k drawn salt rest, importKey toyCrypto key = some k ∧ MakesUp k drawn ∧
    SaltOf (indexOf toyWordList) words salt ∧ List.replicate 99 7 = drawn ++ salt ++ rest ∧ salt ≠ [] := by
  obtain ⟨-, key, words, k, drawn, salt, -, -, -, h1, h2, h3, h4, h5, -⟩ := c119_generate toyWordList_lawful
    toyCrypto_lawful sampleEnv sampleFS_wf
    { key := sampleKeyFlags, outputWordFile := str "new", encryptPhrase := true, unsafeEntropy := [] }
    (sample_asks 0 0 0) (by decide) (by decide) (by decide)
    (.system (rnd := List.replicate 115 7) (e := List.replicate 16 7) (rest := List.replicate 99 7) rfl rfl)
    (by decide) (keyPw := some (str "key password")) (phrasePw := some (str "phrase password"))
    ⟨rfl, rfl, by rintro p ⟨⟩; decide, by rintro p ⟨⟩; decide⟩ []
    (fun _ => ⟨by decide +kernel, rfl⟩) (by decide)
  exact ⟨key, words, k, drawn, salt, _, h1, h2, h3, h4, h5.2 rfl⟩

end Verif.Props
