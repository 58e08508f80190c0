import Verif.Props.Export
import Mathlib.Data.List.Forall2
import Mathlib.Tactic.IntervalCases

/-!
# Properties of OpenPGP exports: C33-C39

`Spec.OpenPGP.importKey` is the RFC 4880 reader; `Spec.wantedKey` says what it should find.
-/

namespace Verif.Props

open Verif.Model Verif.Model.Pgp Verif.Proofs Verif.Instances
open Verif.Spec.OpenPGP (importKey readPackets readPacket readMPI readPublic octets num SubkeyInfo
  KeyInfo PublicKey s2kOctets)
open Verif.Spec (Selected wanted wantedSubkeys wantedKey wantedCert unlock unlockSubkey
  wantedSlots shuffled orderSeed masterSeed)

/-! ## C33 -/

/-- C33. The subkey export reads back with a stub for the master secret; the subkeys (after
unlocking) are those of the full export in the same order; the certification is there on request. -/
theorem c33_subkey_export {C : Crypto} (hC : C.Lawful) (era x : Int) (s : Seed)
    (hs : newSeed era x = .ok s) (creation : Int) (opts : Option KeyOptions) (mnk : Mnemonikey)
    (h : new C s creation opts = .ok mnk) (htt : (inForce opts).ttl < 2 ^ 63)
    (hu : mnk.userID.length < 2 ^ 32) :
    let second := (creation / 10 ^ 9).toNat
    let w := wanted C (inForce opts)
    ∃ full subs, mnk.encodePGP C [] [] = .ok (full, []) ∧
      importKey C full = some (wantedKey C x.natAbs second w subs) ∧
      ∀ password rnd cert, (password = [] ∨ 72 ≤ rnd.length) → password.length ≤ 65011704 →
        ∃ out rest subs', mnk.encodeSubkeysPGP C password cert rnd = .ok (out, rest) ∧
          importKey C out = some { wantedKey C x.natAbs second w subs' with
            secret := .stub
            cert := if cert then some (wantedCert second w) else none } ∧
          subs'.mapM (unlockSubkey C password) = some subs := by
  obtain ⟨second, e, order, -, subs, hsubs, hperm, -, hcore⟩ := export_core hC hs h htt hu
  rw [← e]
  have e0 : opts.getD KeyOptions.zero = inForce opts := rfl
  rw [e0] at hperm hcore
  obtain ⟨f1, -, f3⟩ := (hcore [] []).1 (Or.inl rfl)
  refine ⟨writePackets (fullPackets C mnk.pgpKeySet order [] []), subs, ?_, ?_, ?_⟩
  · rw [f1]
    have hr : ksRnd mnk.pgpKeySet [] (after [] []) = [] := by simp [ksRnd, afterIf, after]
    rw [hr]
  · rw [f3, hsubs]; rfl
  · intro password rnd cert hr hpw
    have h3 : Enough 3 password rnd := by
      rcases hr with hr | hr
      · exact Or.inl hr
      · exact Or.inr (by omega)
    obtain ⟨c1, -, c3⟩ := (hcore password rnd).2.1 h3 cert
    exact ⟨_, _, _, c1, c3, (hcore password rnd).2.2 h3 hpw⟩

example : ∃ mnk full subs, new toyCrypto ⟨0, 5⟩ sampleTime (some sampleOpts) = .ok mnk ∧
    mnk.encodePGP toyCrypto [] [] = .ok (full, []) ∧ subs ≠ [] ∧
    ∃ out rest subs', mnk.encodeSubkeysPGP toyCrypto [1, 2, 3] false (List.replicate 72 9) =
        .ok (out, rest) ∧
      importKey toyCrypto out = some { wantedKey toyCrypto 5 1700000000
        (wanted toyCrypto sampleOpts) subs' with secret := .stub, cert := none } ∧
      subs'.mapM (unlockSubkey toyCrypto [1, 2, 3]) = some subs := by
  obtain ⟨mnk, hs, h, h1, h2⟩ := sample_key
  obtain ⟨full, subs, hf, hi, hx⟩ := c33_subkey_export toyCrypto_lawful 0 5 _ hs _ _ mnk h h1 h2
  obtain ⟨out, rest, subs', ho, hi', hm⟩ := hx [1, 2, 3] (List.replicate 72 9) false
    (Or.inr (by simp)) (by simp)
  obtain ⟨full', subs'', hf', hp, hi'', -⟩ := c32_export toyCrypto_lawful 0 5 _ hs _ _ mnk h h1 h2
  refine ⟨mnk, full, subs, h, hf, ?_, out, rest, subs', ho, hi', hm⟩
  rw [hf' []] at hf
  obtain ⟨rfl, -⟩ := Prod.mk.inj (Res.ok.inj hf)
  rw [hi''] at hi
  have : subs'' = subs := congrArg KeyInfo.subkeys (Option.some.inj hi)
  subst this
  intro hc
  have := hp.length_eq
  rw [hc] at this
  exact absurd this (by decide)

/-- C33. Replace the master's secret by any other one that makes the same signatures and shuffles
the same way: the subkey export does not change, for any key set. In particular the stored secret
octets are never written. -/
theorem c33_secret_unused (C : Crypto) (ks : KeySet) (priv' serialized : Bytes)
    (signing : Option Bytes)
    (hsign : ∀ m, C.ed25519Sign priv' m = C.ed25519Sign ks.masterKey.priv m)
    (hshuffle : ∀ i, C.shuffleDraw (shuffleSeed C priv') i =
      C.shuffleDraw (shuffleSeed C ks.masterKey.priv) i)
    (password rnd : Bytes) (cert : Bool) :
    KeySet.encodeSubkeyPackets C { ks with masterKey := { ks.masterKey with
        priv := priv'
        base := { ks.masterKey.base with
          privateSerialized := serialized, privateSigning := signing } } } password cert rnd =
      ks.encodeSubkeyPackets C password cert rnd := by
  have h1 : ∀ req, sign C priv' req = sign C ks.masterKey.priv req := by
    intro req
    simp only [sign, hsign]
  have h2 : C.shuffleDraw (shuffleSeed C priv') = C.shuffleDraw (shuffleSeed C ks.masterKey.priv) :=
    funext hshuffle
  have hbind : ∀ base flags expiry, EdKey.bindSubkey C { ks.masterKey with
        priv := priv'
        base := { ks.masterKey.base with
          privateSerialized := serialized, privateSigning := signing } } base flags expiry =
      ks.masterKey.bindSubkey C base flags expiry := by
    intro base flags expiry
    unfold EdKey.bindSubkey
    simp only [h1]
    rfl
  have hcert : EdKey.selfCertify C { ks.masterKey with
        priv := priv'
        base := { ks.masterKey.base with
          privateSerialized := serialized, privateSigning := signing } } ks.userID =
      ks.masterKey.selfCertify C ks.userID := by
    unfold EdKey.selfCertify
    simp only [h1]
    rfl
  simp only [KeySet.encodeSubkeyPackets, KeySet.encodeSelfCertification,
    KeySet.encodeAllSubkeyPackets, KeySet.encodeEncryption, KeySet.encodeAuthentication,
    KeySet.encodeSigning, Pgp.encodeSubkeyPackets, h2, hbind, hcert]
  rfl

/-- Two different secrets of the toy signature scheme that sign alike. -/
example : ∃ C : Crypto, C.Lawful ∧ ∃ p q : Bytes, p ≠ q ∧ p.length = 64 ∧ q.length = 64 ∧
    (∀ m, C.ed25519Sign p m = C.ed25519Sign q m) ∧
    ∀ i, C.shuffleDraw (shuffleSeed C p) i = C.shuffleDraw (shuffleSeed C q) i := by
  refine ⟨{ toyCrypto with shuffleDraw := fun _ _ => 0 }, ?_,
    List.replicate 32 0 ++ List.replicate 32 5, List.replicate 32 1 ++ List.replicate 32 5,
    by decide, by decide, by decide, ?_, by intro i; dsimp only⟩
  swap
  · intro m
    show toyDigest 64 _ = toyDigest 64 _
    rfl
  have h := toyCrypto_lawful
  exact ⟨h.phrase, h.hkdf_length, h.ed25519Pub_length, h.ed25519Sign_length, h.ed25519_verify,
    h.x25519_length, h.x25519_clamp, h.sha1_length, h.sha256_length, h.sha384_length,
    h.sha512_length, h.aes256_length, fun _ _ => Nat.zero_le _, h.seconds_lt, h.seconds_exact⟩

/-! ## C34 -/

/-- C34. Whatever the generator draws (Fisher-Yates draws an index up to `i` in step `i`), the
groups are permuted, and the permutation depends on the draws alone. -/
theorem c34_shuffle (draw : Nat → Nat) (hd : ∀ i, draw i ≤ i) :
    ∃ order : List Nat, order.Perm [0, 1, 2] ∧
      ∀ g : Nat → Bytes, shuffleLoop draw 2 [g 0, g 1, g 2] = .ok (order.map g) := by
  obtain ⟨l', hp, hf⟩ := shuffle_perm draw hd 2 [0, 1, 2] (by simp)
  exact ⟨l', hp, fun g => hf g⟩

example : shuffleLoop (fun i => i / 2) 2 [[1], [2], [3]] = .ok [[3], [1], [2]] := by decide

/-- C34. The generator's seed is made from the first eight octets of the SHA-256 of the private key, read
big-endian: the low 63 bits give the size and the top bit the sign. -/
theorem c34_seed (C : Crypto) (priv : Bytes) (h : (C.sha256 priv).length = 32) :
    let x : Nat := Spec.valueOfBytes ((C.sha256 priv).take 8)
    x < 2 ^ 64 ∧ shuffleSeed C priv = if x < 2 ^ 63 then (x : Int) else -((x - 2 ^ 63 : Nat) : Int) := by
  intro x
  have hx : x = setBytes ((C.sha256 priv).take 8) := valueOfBytes_eq _
  have hlt : x < 2 ^ 64 := by
    have := setBytes_lt ((C.sha256 priv).take 8)
    rw [← hx, List.length_take, h] at this
    exact this
  refine ⟨hlt, ?_⟩
  unfold shuffleSeed
  rw [← hx]
  have hm : x &&& 0x7FFFFFFFFFFFFFFF = x % 2 ^ 63 := Nat.and_two_pow_sub_one_eq_mod x 63
  simp only [hm]
  by_cases hc : x < 2 ^ 63
  · rw [Nat.mod_eq_of_lt hc, if_pos hc, if_neg (by simp)]
  · rw [if_neg hc]
    have : x % 2 ^ 63 = x - 2 ^ 63 := by omega
    rw [this, if_pos (by omega)]
    omega

example : (toyCrypto.sha256 [1, 2, 3]).length = 32 := by decide

theorem shuffle_three {draw : Nat → Nat} (hd : ∀ i, draw i ≤ i) (a b c : Bytes) :
    shuffleLoop draw 2 [a, b, c] = .ok (shuffled draw [a, b, c]) := by
  have h2 := hd 2
  have h1 := hd 1
  unfold shuffled
  simp only [List.length_cons, List.length_nil, List.range, List.range.loop, List.reverse_cons, List.reverse_nil,
    List.nil_append, List.cons_append, List.foldl_cons, List.foldl_nil, shuffleLoop]
  generalize draw (1 + 1) = m at *
  generalize draw (0 + 1) = n at *
  interval_cases m <;> interval_cases n <;> rfl

theorem shuffled_map {α β : Type} {draw : Nat → Nat} (hd : ∀ i, draw i ≤ i) (f : α → β) (a b c : α) :
    (shuffled draw [a, b, c]).map f = shuffled draw [f a, f b, f c] := by
  have h2 := hd 2
  have h1 := hd 1
  unfold shuffled
  simp only [List.length_cons, List.length_nil, List.range, List.range.loop, List.reverse_cons, List.reverse_nil,
    List.nil_append, List.cons_append, List.foldl_cons, List.foldl_nil]
  generalize draw (1 + 1) = m at *
  generalize draw (0 + 1) = n at *
  interval_cases m <;> interval_cases n <;> rfl

/-- The places in the order drawn -/
theorem ordered {C : Crypto} (hC : C.Lawful) {master : Bytes} {order : List Nat}
    (h : ∀ g : Nat → Bytes, shuffleLoop (C.shuffleDraw (shuffleSeed C (master ++ C.ed25519Pub master))) 2
      [g 0, g 1, g 2] = .ok (order.map g)) {α : Type} (f : Nat → α) :
    order.map f = shuffled (C.shuffleDraw (orderSeed C master)) [f 0, f 1, f 2] := by
  have he : shuffleSeed C (master ++ C.ed25519Pub master) = orderSeed C master := by
    rw [(c34_seed C _ (hC.sha256_length _)).2]
    unfold orderSeed
    rw [num_eq, valueOfBytes_eq]
  rw [he] at h
  have hd := hC.shuffle_le (orderSeed C master)
  rw [← shuffled_map hd f]
  have hi : Function.Injective (fun i : Nat => List.replicate i (0 : UInt8)) := by
    intro i j hij
    simpa using congrArg List.length hij
  have := h (fun i => List.replicate i 0)
  rw [shuffle_three hd, ← shuffled_map hd (fun i : Nat => List.replicate i (0 : UInt8))] at this
  injection this with this
  rw [← List.map_injective_iff.2 hi this]

/-- C34. The subkeys found in any export of a key, full or subkeys only, with any password and
random stream, are the selected ones, each exactly once, always in the same order: encryption, authentication, signing, shuffled
by the generator seeded from the master key. -/
theorem c34_order {C : Crypto} (hC : C.Lawful) (era x : Int) (s : Seed)
    (hs : newSeed era x = .ok s) (creation : Int) (opts : Option KeyOptions) (mnk : Mnemonikey)
    (h : new C s creation opts = .ok mnk) (htt : (inForce opts).ttl < 2 ^ 63)
    (hu : mnk.userID.length < 2 ^ 32) :
    let second := (creation / 10 ^ 9).toNat
    let order := ((shuffled (C.shuffleDraw (orderSeed C (masterSeed C x.natAbs second)))
      (wantedSlots C x.natAbs second (wanted C (inForce opts)))).filterMap id).map (·.key)
    order.Perm ((wantedSubkeys C x.natAbs second (wanted C (inForce opts))).map (·.key)) ∧
      ∀ password rnd, (password = [] ∨ 96 ≤ rnd.length) →
        (∃ out rest k, mnk.encodePGP C password rnd = .ok (out, rest) ∧ importKey C out = some k ∧
          k.subkeys.map (·.key) = order) ∧
        ∀ cert, ∃ out rest k, mnk.encodeSubkeysPGP C password cert rnd = .ok (out, rest) ∧
          importKey C out = some k ∧ k.subkeys.map (·.key) = order := by
  obtain ⟨second, e, ord, hord, subs, hsubs, hperm, hslots, hcore⟩ := export_core hC hs h htt hu
  have e0 : opts.getD KeyOptions.zero = inForce opts := rfl
  rw [e0] at hperm hslots hcore
  intro sec order
  have hse : sec = second := e.symm
  have ho : order = subs.map (·.key) := by
    rw [hslots, ordered hC hord]
    simp only [order, hse]
    rfl
  rw [ho, hse]
  have hk : ∀ password rnd, (ksInfos C mnk.pgpKeySet ord password rnd).map (·.key) =
      subs.map (·.key) := by
    intro password rnd
    have hb := infos_bare C mnk.pgpKeySet ord password rnd
    rw [← hsubs] at hb
    have := congrArg (List.map (fun s : SubkeyInfo => s.key)) hb
    simpa [List.map_map, Function.comp_def, bare] using this
  refine ⟨hperm.map _, ?_⟩
  intro password rnd hr
  have h4 : Enough 4 password rnd := by
    rcases hr with hr | hr
    · exact Or.inl hr
    · exact Or.inr (by omega)
  refine ⟨?_, ?_⟩
  · obtain ⟨c1, -, c3⟩ := (hcore password rnd).1 h4
    exact ⟨_, _, _, c1, c3, hk _ _⟩
  · intro cert
    obtain ⟨c1, -, c3⟩ := (hcore password rnd).2.1 (enough_mono (by omega) h4) cert
    exact ⟨_, _, _, c1, c3, hk _ _⟩

example : ∃ mnk order, new toyCrypto ⟨0, 5⟩ sampleTime (some sampleOpts) = .ok mnk ∧
    2 = List.length order ∧ ∃ out rest k,
      mnk.encodePGP toyCrypto [7] (List.replicate 100 1) = .ok (out, rest) ∧
      importKey toyCrypto out = some k ∧ k.subkeys.map (·.key) = order := by
  obtain ⟨mnk, hs, h, h1, h2⟩ := sample_key
  obtain ⟨hp, ho⟩ := c34_order toyCrypto_lawful 0 5 _ hs _ _ mnk h h1 h2
  refine ⟨mnk, _, h, ?_, (ho [7] (List.replicate 100 1) (Or.inr (by simp))).1⟩
  rw [hp.length_eq]
  decide

example : shuffled (fun i => i / 2) ["encryption", "authentication", "signing"] =
    ["signing", "encryption", "authentication"] := by decide

/-! ## C35 -/

/-- C35. With a password, every secret in the export is protected by AES-256 under the iterated and
salted SHA-256 S2K, and a reader with the password recovers exactly the key of the unprotected
export. -/
theorem c35_protected_export {C : Crypto} (hC : C.Lawful) (era x : Int) (s : Seed)
    (hs : newSeed era x = .ok s) (creation : Int) (opts : Option KeyOptions) (mnk : Mnemonikey)
    (h : new C s creation opts = .ok mnk) (htt : (inForce opts).ttl < 2 ^ 63)
    (hu : mnk.userID.length < 2 ^ 32) (password : Bytes) (hp : password ≠ [])
    (hpw : password.length ≤ 65011704) (rnd : Bytes) (hr : 96 ≤ rnd.length) :
    ∃ plain out rest k k', mnk.encodePGP C [] [] = .ok (plain, []) ∧
      mnk.encodePGP C password rnd = .ok (out, rest) ∧
      importKey C plain = some k ∧ importKey C out = some k' ∧
      unlock C password k' = some k ∧
      Spec.Protected k'.secret ∧ (∀ s ∈ k'.subkeys, Spec.Protected s.secret) ∧
      k = wantedKey C x.natAbs (creation / 10 ^ 9).toNat (wanted C (inForce opts)) k.subkeys := by
  obtain ⟨second, e, order, -, subs, hsubs, hperm, -, hcore⟩ := export_core hC hs h htt hu
  rw [← e]
  have e0 : opts.getD KeyOptions.zero = inForce opts := rfl
  rw [e0] at hperm hcore
  have h4 : Enough 4 password rnd := Or.inr (by omega)
  obtain ⟨f1, -, f3⟩ := (hcore [] []).1 (Or.inl rfl)
  obtain ⟨c1, -, c3⟩ := (hcore password rnd).1 h4
  have hun := (hcore password (after password rnd)).2.2 (enough_after h4) hpw
  have hr0 : ksRnd mnk.pgpKeySet [] (after [] []) = [] := by simp [ksRnd, afterIf, after]
  rw [hr0] at f1
  refine ⟨_, _, _, _, _, f1, c1, f3, c3, ?_, ?_, ?_, rfl⟩
  · unfold unlock
    simp only
    rw [openSecret_secView hC password rnd _ (masterSeed_length hC _ _)
      (enough_mono (by omega) h4) hpw]
    simp only [Option.bind_eq_bind, Option.bind_some]
    rw [hun, hsubs]
    rfl
  · exact secView_protected C password rnd _ hp (enough_mono (by omega) h4)
  · exact infos_protected mnk.pgpKeySet order password _ hp (enough_after h4)

example : ∃ mnk out rest k', new toyCrypto ⟨0, 5⟩ sampleTime (some sampleOpts) = .ok mnk ∧
    mnk.encodePGP toyCrypto [1, 2, 3] (List.replicate 96 9) = .ok (out, rest) ∧
    importKey toyCrypto out = some k' ∧ Spec.Protected k'.secret := by
  obtain ⟨mnk, hs, h, h1, h2⟩ := sample_key
  obtain ⟨plain, out, rest, k, k', -, ho, -, hi, -, hp, -⟩ := c35_protected_export toyCrypto_lawful
    0 5 _ hs _ _ mnk h h1 h2 [1, 2, 3] (by simp) (by simp) (List.replicate 96 9) (by simp)
  exact ⟨mnk, out, rest, k', h, ho, hi, hp⟩

/-! ## C36 -/

/-- C36. stringToKey hashes the first `n` octets of the endless repetition of salt and password. -/
theorem c36_octets (C : Crypto) (password salt : Bytes) (n : Nat) (h : salt ++ password ≠ []) :
    stringToKey C 8 password salt n = .ok (C.sha256 ((List.range n).map (fun i =>
      (salt ++ password).getD (i % (salt ++ password).length) 0))) := by
  have h0 : 0 < (salt ++ password).length := List.length_pos_iff.mpr h
  unfold stringToKey
  rw [if_neg (by omega)]
  have : hashNew C 8 = some C.sha256 := rfl
  rw [this]
  simp only [s2kPreimage]
  rw [repeat_eq _ h0]

/-- C36. The count of the code is the largest one of RFC 4880. -/
theorem c36_count : s2kCountDecode s2kCountMaximum = Spec.OpenPGP.s2kCount 255 ∧
    Spec.OpenPGP.s2kCount 255 = 65011712 := by
  constructor <;> decide

/-- C36. With an 8-octet salt this is what RFC 4880 prescribes for passwords of up to 65011704
octets; (defect) for longer ones the RFC hashes the whole salt and password, of which the code
hashes a proper prefix. -/
theorem c36_rfc (password salt : Bytes) (hs : salt.length = 8) :
    (password.length ≤ 65011704 →
      s2kPreimage password salt 65011712 = s2kOctets salt password 65011712) ∧
    (65011704 < password.length →
      s2kOctets salt password 65011712 = salt ++ password ∧
      s2kPreimage password salt 65011712 = (salt ++ password).take 65011712 ∧
      s2kPreimage password salt 65011712 ≠ s2kOctets salt password 65011712) := by
  have hlen : (salt ++ password).length = 8 + password.length := by simp [hs]
  constructor
  · intro h
    exact s2kPreimage_eq password salt 65011712 (by omega) (by omega)
  · intro h
    have e1 : s2kOctets salt password 65011712 = salt ++ password := by
      simp only [s2kOctets]
      rw [max_eq_right (by omega)]
      apply List.ext_getElem
      · simp
      · intro i h1 h2
        simp only [List.getElem_map, List.getElem_range]
        rw [Nat.mod_eq_of_lt h2, List.getD_eq_getElem _ _ h2]
    have e2 : s2kPreimage password salt 65011712 = (salt ++ password).take 65011712 := by
      simp only [s2kPreimage]
      rw [Nat.div_eq_of_lt (by omega), Nat.mod_eq_of_lt (by omega)]
      simp
    refine ⟨e1, e2, ?_⟩
    intro hc
    have := congrArg List.length hc
    rw [e1, e2, List.length_take, hlen] at this
    omega

/-- Both kinds of password exist. -/
example : ([1, 2, 3] : Bytes).length ≤ 65011704 ∧
    ∃ password : Bytes, 65011704 < password.length :=
  ⟨by simp, List.replicate 65011705 0, by rw [List.length_replicate]; norm_num⟩

/-! ## C37 -/

/-- Packets that differ at most in the secret part of a secret key or subkey packet. -/
def SamePublic (C : Crypto) (p q : Nat × Bytes) : Prop :=
  p.1 = q.1 ∧
  if p.1 = 5 ∨ p.1 = 7 then
    ∃ key body sec sec', readPublic C p.2 = some (key, body, sec) ∧
      readPublic C q.2 = some (key, body, sec')
  else p.2 = q.2

/-- C37. Without a password no randomness is read and the output does not depend on it. -/
theorem c37_deterministic {C : Crypto} (hC : C.Lawful) (era x : Int) (s : Seed)
    (hs : newSeed era x = .ok s) (creation : Int) (opts : Option KeyOptions) (mnk : Mnemonikey)
    (h : new C s creation opts = .ok mnk) :
    (∃ out, ∀ rnd, mnk.encodePGP C [] rnd = .ok (out, rnd)) ∧
    ∀ cert, ∃ out, ∀ rnd, mnk.encodeSubkeysPGP C [] cert rnd = .ok (out, rnd) := by
  obtain ⟨second, e, h1, h2, h3, rfl, hx2, rfl⟩ := new_shape hC hs h
  obtain ⟨order, hp, -, hall⟩ := encodeAll_eq hC
    (keySetOf C x.natAbs second (second * 10 ^ 9) (expiryOf (second * 10 ^ 9)
      (opts.getD KeyOptions.zero).ttl) (opts.getD KeyOptions.zero)) (by
      intro k hk
      simp only [keySetOf] at hk
      split at hk
      · cases hk; rfl
      · cases hk)
  generalize keySetOf C x.natAbs second (second * 10 ^ 9) (expiryOf (second * 10 ^ 9)
      (opts.getD KeyOptions.zero).ttl) (opts.getD KeyOptions.zero) = ks at *
  have hr : ∀ rnd, ksRnd ks [] rnd = rnd := by
    intro rnd; simp [ksRnd, afterIf, after]
  refine ⟨⟨writePackets (fullPackets C ks order [] []), fun rnd => ?_⟩,
    fun cert => ⟨writePackets (subPackets C ks order [] cert []), fun rnd => ?_⟩⟩
  · refine (encodePackets_eq hC ks order hall [] rnd (Or.inl rfl)).trans ?_
    rw [show after [] rnd = rnd from rfl, hr]
    rfl
  · refine (encodeSubkeys_eq hC ks order hall [] rnd cert (Or.inl rfl)).trans ?_
    rw [hr]
    rfl

theorem same_refl (C : Crypto) (t : Nat) (b : Bytes) (h5 : t ≠ 5) (h7 : t ≠ 7) :
    SamePublic C (t, b) (t, b) := by
  refine ⟨rfl, ?_⟩
  rw [if_neg (by simp [h5, h7])]

theorem key_same {C : Crypto} (base : ECKey) (kdf : Option (Nat × Nat)) (tag : Byte) (sec sec' : Bytes)
    (hk : KeyShape base kdf) (hl : base.publicSerialized.length = 32) (ht : tag.toNat = 5 ∨ tag.toNat = 7) :
    SamePublic C (tag.toNat, base.encodePublic ++ sec) (tag.toNat, base.encodePublic ++ sec') := by
  refine ⟨rfl, ?_⟩
  rw [if_pos ht]
  exact ⟨_, _, _, _, readPublic_encode C base kdf hk hl sec, readPublic_encode C base kdf hk hl sec'⟩

theorem subkeys_same {C : Crypto} (hC : C.Lawful) (uid : UserID) (ms : Bytes) (creation expiry : Int)
    (sE sA sG : Option Bytes) (hE : ∀ sd, sE = some sd → sd.length = 32) (hA : ∀ sd, sA = some sd → sd.length = 32)
    (hG : ∀ sd, sG = some sd → sd.length = 32) (password password' rnd rnd' : Bytes) (order : List Nat) :
    List.Forall₂ (SamePublic C)
      (((order.map fun i => (ksGrps C (mkKS C uid ms creation expiry sE sA sG) password rnd).getD i none).flatMap
        grpPackets).map fun p => (p.1.toNat, p.2))
      (((order.map fun i => (ksGrps C (mkKS C uid ms creation expiry sE sA sG) password' rnd').getD i none).flatMap
        grpPackets).map fun p => (p.1.toNat, p.2)) := by
  have ed : ∀ (sd : Bytes) (cr ex : Int) (tag : Byte) (sec sec' : Bytes), sd.length = 32 →
      (tag.toNat = 5 ∨ tag.toNat = 7) →
      SamePublic C (tag.toNat, (edKey C sd cr ex).base.encodePublic ++ sec)
        (tag.toNat, (edKey C sd cr ex).base.encodePublic ++ sec') :=
    fun sd cr ex tag sec sec' hl ht => key_same _ _ tag sec sec' (edKey_shape C sd cr ex)
      (hC.ed25519Pub_length sd hl) ht
  have cu : ∀ (sd : Bytes) (cr ex : Int) (tag : Byte) (sec sec' : Bytes), sd.length = 32 →
      (tag.toNat = 5 ∨ tag.toNat = 7) →
      SamePublic C (tag.toNat, (curveKey C sd cr ex).base.encodePublic ++ sec)
        (tag.toNat, (curveKey C sd cr ex).base.encodePublic ++ sec') :=
    fun sd cr ex tag sec sec' hl ht => key_same _ _ tag sec sec' (curveKey_shape C sd cr ex)
      (hC.x25519_length sd hl) ht
  induction order with
  | nil => exact .nil
  | cons i order ih =>
    simp only [List.map_cons, List.flatMap_cons, List.map_append]
    refine List.rel_append ?_ ih
    match i with
    | 0 =>
      cases sE with
      | none => exact .nil
      | some sd =>
        refine .cons ?_ (.cons ?_ .nil)
        · exact cu _ _ _ _ _ _ (hE sd rfl) (Or.inr rfl)
        · exact same_refl C 2 _ (by decide) (by decide)
    | 1 =>
      cases sA with
      | none => exact .nil
      | some sd =>
        refine .cons ?_ (.cons ?_ .nil)
        · exact ed _ _ _ _ _ _ (hA sd rfl) (Or.inr rfl)
        · exact same_refl C 2 _ (by decide) (by decide)
    | 2 =>
      cases sG with
      | none => exact .nil
      | some sd =>
        refine .cons ?_ (.cons ?_ .nil)
        · exact ed _ _ _ _ _ _ (hG sd rfl) (Or.inr rfl)
        · exact same_refl C 2 _ (by decide) (by decide)
    | i + 3 => simp [ksGrps, grpPackets]

/-- C37. Two exports of one key with any two passwords and random streams: packet by packet the
same, except for the secret parts of the key packets. -/
theorem c37_same_public {C : Crypto} (hC : C.Lawful) (era x : Int) (s : Seed)
    (hs : newSeed era x = .ok s) (creation : Int) (opts : Option KeyOptions) (mnk : Mnemonikey)
    (h : new C s creation opts = .ok mnk) (htt : (inForce opts).ttl < 2 ^ 63)
    (hu : mnk.userID.length < 2 ^ 32) (password password' rnd rnd' : Bytes)
    (hr : password = [] ∨ 96 ≤ rnd.length) (hr' : password' = [] ∨ 96 ≤ rnd'.length) :
    ∃ out rest ps out' rest' ps', mnk.encodePGP C password rnd = .ok (out, rest) ∧
      mnk.encodePGP C password' rnd' = .ok (out', rest') ∧
      readPackets out = some ps ∧ readPackets out' = some ps' ∧
      List.Forall₂ (SamePublic C) ps ps' := by
  obtain ⟨second, e, order, -, subs, hsubs, hperm, -, hcore⟩ := export_core hC hs h htt hu
  have en : ∀ p r : Bytes, (p = [] ∨ 96 ≤ r.length) → Enough 4 p r := by
    intro p r hh
    rcases hh with hh | hh
    · exact Or.inl hh
    · exact Or.inr (by omega)
  obtain ⟨a1, a2, -⟩ := (hcore password rnd).1 (en _ _ hr)
  obtain ⟨b1, b2, -⟩ := (hcore password' rnd').1 (en _ _ hr')
  refine ⟨_, _, _, _, _, _, a1, b1, a2, b2, ?_⟩
  obtain ⟨second, -, h1, h2, h3, rfl, hx2, rfl⟩ := new_shape hC hs h
  simp only
  rw [keySetOf_eq]
  unfold fullPackets
  simp only [List.map_append]
  refine List.rel_append ?_ (subkeys_same hC _ _ _ _ _ _ _ (selSeed_length hC _ _ _ _) (selSeed_length hC _ _ _ _)
    (selSeed_length hC _ _ _ _) _ _ _ _ _)
  refine .cons ?_ (.cons ?_ (.cons ?_ .nil))
  · exact key_same _ _ _ _ _ (edKey_shape C _ _ _) (hC.ed25519Pub_length _ (masterSeed_length hC _ _)) (Or.inl rfl)
  · exact same_refl C 13 _ (by decide) (by decide)
  · exact same_refl C 2 _ (by decide) (by decide)

/-- C37. Two exports of the subkeys alone: likewise. -/
theorem c37_same_public_subkeys {C : Crypto} (hC : C.Lawful) (era x : Int) (s : Seed)
    (hs : newSeed era x = .ok s) (creation : Int) (opts : Option KeyOptions) (mnk : Mnemonikey)
    (h : new C s creation opts = .ok mnk) (htt : (inForce opts).ttl < 2 ^ 63)
    (hu : mnk.userID.length < 2 ^ 32) (password password' rnd rnd' : Bytes)
    (hr : password = [] ∨ 72 ≤ rnd.length) (hr' : password' = [] ∨ 72 ≤ rnd'.length) (cert : Bool) :
    ∃ out rest ps out' rest' ps', mnk.encodeSubkeysPGP C password cert rnd = .ok (out, rest) ∧
      mnk.encodeSubkeysPGP C password' cert rnd' = .ok (out', rest') ∧
      readPackets out = some ps ∧ readPackets out' = some ps' ∧
      List.Forall₂ (SamePublic C) ps ps' := by
  obtain ⟨second, e, order, -, subs, hsubs, hperm, -, hcore⟩ := export_core hC hs h htt hu
  have en : ∀ p r : Bytes, (p = [] ∨ 72 ≤ r.length) → Enough 3 p r := by
    intro p r hh
    rcases hh with hh | hh
    · exact Or.inl hh
    · exact Or.inr (by omega)
  obtain ⟨a1, a2, -⟩ := (hcore password rnd).2.1 (en _ _ hr) cert
  obtain ⟨b1, b2, -⟩ := (hcore password' rnd').2.1 (en _ _ hr') cert
  refine ⟨_, _, _, _, _, _, a1, b1, a2, b2, ?_⟩
  obtain ⟨second, -, h1, h2, h3, rfl, hx2, rfl⟩ := new_shape hC hs h
  simp only
  rw [keySetOf_eq]
  unfold subPackets
  simp only [List.map_append]
  refine List.rel_append (List.rel_append ?_ ?_) (subkeys_same hC _ _ _ _ _ _ _ (selSeed_length hC _ _ _ _)
    (selSeed_length hC _ _ _ _) (selSeed_length hC _ _ _ _) _ _ _ _ _)
  · refine .cons ?_ (.cons ?_ .nil)
    · rw [stub_part]
      exact key_same _ _ _ _ _ (edKey_shape C _ _ _) (hC.ed25519Pub_length _ (masterSeed_length hC _ _)) (Or.inl rfl)
    · exact same_refl C 13 _ (by decide) (by decide)
  · cases cert with
    | false => exact .nil
    | true => exact .cons (same_refl C 2 _ (by decide) (by decide)) .nil

example : ∃ mnk out out' ps ps', new toyCrypto ⟨0, 5⟩ sampleTime (some sampleOpts) = .ok mnk ∧
    mnk.encodePGP toyCrypto [] [] = .ok (out, []) ∧
    mnk.encodePGP toyCrypto [1] (List.replicate 96 3) = .ok out' ∧
    readPackets out = some ps ∧ readPackets out'.1 = some ps' ∧
    List.Forall₂ (SamePublic toyCrypto) ps ps' := by
  obtain ⟨mnk, hs, h, h1, h2⟩ := sample_key
  obtain ⟨out, rest, ps, out', rest', ps', ha, hb, hc, hd, he⟩ := c37_same_public toyCrypto_lawful
    0 5 _ hs _ _ mnk h h1 h2 [] [1] [] (List.replicate 96 3) (Or.inl rfl) (Or.inr (by simp))
  obtain ⟨o, ho⟩ := (c37_deterministic toyCrypto_lawful 0 5 _ hs _ _ mnk h).1
  rw [ho []] at ha
  obtain ⟨rfl, rfl⟩ := Prod.mk.inj (Res.ok.inj ha)
  exact ⟨mnk, o, (out', rest'), ps, ps', h, ho [], hb, hc, hd, he⟩

example : ∃ mnk out out' ps ps', new toyCrypto ⟨0, 5⟩ sampleTime (some sampleOpts) = .ok mnk ∧
    mnk.encodeSubkeysPGP toyCrypto [2] true (List.replicate 72 4) = .ok out ∧
    mnk.encodeSubkeysPGP toyCrypto [1] true (List.replicate 96 3) = .ok out' ∧
    readPackets out.1 = some ps ∧ readPackets out'.1 = some ps' ∧
    List.Forall₂ (SamePublic toyCrypto) ps ps' := by
  obtain ⟨mnk, hs, h, h1, h2⟩ := sample_key
  obtain ⟨out, rest, ps, out', rest', ps', ha, hb, hc, hd, he⟩ := c37_same_public_subkeys toyCrypto_lawful
    0 5 _ hs _ _ mnk h h1 h2 [2] [1] (List.replicate 72 4) (List.replicate 96 3) (Or.inr (by simp))
    (Or.inr (by simp)) true
  exact ⟨mnk, (out, rest), (out', rest'), ps, ps', h, ha, hb, hc, hd, he⟩

/-! ## C38 -/

theorem clamp_range (b : Bytes) (h : b.length = 32) :
    num (clampScalar b).reverse % 8 = 0 ∧ 2 ^ 254 ≤ num (clampScalar b).reverse ∧
      num (clampScalar b).reverse < 2 ^ 255 := by
  rw [clamp_num b h]
  unfold Spec.clamped
  norm_num
  omega

/-- C38. The scalar of every Curve25519 subkey. -/
theorem c38_scalar {C : Crypto} (hC : C.Lawful) (seed : Bytes) (hl : seed.length = 32)
    (creation expiry : Int) (kdf : Option KeyDerivationParameters) :
    ∃ k, newCurveKey C seed creation expiry kdf = .ok k ∧
      num k.base.privateSerialized % 8 = 0 ∧ 2 ^ 254 ≤ num k.base.privateSerialized ∧
      num k.base.privateSerialized < 2 ^ 255 ∧
      C.x25519Base (octets 32 (num k.base.privateSerialized)).reverse = k.base.publicSerialized := by
  unfold newCurveKey
  rw [if_neg (by simpa using hl)]
  have e : reverse (((seed.modify 0 (fun b => b &&& 248)).modify 31 (fun b => b &&& 127)).modify 31
      (fun b => b ||| 64)) = (clampScalar seed).reverse := by
    rw [reverse_eq, clampScalar]
    congr 1
    simp [List.modify_modify_eq, Function.comp_def]
  have hcl : (clampScalar seed).length = 32 := by rw [clamp_length, hl]
  have hn := clamp_range seed hl
  refine ⟨_, rfl, ?_, ?_, ?_, ?_⟩
  · simp only [e]; exact hn.1
  · simp only [e]; exact hn.2.1
  · simp only [e]; exact hn.2.2
  · simp only [e]
    have : octets 32 (num (clampScalar seed).reverse) = (clampScalar seed).reverse := by
      rw [octets_eq, num_eq]
      have := beBytes_setBytes (clampScalar seed).reverse
      rwa [List.length_reverse, hcl] at this
    rw [this, List.reverse_reverse, hC.x25519_clamp seed hl]

theorem encryption_scalar {C : Crypto} (hC : C.Lawful) (seed second : Nat) (expires : Option Nat)
    (index : Nat) :
    ∃ n, (Spec.encryptionSubkey C seed second expires index).secret = .clear n ∧ n % 8 = 0 ∧
      2 ^ 254 ≤ n ∧ n < 2 ^ 255 ∧
      C.x25519Base (octets 32 n).reverse =
        (Spec.encryptionSubkey C seed second expires index).key.point := by
  have hl := subkeySeed_length hC seed second "encryption" index
  have hn := clamp_range _ hl
  have he : Spec.scalarInt C second seed index =
      num (clampScalar (Spec.subkeySeed C seed second "encryption" index)).reverse := (clamp_num _ hl).symm
  refine ⟨_, rfl, by rw [he]; exact hn.1, by rw [he]; exact hn.2.1, by rw [he]; exact hn.2.2, ?_⟩
  have hcl : (clampScalar (Spec.subkeySeed C seed second "encryption" index)).length = 32 := by
    rw [clamp_length, hl]
  have : octets 32 (num (clampScalar (Spec.subkeySeed C seed second "encryption" index)).reverse) =
      (clampScalar (Spec.subkeySeed C seed second "encryption" index)).reverse := by
    rw [octets_eq, num_eq]
    have := beBytes_setBytes (clampScalar (Spec.subkeySeed C seed second "encryption" index)).reverse
    rwa [List.length_reverse, hcl] at this
  rw [he, this, List.reverse_reverse, hC.x25519_clamp _ hl]
  rfl

/-- C38. Every subkey of algorithm 18 (ECDH) found in an export has a clamped secret integer that
belongs to its public point. -/
theorem c38_exported {C : Crypto} (hC : C.Lawful) (era x : Int) (s : Seed)
    (hs : newSeed era x = .ok s) (creation : Int) (opts : Option KeyOptions) (mnk : Mnemonikey)
    (h : new C s creation opts = .ok mnk) (htt : (inForce opts).ttl < 2 ^ 63)
    (hu : mnk.userID.length < 2 ^ 32) :
    ∃ out k, (∀ rnd, mnk.encodePGP C [] rnd = .ok (out, rnd)) ∧ importKey C out = some k ∧
      (Selected (inForce opts) "encryption" → ∃ sub ∈ k.subkeys, sub.key.algorithm = 18) ∧
      ∀ sub ∈ k.subkeys, sub.key.algorithm = 18 →
        ∃ n, sub.secret = .clear n ∧ n % 8 = 0 ∧ 2 ^ 254 ≤ n ∧ n < 2 ^ 255 ∧
          C.x25519Base (octets 32 n).reverse = sub.key.point := by
  obtain ⟨out, subs, ho, hp, hi, -⟩ := c32_export hC era x s hs creation opts mnk h htt hu
  refine ⟨out, _, ho, hi, ?_, ?_⟩
  · intro hsel
    have hw : (wanted C (inForce opts)).encryption = some (inForce opts).encryptionSubkeyIndex.toNat := by
      simp [wanted, hsel]
    refine ⟨Spec.encryptionSubkey C x.natAbs (creation / 10 ^ 9).toNat
      (wanted C (inForce opts)).expires (inForce opts).encryptionSubkeyIndex.toNat, ?_, rfl⟩
    show _ ∈ subs
    rw [hp.mem_iff]
    simp [wantedSubkeys, hw]
  · intro sub hsub halg
    have hsub' : sub ∈ subs := hsub
    rw [hp.mem_iff] at hsub'
    simp only [wantedSubkeys, List.mem_append, Option.mem_toList,
      Option.map_eq_some_iff] at hsub'
    rcases hsub' with (⟨i, -, rfl⟩ | ⟨i, -, rfl⟩) | ⟨i, -, rfl⟩
    · exact encryption_scalar hC _ _ _ _
    · exact absurd halg (by show ¬ (22 = 18); decide)
    · exact absurd halg (by show ¬ (22 = 18); decide)

example : ∃ mnk out k, new toyCrypto ⟨0, 5⟩ sampleTime none = .ok mnk ∧
    mnk.encodePGP toyCrypto [] [] = .ok (out, []) ∧ importKey toyCrypto out = some k ∧
    ∃ sub ∈ k.subkeys, sub.key.algorithm = 18 := by
  obtain ⟨mnk, h, -⟩ := (c20_new toyCrypto_lawful 5 (by decide) 0 sampleTime
    none).2.2.2.2 rfl (by decide) (by decide) (by decide)
  have hs : newSeed 0 5 = .ok ⟨0, 5⟩ := by decide
  have hu : mnk.userID.length < 2 ^ 32 := by
    obtain ⟨a, -, -, -, -, -, -, rfl⟩ := new_shape toyCrypto_lawful hs h
    show (0 : Nat) < 2 ^ 32
    decide
  obtain ⟨out, k, ho, hi, hsel, -⟩ := c38_exported toyCrypto_lawful 0 5 _ hs _ _ mnk h
    (by decide) hu
  exact ⟨mnk, out, k, h, ho [], hi, hsel (by decide)⟩

/-- Clamping changes this seed in both places. -/
example : clampScalar (List.replicate 32 0xFF) =
    0xF8 :: (List.replicate 30 0xFF ++ [0x7F]) := by decide

/-! ## C39 -/

/-- C39. The fingerprint of a key built by New: 20 octets, the SHA-1 of 0x99, a two-octet length
and the version-4 body. -/
theorem c39_fingerprint {C : Crypto} (hC : C.Lawful) (era x : Int) (s : Seed)
    (hs : newSeed era x = .ok s) (creation : Int) (opts : Option KeyOptions) (mnk : Mnemonikey)
    (h : new C s creation opts = .ok mnk) :
    (mnk.fingerprint C).length = 20 ∧
    ∃ body : Bytes, body.length = 51 ∧
      mnk.fingerprint C = C.sha1 ([0x99, 0x00, 0x33] ++ body) ∧
      body = [4] ++ octets 4 (creation / 10 ^ 9).toNat ++ [22, 9] ++ Spec.OpenPGP.oidEd25519 ++
        [0x01, 0x07, 0x40] ++ mnk.pgpKeySet.masterKey.pub := by
  have hm := c23_master hC era x s hs creation opts mnk h
  simp only at hm
  have hl : (wantedMasterSeed C x.natAbs (creation / 10 ^ 9).toNat).length = 32 :=
    hC.hkdf_length _ _ _
  have hpl := hC.ed25519Pub_length _ hl
  have e : Spec.edBody (creation / 10 ^ 9).toNat
      (C.ed25519Pub (wantedMasterSeed C x.natAbs (creation / 10 ^ 9).toNat)) =
      [4] ++ octets 4 (creation / 10 ^ 9).toNat ++ [22, 9] ++ Spec.OpenPGP.oidEd25519 ++
        [0x01, 0x07, 0x40] ++ mnk.pgpKeySet.masterKey.pub := by
    rw [hm.2.2.1]; simp [Spec.edBody]
  have hbl : (Spec.edBody (creation / 10 ^ 9).toNat
      (C.ed25519Pub (wantedMasterSeed C x.natAbs (creation / 10 ^ 9).toNat))).length = 51 := by
    generalize C.ed25519Pub (wantedMasterSeed C x.natAbs (creation / 10 ^ 9).toNat) = pub at hpl
    simp [Spec.edBody, hpl, octets, Spec.OpenPGP.oidEd25519]
  refine ⟨?_, _, hbl, ?_, e⟩
  · rw [hm.2.2.2]; exact hC.sha1_length _
  · rw [hm.2.2.2, Spec.fingerprint, Spec.OpenPGP.keyPreimage, hbl]
    have : octets 2 51 = [0x00, 0x33] := by decide
    rw [this]

example : ∃ mnk, new toyCrypto ⟨0, 5⟩ sampleTime (some sampleOpts) = .ok mnk ∧
    (mnk.fingerprint toyCrypto).length = 20 := by
  obtain ⟨mnk, hs, h, -⟩ := sample_key
  exact ⟨mnk, h, (c39_fingerprint toyCrypto_lawful 0 5 _ hs _ _ mnk h).1⟩

/-- The octets hashed for the fingerprint of a version 5 key (RFC 4880bis, section 12.2): 0x9A, a four-octet
length and the body of the key packet, which begins with the version number 5. -/
def IsV5Preimage (m : Bytes) : Prop :=
  ∃ rest : Bytes, m = [0x9A] ++ octets 4 (rest.length + 1) ++ [5] ++ rest

/-- C39. FingerprintV5, which nothing calls, hashes the version 4 body under the header of version 5, which
is not the octets of any version 5 key. -/
theorem c39_v5 (C : Crypto) (k : ECKey) :
    ∃ m, k.fingerprintV5 C = C.sha256 m ∧
      (∃ rest, m = [0x9A] ++ octets 4 (rest.length + 1) ++ [4] ++ rest ∧ k.encodePublic = 4 :: rest) ∧
      ¬ IsV5Preimage m := by
  obtain ⟨rest, hr⟩ : ∃ rest, k.encodePublic = 4 :: rest := ⟨_, rfl⟩
  refine ⟨[0x9A] ++ octets 4 (rest.length + 1) ++ [4] ++ rest, ?_, ⟨rest, rfl, hr⟩, ?_⟩
  · unfold ECKey.fingerprintV5
    simp only [hr, ← octets_eq]
    simp [publicKeyPrefixV5]
  · rintro ⟨r', h⟩
    have := congrArg (fun l => l[5]?) h
    simp [octets] at this

/-- C39. The hashed octets determine creation time, algorithm, curve, point and KDF parameters, for
any two EdDSA or ECDH keys the code makes. -/
theorem c39_commits (C : Crypto) (k1 k2 : ECKey) (kdf1 kdf2 : Option (Nat × Nat))
    (s1 : KeyShape k1 kdf1) (s2 : KeyShape k2 kdf2) (l1 : k1.publicSerialized.length = 32)
    (l2 : k2.publicSerialized.length = 32)
    (h : Spec.OpenPGP.keyPreimage k1.encodePublic = Spec.OpenPGP.keyPreimage k2.encodePublic) :
    u32 (unix k1.creation) = u32 (unix k2.creation) ∧ k1.algorithm = k2.algorithm ∧
      k1.curveOID = k2.curveOID ∧ k1.publicSerialized = k2.publicSerialized ∧ kdf1 = kdf2 := by
  have hb : k1.encodePublic = k2.encodePublic := by
    have := congrArg (List.drop 3) h
    simpa [Spec.OpenPGP.keyPreimage, octets] using this
  have r1 := readPublic_encode C k1 kdf1 s1 l1 []
  have r2 := readPublic_encode C k2 kdf2 s2 l2 []
  rw [hb, r2] at r1
  have hv : viewPublic C k2 kdf2 = viewPublic C k1 kdf1 := congrArg Prod.fst (Option.some.inj r1)
  unfold viewPublic at hv
  simp only [PublicKey.mk.injEq] at hv
  refine ⟨hv.1.symm, ?_, hv.2.2.1.symm, hv.2.2.2.1.symm, hv.2.2.2.2.1.symm⟩
  exact UInt8.toNat_inj.mp hv.2.1.symm

/-- C39, for the master keys of two Mnemonikeys: equal hashed octets mean equal creation time and
public key. -/
theorem c39_commits_master {C : Crypto} (hC : C.Lawful) (era x era' x' : Int) (s s' : Seed)
    (hs : newSeed era x = .ok s) (hs' : newSeed era' x' = .ok s') (t t' : Int)
    (o o' : Option KeyOptions) (m m' : Mnemonikey) (h : new C s t o = .ok m)
    (h' : new C s' t' o' = .ok m')
    (heq : Spec.OpenPGP.keyPreimage m.pgpKeySet.masterKey.base.encodePublic =
      Spec.OpenPGP.keyPreimage m'.pgpKeySet.masterKey.base.encodePublic) :
    m.createdAt = m'.createdAt ∧ m.pgpKeySet.masterKey.pub = m'.pgpKeySet.masterKey.pub := by
  obtain ⟨a, -, a1, a2, -, rfl, -, rfl⟩ := new_shape hC hs h
  obtain ⟨b, -, b1, b2, -, rfl, -, rfl⟩ := new_shape hC hs' h'
  have := c39_commits C _ _ none none (edKey_shape C _ _ _) (edKey_shape C _ _ _)
    (hC.ed25519Pub_length _ (masterSeed_length hC _ _))
    (hC.ed25519Pub_length _ (masterSeed_length hC _ _)) heq
  have e : u32 (unix ((a : Int) * 10 ^ 9)) = u32 (unix ((b : Int) * 10 ^ 9)) := this.1
  rw [u32_second a (by omega), u32_second b (by omega)] at e
  refine ⟨?_, this.2.2.2.1⟩
  simp only [Mnemonikey.createdAt, e]

example : KeyShape (edKey toyCrypto (List.replicate 32 1) sampleTime 0).base none ∧
    KeyShape (curveKey toyCrypto (List.replicate 32 1) sampleTime 0).base (some (8, 7)) ∧
    (edKey toyCrypto (List.replicate 32 1) sampleTime 0).base.publicSerialized.length = 32 :=
  ⟨edKey_shape _ _ _ _, curveKey_shape _ _ _ _, by decide⟩

end Verif.Props
