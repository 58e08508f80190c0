import Verif.Proofs.PublicKey
import Verif.Props.Protect

/-!
# The public half of an export (C90)
-/

namespace Verif.Props

open Verif.Model Verif.Model.Pgp Verif.Proofs Verif.Spec Verif.Spec.OpenPGP Verif.Instances

/-- The bytes with which a packet of an export is replaced: those of the package's functions for public
packets, for the master key and for the subkeys; other packets stay. -/
inductive PublicFor (ks : KeySet) : Nat × Bytes → Bytes → Prop where
  | master (body : Bytes) : PublicFor ks (5, body) ks.masterKey.encodePublicPacket
  | encryption {k : CurveKey} (body : Bytes) : ks.encryptionSubkey = some k →
    PublicFor ks (7, body) k.base.encodePublicSubkeyPacket
  | authentication {k : EdKey} (body : Bytes) : ks.authenticationSubkey = some k →
    PublicFor ks (7, body) k.base.encodePublicSubkeyPacket
  | signing {k : EdKey} (body : Bytes) : ks.signingSubkey = some k →
    PublicFor ks (7, body) k.base.encodePublicSubkeyPacket
  | other {tag : Nat} {body bytes : Bytes} : tag ≠ 5 → tag ≠ 7 → readPacket bytes = some ((tag, body), []) →
    PublicFor ks (tag, body) bytes

/-- The packets of an export -/
inductive PacketOf (ks : KeySet) : Byte × Bytes → Prop where
  | master (sec : Bytes) : PacketOf ks (5, ks.masterKey.base.encodePublic ++ sec)
  | encryption {k : CurveKey} (sec : Bytes) : ks.encryptionSubkey = some k →
    PacketOf ks (7, k.base.encodePublic ++ sec)
  | authentication {k : EdKey} (sec : Bytes) : ks.authenticationSubkey = some k →
    PacketOf ks (7, k.base.encodePublic ++ sec)
  | signing {k : EdKey} (sec : Bytes) : ks.signingSubkey = some k →
    PacketOf ks (7, k.base.encodePublic ++ sec)
  | other {tag : Byte} {body : Bytes} : tag.toNat ≠ 5 → tag.toNat ≠ 7 → tag.toNat < 64 →
    body.length < 2 ^ 32 → PacketOf ks (tag, body)

/-- The key can be read. -/
def Readable (base : ECKey) : Prop := ∃ kdf, KeyShape base kdf ∧ base.publicSerialized.length = 32

theorem readable_pub {C : Crypto} {base : ECKey} (h : Readable base) {sec pub rest : Bytes} {k : PublicKey}
    (hr : readPublic C (base.encodePublic ++ sec) = some (k, pub, rest)) :
    pub = base.encodePublic ∧ base.encodePublic.length < 2 ^ 32 := by
  obtain ⟨kdf, h1, h2⟩ := h
  rw [readPublic_encode C base kdf h1 h2] at hr
  cases hr
  exact ⟨rfl, lt_of_le_of_lt (encodePublic_length base kdf h1 h2) (by norm_num)⟩

theorem public_packets {C : Crypto} {ks : KeySet} (hm : Readable ks.masterKey.base)
    (he : ∀ k, ks.encryptionSubkey = some k → Readable k.base)
    (ha : ∀ k, ks.authenticationSubkey = some k → Readable k.base)
    (hg : ∀ k, ks.signingSubkey = some k → Readable k.base) :
    ∀ (ps : List (Byte × Bytes)) (qs : List (Nat × Bytes)), (∀ p ∈ ps, PacketOf ks p) →
      List.Forall₂ (PublicPacket C) (ps.map fun p => (p.1.toNat, p.2)) qs →
      ∃ rs : List (Byte × Bytes), qs = rs.map (fun p => (p.1.toNat, p.2)) ∧
        (∀ r ∈ rs, r.1.toNat < 64 ∧ r.2.length < 2 ^ 32) ∧
        List.Forall₂ (PublicFor ks) (ps.map fun p => (p.1.toNat, p.2)) (rs.map fun p => encodePacket p.1 p.2) := by
  intro ps
  induction ps with
  | nil =>
    intro qs _ h
    cases h
    exact ⟨[], rfl, by simp, .nil⟩
  | cons p ps ih =>
    intro qs hp h
    cases h with
    | @cons _ q _ qs hq hqs =>
      obtain ⟨rs, rfl, h2, h3⟩ := ih qs (fun p hp' => hp p (List.mem_cons_of_mem _ hp')) hqs
      have one : ∃ r : Byte × Bytes, q = (r.1.toNat, r.2) ∧ (r.1.toNat < 64 ∧ r.2.length < 2 ^ 32) ∧
          PublicFor ks (p.1.toNat, p.2) (encodePacket r.1 r.2) := by
        have hpp := hp p (List.mem_cons_self ..)
        have sub : ∀ (base : ECKey) (sec : Bytes), Readable base →
            PublicPacket C (7, base.encodePublic ++ sec) q →
            q = (14, base.encodePublic) ∧ base.encodePublic.length < 2 ^ 32 := by
          intro base sec hb hq
          cases hq with
          | subkey h =>
            obtain ⟨e, e'⟩ := readable_pub hb h
            exact ⟨by rw [e], e'⟩
          | other _ h => exact absurd rfl h
        cases hpp with
        | master sec =>
          have hq : PublicPacket C (5, ks.masterKey.base.encodePublic ++ sec) q := hq
          cases hq with
          | key h =>
            obtain ⟨e, e'⟩ := readable_pub hm h
            exact ⟨(6, ks.masterKey.base.encodePublic), by rw [e]; rfl, ⟨(by decide : (6 : Nat) < 64), e'⟩, .master _⟩
          | other h _ => exact absurd rfl h
        | encryption sec hk =>
          obtain ⟨e, e'⟩ := sub _ sec (he _ hk) hq
          exact ⟨(14, _), e, ⟨(by decide : (14 : Nat) < 64), e'⟩, .encryption _ hk⟩
        | authentication sec hk =>
          obtain ⟨e, e'⟩ := sub _ sec (ha _ hk) hq
          exact ⟨(14, _), e, ⟨(by decide : (14 : Nat) < 64), e'⟩, .authentication _ hk⟩
        | signing sec hk =>
          obtain ⟨e, e'⟩ := sub _ sec (hg _ hk) hq
          exact ⟨(14, _), e, ⟨(by decide : (14 : Nat) < 64), e'⟩, .signing _ hk⟩
        | @other tag body h5 h7 h64 hl =>
          have : q = (tag.toNat, body) := by
            replace hq : PublicPacket C (tag.toNat, body) q := hq
            generalize tag.toNat = t at *
            cases hq with
            | key => exact absurd rfl h5
            | subkey => exact absurd rfl h7
            | other => rfl
          exact ⟨(tag, body), this, ⟨h64, hl⟩, .other h5 h7 (by simpa using c30_packet tag h64 body [] hl)⟩
      obtain ⟨r, rfl, hr, hf⟩ := one
      exact ⟨r :: rs, rfl, fun x hx => (List.mem_cons.1 hx).elim (fun e => e ▸ hr) (h2 x), .cons hf h3⟩

/-- The packets of exports of keys built by New, and that the keys can be read -/
theorem new_packets {C : Crypto} (hC : C.Lawful) {era x : Int} {s : Seed} (hs : newSeed era x = .ok s)
    {creation : Int} {opts : Option KeyOptions} {mnk : Mnemonikey} (h : new C s creation opts = .ok mnk)
    (hu : mnk.userID.length < 2 ^ 32) (order : List Nat) :
    (Readable mnk.pgpKeySet.masterKey.base ∧
      (∀ k, mnk.pgpKeySet.encryptionSubkey = some k → Readable k.base) ∧
      (∀ k, mnk.pgpKeySet.authenticationSubkey = some k → Readable k.base) ∧
      (∀ k, mnk.pgpKeySet.signingSubkey = some k → Readable k.base)) ∧
    ∀ password rnd, (Enough 4 password rnd →
        ∀ p ∈ fullPackets C mnk.pgpKeySet order password rnd, PacketOf mnk.pgpKeySet p) ∧
      (Enough 3 password rnd →
        ∀ cert, ∀ p ∈ subPackets C mnk.pgpKeySet order password cert rnd, PacketOf mnk.pgpKeySet p) := by
  obtain ⟨second, -, h1, h2, h3, rfl, hx2, rfl⟩ := new_shape hC hs h
  have huid : (UserID.mk (opts.getD KeyOptions.zero).name (opts.getD KeyOptions.zero).email).encode.length < 2 ^ 32 := hu
  generalize opts.getD KeyOptions.zero = o at *
  dsimp only
  rw [keySetOf_eq]
  have hms := masterSeed_length hC x.natAbs second
  have hE := selSeed_length hC x.natAbs second "encryption" (wanted C o).encryption
  have hA := selSeed_length hC x.natAbs second "authentication" (wanted C o).authentication
  have hG := selSeed_length hC x.natAbs second "signing" (wanted C o).signing
  generalize selSeed C x.natAbs second "encryption" _ = sE at *
  generalize selSeed C x.natAbs second "authentication" _ = sA at *
  generalize selSeed C x.natAbs second "signing" _ = sG at *
  have ed : ∀ (sd : Bytes) (cr ex : Int), sd.length = 32 → Readable (edKey C sd cr ex).base :=
    fun sd cr ex hl => ⟨_, edKey_shape C sd cr ex, hC.ed25519Pub_length sd hl⟩
  have cu : ∀ (sd : Bytes) (cr ex : Int), sd.length = 32 → Readable (curveKey C sd cr ex).base :=
    fun sd cr ex hl => ⟨_, curveKey_shape C sd cr ex, hC.x25519_length sd hl⟩
  have sig2 : ∀ b : Bytes, b.length < 2 ^ 32 → PacketOf (mkKS C ⟨o.name, o.email⟩ (masterSeed C x.natAbs second)
      (second * 10 ^ 9) (expiryOf (second * 10 ^ 9) o.ttl) sE sA sG) (packetTagSignature, b) :=
    fun b hb => .other (by decide) (by decide) (by decide) hb
  have hcert := cert_read hC _ hms (second * 10 ^ 9) (expiryOf (second * 10 ^ 9) o.ttl) ⟨o.name, o.email⟩
  have groups : ∀ password rnd, Enough 3 password rnd → ∀ order : List Nat,
      ∀ p ∈ (order.map (fun i => (ksGrps C (mkKS C ⟨o.name, o.email⟩ (masterSeed C x.natAbs second)
        (second * 10 ^ 9) (expiryOf (second * 10 ^ 9) o.ttl) sE sA sG) password rnd).getD i none)).flatMap grpPackets,
      PacketOf (mkKS C ⟨o.name, o.email⟩ (masterSeed C x.natAbs second)
        (second * 10 ^ 9) (expiryOf (second * 10 ^ 9) o.ttl) sE sA sG) p := by
    intro password rnd hen order p hp
    have hgood := ksGrps_good hC ⟨o.name, o.email⟩ _ hms (second * 10 ^ 9) (expiryOf (second * 10 ^ 9) o.ttl)
      sE sA sG hE hA hG password rnd hen
    obtain ⟨g, hg, hpg⟩ := List.mem_flatMap.1 hp
    obtain ⟨i, -, hi⟩ := List.mem_map.1 hg
    cases g with
    | none => simp [grpPackets] at hpg
    | some g =>
      have hm := mem_getD _ _ _ hi
      have hgd := hgood g hm
      simp only [grpPackets, Option.map_some, Option.getD_some, Grp.packets, List.mem_cons,
        List.not_mem_nil, or_false] at hpg
      rcases hpg with rfl | rfl
      · simp only [ksGrps, mkKS, Option.map_map, List.mem_cons, List.not_mem_nil, or_false] at hm
        rcases hm with hm | hm | hm
        · obtain ⟨sd, hsd, rfl⟩ := Option.map_eq_some_iff.1 hm.symm
          exact .encryption _ (by simp only [mkKS, hsd, Option.map_some])
        · obtain ⟨sd, hsd, rfl⟩ := Option.map_eq_some_iff.1 hm.symm
          exact .authentication _ (by simp only [mkKS, hsd, Option.map_some])
        · obtain ⟨sd, hsd, rfl⟩ := Option.map_eq_some_iff.1 hm.symm
          exact .signing _ (by simp only [mkKS, hsd, Option.map_some])
      · exact sig2 _ hgd.2.2
  refine ⟨⟨ed _ _ _ hms, ?_, ?_, ?_⟩, fun password rnd => ⟨fun hen p hp => ?_, fun hen cert p hp => ?_⟩⟩
  · intro k hk
    obtain ⟨sd, hsd, rfl⟩ := Option.map_eq_some_iff.1 hk
    exact cu _ _ _ (hE sd hsd)
  · intro k hk
    obtain ⟨sd, hsd, rfl⟩ := Option.map_eq_some_iff.1 hk
    exact ed _ _ _ (hA sd hsd)
  · intro k hk
    obtain ⟨sd, hsd, rfl⟩ := Option.map_eq_some_iff.1 hk
    exact ed _ _ _ (hG sd hsd)
  · simp only [fullPackets, List.mem_append, List.mem_cons, List.not_mem_nil, or_false] at hp
    rcases hp with (rfl | rfl | rfl) | hp
    · exact .master _
    · exact .other (by decide) (by decide) (by decide) huid
    · exact sig2 _ hcert.2
    · exact groups password (after password rnd) (enough_after hen) order p hp
  · simp only [subPackets, List.mem_append, List.mem_cons, List.not_mem_nil, or_false] at hp
    rcases hp with ((rfl | rfl) | hp) | hp
    · show PacketOf _ (5, _)
      rw [stub_part]
      exact .master _
    · exact .other (by decide) (by decide) (by decide) huid
    · split at hp
      · rw [List.mem_singleton.1 hp]
        exact sig2 _ hcert.2
      · cases hp
    · exact groups password rnd hen order p hp

/-- The bytes are the public half of the exported key: for each packet the public one, together a
transferable public key with the same keys, user ID and valid signatures; and its key packets contain the
public keys and nothing else. -/
def IsPublicHalf (C : Crypto) (ks : KeySet) (out : Bytes) (pub : Bytes) : Prop :=
  ∃ ps bs k qs, readPackets out = some ps ∧ List.Forall₂ (PublicFor ks) ps bs ∧ pub = bs.flatten ∧
    importKey C out = some k ∧ importPublic C pub = some k.toPublic ∧
    readPackets pub = some qs ∧ (qs.filter holdsPublicKey).map Prod.snd =
      publicBody k.key :: k.subkeys.map fun s => publicBody s.key

/-- What is public about the packets determines the public half. -/
theorem half_of {C : Crypto} {ks : KeySet} (hk : Readable ks.masterKey.base ∧
      (∀ k, ks.encryptionSubkey = some k → Readable k.base) ∧
      (∀ k, ks.authenticationSubkey = some k → Readable k.base) ∧
      (∀ k, ks.signingSubkey = some k → Readable k.base)) {ps : List (Byte × Bytes)} {out : Bytes}
    (hps : ∀ p ∈ ps, PacketOf ks p) (ho : readPackets out = some (ps.map fun p => (p.1.toNat, p.2)))
    {k : KeyInfo} (hi : importKey C out = some k) :
    ∃ rs : List (Byte × Bytes), List.Forall₂ (PublicPacket C) (ps.map fun p => (p.1.toNat, p.2))
      (rs.map fun p => (p.1.toNat, p.2)) ∧
      IsPublicHalf C ks out (rs.map fun p => encodePacket p.1 p.2).flatten := by
  obtain ⟨ps', qs, h1, h2, h3⟩ := importPublic_of hi
  rw [ho] at h1
  cases h1
  obtain ⟨rs, rfl, h4, h5⟩ := public_packets hk.1 hk.2.1 hk.2.2.1 hk.2.2.2 ps qs hps h2
  have hr := readPackets_flatten rs h4
  have hp := h3 _ hr
  obtain ⟨qs, h6, h7⟩ := importPublic_bodies hp
  refine ⟨rs, h2, _, _, k, _, ho, h5, rfl, hi, hp, h6, ?_⟩
  rw [h7]
  simp [KeyInfo.toPublic, SubkeyInfo.toPublic]

theorem public_unique {C : Crypto} : ∀ {ps ps' qs qs' : List (Nat × Bytes)},
    List.Forall₂ (SamePublic C) ps ps' → List.Forall₂ (PublicPacket C) ps qs →
    List.Forall₂ (PublicPacket C) ps' qs' → qs = qs' := by
  intro ps ps' qs qs' h
  induction h generalizing qs qs' with
  | nil =>
    intro h h'
    cases h
    cases h'
    rfl
  | @cons p p' ps ps' hp _ ih =>
    intro h h'
    cases h with
    | cons hq hqs =>
      cases h' with
      | cons hq' hqs' =>
        rw [ih hqs hqs']
        congr 1
        obtain ⟨t, b⟩ := p
        obtain ⟨t', b'⟩ := p'
        obtain ⟨e, hp⟩ := hp
        dsimp only at e hp
        subst e
        cases hq with
        | key h =>
          cases hq' with
          | key h' =>
            rw [if_pos (Or.inl rfl)] at hp
            obtain ⟨_, _, _, _, e, e'⟩ := hp
            rw [e] at h
            rw [e'] at h'
            cases h
            cases h'
            rfl
          | other h => exact absurd rfl h
        | subkey h =>
          cases hq' with
          | subkey h' =>
            rw [if_pos (Or.inr rfl)] at hp
            obtain ⟨_, _, _, _, e, e'⟩ := hp
            rw [e] at h
            rw [e'] at h'
            cases h
            cases h'
            rfl
          | other _ h => exact absurd rfl h
        | other h5 h7 =>
          rw [if_neg (by simp [h5, h7])] at hp
          cases hq' with
          | key => exact absurd rfl h5
          | subkey => exact absurd rfl h7
          | other => rw [hp]

theorem packets_inj : ∀ {rs rs' : List (Byte × Bytes)},
    (rs.map fun p => (p.1.toNat, p.2)) = (rs'.map fun p => (p.1.toNat, p.2)) → rs = rs' := by
  intro rs rs' h
  refine List.map_injective_iff.2 ?_ h
  rintro ⟨a, b⟩ ⟨a', b'⟩ e
  simp only [Prod.mk.injEq] at e ⊢
  exact ⟨UInt8.toNat_inj.1 e.1, e.2⟩

/-- C90. An export of the whole key, with any password: replacing the key packets by what the package's
functions for public packets write gives a transferable public key, and always the same one. -/
theorem c90_public {C : Crypto} (hC : C.Lawful) (era x : Int) (s : Seed)
    (hs : newSeed era x = .ok s) (creation : Int) (opts : Option KeyOptions) (mnk : Mnemonikey)
    (h : new C s creation opts = .ok mnk) (htt : (inForce opts).ttl < 2 ^ 63)
    (hu : mnk.userID.length < 2 ^ 32) :
    ∃ pub, ∀ password rnd : Bytes, (password = [] ∨ 96 ≤ rnd.length) →
      ∃ out rest, mnk.encodePGP C password rnd = .ok (out, rest) ∧ IsPublicHalf C mnk.pgpKeySet out pub := by
  obtain ⟨second, e, order, -, subs, hsubs, hperm, -, hcore⟩ := export_core hC hs h htt hu
  obtain ⟨hk, hps⟩ := new_packets hC hs h hu order
  have en : ∀ password rnd : Bytes, (password = [] ∨ 96 ≤ rnd.length) → Enough 4 password rnd := by
    intro password rnd hr
    rcases hr with hr | hr
    · exact Or.inl hr
    · exact Or.inr (by omega)
  have one : ∀ password rnd : Bytes, (password = [] ∨ 96 ≤ rnd.length) → ∃ out rest ps, ∃ rs : List (Byte × Bytes),
      mnk.encodePGP C password rnd = .ok (out, rest) ∧ readPackets out = some ps ∧
      List.Forall₂ (PublicPacket C) ps (rs.map fun p => (p.1.toNat, p.2)) ∧
      IsPublicHalf C mnk.pgpKeySet out (rs.map fun p => encodePacket p.1 p.2).flatten := by
    intro password rnd hr
    obtain ⟨a1, a2, a3⟩ := (hcore password rnd).1 (en _ _ hr)
    obtain ⟨rs, h1, h2⟩ := half_of hk ((hps password rnd).1 (en _ _ hr)) a2 a3
    exact ⟨_, _, _, rs, a1, a2, h1, h2⟩
  obtain ⟨out, rest, ps, rs, h1, h2, h3, -⟩ := one [] [] (Or.inl rfl)
  refine ⟨(rs.map fun p => encodePacket p.1 p.2).flatten, fun password rnd hr => ?_⟩
  obtain ⟨out', rest', ps', rs', h1', h2', h3', h4'⟩ := one password rnd hr
  obtain ⟨_, _, _, _, _, _, e1, e1', e2, e2', hsame⟩ := c37_same_public hC era x s hs creation opts mnk h htt hu
    [] password [] rnd (Or.inl rfl) hr
  rw [h1] at e1
  cases e1
  rw [h1'] at e1'
  cases e1'
  rw [h2] at e2
  cases e2
  rw [h2'] at e2'
  cases e2'
  rw [packets_inj (public_unique hsame h3 h3')]
  exact ⟨_, _, h1', h4'⟩

/-- C90. An export of the subkeys only: as well. -/
theorem c90_subkeys {C : Crypto} (hC : C.Lawful) (era x : Int) (s : Seed)
    (hs : newSeed era x = .ok s) (creation : Int) (opts : Option KeyOptions) (mnk : Mnemonikey)
    (h : new C s creation opts = .ok mnk) (htt : (inForce opts).ttl < 2 ^ 63)
    (hu : mnk.userID.length < 2 ^ 32) (password rnd : Bytes) (hr : password = [] ∨ 96 ≤ rnd.length)
    (cert : Bool) :
    ∃ out rest pub, mnk.encodeSubkeysPGP C password cert rnd = .ok (out, rest) ∧
      IsPublicHalf C mnk.pgpKeySet out pub := by
  obtain ⟨second, e, order, -, subs, hsubs, hperm, -, hcore⟩ := export_core hC hs h htt hu
  obtain ⟨hk, hps⟩ := new_packets hC hs h hu order
  have en : Enough 3 password rnd := by
    rcases hr with hr | hr
    · exact Or.inl hr
    · exact Or.inr (by omega)
  obtain ⟨a1, a2, a3⟩ := (hcore password rnd).2.1 en cert
  obtain ⟨rs, -, hp⟩ := half_of hk ((hps password rnd).2 en cert) a2 a3
  exact ⟨_, _, _, a1, hp⟩

/-- A key with all three subkeys: the public half of its export with and without a password is the same. -/
example : ∃ mnk pub out out', new toyCrypto ⟨0, 5⟩ sampleTime (some sampleOpts) = .ok mnk ∧
    mnk.encodePGP toyCrypto [] [] = .ok out ∧ mnk.encodePGP toyCrypto [1] (List.replicate 96 3) = .ok out' ∧
    IsPublicHalf toyCrypto mnk.pgpKeySet out.1 pub ∧ IsPublicHalf toyCrypto mnk.pgpKeySet out'.1 pub := by
  obtain ⟨mnk, hs, h, h1, h2⟩ := sample_key
  obtain ⟨pub, hp⟩ := c90_public toyCrypto_lawful 0 5 _ hs _ _ mnk h h1 h2
  obtain ⟨out, rest, e1, e2⟩ := hp [] [] (Or.inl rfl)
  obtain ⟨out', rest', e1', e2'⟩ := hp [1] (List.replicate 96 3) (Or.inr (by simp))
  exact ⟨mnk, pub, _, _, h, e1, e1', e2, e2'⟩

example : ∃ mnk pub out, new toyCrypto ⟨0, 5⟩ sampleTime (some sampleOpts) = .ok mnk ∧
    mnk.encodeSubkeysPGP toyCrypto [1] false (List.replicate 96 3) = .ok out ∧
    IsPublicHalf toyCrypto mnk.pgpKeySet out.1 pub := by
  obtain ⟨mnk, hs, h, h1, h2⟩ := sample_key
  obtain ⟨out, rest, pub, e1, e2⟩ := c90_subkeys toyCrypto_lawful 0 5 _ hs _ _ mnk h h1 h2 [1]
    (List.replicate 96 3) (Or.inr (by simp)) false
  exact ⟨mnk, pub, _, h, e1, e2⟩

end Verif.Props
