import Verif.Proofs.Slices
import Verif.Proofs.KeySet
import Verif.ToyCrypto

/-!
# C118: exports do not write to memory that anyone else holds

The model of package pgp on a memory of byte arrays (`Verif.Model.Pgp.Slices`) against the model on values.
The capacities that the run-time system gives to new arrays are arbitrary.
-/

namespace Verif.Props.Slices

open Verif.Instances Verif.Model Verif.Model.Pgp Verif.Model.Slices Verif.Spec.Slices Verif.Proofs.Slices

theorem unchanged_of_prefix {m m' : Mem} (p : m <+: m') : Unchanged m m' := by
  intro i a h
  obtain ⟨t, rfl⟩ := p
  obtain ⟨hi, -⟩ := List.getElem?_eq_some_iff.mp h
  rw [List.getElem?_append_left hi]; exact h

theorem prefix_of_unchanged {m m' : Mem} (h : Unchanged m m') : m <+: m' := by
  rw [List.prefix_iff_getElem?]
  intro i hi
  exact h i _ (List.getElem?_eq_getElem hi)

theorem returns_of_gives {x : SM Slice} {st : St} {v : Res (Bytes × Bytes)} (h : Gives x st v) :
    Returns st.mem (x st) v := by
  match v, h with
  | .ok (bs, rnd), ⟨s, m, h1, h2, h3⟩ =>
    rw [h1]
    exact ⟨unchanged_of_prefix h2, s, rfl, ⟨h3.1, h3.2.1⟩, h3.2.2, rfl⟩
  | .err e, ⟨st', h1, h2⟩ => rw [h1]; exact ⟨unchanged_of_prefix h2, rfl⟩
  | .panic e, ⟨st', h1, h2⟩ => rw [h1]; exact ⟨unchanged_of_prefix h2, rfl⟩

/-- C118. Whatever else is in memory, however the slices of the keys and the password overlap and however
arrays grow, an export of the whole key set returns the bytes of the model on values in a new array, or
fails as that does, and no array that was there before is written to: those of the keys, the password,
the package variables and all other memory of the caller. -/
theorem c118_export (C : Crypto) (hC : C.Lawful) (G : Growth) (ks : KeySetRef) (v : KeySet)
    (password : Slice) (pw : Bytes) (mem : Mem) (rnd : Bytes) (h : KeySetR mem ks v)
    (hw : Holds mem password pw) :
    Returns mem (ks.encodePackets C G password ⟨mem, rnd⟩) (v.encodePackets C pw rnd) := by
  rw [← hw.2]
  exact returns_of_gives (packets_gives C hC G ks v password ⟨mem, rnd⟩ h hw.1)

/-- C118. The same for an export of the subkeys only. -/
theorem c118_subkeys (C : Crypto) (hC : C.Lawful) (G : Growth) (ks : KeySetRef) (v : KeySet)
    (password : Slice) (pw : Bytes) (withSelfCert : Bool) (mem : Mem) (rnd : Bytes)
    (h : KeySetR mem ks v) (hw : Holds mem password pw) :
    Returns mem (ks.encodeSubkeyPackets C G password withSelfCert ⟨mem, rnd⟩)
      (v.encodeSubkeyPackets C pw withSelfCert rnd) := by
  rw [← hw.2]
  exact returns_of_gives (subkeyPackets_gives C hC G ks v password withSelfCert ⟨mem, rnd⟩ h hw.1)

/-- C118. The same for fingerprints and for packets of public keys. -/
theorem c118_public (C : Crypto) (G : Growth) (key : ECKeyRef) (v : ECKey) (tag : Byte) (mem : Mem)
    (rnd : Bytes) (h : ECKeyR mem key v) :
    Returns mem (key.fingerprintV4 C G ⟨mem, rnd⟩) (.ok (v.fingerprintV4 C, rnd)) ∧
    Returns mem (key.encodePublicPacket G tag ⟨mem, rnd⟩)
      (.ok (Pgp.encodePacket tag v.encodePublic, rnd)) :=
  ⟨returns_of_gives (fingerprintV4_gives C G key v ⟨mem, rnd⟩ h),
    returns_of_gives (encodePublicPacket_gives G tag key v ⟨mem, rnd⟩ h)⟩

/-- C118. Key sets come into memory this way: derived from a seed as in the model on values, without
a change to what was there. -/
theorem c118_derive (C : Crypto) (hC : C.Lawful) (G : Growth) (seed : Seed) (creation : Int)
    (opts : KeyOptions) (mem : Mem) (rnd : Bytes) (hg : Unchanged initial mem) :
    let r := Slices.derivePGPKeySet C G seed creation opts ⟨mem, rnd⟩
    Unchanged mem r.2.mem ∧
    match Model.derivePGPKeySet C seed creation opts with
    | .ok v => ∃ ks, r.1 = .ok ks ∧ KeySetR r.2.mem ks v
    | .err e => r.1 = .err e
    | .panic p => r.1 = .panic p := by
  have h := derive_gives C hC G seed creation opts ⟨mem, rnd⟩ (prefix_of_unchanged hg)
  generalize Model.derivePGPKeySet C seed creation opts = v at h ⊢
  intro r
  match v, h with
  | .ok v, ⟨ks, m, h1, h2, h3⟩ =>
    simp only [r, h1]
    exact ⟨unchanged_of_prefix h2, ks, rfl, h3⟩
  | .err e, ⟨st', h1, h2⟩ => simp only [r, h1]; exact ⟨unchanged_of_prefix h2, trivial⟩
  | .panic e, ⟨st', h1, h2⟩ => simp only [r, h1]; exact ⟨unchanged_of_prefix h2, trivial⟩

/-- C118. A key set stays what it is as long as its arrays do: after any calls of the kinds above, from
any number of parts of a program, it can be exported as before. -/
theorem c118_keeps (ks : KeySetRef) (v : KeySet) (mem mem' : Mem) (h : KeySetR mem ks v)
    (hu : Unchanged mem mem') : KeySetR mem' ks v := h.mono (prefix_of_unchanged hu)

/-- C118. Two exports one after the other, the second with a password that the first may have seen: each
gives what it gives alone, on its share of the random source. -/
theorem c118_twice (C : Crypto) (hC : C.Lawful) (G : Growth) (ks : KeySetRef) (v : KeySet)
    (password password' : Slice) (pw pw' : Bytes) (mem : Mem) (rnd : Bytes) (h : KeySetR mem ks v)
    (hw : Holds mem password pw) (hw' : Holds mem password' pw') :
    let first := (ks.encodePackets C G password ⟨mem, rnd⟩).2
    Returns first.mem (ks.encodePackets C G password' first) (v.encodePackets C pw' first.rnd) ∧
    ∀ s bs, Holds mem s bs → Holds (ks.encodePackets C G password' first).2.mem s bs := by
  intro first
  have h1 := (c118_export C hC G ks v password pw mem rnd h hw).1
  have p1 : mem <+: first.mem := prefix_of_unchanged h1
  have h2 := c118_export C hC G ks v password' pw' first.mem first.rnd (h.mono p1) (Holds.mono hw' p1)
  exact ⟨h2, fun s bs hs => Holds.mono hs (p1.trans (prefix_of_unchanged h2.1))⟩

/-- C118. From the seed to the exported bytes -/
theorem c118_life (C : Crypto) (hC : C.Lawful) (G : Growth) (seed : Seed) (creation : Int)
    (opts : KeyOptions) (password : Slice) (pw : Bytes) (mem : Mem) (rnd : Bytes)
    (hg : Unchanged initial mem) (hw : Holds mem password pw) :
    Returns mem
      ((Slices.derivePGPKeySet C G seed creation opts >>= fun ks => ks.encodePackets C G password)
        ⟨mem, rnd⟩)
      (Model.derivePGPKeySet C seed creation opts >>= fun v => v.encodePackets C pw rnd) := by
  refine returns_of_gives (st := ⟨mem, rnd⟩) ?_
  have h := derive_gives C hC G seed creation opts ⟨mem, rnd⟩ (prefix_of_unchanged hg)
  generalize Model.derivePGPKeySet C seed creation opts = v at h ⊢
  match v, h with
  | .ok v, h =>
    refine Out.step h fun ks m p hks => ?_
    have := packets_gives C hC G ks v password ⟨m, rnd⟩ hks (hw.1.mono p)
    rw [show load m password = _ from load_mono hw.1 p, hw.2] at this
    exact this.out p
  | .err e, ⟨st', h1, h2⟩ => exact ⟨st', bind_err' h1, h2⟩
  | .panic e, ⟨st', h1, h2⟩ => exact ⟨st', bind_panic' h1, h2⟩

/-! ## Why it needs a proof -/

/-- `append` to a slice with enough spare capacity overwrites what stands behind the slice. -/
theorem append_in_place (G : Growth) {m : Mem} {s : Slice} {rnd d : Bytes} (h : Valid m s)
    (hc : s.len + d.length ≤ s.cap) :
    ∃ m', Slices.append G s d ⟨m, rnd⟩ = (.ok { s with len := s.len + d.length }, ⟨m', rnd⟩) ∧
      Valid m' { s with len := s.cap } ∧
      load m' { s with len := s.cap } =
        load m s ++ d ++ (load m { s with len := s.cap }).drop (s.len + d.length) := by
  have hv : Valid m { s with len := s.cap } := ⟨le_rfl, h.2⟩
  have hl : (load m { s with len := s.cap }).length = s.cap := load_length hv
  obtain ⟨u, m', h1, -, h3⟩ := put_spec (rnd := rnd) List.nil_prefix
    (⟨hv, rfl, Nat.zero_le _⟩ : Own [] { s with len := s.cap } m _) s.len d (by rw [hl]; exact hc)
  refine ⟨m', ?_, h3.1, ?_⟩
  · rw [put, if_pos hc] at h1
    rw [Slices.append, if_pos hc]
    have := congrArg (fun r => r.2) h1
    simpa using this
  · rw [h3.2.1, ← load_upTo h.1]

/-- C118, a trap that EncryptS2K avoids by a salt of exactly 8 bytes: stringToKey writes the password into the
array of the salt when there is room behind the salt. -/
theorem c118_salt (C : Crypto) (G : Growth) (hashFunc : Byte) (password salt : Slice) (pw : Bytes)
    (byteCount : Nat) (mem : Mem) (rnd : Bytes) (hs : Valid mem salt) (hw : Holds mem password pw)
    (room : salt.len + pw.length ≤ salt.cap) :
    load (Slices.stringToKey C G hashFunc password salt byteCount ⟨mem, rnd⟩).2.mem
      { salt with len := salt.len + pw.length } = load mem salt ++ pw := by
  obtain ⟨m', h1, h2, h3⟩ := append_in_place G (rnd := rnd) hs room
  have hl : load m' { salt with len := salt.len + pw.length } = load mem salt ++ pw := by
    have : load m' { salt with len := salt.len + pw.length } =
        (load m' { salt with len := salt.cap }).take (salt.len + pw.length) :=
      load_upTo (s := { salt with len := salt.cap }) room
    rw [this, h3, List.take_left' (by rw [List.length_append, load_length hs])]
  have hv : Valid m' { salt with len := salt.len + pw.length } := ⟨room, h2.2⟩
  unfold Slices.stringToKey
  rw [read_bind, hw.2, bind_ok' h1]
  by_cases h0 : salt.len + pw.length = 0
  · rw [if_pos h0]; exact hl
  · rw [if_neg h0]
    cases hashNew C hashFunc with
    | none => exact hl
    | some f =>
      simp only [read_bind]
      rw [← hl]
      exact load_mono hv (prefix_append_one _ _)

/-- C118, a trap in every Ed25519 key: the public half of `Private` stands in the spare capacity of
`PrivateSerialized`, so that an `append` to the latter would change the former. -/
theorem c118_tail (C : Crypto) (hC : C.Lawful) (G : Growth) (seed : Slice) (creation expiry : Int) (mem : Mem)
    (rnd d : Bytes) (hs : Valid mem seed) (h32 : seed.len = 32) (hd : d.length ≤ 32) :
    ∃ k st, Slices.newEdKey C seed creation expiry ⟨mem, rnd⟩ = (.ok k, st) ∧
      load st.mem k.priv = load mem seed ++ C.ed25519Pub (load mem seed) ∧
      load (Slices.append G k.base.privateSerialized d st).2.mem k.priv =
        load mem seed ++ d ++ (C.ed25519Pub (load mem seed)).drop d.length := by
  have hl : (load mem seed).length = 32 := by rw [load_length hs, h32]
  have hp : (C.ed25519Pub (load mem seed)).length = 32 := hC.ed25519Pub_length _ hl
  generalize hbs : load mem seed = bs at hl hp ⊢
  have ho := own_alloc (List.prefix_refl mem) (bs ++ C.ed25519Pub bs) 0
  have h64 : (bs ++ C.ed25519Pub bs).length = 64 := by simp [hl, hp]
  rw [h64] at ho
  have ho1 := ho.mono (prefix_append_one _ ⟨(bs ++ C.ed25519Pub bs).drop 32 ++ List.replicate 0 0, 0⟩)
  have hpub : ((bs ++ C.ed25519Pub bs).drop 32).length = 32 := by rw [List.length_drop, h64]
  refine ⟨⟨⟨⟨mem.length, 0, 32, 64⟩, ⟨mem.length + 1, 0, 32, 32⟩, some ⟨mem.length, 0, 64, 64⟩,
    some ⟨mem.length + 1, 0, 32, 32⟩, creation, keyAlgorithmEDDSA, oidED25519Ref, none⟩,
    ⟨mem.length, 0, 64, 64⟩, ⟨mem.length + 1, 0, 32, 32⟩, creation, expiry⟩,
    ⟨_, rnd⟩, ?_, ho1.2.1, ?_⟩
  · unfold Slices.newEdKey
    rw [if_neg (by simp [h32]), read_bind, hbs]
    rw [bind_ok' (show alloc (bs ++ C.ed25519Pub bs) 0 ⟨mem, rnd⟩ = (.ok ⟨mem.length, 0, 64, 64⟩,
      ⟨mem ++ [⟨bs ++ C.ed25519Pub bs ++ List.replicate 0 0, 0⟩], rnd⟩) by rw [alloc, h64]), read_bind, ho.2.1]
    rw [bind_ok' (show alloc ((bs ++ C.ed25519Pub bs).drop 32) 0 _ = (.ok ⟨mem.length + 1, 0, 32, 32⟩, _) by
      rw [alloc, hpub, List.length_append, List.length_singleton])]
    rfl
  · obtain ⟨m', h1, h2, h3⟩ := append_in_place G (rnd := rnd) (d := d)
      (⟨by show 32 ≤ 64; omega, ho1.1.2⟩ : Valid _ (⟨mem.length, 0, 32, 64⟩ : Slice))
      (by show 32 + d.length ≤ 64; omega)
    have h32' : load (mem ++ [⟨bs ++ C.ed25519Pub bs ++ List.replicate 0 0, 0⟩] ++
        [⟨(bs ++ C.ed25519Pub bs).drop 32 ++ List.replicate 0 0, 0⟩]) ⟨mem.length, 0, 32, 64⟩ = bs := by
      have (m : Mem) : load m ⟨mem.length, 0, 32, 64⟩ = (load m ⟨mem.length, 0, 64, 64⟩).take 32 :=
        load_upTo (s := ⟨mem.length, 0, 64, 64⟩) (by show 32 ≤ 64; omega)
      rw [this, ho1.2.1, List.take_left' hl]
    rw [h1]
    refine h3.trans ?_
    rw [h32']
    refine congrArg (bs ++ d ++ ·) ?_
    rw [ho1.2.1, show (⟨mem.length, 0, 32, 64⟩ : Slice).len = 32 from rfl, ← List.drop_drop,
      List.drop_left' hl]

/-! ## Examples -/

/-- A password of five bytes in an array of sixteen: `append` to it would be in place. -/
example : Holds (initial ++ [⟨[1, 2, 3, 4, 5] ++ List.replicate 11 7, 0⟩]) ⟨2, 0, 5, 16⟩ [1, 2, 3, 4, 5] :=
  ⟨⟨by decide, by decide⟩, by decide⟩

/-- Key sets in memory exist, with all subkeys and beside a password, and can be exported. -/
example (G : Growth) (rnd : Bytes) :
    let mem := initial ++ [⟨[1, 2, 3, 4, 5] ++ List.replicate 11 7, 0⟩]
    ∃ ks mem' v, KeySetR mem' ks v ∧ Unchanged mem mem' ∧ v.encryptionSubkey.isSome ∧
      Returns mem' (ks.encodePackets toyCrypto G ⟨2, 0, 5, 16⟩ ⟨mem', rnd⟩)
        (v.encodePackets toyCrypto [1, 2, 3, 4, 5] rnd) := by
  intro mem
  obtain ⟨h1, h2⟩ := c118_derive toyCrypto toyCrypto_lawful G ⟨2, 5⟩ 0
    { KeyOptions.zero with subkeys := some [subkeyTypeEncryption] } mem rnd
    (unchanged_of_prefix (List.prefix_append _ _))
  rw [Proofs.derive_eq toyCrypto_lawful ⟨2, 5⟩ (by decide)] at h2
  obtain ⟨ks, -, h3⟩ := h2
  refine ⟨ks, _, _, h3, h1, rfl, c118_export toyCrypto toyCrypto_lawful G ks _ _ _ _ _ h3 ?_⟩
  exact Holds.mono ⟨⟨by decide, by decide⟩, by decide⟩ (prefix_of_unchanged h1)

/-- The password can be a piece of the key itself. -/
example (G : Growth) (rnd : Bytes) (ks : KeySetRef) (v : KeySet) (mem : Mem) (h : KeySetR mem ks v) :
    Returns mem (ks.encodePackets toyCrypto G ks.masterKey.priv ⟨mem, rnd⟩)
      (v.encodePackets toyCrypto v.masterKey.priv rnd) :=
  c118_export toyCrypto toyCrypto_lawful G ks v _ _ mem rnd h h.master.priv

/-- A salt of eight bytes in an array of sixteen -/
example (G : Growth) : load (Slices.stringToKey toyCrypto G 8 ⟨0, 0, 2, 2⟩ ⟨1, 0, 8, 16⟩ 1024
      ⟨[⟨[1, 2], 0⟩, ⟨List.replicate 16 0, 0⟩], []⟩).2.mem ⟨1, 0, 10, 16⟩ = [0, 0, 0, 0, 0, 0, 0, 0, 1, 2] :=
  c118_salt toyCrypto G 8 ⟨0, 0, 2, 2⟩ ⟨1, 0, 8, 16⟩ [1, 2] 1024 _ []
    ⟨by decide, by decide⟩ ⟨⟨by decide, by decide⟩, by decide⟩ (by decide)

/-- A seed in memory -/
example : Valid [⟨List.replicate 32 9, 0⟩] ⟨0, 0, 32, 32⟩ := ⟨by decide, by decide⟩

end Verif.Props.Slices
