import Verif.Spec.Use
import Verif.Proofs.PgpSign
import Verif.Proofs.PgpSecret

/-! # Encrypting to keys and signing with them -/

namespace Verif.Proofs

open Verif.Model Verif.Spec.OpenPGP

theorem xored_length {a b : Bytes} {n : Nat} (ha : a.length = n) (hb : b.length = n) : (xored a b).length = n := by
  simp [xored, ha, hb]

theorem xored_cancel (a k : Bytes) (h : a.length ≤ k.length) : xored (xored a k) k = a := zip_xor_cancel a k h

/-! ## Key wrap -/

/-- A block cipher and its inverse, on 16 bytes -/
structure Inverse (E D : Bytes → Bytes) : Prop where
  length : ∀ b : Bytes, b.length = 16 → (E b).length = 16
  inv : ∀ b : Bytes, b.length = 16 → D (E b) = b

theorem unwrap_pass {E D : Bytes → Bytes} (h : Inverse E D) : ∀ (rs : List Bytes) (t : Nat) (a : Bytes), a.length = 8 →
    (∀ r ∈ rs, r.length = 8) →
    (wrapPass E t a rs).1.length = 8 ∧ (∀ r ∈ (wrapPass E t a rs).2, r.length = 8) ∧
      (wrapPass E t a rs).2.length = rs.length ∧
      unwrapPass D t (wrapPass E t a rs).1 (wrapPass E t a rs).2 = (a, rs)
  | [], t, a, ha, _ => ⟨ha, by simp [wrapPass], rfl, rfl⟩
  | r :: rs, t, a, ha, hr => by
    have hb : (E (a ++ r)).length = 16 :=
      h.length _ (by rw [List.length_append, ha, hr r List.mem_cons_self])
    have hx : (xored ((E (a ++ r)).take 8) (octets 8 t)).length = 8 :=
      xored_length (by simp [hb]) (octets_length _ _)
    obtain ⟨h1, h2, h3, h4⟩ := unwrap_pass h rs (t + 1) _ hx fun x hx => hr x (List.mem_cons_of_mem _ hx)
    refine ⟨h1, ?_, congrArg (· + 1) h3, ?_⟩
    · intro x hm
      rcases List.mem_cons.1 hm with rfl | hm
      · simp [hb]
      · exact h2 x hm
    · simp only [wrapPass, unwrapPass]
      rw [h4]
      dsimp only
      rw [xored_cancel _ _ (by simp), List.take_append_drop,
        h.inv _ (by rw [List.length_append, ha, hr r List.mem_cons_self])]
      rw [List.take_left' ha, List.drop_left' ha]

theorem unwrap_passes {E D : Bytes → Bytes} (h : Inverse E D) (n : Nat) : ∀ (js : List Nat) (a : Bytes) (rs : List Bytes),
    a.length = 8 → (∀ r ∈ rs, r.length = 8) →
    let p := js.foldl (fun p j => wrapPass E (n * j + 1) p.1 p.2) (a, rs)
    p.1.length = 8 ∧ (∀ r ∈ p.2, r.length = 8) ∧ p.2.length = rs.length ∧
      js.reverse.foldl (fun p j => unwrapPass D (n * j + 1) p.1 p.2) p = (a, rs)
  | [], a, rs, ha, hr => ⟨ha, hr, rfl, rfl⟩
  | j :: js, a, rs, ha, hr => by
    obtain ⟨h1, h2, h3, h4⟩ := unwrap_pass h rs (n * j + 1) a ha hr
    obtain ⟨g1, g2, g3, g4⟩ := unwrap_passes h n js _ _ h1 h2
    refine ⟨g1, g2, g3.trans h3, ?_⟩
    rw [List.reverse_cons, List.foldl_append, List.foldl_cons]
    exact (congrArg (fun p => unwrapPass D (n * j + 1) p.1 p.2) g4).trans h4

theorem blocks_length (b : Bytes) : (blocks b).length = b.length / 8 := by simp [blocks]

theorem blocks_cons (a b : Bytes) (h : a.length = 8) : blocks (a ++ b) = a :: blocks b := by
  unfold blocks
  rw [List.length_append, h, show (8 + b.length) / 8 = b.length / 8 + 1 by omega, List.range_succ_eq_map, List.map_cons,
    List.map_map]
  congr 1
  · simp [h]
  · apply List.map_congr_left
    intro i _
    show ((a ++ b).drop (8 * (i + 1))).take 8 = _
    rw [show 8 * (i + 1) = a.length + 8 * i by omega, List.drop_append, List.drop_eq_nil_of_le (by omega), List.nil_append,
      Nat.add_sub_cancel_left]

theorem blocks_flatten : ∀ (rs : List Bytes), (∀ r ∈ rs, r.length = 8) → blocks rs.flatten = rs
  | [], _ => rfl
  | r :: rs, h => by
    rw [List.flatten_cons, blocks_cons _ _ (h r List.mem_cons_self),
      blocks_flatten rs fun x hx => h x (List.mem_cons_of_mem _ hx)]

theorem flatten_length8 : ∀ (rs : List Bytes), (∀ r ∈ rs, r.length = 8) → rs.flatten.length = 8 * rs.length
  | [], _ => rfl
  | r :: rs, h => by
    rw [List.flatten_cons, List.length_append, h r List.mem_cons_self,
      flatten_length8 rs fun x hx => h x (List.mem_cons_of_mem _ hx), List.length_cons]
    omega

theorem flatten_blocks (n : Nat) : ∀ b : Bytes, b.length = 8 * n → (blocks b).flatten = b ∧ ∀ r ∈ blocks b, r.length = 8 := by
  induction n with
  | zero =>
    intro b hb
    obtain rfl : b = [] := List.eq_nil_of_length_eq_zero (by omega)
    exact ⟨rfl, by simp [blocks]⟩
  | succ n ih =>
    intro b hb
    have h1 : (b.take 8).length = 8 := by rw [List.length_take]; omega
    obtain ⟨h2, h3⟩ := ih (b.drop 8) (by rw [List.length_drop]; omega)
    have e := blocks_cons (b.take 8) (b.drop 8) h1
    rw [List.take_append_drop] at e
    refine ⟨by rw [e, List.flatten_cons, h2, List.take_append_drop], ?_⟩
    intro r hr
    rw [e] at hr
    rcases List.mem_cons.1 hr with rfl | hr
    · exact h1
    · exact h3 r hr

theorem unwrap_wrap {E D : Bytes → Bytes} (h : Inverse E D) (m : Bytes) (hm : m.length % 8 = 0) :
    keyUnwrap D (keyWrap E m) = some m ∧ (keyWrap E m).length = m.length + 8 := by
  obtain ⟨f1, f2⟩ := flatten_blocks (m.length / 8) m (by omega)
  obtain ⟨h1, h2, h3, h4⟩ := unwrap_passes h (m.length / 8) (List.range 6) wrapIV (blocks m) (by simp [wrapIV]) f2
  set p := (List.range 6).foldl (fun p j => wrapPass E (m.length / 8 * j + 1) p.1 p.2) (wrapIV, blocks m) with hp
  have e : keyWrap E m = p.1 ++ p.2.flatten := rfl
  have hl : (keyWrap E m).length = m.length + 8 := by
    rw [e, List.length_append, h1, flatten_length8 _ h2, h3, blocks_length]; omega
  refine ⟨?_, hl⟩
  unfold keyUnwrap
  rw [hl, show (m.length + 8) / 8 - 1 = m.length / 8 by omega, e, List.take_left' h1, List.drop_left' h1,
    blocks_flatten _ h2]
  dsimp only
  rw [show (p.1, p.2) = p from rfl, h4, if_pos ⟨by omega, rfl⟩, f1]

/-! ## Session keys -/

theorem read_sessionData (session : Bytes) (hs : session.length = 32) (p : Nat) (h0 : 0 < p) (h1 : p < 200) :
    readSessionData (sessionData 9 session p) = some session := by
  set body : Bytes := UInt8.ofNat 9 :: session ++ octets 2 ((session.map UInt8.toNat).sum % 65536) with hbody
  have e : sessionData 9 session p = body ++ List.replicate p (UInt8.ofNat p) := rfl
  have hp : (UInt8.ofNat p).toNat = p := ofNat_toNat (by omega)
  have hl : body.length = 35 := by simp [hbody, hs]
  have hlast : (sessionData 9 session p).getLast? = some (UInt8.ofNat p) := by
    rw [e, List.getLast?_append, List.getLast?_replicate, if_neg (by omega)]
    rfl
  have hsub : (sessionData 9 session p).length - p = 35 := by
    rw [e, List.length_append, hl, List.length_replicate]; omega
  unfold readSessionData
  rw [hlast]
  simp only [Option.bind_eq_bind, Option.bind_some, hp, hsub]
  rw [if_neg, e, List.take_left' hl]
  · have : body = [(9 : UInt8)] ++ (session ++ octets 2 ((session.map UInt8.toNat).sum % 65536)) := rfl
    rw [this, split_one]
    simp only [Option.bind_some]
    rw [split_append _ _ hs.symm]
    simp only [Option.bind_some]
    rw [if_pos ⟨by decide, trivial⟩]
  · rintro (h | h | h)
    · omega
    · rw [e, List.length_append, List.length_replicate] at h; omega
    · rw [e, List.drop_left' hl] at h
      exact h rfl

/-! ## Data -/

theorem cfb_decrypt {E : Bytes → Bytes} (hE : ∀ b : Bytes, b.length = 16 → (E b).length = 16) : ∀ (fuel : Nat)
    (prev data : Bytes), prev.length = 16 → data.length ≤ fuel →
    (cfbEncryptFuel E fuel prev data).length = data.length ∧
    ∀ fuel', data.length ≤ fuel' → cfbDecryptFuel E fuel' prev (cfbEncryptFuel E fuel prev data) = data := by
  intro fuel
  induction fuel with
  | zero =>
    intro prev data hp hd
    obtain rfl : data = [] := List.eq_nil_of_length_eq_zero (by omega)
    exact ⟨rfl, fun fuel' _ => by cases fuel' <;> rfl⟩
  | succ fuel ih =>
    intro prev data hp hd
    by_cases h0 : data = []
    · subst h0
      refine ⟨rfl, fun fuel' _ => by cases fuel' <;> rfl⟩
    have hpos : 0 < data.length := List.length_pos_iff.2 h0
    unfold cfbEncryptFuel
    rw [if_neg h0]
    dsimp only
    set c := xored (data.take 16) (E prev) with hc
    have hcl : c.length = min 16 data.length := by
      rw [hc]; simp [xored, hE prev hp, Nat.min_comm]
    have hdec : xored c (E prev) = data.take 16 := xored_cancel _ _ (by rw [hE prev hp, List.length_take]; omega)
    by_cases hlong : 16 ≤ data.length
    · have hc16 : c.length = 16 := by omega
      obtain ⟨h1, h2⟩ := ih c (data.drop 16) hc16 (by rw [List.length_drop]; omega)
      refine ⟨by rw [List.length_append, h1, hc16, List.length_drop]; omega, ?_⟩
      intro fuel' hf
      obtain ⟨f, rfl⟩ : ∃ f, fuel' = f + 1 := ⟨fuel' - 1, by omega⟩
      unfold cfbDecryptFuel
      rw [if_neg (by intro h; have := congrArg List.length h; rw [List.length_append, List.length_nil] at this; omega),
        List.take_left' hc16, List.drop_left' hc16, h2 f (by rw [List.length_drop]; omega)]
      show xored c (E prev) ++ _ = _
      rw [hdec, List.take_append_drop]
    · have hd16 : data.drop 16 = [] := List.drop_eq_nil_of_le (by omega)
      rw [hd16]
      have he : cfbEncryptFuel E fuel c [] = [] := by cases fuel <;> rfl
      rw [he, List.append_nil]
      refine ⟨by omega, ?_⟩
      intro fuel' hf
      obtain ⟨f, rfl⟩ : ∃ f, fuel' = f + 1 := ⟨fuel' - 1, by omega⟩
      unfold cfbDecryptFuel
      rw [if_neg (by intro h; have := congrArg List.length h; rw [List.length_nil] at this; omega),
        List.take_of_length_le (by omega : c.length ≤ 16), List.drop_eq_nil_of_le (by omega : c.length ≤ 16)]
      show xored c (E prev) ++ _ = _
      have he' : cfbDecryptFuel E f c [] = [] := by cases f <;> rfl
      rw [hdec, he', List.append_nil, List.take_of_length_le (by omega)]

theorem cfb_opens {E : Bytes → Bytes} (hE : ∀ b : Bytes, b.length = 16 → (E b).length = 16) (iv data : Bytes)
    (h : iv.length = 16) : cfbDecrypt E iv (cfbEncrypt E iv data) = data ∧ (cfbEncrypt E iv data).length = data.length := by
  obtain ⟨h1, h2⟩ := cfb_decrypt hE data.length iv data h le_rfl
  refine ⟨?_, h1⟩
  unfold cfbDecrypt cfbEncrypt
  exact h2 _ (by rw [h1])

theorem open_dataPacket {C : Crypto} (hC : C.Lawful) {d : Drawn} (hd : d.Fine) (data : Bytes) :
    openData C d.session (dataPacket C d data) = some data ∧ (dataPacket C d data).length = data.length + 41 := by
  obtain ⟨h1, h2⟩ := cfb_opens (E := C.aes256Enc d.session) (fun b hb => hC.aes256_length _ b hd.session hb)
    (List.replicate 16 0) (d.start ++ d.start.drop 14 ++ data ++ [0xD3, 0x14] ++
      C.sha1 (d.start ++ d.start.drop 14 ++ data ++ [0xD3, 0x14])) (by simp)
  have hs := hd.start
  have hsha := hC.sha1_length (d.start ++ d.start.drop 14 ++ data ++ [0xD3, 0x14])
  refine ⟨?_, ?_⟩
  · unfold openData dataPacket
    dsimp only
    rw [show ∀ x : Bytes, (1 : UInt8) :: x = [1] ++ x from fun _ => rfl, split_one]
    simp only [Option.bind_eq_bind, Option.bind_some, h1]
    rw [List.append_assoc, List.append_assoc, List.append_assoc, split_append _ _ hs.symm]
    simp only [Option.bind_some]
    rw [split_append _ _ (by rw [List.length_drop, hs])]
    simp only [Option.bind_some]
    have hlen : (data ++ ([0xD3, 0x14] ++ C.sha1 (d.start ++ d.start.drop 14 ++ data ++ [0xD3, 0x14]))).length - 22 =
        data.length := by
      rw [List.length_append, List.length_append, hsha]
      simp
    rw [hlen, split_append _ _ rfl]
    simp only [Option.bind_some]
    rw [if_pos ⟨by decide, trivial, trivial⟩]
  · unfold dataPacket
    dsimp only
    rw [List.length_cons, h2]
    simp only [List.length_append, hs, List.length_drop, hsha, List.length_cons, List.length_nil]
    omega

/-! ## Messages -/

theorem packetOf_length (tag : Nat) (body : Bytes) : (packetOf tag body).length = body.length + 6 := by
  simp [packetOf]
  omega

theorem read_packetOf {tag : Nat} (ht : tag < 64) {body : Bytes} (hb : body.length < 2 ^ 32) (rest : Bytes) :
    readPacket (packetOf tag body ++ rest) = some ((tag, body), rest) := by
  have h1 : (UInt8.ofNat (192 + tag)).toNat = 192 + tag := ofNat_toNat (by omega)
  show readPacket (UInt8.ofNat (192 + tag) :: 255 :: octets 4 body.length ++ body ++ rest) = _
  unfold readPacket
  simp only [List.cons_append, h1]
  rw [if_neg (by omega)]
  unfold readLength
  simp only
  rw [if_neg (by decide), if_neg (by decide), if_pos (by decide), List.append_assoc,
    split_append _ _ (octets_length _ _).symm]
  simp only [Option.bind_eq_bind, Option.bind_some]
  rw [num_octets (by norm_num at hb ⊢; omega), split_append _ _ rfl]
  simp

theorem read_two {t t' : Nat} (ht : t < 64) (ht' : t' < 64) {b b' : Bytes} (hb : b.length < 2 ^ 32)
    (hb' : b'.length < 2 ^ 32) : readPackets (packetOf t b ++ packetOf t' b') = some [(t, b), (t', b')] := by
  have hl := packetOf_length t b
  have hl' := packetOf_length t' b'
  unfold readPackets
  obtain ⟨f, hf⟩ : ∃ f, (packetOf t b ++ packetOf t' b').length = f + 2 + 1 :=
    ⟨b.length + b'.length + 9, by rw [List.length_append, hl, hl']; omega⟩
  have ne : ∀ x y : Bytes, 0 < x.length → x ++ y ≠ [] := by
    intro x y hx h
    have := congrArg List.length h
    rw [List.length_append, List.length_nil] at this
    omega
  rw [hf]
  unfold readPacketsFuel
  rw [if_neg (ne _ _ (by omega)), read_packetOf ht hb]
  simp only [Option.bind_eq_bind, Option.bind_some]
  unfold readPacketsFuel
  have h2 : packetOf t' b' ≠ [] := by
    have := ne (packetOf t' b') [] (by omega)
    rwa [List.append_nil] at this
  have h3 := read_packetOf ht' hb' []
  rw [List.append_nil] at h3
  rw [if_neg h2, h3]
  simp [readPacketsFuel]

theorem open_session {C : Crypto} (hC : C.Lawful) {dh : Bytes → Bytes → Bytes} (hdh : DhLawful C dh) {key : PublicKey}
    {scalar : Bytes} (hscalar : scalar.length = 32) (hkdf : key.kdf = some (8, 7)) (hfp : key.fingerprint.length = 20)
    {n : Nat} (hn : (octets 32 n).reverse = scalar) (hpt : key.point = C.x25519Base scalar) {d : Drawn} (hd : d.Fine) :
    ∃ body, sessionPacket C dh key d = some body ∧ openSession C dh key n body = some d.session ∧ body.length < 512 := by
  set shared := dh d.ephemeral key.point with hsh
  obtain ⟨kek, hk, hkl⟩ : ∃ kek, keyEncryptionKey C key shared = some kek ∧ kek.length = 16 := by
    refine ⟨_, if_pos hkdf, ?_⟩
    rw [List.length_take, hC.sha256_length]; rfl
  have hm : (sessionData 9 d.session d.padding).length = 35 + d.padding := by
    simp [sessionData, hd.session]
    omega
  obtain ⟨hw, hwl⟩ := unwrap_wrap (E := C.aesEnc kek) (D := C.aesDec kek)
    ⟨fun b hb => hC.phrase.aesEnc_length _ _ hkl hb, fun b hb => hC.phrase.aes_inv _ _ hkl hb⟩
    (sessionData 9 d.session d.padding) (by rw [hm]; exact hd.whole)
  set c := keyWrap (C.aesEnc kek) (sessionData 9 d.session d.padding) with hc
  have hcl : c.length < 256 := by
    rw [hwl, hm]; have := hd.padding; omega
  have hV := hC.x25519_length d.ephemeral hd.ephemeral
  refine ⟨3 :: key.fingerprint.drop 12 ++ [18, 0x01, 0x07, 0x40] ++ C.x25519Base d.ephemeral ++
    UInt8.ofNat c.length :: c, ?_, ?_, ?_⟩
  · unfold sessionPacket
    rw [hk]
    rfl
  · obtain ⟨p1, p2, p3⟩ := point_value _ hV
    have hmpi : Pgp.encodeMPI (setBytes (Pgp.mpiPrefixEddsaPoint :: C.x25519Base d.ephemeral) : Int) =
        [0x01, 0x07, 0x40] ++ C.x25519Base d.ephemeral := by
      simp only [Pgp.encodeMPI, bitLen_natCast, p3, intBytes, Int.natAbs_natCast]
      rw [show (263 + 7) / 8 = (Pgp.mpiPrefixEddsaPoint :: C.x25519Base d.ephemeral).length by
        rw [List.length_cons, hV], beBytes_setBytes]
      rfl
    have e : (3 : UInt8) :: key.fingerprint.drop 12 ++ [18, 0x01, 0x07, 0x40] ++ C.x25519Base d.ephemeral ++
        UInt8.ofNat c.length :: c = [3] ++ (key.fingerprint.drop 12 ++ ([18] ++
          (Pgp.encodeMPI (setBytes (Pgp.mpiPrefixEddsaPoint :: C.x25519Base d.ephemeral) : Int) ++
            ([UInt8.ofNat c.length] ++ c)))) := by
      rw [hmpi]; simp
    rw [e]
    unfold openSession
    rw [split_one]
    simp only [Option.bind_eq_bind, Option.bind_some]
    rw [split_append _ _ (by rw [List.length_drop, hfp])]
    simp only [Option.bind_some]
    rw [split_one]
    simp only [Option.bind_some]
    rw [readMPI_encode _ (by omega)]
    simp only [Option.bind_some]
    rw [split_one]
    simp only [Option.bind_some]
    have hlen : num [UInt8.ofNat c.length] = c.length := by rw [num_singleton, ofNat_toNat hcl]
    rw [if_pos ⟨by decide, trivial, by decide, p1, hlen.symm⟩, p2, octets_setBytes hV, hn,
      hdh.agree scalar d.ephemeral hscalar hd.ephemeral, ← hpt, hk]
    simp only [Option.bind_some]
    rw [hw]
    simp only [Option.bind_some]
    exact read_sessionData _ hd.session _ hd.padding.1 hd.padding.2
  · simp only [List.length_append, List.length_cons, List.length_nil, List.length_drop, hfp, hV]
    omega

theorem decrypts {C : Crypto} (hC : C.Lawful) {dh : Bytes → Bytes → Bytes} (hdh : DhLawful C dh) {key : PublicKey}
    {scalar : Bytes} (hscalar : scalar.length = 32) (hkdf : key.kdf = some (8, 7)) (hfp : key.fingerprint.length = 20)
    {n : Nat} (hn : (octets 32 n).reverse = scalar) (hpt : key.point = C.x25519Base scalar) {d : Drawn} (hd : d.Fine)
    {data : Bytes} (hdata : data.length + 41 < 2 ^ 32) :
    ∃ message, encryptTo C dh key d data = some message ∧ decryptWith C dh key n message = some data := by
  obtain ⟨body, h1, h2, h3⟩ := open_session hC hdh hscalar hkdf hfp hn hpt hd
  obtain ⟨h4, h5⟩ := open_dataPacket hC hd data
  refine ⟨packetOf 1 body ++ packetOf 18 (dataPacket C d data), ?_, ?_⟩
  · unfold encryptTo
    rw [h1]
    rfl
  · unfold decryptWith
    rw [read_two (by norm_num) (by norm_num) (by omega) (by omega)]
    simp only [Option.bind_eq_bind, Option.bind_some]
    rw [h2]
    exact h4

/-! ## Signatures -/

theorem mpi_eq (v : Nat) : mpi v = Pgp.encodeMPI (v : Int) := by
  simp only [mpi, Pgp.encodeMPI, bitLen_natCast, intBytes, Int.natAbs_natCast, octets_eq]

theorem signWith_eq (C : Crypto) (key : PublicKey) (hfp : key.fingerprint.length = 20) (n type created : Nat)
    (hc : created < 2 ^ 32) (data : Bytes) :
    signWith C key n type created data = (signed C (octets 32 n ++ key.point)
      ⟨key.fingerprint, 8, data, UInt8.ofNat type, [], [], (created : Int) * 10 ^ 9⟩).encode := by
  have hu : u32 (unix ((created : Int) * 10 ^ 9)) = created := by
    simp only [u32, unix, second]
    rw [Int.mul_ediv_cancel _ (by norm_num)]
    omega
  have harea : Pgp.encodeSubpackets [⟨33, 4 :: key.fingerprint⟩, ⟨2, beBytes 4 created⟩] =
      beBytes 2 (UInt8.ofNat (key.fingerprint.length + 2) :: 33 :: 4 :: key.fingerprint ++ [5, 2] ++
        beBytes 4 created).length ++ (UInt8.ofNat (key.fingerprint.length + 2) :: 33 :: 4 :: key.fingerprint ++ [5, 2] ++
        beBytes 4 created) := by
    have e1 : Pgp.Subpacket.encode ⟨33, 4 :: key.fingerprint⟩ =
        UInt8.ofNat (key.fingerprint.length + 2) :: 33 :: 4 :: key.fingerprint := by
      simp [Pgp.Subpacket.encode, Pgp.packetLengthEncode, hfp]
    have e2 : Pgp.Subpacket.encode ⟨2, beBytes 4 created⟩ = [5, 2] ++ beBytes 4 created := by
      simp [Pgp.Subpacket.encode, Pgp.packetLengthEncode]
    simp only [Pgp.encodeSubpackets, List.map_cons, List.map_nil, List.flatten_cons, List.flatten_nil, e1, e2,
      List.append_nil, List.append_assoc]
  have hun : Pgp.encodeSubpackets [⟨16, key.fingerprint.drop 12⟩] = octets 2 10 ++ [9, 16] ++ key.fingerprint.drop 12 := by
    simp [Pgp.encodeSubpackets, Pgp.Subpacket.encode, Pgp.packetLengthEncode, hfp, octets_eq]
  unfold signWith
  simp only [mpi_eq, num_eq, octets_eq]
  simp only [octets_eq] at hun
  simp only [Pgp.Signature.encode, Pgp.Signature.encodePreimage, signed, hu]
  have harea' : Pgp.encodeSubpackets ([⟨Pgp.subpacketTypeIssuerFingerprint, Pgp.keyPacketVersion :: key.fingerprint⟩,
      ⟨Pgp.subpacketTypeCreationTime, beBytes 4 created⟩] ++ []) = _ := harea
  have hun' : Pgp.encodeSubpackets [⟨Pgp.subpacketTypeIssuer, key.fingerprint.drop 12⟩] = _ := hun
  rw [harea', hun']
  simp only [Pgp.sigPacketVersion, Pgp.keyAlgorithmEDDSA, Pgp.hashFuncSHA256, Pgp.signatureTrailer, List.append_assoc]

theorem verifies {C : Crypto} (hC : C.Lawful) {key : PublicKey} (hfp : key.fingerprint.length = 20)
    (halg : key.algorithm = 22) {seed : Bytes} (hs : seed.length = 32) (hpt : key.point = C.ed25519Pub seed)
    {n : Nat} (hn : octets 32 n = seed) {type created : Nat} (ht : type < 256) (hc : created < 2 ^ 32) (data : Bytes) :
    ∃ sig, readSignature (signWith C key n type created data) = some sig ∧ sig.type = type ∧
      only 2 sig.hashed = some (octets 4 created) ∧ checkSignature C key data sig = true := by
  rw [signWith_eq C key hfp n type created hc data, hn, hpt]
  have hpl : (seed ++ C.ed25519Pub seed).length = 64 := by
    rw [List.length_append, hs, hC.ed25519Pub_length _ hs]
  refine ⟨_, read_signed hC _ hpl _ ?_ ?_, ofNat_toNat ht, ?_, check_signed hC seed hs
    ⟨key.fingerprint, 8, data, UInt8.ofNat type, [], [], (created : Int) * 10 ^ 9⟩ key halg hpt rfl (by simp) (by simp)⟩
  · simp [signed, Pgp.Subpacket.encode, Pgp.packetLengthEncode, hfp]
  · simp [signed, Pgp.Subpacket.encode, Pgp.packetLengthEncode, hfp]
  · have hu : u32 (unix ((created : Int) * 10 ^ 9)) = created := by
      simp only [u32, unix, second]
      rw [Int.mul_ediv_cancel _ (by norm_num)]
      omega
    simp only [viewSig, signed, hu, octets_eq]
    rfl

end Verif.Proofs
