import Verif.Proofs.CliTrim
import Verif.Proofs.CliCommands
import Verif.Props.Flags
import Verif.Props.Protect
import Verif.Props.Keys
import Verif.Props.Phrase
import Verif.Props.Seed
import Verif.Props.Layout

/-!
# Commands that succeed
-/

namespace Verif.Proofs

open Verif.Model Verif.Model.Cli Verif.Spec Verif.Spec.OpenPGP Verif.Props

/-! ## the options -/

theorem ttl_of_expiry {t : Bytes} {x : Option Nat} (h : Expiry t x) {C : Crypto} (hC : C.Lawful) :
    ∃ ttl : Int, ttlOf t = .ok ttl ∧ 0 ≤ ttl ∧ ttl < 2 ^ 63 ∧ wantedExpires C ttl = x := by
  have nonempty : ∀ {t : Bytes} {q u : Nat}, IsTTL t q u → t ≠ [] := by
    rintro t q u ⟨ds, c, rfl, -⟩
    simp
  cases h with
  | absent => exact ⟨0, rfl, le_rfl, by decide, rfl⟩
  | zero ht =>
    refine ⟨0, ?_, le_rfl, by decide, rfl⟩
    unfold ttlOf
    rw [if_pos (nonempty ht), c43_value t _ _ ht (by simp)]
    simp
  | @after _ q u ht hq hlt =>
    have hu : 0 < u := by
      obtain ⟨ds, c, -, -, -, -, -, hu⟩ := ht
      cases hu <;> decide
    have hpos : 0 < q * u := Nat.mul_pos hq hu
    refine ⟨((q * u * 10 ^ 9 : Nat) : Int), ?_, by omega, by omega, ?_⟩
    · unfold ttlOf
      rw [if_pos (nonempty ht), c43_value t _ _ ht (by omega)]
    · unfold wantedExpires
      rw [if_neg (by omega)]
      have : ((q * u * 10 ^ 9 : Nat) : Int) / 10 ^ 9 * 10 ^ 9 = ((q * u : Nat) : Int) * 10 ^ 9 := by
        omega
      rw [this, hC.seconds_exact _ hlt]

theorem only_of_parts {t : Bytes} {part : String → Prop} (h : Parts t part) :
    ∃ m subkeys, decodeOnlyKeyTypes t = .ok (m, subkeys) ∧ (m = true ↔ part "master") ∧
      ∀ opts : KeyOptions, opts.subkeys = subkeys → ∀ type ∈ ["encryption", "authentication", "signing"],
        (Selected opts type ↔ part type) := by
  cases h with
  | all =>
    obtain ⟨m, s, h1, h2, h3⟩ := (c45_only [] [[]] ⟨by simp, by simp, rfl⟩).2 (.inl rfl)
    refine ⟨m, s, h1, by simpa using h2, ?_⟩
    rintro opts rfl type ht
    have := h3 opts type ht
    simpa using this
  | listed hne hl hk =>
    obtain ⟨m, s, h1, h2, h3⟩ := (c45_only _ _ hl).2 (.inr hk)
    refine ⟨m, s, h1, by simpa [hne] using h2, ?_⟩
    rintro opts rfl type ht
    have := h3 opts type ht
    simpa [hne] using this

/-- The options asked for -/
def optionsFor (f : KeyFlags) (enc auth sig : Nat) (ttl : Int) (subkeys : Option (List Bytes)) :
    KeyOptions :=
  { name := trimSpace f.name, email := trimSpace f.email, ttl := ttl
    encryptionSubkeyIndex := UInt16.ofNat enc, authenticationSubkeyIndex := UInt16.ofNat auth
    signingSubkeyIndex := UInt16.ofNat sig, subkeys := subkeys }

theorem asked_options {C : Crypto} (hC : C.Lawful) {f : KeyFlags} {enc auth sig : Nat} {w : Wanted}
    {master : Prop} (h : AsksFor f enc auth sig w master) (h1 : enc < 65536) (h2 : auth < 65536)
    (h3 : sig < 65536) :
    ∃ ttl m subkeys, ttlOf f.ttl = .ok ttl ∧ 0 ≤ ttl ∧ ttl < 2 ^ 63 ∧
      decodeOnlyKeyTypes f.only = .ok (m, subkeys) ∧ (m = true ↔ master) ∧
      wanted C (optionsFor f enc auth sig ttl subkeys) = w := by
  obtain ⟨⟨name, email, hn, he, hu⟩, hx, part, hp, hm, e1, e2, a1, a2, s1, s2⟩ := h
  obtain ⟨ttl, t1, t2, t3, t4⟩ := ttl_of_expiry hx hC
  obtain ⟨m, subkeys, o1, o2, o3⟩ := only_of_parts hp
  refine ⟨ttl, m, subkeys, t1, t2, t3, o1, o2.trans hm.symm, ?_⟩
  have hsel := o3 (optionsFor f enc auth sig ttl subkeys) rfl
  obtain ⟨wu, wx, we, wa, ws⟩ := w
  dsimp only at *
  unfold wanted
  rw [Wanted.mk.injEq]
  refine ⟨?_, t4, ?_, ?_, ?_⟩
  · rw [hu, ← trimSpace_of hn, ← trimSpace_of he]; rfl
  · have := hsel "encryption" (by simp)
    by_cases hc : part "encryption"
    · rw [if_pos (this.2 hc), e1 hc]
      simp only [optionsFor, UInt16.toNat_ofNat']
      rw [Nat.mod_eq_of_lt h1]
    · rw [if_neg (fun x => hc (this.1 x)), e2 hc]
  · have := hsel "authentication" (by simp)
    by_cases hc : part "authentication"
    · rw [if_pos (this.2 hc), a1 hc]
      simp only [optionsFor, UInt16.toNat_ofNat']
      rw [Nat.mod_eq_of_lt h2]
    · rw [if_neg (fun x => hc (this.1 x)), a2 hc]
  · have := hsel "signing" (by simp)
    by_cases hc : part "signing"
    · rw [if_pos (this.2 hc), s1 hc]
      simp only [optionsFor, UInt16.toNat_ofNat']
      rw [Nat.mod_eq_of_lt h3]
    · rw [if_neg (fun x => hc (this.1 x)), s2 hc]

/-! ## the export -/

theorem after_length (password rnd : Bytes) : rnd.length ≤ (after password rnd).length + 24 := by
  unfold after
  split
  · omega
  · rw [List.length_drop]; omega

theorem ksRnd_length (ks : Pgp.KeySet) (password rnd : Bytes) :
    rnd.length ≤ (ksRnd ks password rnd).length + 72 := by
  have h : ∀ {α : Type} (o : Option α) (r : Bytes), r.length ≤ (afterIf o password r).length + 24 := by
    intro α o r
    unfold afterIf
    split
    · exact after_length _ _
    · omega
  unfold ksRnd
  have h1 := h ks.encryptionSubkey rnd
  have h2 := h ks.authenticationSubkey (afterIf ks.encryptionSubkey password rnd)
  have h3 := h ks.signingSubkey (afterIf ks.authenticationSubkey password
    (afterIf ks.encryptionSubkey password rnd))
  omega

theorem mapM_clear {C : Crypto} : ∀ {ks subs : List SubkeyInfo}, (∀ s ∈ ks, ∃ n, s.secret = .clear n) →
    ks.mapM (unlockSubkey C []) = some subs → ks = subs
  | [], subs, _, h => by simpa using h
  | k :: ks, subs, hk, h => by
    rw [List.mapM_cons] at h
    simp only [Option.bind_eq_bind, Option.bind_eq_some_iff, Option.pure_def, Option.some.injEq] at h
    obtain ⟨k', h1, subs', h2, rfl⟩ := h
    obtain ⟨n, hn⟩ := hk k List.mem_cons_self
    have e : k' = k := by
      unfold unlockSubkey at h1
      rw [hn] at h1
      simp only [openSecret, Option.bind_eq_bind, Option.bind_some, Option.some.injEq] at h1
      rw [← h1, ← hn]
    rw [e, ← mapM_clear (fun s hs => hk s (List.mem_cons_of_mem _ hs)) h2]

theorem secView_clear (C : Crypto) (rnd priv : Bytes) : ∃ n, secView C [] rnd priv = .clear n :=
  ⟨_, by unfold secView; rw [if_pos rfl]⟩

theorem grp_clear {C : Crypto} (ks : Pgp.KeySet) (rnd : Bytes) :
    ∀ x, some x ∈ ksGrps C ks [] rnd → ∃ n, x.info.secret = .clear n := by
  intro x hx
  unfold ksGrps at hx
  simp only [List.mem_cons, List.not_mem_nil, or_false] at hx
  rcases hx with h | h | h
  · obtain ⟨k, -, rfl⟩ := Option.map_eq_some_iff.mp h.symm
    exact ⟨_, rfl⟩
  · obtain ⟨k, -, rfl⟩ := Option.map_eq_some_iff.mp h.symm
    exact ⟨_, rfl⟩
  · obtain ⟨k, -, rfl⟩ := Option.map_eq_some_iff.mp h.symm
    exact ⟨_, rfl⟩

theorem infos_clear {C : Crypto} (ks : Pgp.KeySet) (order : List Nat) (rnd : Bytes) :
    ∀ s ∈ ksInfos C ks order [] rnd, ∃ n, s.secret = .clear n := by
  intro s hs
  unfold ksInfos at hs
  obtain ⟨o, ho, hs⟩ := List.mem_filterMap.mp hs
  obtain ⟨x, rfl, rfl⟩ := Option.map_eq_some_iff.mp hs
  obtain ⟨i, -, hi⟩ := List.mem_map.mp ho
  exact grp_clear ks rnd x (mem_getD _ _ _ hi)

theorem export_contains {C : Crypto} (hC : C.Lawful) {n : Nat} {s : Seed}
    (hs : newSeed 0 (n : Int) = .ok s) {creation : Int} {o : KeyOptions} {mnk : Mnemonikey}
    (h : new C s creation (some o) = .ok mnk) (htt : o.ttl < 2 ^ 63)
    (hu : (wanted C o).userID.length < 2 ^ 32) (m cert : Bool) (password rnd : Bytes)
    (hr : password = [] ∨ 96 ≤ rnd.length) (hp : password.length ≤ 65011704) :
    ∃ key rest, (if m then mnk.encodePGP C password rnd else mnk.encodeSubkeysPGP C password cert rnd) =
        .ok (key, rest) ∧ rnd.length ≤ rest.length + 96 ∧
      Contains C key password n (creation / 10 ^ 9).toNat (wanted C o) (m = true) (cert = true) := by
  have hu' : mnk.userID.length < 2 ^ 32 := by
    obtain ⟨second, -, -, -, -, -, -, rfl⟩ := new_shape hC hs h
    exact lt_of_eq_of_lt (congrArg List.length (userID_encode o.name o.email)) hu
  obtain ⟨second, e, order, -, subs, hsubs, hperm, -, hcore⟩ := export_core hC hs h htt hu'
  rw [← e]
  have e0 : (some o).getD KeyOptions.zero = o := rfl
  rw [e0] at hperm hcore
  rw [Int.natAbs_natCast] at hperm hcore
  cases m with
  | true =>
    have h4 : Enough 4 password rnd := by
      rcases hr with hr | hr
      · exact .inl hr
      · exact .inr (by omega)
    obtain ⟨c1, -, c3⟩ := (hcore password rnd).1 h4
    have hun := (hcore password (after password rnd)).2.2 (enough_after h4) hp
    rw [if_pos rfl]
    refine ⟨_, _, c1, ?_, ⟨_, subs, c3, rfl, rfl, fun _ => rfl, by simp, fun _ => ?_, by simp, hun, hperm,
      fun hne => ⟨infos_protected _ _ _ _ hne (enough_after h4), fun _ => ?_⟩, ?_⟩⟩
    · have h1 := after_length password rnd
      have h2 := ksRnd_length mnk.pgpKeySet password (after password rnd)
      omega
    · exact openSecret_secView hC password rnd _ (masterSeed_length hC _ _) (enough_mono (by omega) h4) hp
    · exact secView_protected C password rnd _ hne (enough_mono (by omega) h4)
    · rintro rfl
      exact ⟨mapM_clear (infos_clear _ _ _) hun, fun _ => ⟨_, rfl⟩⟩
  | false =>
    have h3 : Enough 3 password rnd := by
      rcases hr with hr | hr
      · exact .inl hr
      · exact .inr (by omega)
    obtain ⟨c1, -, c3⟩ := (hcore password rnd).2.1 h3 cert
    have hun := (hcore password rnd).2.2 h3 hp
    rw [if_neg (by simp)]
    refine ⟨_, _, c1, ?_, ⟨_, subs, c3, rfl, rfl, ?_, ?_, by simp, by simp, hun, hperm,
      fun hne => ⟨infos_protected _ _ _ _ hne h3, by simp⟩, ?_⟩⟩
    · have h2 := ksRnd_length mnk.pgpKeySet password rnd
      omega
    · rintro (h | h)
      · cases h
      · exact if_pos h
    · intro _ h; exact if_neg h
    · rintro rfl
      exact ⟨mapM_clear (infos_clear _ _ _) hun, by simp⟩

/-! ## the phrase -/

theorem plain_holds {L : WordList} (hL : L.Lawful) {C : PhraseCrypto} {ws : List Bytes}
    {dm : DecodedMnemonic} (hd : decodeMnemonic L ws = .ok dm) (he : dm.encrypted = false) {n off : Nat}
    (ho : dm.creationOffset = off) (hs : dm.seed = .ok ⟨0, (n : Int)⟩) :
    Holds (indexOf L) C ws none n off := by
  obtain ⟨c, hf, rfl, -, hr⟩ := decode_ok_words hL hd
  cases c with
  | encrypted => cases he
  | plaintext s o =>
    change o = off at ho
    subst ho
    have h2 : (decodedOf (.plaintext s o)).seed = .ok ⟨0, (s : Int)⟩ :=
      (newSeed_ok_iff 0 s _).mpr ⟨rfl, by simpa using hf.1, rfl⟩
    rw [h2] at hs
    simp only [Res.ok.injEq, Seed.mk.injEq, true_and] at hs
    have : s = n := by exact_mod_cast hs
    subst this
    exact hr

theorem enc_holds {L : WordList} (hL : L.Lawful) {C : PhraseCrypto} (hC : C.Lawful) {ws : List Bytes}
    {dm : DecodedMnemonic} (hd : decodeMnemonic L ws = .ok dm) (he : dm.encrypted = true) {n off : Nat}
    (ho : dm.creationOffset = off) {p : Bytes} (hs : dm.decryptSeed C p = .ok ⟨0, (n : Int)⟩) :
    Holds (indexOf L) C ws (some p) n off := by
  obtain ⟨c, hf, rfl, -, hr⟩ := decode_ok_words hL hd
  cases c with
  | plaintext => cases he
  | encrypted e s v o =>
    change o = off at ho
    subst ho
    refine ⟨e, s, v, hr, ?_⟩
    rw [decryptSeed_spec hC p hf] at hs
    cases hx : Spec.decryptSeed C p e s v o with
    | none => rw [hx] at hs; cases hs
    | some x =>
      rw [hx] at hs
      simp only [Res.ok.injEq, Seed.mk.injEq, true_and] at hs
      have : x = n := by exact_mod_cast hs
      rw [this]

theorem phrase_holds {L : WordList} (hL : L.Lawful) {C : Crypto} (hC : C.Lawful) {n : Nat} {s : Seed}
    (hs : newSeed 0 (n : Int) = .ok s) {now : Int} {o : Option KeyOptions} {mnk : Mnemonikey}
    (h : new C s now o = .ok mnk) :
    (∃ ws, mnk.encodeMnemonicPlaintext L = .ok ws ∧
      Holds (indexOf L) C.toPhraseCrypto ws none n ((now / 10 ^ 9).toNat - 1672531200)) ∧
    ∀ pw rnd, pw ≠ [] → 3 ≤ rnd.length → ∃ ws rest,
      mnk.encodeMnemonicEncrypted L C pw rnd = .ok (ws, rest) ∧
      Holds (indexOf L) C.toPhraseCrypto ws (some pw) n ((now / 10 ^ 9).toNat - 1672531200) := by
  have hseed := new_seed hC hs h
  obtain ⟨second, e, h1, h2, h3, rfl, hx2, hm⟩ := new_shape hC hs h
  have ho : mnk.creationOffset = second - 1672531200 := by
    rw [hm]; exact creationOffset_eq (n : Int) _ second h1 h2
  have hn : n < 2 ^ 128 := by simpa using hx2
  rw [e, Int.toNat_natCast]
  constructor
  · obtain ⟨ws, dm, hw, hd, -, henc, hoff, hsd, -, -⟩ := c01_plaintext_round_trip hL 0 n (by omega)
      ⟨0, n⟩ hs (second - 1672531200) (by omega)
    refine ⟨ws, ?_, plain_holds hL hd henc hoff hsd⟩
    unfold Mnemonikey.encodeMnemonicPlaintext
    rw [hseed, ho]
    exact hw
  · intro pw rnd hp hr
    obtain ⟨ws, rest, dm, hw, hd, -, henc, hoff, hsd⟩ := c09_encrypted_round_trip hL hC.phrase n
      (second - 1672531200) hn (by omega) pw hp rnd hr
    refine ⟨ws, rest, ?_, enc_holds hL hC.phrase hd henc hoff hsd⟩
    unfold Mnemonikey.encodeMnemonicEncrypted
    rw [hseed, ho]
    exact hw

/-! ## the seed -/

theorem generateSeed_bytes {e rest : Bytes} (he : e.length = 16) :
    generateSeed (e ++ rest) = .ok (⟨0, (valueOfBytes e : Nat)⟩, rest) ∧
      newSeed 0 ((valueOfBytes e : Nat) : Int) = .ok ⟨0, (valueOfBytes e : Nat)⟩ := by
  have h : generateSeed (e ++ rest) = .ok (⟨0, (valueOfBytes e : Nat)⟩, rest) := by
    rw [c14_generate_seed, if_neg (by simp; omega), List.take_left' he, List.drop_left' he]
  refine ⟨h, ?_⟩
  have h2 := seedOf_run (env := ⟨0, { dir := fun _ => none, data := fun _ => [], next := 0 }, ⟨false, false, none⟩, [], 0, id, none⟩)
    (u := []) (st := ⟨[], e ++ rest, []⟩) (st1 := ⟨[], rest, []⟩) (s := ⟨0, (valueOfBytes e : Nat)⟩) (by
      unfold seedOf
      rw [if_neg (by simp)]
      unfold random
      dsimp only
      rw [h])
  obtain ⟨n, hn⟩ := h2
  obtain ⟨-, hx, hv⟩ := (newSeed_ok_iff _ _ _).mp hn
  rw [Seed.mk.injEq] at hv
  rw [← hv.2] at hn; exact hn

theorem seed_of_bytes {env : Env} {rnd u e rest : Bytes} (h : SeedBytes env rnd u e rest)
    (prompts : List (Res Bytes)) (acts : List Act) :
    seedOf env u ⟨prompts, rnd, acts⟩ =
        (.ok ⟨0, (valueOfBytes e : Nat)⟩, ⟨prompts, rest, acts⟩) ∧
      newSeed 0 ((valueOfBytes e : Nat) : Int) = .ok ⟨0, (valueOfBytes e : Nat)⟩ := by
  unfold seedOf
  cases h with
  | system he hr =>
    obtain ⟨h1, h2⟩ := generateSeed_bytes (rest := rest) he
    refine ⟨?_, h2⟩
    rw [if_neg (by simp)]
    unfold random
    dsimp only
    rw [hr, h1]
  | @stdin _ more he hr =>
    obtain ⟨h1, h2⟩ := generateSeed_bytes (rest := more) he
    refine ⟨?_, h2⟩
    rw [if_pos (by decide), if_pos rfl, hr, Res.bind_ok, h1]
    rfl
  | @file _ _ more hp hq he hr =>
    obtain ⟨h1, h2⟩ := generateSeed_bytes (rest := more) he
    refine ⟨?_, h2⟩
    rw [if_pos hp, if_neg hq, hr, Res.bind_ok, h1]
    rfl

theorem random_ok {α : Type} {f : Bytes → Res (α × Bytes)} {st : St} {a : α} {r : Bytes}
    (h : f st.rnd = .ok (a, r)) : random f st = (.ok a, { st with rnd := r }) := by
  unfold random; rw [h]

theorem password_ok (confirm : Bool) (p : Bytes) (rest : List (Res Bytes)) (rnd : Bytes) (acts : List Act) :
    userInputPassword confirm ⟨.ok p :: rest, rnd, acts⟩ = (.ok p, ⟨rest, rnd, acts⟩) := rfl

end Verif.Proofs
