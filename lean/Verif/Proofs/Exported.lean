import Verif.Proofs.Views

/-! Exports of keys built by New. -/

namespace Verif.Proofs

open Verif.Model Verif.Model.Pgp Verif.Spec.OpenPGP
open Verif.Spec (unlockSubkey)

/-- A subkey without its secret. -/
def bare (s : SubkeyInfo) : SubkeyInfo := { s with secret := .stub }

theorem infos_bare (C : Crypto) (ks : KeySet) (order : List Nat) (password rnd : Bytes) :
    (ksInfos C ks order password rnd).map bare = (ksInfos C ks order [] []).map bare := by
  have h : ∀ i, ((ksGrps C ks password rnd).getD i none).map (fun x => bare x.info) =
      ((ksGrps C ks [] []).getD i none).map (fun x => bare x.info) := by
    intro i
    match i with
    | 0 => unfold ksGrps; cases ks.encryptionSubkey <;> rfl
    | 1 => unfold ksGrps; cases ks.authenticationSubkey <;> rfl
    | 2 => unfold ksGrps; cases ks.signingSubkey <;> rfl
    | i + 3 => simp [ksGrps]
  unfold ksInfos
  induction order with
  | nil => rfl
  | cons i order ih =>
    have hi := h i
    simp only [List.map_cons, List.filterMap_cons]
    cases hx : (ksGrps C ks password rnd).getD i none <;>
      cases hy : (ksGrps C ks [] []).getD i none <;> rw [hx, hy] at hi
    · simpa using ih
    · simp at hi
    · simp at hi
    · simp only [Option.map_some, Option.some.injEq] at hi
      simp only [Option.map_some, List.map_cons, hi, ih]

theorem wantedSubkeys_expires (C : Crypto) (seed second : Nat) (w : Spec.Wanted) :
    ∀ s ∈ Spec.wantedSubkeys C seed second w, s.binding.expires = w.expires := by
  intro s hs
  simp only [Spec.wantedSubkeys, List.mem_append, Option.mem_toList, Option.map_eq_some_iff] at hs
  rcases hs with (⟨i, -, rfl⟩ | ⟨i, -, rfl⟩) | ⟨i, -, rfl⟩ <;> rfl

/-- Everything known about the exports of a key built by New. -/
theorem export_core {C : Crypto} (hC : C.Lawful) {era x : Int} {s : Seed}
    (hs : newSeed era x = .ok s) {creation : Int} {opts : Option KeyOptions} {mnk : Mnemonikey}
    (h : new C s creation opts = .ok mnk) (htt : (opts.getD KeyOptions.zero).ttl < 2 ^ 63)
    (hu : mnk.userID.length < 2 ^ 32) :
    ∃ second : Nat, second = (creation / 10 ^ 9).toNat ∧
    ∃ order : List Nat, (∀ g : Nat → Bytes, shuffleLoop
      (C.shuffleDraw (shuffleSeed C (Spec.masterSeed C x.natAbs second ++
        C.ed25519Pub (Spec.masterSeed C x.natAbs second)))) 2 [g 0, g 1, g 2] = .ok (order.map g)) ∧
    ∃ subs : List SubkeyInfo, subs = ksInfos C mnk.pgpKeySet order [] [] ∧
      subs.Perm (Spec.wantedSubkeys C x.natAbs second (Spec.wanted C (opts.getD KeyOptions.zero))) ∧
      subs = (order.map (fun i => (Spec.wantedSlots C x.natAbs second
        (Spec.wanted C (opts.getD KeyOptions.zero))).getD i none)).filterMap id ∧
    ∀ password rnd,
      (Enough 4 password rnd →
        mnk.encodePGP C password rnd =
          .ok (writePackets (fullPackets C mnk.pgpKeySet order password rnd),
            ksRnd mnk.pgpKeySet password (after password rnd)) ∧
        readPackets (writePackets (fullPackets C mnk.pgpKeySet order password rnd)) =
          some ((fullPackets C mnk.pgpKeySet order password rnd).map (fun p => (p.1.toNat, p.2))) ∧
        importKey C (writePackets (fullPackets C mnk.pgpKeySet order password rnd)) =
          some { key := Spec.edPublic C second (Spec.masterSeed C x.natAbs second)
                 secret := secView C password rnd (Spec.masterSeed C x.natAbs second)
                 userID := (Spec.wanted C (opts.getD KeyOptions.zero)).userID
                 cert := some (Spec.wantedCert second (Spec.wanted C (opts.getD KeyOptions.zero)))
                 subkeys := ksInfos C mnk.pgpKeySet order password (after password rnd) }) ∧
      (Enough 3 password rnd → ∀ cert,
        mnk.encodeSubkeysPGP C password cert rnd =
          .ok (writePackets (subPackets C mnk.pgpKeySet order password cert rnd),
            ksRnd mnk.pgpKeySet password rnd) ∧
        readPackets (writePackets (subPackets C mnk.pgpKeySet order password cert rnd)) =
          some ((subPackets C mnk.pgpKeySet order password cert rnd).map
            (fun p => (p.1.toNat, p.2))) ∧
        importKey C (writePackets (subPackets C mnk.pgpKeySet order password cert rnd)) =
          some { key := Spec.edPublic C second (Spec.masterSeed C x.natAbs second)
                 secret := .stub
                 userID := (Spec.wanted C (opts.getD KeyOptions.zero)).userID
                 cert := if cert then
                  some (Spec.wantedCert second (Spec.wanted C (opts.getD KeyOptions.zero))) else none
                 subkeys := ksInfos C mnk.pgpKeySet order password rnd }) ∧
      (Enough 3 password rnd → password.length ≤ 65011704 →
        (ksInfos C mnk.pgpKeySet order password rnd).mapM (unlockSubkey C password) = some subs) := by
  obtain ⟨second, e, h1, h2, h3, rfl, hx2, rfl⟩ := new_shape hC hs h
  refine ⟨second, by rw [e, Int.toNat_natCast], ?_⟩
  generalize opts.getD KeyOptions.zero = o at *
  have h32 : second < 2 ^ 32 := by omega
  obtain ⟨order, hp, hsh, hall⟩ := encodeAll_eq hC
    (keySetOf C x.natAbs second (second * 10 ^ 9) (expiryOf (second * 10 ^ 9) o.ttl) o) (by
      intro k hk
      simp only [keySetOf] at hk
      split at hk
      · cases hk; rfl
      · cases hk)
  refine ⟨order, hsh, _, rfl, ?_, ?_, ?_⟩
  · refine (ksInfos_perm C _ order hp [] []).trans ?_
    simp only
    rw [ksGrps_infos hC x.natAbs second h32 o h3 htt []]
  · rw [← ksGrps_slots hC x.natAbs second h32 o h3 htt []]
    unfold ksInfos
    rw [List.filterMap_map, List.filterMap_map]
    congr 1
    funext i
    simp only [Function.comp_apply, id_eq, List.getD_eq_getElem?_getD, List.getElem?_map]
    cases (ksGrps C _ [] [])[i]? <;> rfl
  · intro password rnd
    have hms := masterSeed_length hC x.natAbs second
    have huid : (UserID.mk o.name o.email).encode.length < 2 ^ 32 := hu
    have hE := selSeed_length hC x.natAbs second "encryption" (Spec.wanted C o).encryption
    have hA := selSeed_length hC x.natAbs second "authentication" (Spec.wanted C o).authentication
    have hG := selSeed_length hC x.natAbs second "signing" (Spec.wanted C o).signing
    have hv := viewEd hC _ hms (second * 10 ^ 9) (expiryOf (second * 10 ^ 9) o.ttl)
    have hc := certView_eq C second h32 o h3 htt
    rw [u32_second second h32] at hv
    have huw : (UserID.mk o.name o.email).encode = (Spec.wanted C o).userID :=
      userID_encode o.name o.email
    refine ⟨?_, ?_, ?_⟩
    · intro hen
      refine ⟨encodePackets_eq hC _ order hall password rnd hen, ?_⟩
      have := import_full hC (UserID.mk o.name o.email) huid _ hms (second * 10 ^ 9)
        (expiryOf (second * 10 ^ 9) o.ttl) _ _ _ hE hA hG order password rnd hen
      rw [← keySetOf_eq] at this
      refine ⟨this.1, ?_⟩
      refine this.2.trans ?_
      rw [hc, huw]
      simp only [keySetOf] at hv ⊢
      rw [hv]
    · intro hen cert
      refine ⟨encodeSubkeys_eq hC _ order hall password rnd cert hen, ?_⟩
      have := import_sub hC (UserID.mk o.name o.email) huid _ hms (second * 10 ^ 9)
        (expiryOf (second * 10 ^ 9) o.ttl) _ _ _ hE hA hG order password rnd cert hen
      rw [← keySetOf_eq] at this
      refine ⟨this.1, ?_⟩
      refine this.2.trans ?_
      rw [hc, huw]
      simp only [keySetOf] at hv ⊢
      rw [hv]
    · intro hen hpw
      simp only
      rw [keySetOf_eq]
      exact infos_unlock hC _ _ _ _ _ _ _ hE hA hG order password rnd hen hpw

end Verif.Proofs
