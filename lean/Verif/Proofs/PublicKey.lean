import Verif.Spec.PublicKey
import Verif.Proofs.Exported

/-!
# Helper lemmas on public keys
-/

namespace Verif.Proofs

open Verif.Model Verif.Model.Pgp Verif.Spec.OpenPGP

theorem split_some {n : Nat} {b x y : Bytes} (h : split n b = some (x, y)) : b = x ++ y ∧ x.length = n := by
  unfold Spec.OpenPGP.split at h
  split at h
  · cases h
  · cases h
    exact ⟨(List.take_append_drop n b).symm, by rw [List.length_take]; omega⟩

set_option exponentiation.threshold 300 in
theorem readMPI_some {b rest : Bytes} {v : Nat} (h : readMPI b = some (v, rest)) :
    ∃ m : Bytes, b = m ++ rest ∧ (∀ t, readMPI (m ++ t) = some (v, t)) ∧
      (v / 256 ^ 32 = 0x40 → m = [0x01, 0x07, 0x40] ++ octets 32 (v % 256 ^ 32)) := by
  unfold readMPI at h
  simp only [Option.bind_eq_bind, Option.bind_eq_some_iff] at h
  obtain ⟨⟨l, b1⟩, h1, ⟨w, b2⟩, h2, h3⟩ := h
  obtain ⟨rfl, hl⟩ := split_some h1
  obtain ⟨rfl, hw⟩ := split_some h2
  dsimp only at h3
  split at h3
  · rename_i hc
    cases h3
    refine ⟨l ++ w, by simp, fun t => ?_, fun hv => ?_⟩
    · unfold readMPI
      rw [List.append_assoc, split_append l _ hl.symm]
      simp only [Option.bind_eq_bind, Option.bind_some]
      rw [split_append w t hw.symm]
      simp only [Option.bind_some]
      rw [if_pos hc]
    · have hb : 2 ^ 262 ≤ num w ∧ num w < 2 ^ 263 := by
        have := Nat.div_add_mod (num w) (256 ^ 32)
        have := Nat.mod_lt (num w) (show 0 < 256 ^ 32 by norm_num)
        rw [hv] at *
        constructor <;> omega
      have hn : num l = 263 := by
        have h1 : 262 < num l := (Nat.pow_lt_pow_iff_right (by decide)).1 (lt_of_le_of_lt hb.1 hc.1)
        have h2 : num l - 1 < 263 := by
          rcases hc.2 with h0 | h0
          · omega
          · exact (Nat.pow_lt_pow_iff_right (by decide)).1 (lt_of_le_of_lt h0 hb.2)
        omega
      have el : l = [0x01, 0x07] := by
        rw [← octets_setBytes hl, ← num_eq, hn]
        decide
      rw [hn] at hw
      obtain ⟨c, w', rfl⟩ : ∃ c w', w = c :: w' := by
        cases w with
        | nil => simp at hw
        | cons c w' => exact ⟨c, w', rfl⟩
      have hw' : w'.length = 32 := by simpa using hw
      have hlt : num w' < 256 ^ 32 := by
        have := setBytes_lt w'
        rw [hw'] at this
        rw [num_eq]
        exact this
      have hcw : num (c :: w') = c.toNat * 256 ^ 32 + num w' := by
        rw [num_eq, num_eq, setBytes_cons, hw']
      rw [hcw] at hv
      rw [hcw]
      have hc' : c = 0x40 := by
        have : c.toNat = 0x40 := by
          rw [Nat.mul_comm, Nat.mul_add_div (by norm_num), Nat.div_eq_of_lt hlt] at hv
          simpa using hv
        exact UInt8.toNat_inj.1 this
      rw [Nat.mul_comm, Nat.mul_add_mod, Nat.mod_eq_of_lt hlt, num_eq, octets_setBytes hw', el, hc']
      rfl
  · cases h3

/-- The public key is at the beginning, and the reader needs nothing else. -/
theorem readPublic_some {C : Crypto} {b pub rest : Bytes} {k : PublicKey}
    (h : readPublic C b = some (k, pub, rest)) :
    b = pub ++ rest ∧ pub = publicBody k ∧ ∀ t, readPublic C (pub ++ t) = some (k, pub, t) := by
  unfold readPublic at h
  simp only [Option.bind_eq_bind, Option.bind_eq_some_iff] at h
  obtain ⟨⟨v, b1⟩, h1, ⟨cr, b2⟩, h2, ⟨al, b3⟩, h3, ⟨ol, b4⟩, h4, ⟨oid, b5⟩, h5, ⟨p, b6⟩, h6, h7⟩ := h
  obtain ⟨rfl, hv⟩ := split_some h1
  obtain ⟨rfl, hcr⟩ := split_some h2
  obtain ⟨rfl, hal⟩ := split_some h3
  obtain ⟨rfl, hol⟩ := split_some h4
  obtain ⟨rfl, hoid⟩ := split_some h5
  obtain ⟨m, rfl, hm, hm'⟩ := readMPI_some h6
  clear h1 h2 h3 h4 h5 h6
  split at h7
  · cases h7
  rename_i hc
  simp only [Option.bind_eq_some_iff] at h7
  obtain ⟨⟨kdf, r⟩, h8, h9⟩ := h7
  have hk : ∃ x, b6 = x ++ r ∧ (∀ t, (if num al = 22 ∧ oid = oidEd25519 then some ((none : Option (Nat × Nat)), x ++ t)
      else if num al = 18 ∧ oid = Spec.OpenPGP.oidCurve25519 then
        match x ++ t with
        | 3 :: 1 :: h :: c :: rest => some (some (h.toNat, c.toNat), rest)
        | _ => none
      else none) = some (kdf, t)) ∧ x = kdfOctets kdf := by
    split at h8
    · cases h8
      exact ⟨[], rfl, fun t => by rw [if_pos ‹_›]; rfl, rfl⟩
    · split at h8
      · split at h8
        · rename_i y x _
          cases h8
          exact ⟨[3, 1, y, x], rfl, fun t => by rw [if_neg ‹_›, if_pos ‹_›]; rfl, by simp [kdfOctets]⟩
        · cases h8
      · cases h8
  obtain ⟨x, rfl, hx, hx'⟩ := hk
  have e : ∀ t : Bytes, (v ++ (cr ++ (al ++ (ol ++ (oid ++ (m ++ (x ++ t))))))) =
      (v ++ (cr ++ (al ++ (ol ++ (oid ++ (m ++ x)))))) ++ t := fun t => by simp
  have htake : ∀ t : Bytes, (v ++ (cr ++ (al ++ (ol ++ (oid ++ (m ++ (x ++ t))))))).take
      ((v ++ (cr ++ (al ++ (ol ++ (oid ++ (m ++ (x ++ t))))))).length - t.length) =
      v ++ (cr ++ (al ++ (ol ++ (oid ++ (m ++ x))))) := by
    intro t
    rw [e, List.length_append, Nat.add_sub_cancel, List.take_left']
    rfl
  dsimp only at h9
  rw [htake] at h9
  cases h9
  refine ⟨e _, ?_, fun t => ?_⟩
  · dsimp only at *
    push Not at hc
    unfold publicBody
    dsimp only
    rw [hm' hc.2, hx', num_eq cr, octets_setBytes hcr]
    have one : ∀ y : Bytes, y.length = 1 → y = [UInt8.ofNat (num y)] := by
      intro y hy
      obtain ⟨z, rfl⟩ := List.length_eq_one_iff.1 hy
      rw [num_singleton]
      simp
    have ev := one v hv
    rw [hc.1] at ev
    have eol := one ol hol
    rw [← hoid] at eol
    rw [ev, eol]
    nth_rw 1 [one al hal]
    simp
  rw [← e]
  unfold readPublic
  rw [split_append v _ hv.symm]
  simp only [Option.bind_eq_bind, Option.bind_some]
  rw [split_append cr _ hcr.symm]
  simp only [Option.bind_some]
  rw [split_append al _ hal.symm]
  simp only [Option.bind_some]
  rw [split_append ol _ hol.symm]
  simp only [Option.bind_some]
  rw [split_append oid _ hoid.symm]
  simp only [Option.bind_some]
  rw [hm]
  simp only [Option.bind_some]
  rw [if_neg hc]
  refine (congrArg (Option.bind · _) (hx t)).trans ?_
  simp only [Option.bind_some]
  rw [htake]

theorem readPublicSubkey_of {C : Crypto} {key : PublicKey} {body subkeyBody sigBody : Bytes} {s : SubkeyInfo}
    (h : readSubkey C key body subkeyBody sigBody = some s) :
    ∃ k pub rest, readPublic C subkeyBody = some (k, pub, rest) ∧
      readPublicSubkey C key body pub sigBody = some s.toPublic := by
  unfold readSubkey at h
  simp only [Option.bind_eq_bind, Option.bind_eq_some_iff] at h
  obtain ⟨⟨k, pub, rest⟩, h1, secret, h2, sig, h3, h4⟩ := h
  refine ⟨k, pub, rest, h1, ?_⟩
  have := (readPublic_some h1).2.2 []
  rw [List.append_nil] at this
  unfold readPublicSubkey
  rw [this]
  simp only [Option.bind_eq_bind, Option.bind_some, ne_eq, not_true_eq_false, if_false, h3]
  dsimp only at h4
  split at h4
  · rename_i hc
    rw [if_pos hc]
    simp only [Option.bind_eq_some_iff] at h4
    obtain ⟨info, h5, h6⟩ := h4
    rw [h5]
    simp only [Option.bind_some]
    split at h6
    · rename_i hf
      rw [if_pos hf]
      simp only [Option.bind_eq_some_iff] at h6
      obtain ⟨em, h7, es, h8, cr, h9, h10⟩ := h6
      simp only [h7, h8, h9, Option.bind_some]
      split at h10
      · rename_i hc
        rw [if_pos hc]
        cases h10
        rfl
      · cases h10
    · rename_i hf
      rw [if_neg hf]
      cases h6
      rfl
  · cases h4

theorem readPublicSubkeys_of {C : Crypto} {key : PublicKey} {body : Bytes} :
    ∀ (ps : List (Nat × Bytes)) {ss : List SubkeyInfo}, readSubkeys C key body ps = some ss →
      ∃ qs, List.Forall₂ (PublicPacket C) ps qs ∧
        readPublicSubkeys C key body qs = some (ss.map SubkeyInfo.toPublic) := by
  intro ps
  induction ps using readSubkeys.induct with
  | case1 =>
    intro ss h
    cases h
    exact ⟨[], .nil, rfl⟩
  | case2 subkeyBody sigBody rest ih =>
    intro ss h
    unfold readSubkeys at h
    simp only [Option.bind_eq_bind, Option.bind_eq_some_iff] at h
    obtain ⟨s, h1, ss', h2, h3⟩ := h
    cases h3
    obtain ⟨k, pub, r, h4, h5⟩ := readPublicSubkey_of h1
    obtain ⟨qs, h6, h7⟩ := ih h2
    refine ⟨(14, pub) :: (2, sigBody) :: qs, .cons (.subkey h4) (.cons (.other (by decide) (by decide)) h6), ?_⟩
    unfold readPublicSubkeys
    simp only [Option.bind_eq_bind, h5, h7, Option.bind_some, List.map_cons]
  | case3 ps h1 h2 =>
    intro ss h
    unfold readSubkeys at h
    split at h
    · exact absurd rfl (h1)
    · exact absurd rfl (h2 _ _ _)
    · cases h

/-- The public packets of a secret key make a public key with the same contents. -/
theorem importPublic_of {C : Crypto} {b : Bytes} {k : KeyInfo} (h : importKey C b = some k) :
    ∃ ps qs, readPackets b = some ps ∧ List.Forall₂ (PublicPacket C) ps qs ∧
      ∀ b', readPackets b' = some qs → importPublic C b' = some k.toPublic := by
  unfold importKey at h
  simp only [Option.bind_eq_bind, Option.bind_eq_some_iff] at h
  obtain ⟨ps, h1, h2⟩ := h
  split at h2
  · rename_i keyBody uid rest
    simp only [Option.bind_eq_some_iff] at h2
    obtain ⟨⟨key, body, sp⟩, h3, secret, h4, h5⟩ := h2
    have hp := (readPublic_some h3).2.2 []
    rw [List.append_nil] at hp
    split at h5
    · rename_i sigBody rest
      simp only [Option.bind_eq_some_iff] at h5
      obtain ⟨cert, h6, ss, h7, h8⟩ := h5
      cases h8
      obtain ⟨qs, h9, h10⟩ := readPublicSubkeys_of _ h7
      refine ⟨_, (6, body) :: (13, uid) :: (2, sigBody) :: qs, h1, .cons (.key h3)
        (.cons (.other (by decide) (by decide)) (.cons (.other (by decide) (by decide)) h9)), fun b' hb' => ?_⟩
      unfold importPublic
      rw [hb']
      simp only [Option.bind_eq_bind, Option.bind_some, hp, ne_eq, not_true_eq_false, if_false, h6, h10]
      rfl
    · rename_i hn
      simp only [Option.bind_eq_some_iff] at h5
      obtain ⟨ss, h7, h8⟩ := h5
      cases h8
      obtain ⟨qs, h9, h10⟩ := readPublicSubkeys_of _ h7
      refine ⟨_, (6, body) :: (13, uid) :: qs, h1, .cons (.key h3)
        (.cons (.other (by decide) (by decide)) h9), fun b' hb' => ?_⟩
      unfold importPublic
      rw [hb']
      simp only [Option.bind_eq_bind, Option.bind_some, hp, ne_eq, not_true_eq_false, if_false]
      split
      · rename_i sigBody qs'
        exfalso
        cases h9 with
        | cons h h' => 
          cases h
          exact hn _ _ rfl
      · rw [h10]
        rfl
  · cases h2

theorem publicSubkeys_bodies {C : Crypto} {key : PublicKey} {body : Bytes} :
    ∀ (qs : List (Nat × Bytes)) {ss : List PublicSubkey}, readPublicSubkeys C key body qs = some ss →
      (qs.filter holdsPublicKey).map Prod.snd = ss.map fun s => publicBody s.key := by
  intro qs
  induction qs using readPublicSubkeys.induct with
  | case1 =>
    intro ss h
    cases h
    rfl
  | case2 subkeyBody sigBody rest ih =>
    intro ss h
    unfold readPublicSubkeys at h
    simp only [Option.bind_eq_bind, Option.bind_eq_some_iff] at h
    obtain ⟨s, h1, ss', h2, h3⟩ := h
    cases h3
    have : subkeyBody = publicBody s.key := by
      unfold readPublicSubkey at h1
      simp only [Option.bind_eq_bind, Option.bind_eq_some_iff] at h1
      obtain ⟨⟨k, pub, r⟩, h4, h5⟩ := h1
      obtain ⟨e1, e2, -⟩ := readPublic_some h4
      dsimp only at h5
      split at h5
      · cases h5
      · rename_i hr
        have hr : r = [] := not_not.1 hr
        have : s.key = k := by
          simp only [Option.bind_eq_some_iff] at h5
          obtain ⟨sig, -, h6⟩ := h5
          split at h6
          · simp only [Option.bind_eq_some_iff] at h6
            obtain ⟨info, -, h7⟩ := h6
            split at h7
            · simp only [Option.bind_eq_some_iff] at h7
              obtain ⟨_, -, _, -, _, -, h8⟩ := h7
              split at h8
              · cases h8
                rfl
              · cases h8
            · cases h7
              rfl
          · cases h6
        rw [this, e1, hr, List.append_nil, e2]
    simp [ih h2, this, holdsPublicKey]
  | case3 ps h1 h2 =>
    intro ss h
    unfold readPublicSubkeys at h
    split at h
    · exact absurd rfl (h1)
    · exact absurd rfl (h2 _ _ _)
    · cases h

/-- The key packets of a public key contain the public keys and nothing else. -/
theorem importPublic_bodies {C : Crypto} {b : Bytes} {k : PublicInfo} (h : importPublic C b = some k) :
    ∃ qs, readPackets b = some qs ∧ (qs.filter holdsPublicKey).map Prod.snd =
      publicBody k.key :: k.subkeys.map fun s => publicBody s.key := by
  unfold importPublic at h
  simp only [Option.bind_eq_bind, Option.bind_eq_some_iff] at h
  obtain ⟨qs, h1, h2⟩ := h
  refine ⟨qs, h1, ?_⟩
  split at h2
  · rename_i keyBody uid rest
    simp only [Option.bind_eq_some_iff] at h2
    obtain ⟨⟨key, body, after⟩, h3, h4⟩ := h2
    obtain ⟨e1, e2, -⟩ := readPublic_some h3
    dsimp only at h4
    split at h4
    · cases h4
    · rename_i hr
      have hr : after = [] := not_not.1 hr
      have e : keyBody = publicBody key := by rw [e1, hr, List.append_nil, e2]
      split at h4
      · simp only [Option.bind_eq_some_iff] at h4
        obtain ⟨cert, -, ss, h5, h6⟩ := h4
        cases h6
        simp [publicSubkeys_bodies _ h5, e, holdsPublicKey]
      · simp only [Option.bind_eq_some_iff] at h4
        obtain ⟨ss, h5, h6⟩ := h4
        cases h6
        simp [publicSubkeys_bodies _ h5, e, holdsPublicKey]
  · cases h2

end Verif.Proofs
