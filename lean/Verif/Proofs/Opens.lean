import Verif.Spec.Opens
import Verif.Proofs.PublicKey

/-! # Helper lemmas on the passwords that open a secret -/

namespace Verif.Proofs

open Verif.Model Verif.Model.Pgp Verif.Spec Verif.Spec.OpenPGP

/-! ## Words that are repeated -/

/-- The first `n` octets of the endless repetition -/
def rep (u : Bytes) (n : Nat) : Bytes := (List.range n).map fun i => u.getD (i % u.length) 0

theorem rep_take (u : Bytes) {m n : Nat} (h : m ≤ n) : (rep u n).take m = rep u m := by
  unfold rep
  rw [← List.map_take, List.take_range, Nat.min_eq_left h]

theorem rep_zero (u : Bytes) : rep u 0 = [] := rfl

theorem rep_add {u : Bytes} (hu : u ≠ []) (m : Nat) : rep u (u.length + m) = u ++ rep u m := by
  have hl : 0 < u.length := List.length_pos_of_ne_nil hu
  have h := repeat_eq u hl (u.length + m)
  rw [Nat.add_div_left _ hl, Nat.add_mod_left, List.replicate_succ, List.flatten_cons, List.append_assoc,
    repeat_eq u hl m] at h
  exact h.symm

theorem rep_self {u : Bytes} (hu : u ≠ []) : rep u u.length = u := by
  have := rep_add hu 0
  rwa [Nat.add_zero, rep_zero, List.append_nil] at this

theorem commute_of_rep {u v : Bytes} (hu : u ≠ []) (hv : v ≠ []) {n : Nat} (hn : u.length + v.length ≤ n)
    (h : rep u n = rep v n) : u ++ v = v ++ u := by
  have cut : ∀ m ≤ n, rep u m = rep v m := fun m hm => by rw [← rep_take u hm, ← rep_take v hm, h]
  have h1 := cut (u.length + v.length) hn
  rw [rep_add hu, Nat.add_comm, rep_add hv, cut v.length (by omega), ← cut u.length (by omega), rep_self hu,
    rep_self hv] at h1
  exact h1

theorem rep_append {u w : Bytes} (hu : u ≠ []) (hw : w ≠ []) (h : ∀ n, rep u n = rep w n) (n : Nat) :
    rep (u ++ w) n = rep u n := by
  have hne : u ++ w ≠ [] := by simp [hu]
  induction n using Nat.strong_induction_on with
  | _ n ih =>
    have hpos : 0 < u.length := List.length_pos_of_ne_nil hu
    have hlen : (u ++ w).length = u.length + w.length := List.length_append
    have step : ∀ m, rep u ((u ++ w).length + m) = u ++ w ++ rep u m := by
      intro m
      rw [hlen, Nat.add_assoc, rep_add hu, h (w.length + m), rep_add hw, ← h m, List.append_assoc]
    by_cases hn : n ≤ (u ++ w).length
    · have e := step 0
      rw [Nat.add_zero, rep_zero, List.append_nil] at e
      rw [← rep_take u hn, e, ← rep_take (u ++ w) hn, rep_self hne]
    · obtain ⟨m, rfl⟩ : ∃ m, n = (u ++ w).length + m := ⟨n - (u ++ w).length, by omega⟩
      rw [rep_add hne, step, ih m (by omega)]

theorem commute_prefix {u v : Bytes} (h : u ++ v = v ++ u) (hl : u.length ≤ v.length) :
    ∃ w, v = u ++ w ∧ u ++ w = w ++ u := by
  have h1 : u <+: v ++ u := ⟨v, h⟩
  obtain ⟨w, rfl⟩ := List.prefix_of_prefix_length_le h1 (List.prefix_append v u) hl
  rw [List.append_assoc] at h
  exact ⟨w, rfl, List.append_cancel_left h⟩

theorem rep_of_commute : ∀ (k : Nat) {u v : Bytes}, u.length + v.length ≤ k → u ≠ [] → v ≠ [] → u ++ v = v ++ u →
    ∀ n, rep u n = rep v n
  | 0, u, v, hk, hu, _, _, _ => by
    have := List.length_pos_of_ne_nil hu
    omega
  | k + 1, u, v, hk, hu, hv, h, n => by
    have hpu := List.length_pos_of_ne_nil hu
    have hpv := List.length_pos_of_ne_nil hv
    rcases Nat.le_total u.length v.length with hl | hl
    · obtain ⟨w, rfl, hw⟩ := commute_prefix h hl
      by_cases hn : w = []
      · rw [hn, List.append_nil]
      · rw [List.length_append] at hk
        exact (rep_append hu hn (rep_of_commute k (by omega) hu hn hw) n).symm
    · obtain ⟨w, rfl, hw⟩ := commute_prefix h.symm hl
      by_cases hn : w = []
      · rw [hn, List.append_nil]
      · rw [List.length_append] at hk
        exact rep_append hv hn (rep_of_commute k (by omega) hv hn hw) n

theorem s2kOctets_rep {salt p : Bytes} {n : Nat} (h : salt.length + p.length ≤ n) :
    s2kOctets salt p n = rep (salt ++ p) n := by
  have h' : (salt ++ p).length ≤ n := by rw [List.length_append]; exact h
  simp only [s2kOctets, rep, max_eq_left h']

theorem commute_salt {salt p q : Bytes} :
    salt ++ p ++ (salt ++ q) = salt ++ q ++ (salt ++ p) ↔ p ++ salt ++ q = q ++ salt ++ p := by
  simp only [List.append_assoc]
  exact List.append_right_inj salt

/-! ## A short difference -/

theorem period_of {s d x y : Bytes} (h : s ++ x = d ++ (s ++ y)) : Period d.length s := by
  intro i hi
  have h1 : (s ++ x)[i + d.length]? = (d ++ (s ++ y))[i + d.length]? := by rw [h]
  rw [List.getElem?_append_left hi, List.getElem?_append_right (by omega), Nat.add_sub_cancel,
    List.getElem?_append_left (by omega)] at h1
  exact h1

theorem begins_of {s d x y : Bytes} (h : s ++ x = d ++ (s ++ y)) {i : Nat} (hs : i < s.length) (hd : i < d.length) :
    s[i]? = d[i]? := by
  have h1 : (s ++ x)[i]? = (d ++ (s ++ y))[i]? := by rw [h]
  rwa [List.getElem?_append_left hs, List.getElem?_append_left hd] at h1

theorem same_salt {s s' d x y x' y' : Bytes} (hl : s.length = s'.length) (hd : d ≠ []) (h : s ++ x = d ++ (s ++ y))
    (h' : s' ++ x' = d ++ (s' ++ y')) : s = s' := by
  have hp : 0 < d.length := List.length_pos_of_ne_nil hd
  apply List.ext_getElem?
  intro i
  induction i using Nat.strong_induction_on with
  | _ i ih =>
    by_cases hi : i < s.length
    · by_cases hid : i < d.length
      · rw [begins_of h hi hid, begins_of h' (by omega) hid]
      · obtain ⟨j, rfl⟩ : ∃ j, i = j + d.length := ⟨i - d.length, by omega⟩
        rw [period_of h j hi, period_of h' j (by omega)]
        exact ih j (by omega)
    · rw [List.getElem?_eq_none (by omega), List.getElem?_eq_none (by omega)]

theorem longer {salt p q : Bytes} (h : p ++ salt ++ q = q ++ salt ++ p) (hl : p.length + salt.length ≤ q.length) :
    ∃ r, q = p ++ salt ++ r := by
  have h1 : p ++ salt <+: q ++ (salt ++ p) := ⟨q, by rw [h, List.append_assoc]⟩
  obtain ⟨r, hr⟩ := List.prefix_of_prefix_length_le h1 (List.prefix_append q _) (by rw [List.length_append]; exact hl)
  exact ⟨r, hr.symm⟩

theorem shorter {salt p q : Bytes} (h : p ++ salt ++ q = q ++ salt ++ p) (hl : p.length < q.length) :
    ∃ d, d ≠ [] ∧ q = p ++ d ∧ salt ++ (p ++ d) = d ++ (salt ++ p) := by
  have h1 : p <+: q ++ (salt ++ p) := ⟨salt ++ q, by rw [← List.append_assoc, h, List.append_assoc]⟩
  obtain ⟨d, rfl⟩ := List.prefix_of_prefix_length_le h1 (List.prefix_append q _) (by omega)
  refine ⟨d, ?_, rfl, ?_⟩
  · rintro rfl
    simp at hl
  · simp only [List.append_assoc] at h
    exact List.append_cancel_left h

theorem two_salts_lt {salt salt' p q : Bytes} (hl : salt.length = salt'.length) (hlt : p.length < q.length)
    (h : p ++ salt ++ q = q ++ salt ++ p) (h' : p ++ salt' ++ q = q ++ salt' ++ p) : salt = salt' := by
  obtain ⟨d, hd, rfl, e⟩ := shorter h hlt
  obtain ⟨d', -, e0, e'⟩ := shorter h' hlt
  rw [← List.append_cancel_left e0] at e'
  exact same_salt hl hd e e'

/-! ## CFB the other way -/

theorem cfb_encrypt_decrypt (E : Bytes → Bytes) (hE : ∀ b : Bytes, b.length = 16 → (E b).length = 16) :
    ∀ (fuel : Nat) (iv data : Bytes), iv.length = 16 → data.length ≤ fuel → ∀ fuel', data.length ≤ fuel' →
      cfbEncryptLoop E fuel' iv (cfbDecryptFuel E fuel iv data) = data := by
  intro fuel
  induction fuel with
  | zero =>
    intro iv data _ hf fuel' _
    rw [List.length_eq_zero_iff.1 (Nat.le_zero.1 hf)]
    cases fuel' <;> simp [cfbEncryptLoop, cfbDecryptFuel]
  | succ fuel ih =>
    intro iv data hiv hf fuel' hf'
    by_cases hs : data = []
    · subst hs
      cases fuel' <;> simp [cfbEncryptLoop, cfbDecryptFuel]
    · have hpos : 0 < data.length := List.length_pos_of_ne_nil hs
      obtain ⟨f', rfl⟩ : ∃ k, fuel' = k + 1 := ⟨fuel' - 1, by omega⟩
      have hb : (List.zipWith (· ^^^ ·) (data.take 16) (E iv)).length = min 16 data.length := by simp [hE iv hiv]
      have hx := zip_xor_cancel (data.take 16) (E iv) (by rw [hE iv hiv]; simp)
      simp only [cfbDecryptFuel, if_neg hs]
      generalize List.zipWith (· ^^^ ·) (data.take 16) (E iv) = blk at *
      have hne : blk ++ cfbDecryptFuel E fuel (data.take 16) (data.drop 16) ≠ [] := by
        intro hc
        have := congrArg List.length hc
        simp only [List.length_append, hb, List.length_nil] at this
        omega
      simp only [cfbEncryptLoop, if_neg hne]
      by_cases h16 : data.length ≤ 16
      · have hd : data.drop 16 = [] := List.drop_eq_nil_of_le h16
        have h1 : ∀ iv, cfbDecryptFuel E fuel iv [] = [] := by intro iv; cases fuel <;> simp [cfbDecryptFuel]
        have h2 : ∀ iv, cfbEncryptLoop E f' iv [] = [] := by intro iv; cases f' <;> simp [cfbEncryptLoop]
        rw [hd, h1, List.append_nil, List.take_of_length_le (l := blk) (by omega),
          List.drop_eq_nil_of_le (as := blk) (by omega), h2, List.append_nil, hx, List.take_of_length_le h16]
      · have hbl : blk.length = 16 := by rw [hb]; omega
        rw [List.take_left' hbl, List.drop_left' hbl, hx,
          ih (data.take 16) (data.drop 16) (by simp; omega) (by simp; omega) f' (by simp; omega), List.take_append_drop]

/-! ## What was read is what would be written -/

theorem readMPI_canonical {b rest : Bytes} {v : Nat} (h : readMPI b = some (v, rest)) :
    b = encodeMPI (v : Int) ++ rest ∧ v.size < 65536 := by
  unfold readMPI at h
  simp only [Option.bind_eq_bind, Option.bind_eq_some_iff] at h
  obtain ⟨⟨l, b1⟩, h1, ⟨w, b2⟩, h2, h3⟩ := h
  obtain ⟨rfl, hl⟩ := split_some h1
  obtain ⟨rfl, hw⟩ := split_some h2
  dsimp only at h3 hw
  split at h3
  · rename_i hc
    cases h3
    have hsize : (num w).size = num l := by
      apply le_antisymm
      · exact Nat.size_le.2 hc.1
      · rcases hc.2 with h0 | h0
        · omega
        · by_contra hlt
          have : num w < 2 ^ (num l - 1) := Nat.size_le.1 (by omega)
          omega
    have hl2 : num l < 65536 := by
      have := setBytes_lt l
      rw [hl] at this
      rw [num_eq]
      simpa using this
    refine ⟨?_, by omega⟩
    unfold encodeMPI intBytes
    rw [bitLen_natCast, hsize, Int.natAbs_natCast, ← hw, num_eq w, beBytes_setBytes, num_eq l]
    conv_rhs => rw [← hl, beBytes_setBytes]
    simp
  · cases h3

end Verif.Proofs
