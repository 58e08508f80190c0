import Verif.Spec.Length
import Verif.Proofs.PublicKey

/-! # Helper lemmas on the lengths of encrypted secrets -/

namespace Verif.Proofs

open Verif.Model Verif.Spec Verif.Spec.OpenPGP

theorem cfbDecryptFuel_length {E : Bytes → Bytes} (hE : ∀ b : Bytes, b.length = 16 → (E b).length = 16) :
    ∀ (fuel : Nat) (prev data : Bytes), prev.length = 16 → data.length ≤ fuel →
      (cfbDecryptFuel E fuel prev data).length = data.length
  | 0, prev, data, _, h => by
    rw [List.length_eq_zero_iff.1 (Nat.le_zero.1 h)]
    rfl
  | fuel + 1, prev, data, hp, h => by
    unfold cfbDecryptFuel
    split
    · simp_all
    · rename_i hd
      have hpos : 0 < data.length := List.length_pos_iff.2 hd
      rw [List.length_append, List.length_zipWith, hE prev hp, List.length_take]
      by_cases hs : data.length ≤ 16
      · rw [List.drop_eq_nil_of_le hs, show cfbDecryptFuel E fuel (data.take 16) [] = [] by cases fuel <;> simp [cfbDecryptFuel]]
        simp only [List.length_nil]
        omega
      · rw [cfbDecryptFuel_length hE fuel (data.take 16) (data.drop 16) (by rw [List.length_take]; omega)
          (by rw [List.length_drop]; omega), List.length_drop]
        omega

theorem readMPI_octets {b rest : Bytes} {v : Nat} (h : readMPI b = some (v, rest)) :
    ∃ k, HasOctets v k ∧ b.length = 2 + k + rest.length := by
  unfold readMPI at h
  simp only [Option.bind_eq_bind, Option.bind_eq_some_iff] at h
  obtain ⟨⟨l, b1⟩, h1, ⟨w, b2⟩, h2, h3⟩ := h
  obtain ⟨rfl, hl⟩ := split_some h1
  obtain ⟨rfl, hw⟩ := split_some h2
  dsimp only at h3 hw
  split at h3
  · rename_i hc
    cases h3
    refine ⟨(num l + 7) / 8, ⟨?_, ?_⟩, by simp only [List.length_append]; omega⟩
    · refine lt_of_lt_of_le hc.1 ?_
      rw [show 256 = 2 ^ 8 from rfl, ← Nat.pow_mul]
      exact Nat.pow_le_pow_right (by decide) (by omega)
    · rcases hc.2 with h0 | h0
      · exact .inl (by omega)
      · by_cases hz : num l = 0
        · exact .inl (by omega)
        · refine .inr (le_trans ?_ h0)
          rw [show 256 = 2 ^ 8 from rfl, ← Nat.pow_mul]
          exact Nat.pow_le_pow_right (by decide) (by omega)
  · cases h3

theorem octets_unique {n k k' : Nat} (h : HasOctets n k) (h' : HasOctets n k') : k = k' := by
  have key : ∀ {a b : Nat}, HasOctets n a → HasOctets n b → ¬ a < b := by
    intro a b ha hb hlt
    rcases hb.2 with h0 | h0
    · omega
    · have : 256 ^ a ≤ 256 ^ (b - 1) := Nat.pow_le_pow_right (by decide) (by omega)
      have := ha.1
      omega
  have := key h h'
  have := key h' h
  omega

theorem locked_length {C : Crypto} (hC : C.Lawful) {cipher hash count : Nat} {salt iv data password : Bytes} {n : Nat}
    (hiv : iv.length = 16) (h : openSecret C password (.locked cipher hash salt count iv data) = some n) :
    ∃ k, HasOctets n k ∧ data.length = 22 + k := by
  simp only [openSecret] at h
  split at h
  · simp only [Option.bind_eq_bind, Option.bind_eq_some_iff] at h
    obtain ⟨⟨m, tail⟩, h1, h2⟩ := h
    dsimp only at h2
    split at h2
    · rename_i ht
      cases h2
      obtain ⟨k, hk, hlen⟩ := readMPI_octets h1
      have e : (cfbDecrypt (C.aes256Enc (C.sha256 (s2kOctets salt password count))) iv data).length = data.length :=
        cfbDecryptFuel_length (fun b hb => hC.aes256_length _ _ (hC.sha256_length _) hb) _ _ _ hiv le_rfl
      rw [e] at hlen
      have : tail.length = 20 := by
        rw [ht]
        exact hC.sha1_length _
      exact ⟨k, hk, by omega⟩
    · cases h2
  · cases h

end Verif.Proofs
