import Verif.Model.Seed
import Verif.Proofs.BigInt

/-! Closed form of NewSeed. -/

namespace Verif.Model

theorem newSeed_eq (era x : Int) :
    newSeed era x = if era ≠ 0 then .err .invalidEra
      else if 2 ^ 128 ≤ x.natAbs then .err .entropyTooLarge else .ok ⟨0, x⟩ := by
  by_cases he : era = 0
  · subst he
    have h1 : eraCheck 0 = .ok () := rfl
    unfold newSeed
    rw [h1, Res.bind_ok]
    have h2 : bitLen x > entropyBitCount ↔ 2 ^ 128 ≤ x.natAbs := by
      have := bitLen_le_iff x 128
      rw [show entropyBitCount = 128 from rfl]
      omega
    by_cases hx : 2 ^ 128 ≤ x.natAbs
    · rw [if_pos (h2.mpr hx), if_neg (by simp), if_pos hx]
    · rw [if_neg (fun h => hx (h2.mp h)), if_neg (by simp), if_neg hx]
  · have h1 : eraCheck era = .err .invalidEra := by
      unfold eraCheck
      rw [if_pos]
      rw [show eraLatest = 0 from rfl]; omega
    unfold newSeed
    rw [h1, if_pos he]; rfl

theorem newSeed_ok_iff (era x : Int) (s : Seed) :
    newSeed era x = .ok s ↔ era = 0 ∧ x.natAbs < 2 ^ 128 ∧ s = ⟨0, x⟩ := by
  rw [newSeed_eq]
  by_cases he : era = 0
  · rw [if_neg (by simpa using he)]
    by_cases hx : 2 ^ 128 ≤ x.natAbs
    · rw [if_pos hx]
      constructor
      · intro h; simp at h
      · intro h; exact absurd hx (not_le.mpr h.2.1)
    · rw [if_neg hx, Res.ok.injEq]
      exact ⟨fun h => ⟨he, not_le.mp hx, h.symm⟩, fun h => h.2.2.symm⟩
  · simp [he]

end Verif.Model
