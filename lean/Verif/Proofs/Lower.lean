import Verif.Model.Lower
import Verif.Spec.Spelling
import Verif.Proofs.Quoted

/-! # Lower case -/

namespace Verif.Proofs

open Verif.Model Verif.Model.Cli Verif.Spec

theorem appendRune_high {r : Nat} (h : 0x80 ≤ r) : ∃ b t, appendRune r = b :: t ∧ 0x80 ≤ b.toNat := by
  unfold appendRune
  simp only
  rw [if_neg (by omega)]
  by_cases h1 : r ≤ 0x7FF
  · rw [if_pos h1]
    exact ⟨_, _, rfl, by rw [UInt8.toNat_ofNat']; omega⟩
  · rw [if_neg h1]
    by_cases h2 : validRune r = true
    · have h3 : r ≤ 0x10FFFF := by unfold validRune at h2; simp at h2; omega
      rw [if_neg (by simp [h2])]
      by_cases h4 : r ≤ 0xFFFF
      · rw [if_pos h4]
        exact ⟨_, _, rfl, by rw [UInt8.toNat_ofNat']; omega⟩
      · rw [if_neg h4]
        exact ⟨_, _, rfl, by rw [UInt8.toNat_ofNat']; omega⟩
    · rw [if_pos h2]
      exact ⟨_, _, rfl, by decide⟩

theorem decode_kelvin (t : Bytes) : decodeRune (0xE2 :: 0x84 :: 0xAA :: t) = (0x212A, 3) := by
  have : ¬ t.length + 3 < 3 := by omega
  simp [decodeRune, utf8First, this]

theorem decode_dotted (t : Bytes) : decodeRune (0xC4 :: 0xB0 :: t) = (0x130, 2) := by
  have : ¬ t.length + 2 < 2 := by omega
  simp [decodeRune, utf8First, this]

theorem decode_ascii {b : Byte} (h : b.toNat < 0x80) (t : Bytes) : decodeRune (b :: t) = (b.toNat, 1) := by
  rw [decodeRune, if_pos h]

theorem lower_byte {lower : Nat → Nat} (hl : LowerTable lower) {b : Byte} (h : b.toNat < 0x80) :
    appendRune (lower b.toNat) = [asciiLower b] := by
  rw [hl.ascii _ h]
  unfold asciiLower appendRune
  have e1 : (0x41 ≤ b ∧ b ≤ 0x5A) ↔ (0x41 ≤ b.toNat ∧ b.toNat ≤ 0x5A) := by
    rw [UInt8.le_iff_toNat_le, UInt8.le_iff_toNat_le]; rfl
  by_cases h1 : 0x41 ≤ b.toNat ∧ b.toNat ≤ 0x5A
  · rw [if_pos h1, if_pos (e1.2 h1)]
    simp only
    rw [if_pos (by omega)]
    congr 1
  · rw [if_neg h1, if_neg (mt e1.1 h1)]
    simp only
    rw [if_pos (by omega)]
    simp

theorem sameLetter_iff {a b : Byte} (hb : isLowerAz b = true) : sameLetter a b ↔ a < 0x80 ∧ asciiLower a = b := by
  have hb' : 0x61 ≤ b.toNat ∧ b.toNat ≤ 0x7A := by
    simpa [isLowerAz, UInt8.le_iff_toNat_le] using hb
  have e : (asciiLower a = b) ↔ (if 0x41 ≤ a.toNat ∧ a.toNat ≤ 0x5A then (a.toNat + 0x20) % 256 else a.toNat) = b.toNat := by
    rw [← UInt8.toNat_inj, asciiLower]
    have e1 : (0x41 ≤ a ∧ a ≤ 0x5A) ↔ (0x41 ≤ a.toNat ∧ a.toNat ≤ 0x5A) := by
      rw [UInt8.le_iff_toNat_le, UInt8.le_iff_toNat_le]; rfl
    by_cases h1 : 0x41 ≤ a.toNat ∧ a.toNat ≤ 0x5A
    · rw [if_pos h1, if_pos (e1.2 h1), UInt8.toNat_add]; rfl
    · rw [if_neg h1, if_neg (mt e1.1 h1)]
  rw [e, sameLetter]
  simp only [UInt8.le_iff_toNat_le, UInt8.lt_iff_toNat_lt, ← UInt8.toNat_inj, UInt8.toNat_add, UInt8.reduceToNat]
  by_cases h1 : 0x41 ≤ a.toNat ∧ a.toNat ≤ 0x5A
  · rw [if_pos h1]; omega
  · rw [if_neg h1]; omega

/-- The letters of `v` are a-z: what the second loop writes is `v` exactly if the text spells it -/
theorem mapRest_spells {lower : Nat → Nat} (hl : LowerTable lower) : ∀ (n : Nat) (s v : Bytes), s.length ≤ n →
    (∀ b ∈ v, isLowerAz b = true) → (mapRest lower n s = v ↔ Spells s v)
  | 0, s, v, h, hv => by
    rw [List.length_eq_zero_iff.1 (Nat.le_zero.1 h), mapRest]
    constructor
    · rintro rfl; exact .nil
    · intro h; cases h; rfl
  | n + 1, [], v, _, _ => by
    rw [mapRest]
    constructor
    · rintro rfl; exact .nil
    · intro h; cases h; rfl
  | n + 1, b0 :: rest, v, h, hv => by
    rw [List.length_cons] at h
    rw [mapRest]
    swap
    · simp
    have az : ∀ {b : Byte}, isLowerAz b = true → b.toNat < 0x80 := by
      intro b hb
      have : 0x61 ≤ b.toNat ∧ b.toNat ≤ 0x7A := by simpa [isLowerAz, UInt8.le_iff_toNat_le] using hb
      omega
    by_cases hb : b0.toNat < 0x80
    · rw [decode_ascii hb, lower_byte hl hb, List.drop_succ_cons, List.drop_zero]
      constructor
      · rintro rfl
        have hm : isLowerAz (asciiLower b0) = true := hv _ (by simp)
        refine .letter ((sameLetter_iff hm).2 ⟨UInt8.lt_iff_toNat_lt.2 hb, rfl⟩) ?_
        exact (mapRest_spells hl n rest _ (by omega) (fun b hb => hv b (List.mem_cons_of_mem _ hb))).1 rfl
      · intro hs
        cases hs with
        | @letter _ b _ w hab hs =>
          have hm := (sameLetter_iff (hv b List.mem_cons_self)).1 hab
          rw [hm.2, (mapRest_spells hl n rest w (by omega) (fun b hb => hv b (by simp [hb]))).2 hs]
          rfl
        | kelvin _ => exact absurd hb (by decide)
        | dotted _ => exact absurd hb (by decide)
    · have high : ∀ {r : Nat}, 0x80 ≤ r → ∀ t, appendRune r ++ t ≠ v := by
        rintro r hr t rfl
        obtain ⟨b, t', e, hb⟩ := appendRune_high hr
        have := az (hv b (by rw [e]; simp))
        omega
      have nospell : (decodeRune (b0 :: rest)).1 ≠ 0x212A → (decodeRune (b0 :: rest)).1 ≠ 0x130 → ¬ Spells (b0 :: rest) v := by
        intro h1 h2 hs
        cases hs with
        | letter hab _ => exact hb (UInt8.lt_iff_toNat_lt.1 hab.1)
        | kelvin _ => rw [decode_kelvin] at h1; exact h1 rfl
        | dotted _ => rw [decode_dotted] at h2; exact h2 rfl
      rcases decode_cases b0 rest (by omega) with e | ⟨r, rest', hsc, hr, es, e, -⟩
      · refine iff_of_false ?_ (nospell ?_ ?_)
        · rw [e]; exact high (hl.other runeError (by decide) (by decide) (by decide)) _
        · rw [e]; decide
        · rw [e]; decide
      · by_cases hk : r = 0x212A
        · subst hk
          rw [show utf8 0x212A = [0xE2, 0x84, 0xAA] by decide] at es
          obtain ⟨rfl, rfl⟩ := List.cons.inj es
          simp only [List.length_cons, List.append_eq, List.cons_append, List.nil_append] at h ⊢
          rw [decode_kelvin, hl.kelvin, show appendRune 0x6B = [0x6B] by decide]
          simp only [List.drop_succ_cons, List.drop_zero]
          constructor
          · rintro rfl
            exact .kelvin ((mapRest_spells hl n rest' _ (by omega) (fun b hb => hv b (List.mem_cons_of_mem _ hb))).1 rfl)
          · intro hs
            cases hs with
            | letter hab _ => exact absurd hab.1 (by decide)
            | @kelvin _ w hs =>
              rw [(mapRest_spells hl n rest' w (by omega) (fun b hb => hv b (by simp [hb]))).2 hs]
              rfl
        · by_cases hi : r = 0x130
          · subst hi
            rw [show utf8 0x130 = [0xC4, 0xB0] by decide] at es
            obtain ⟨rfl, rfl⟩ := List.cons.inj es
            simp only [List.length_cons, List.append_eq, List.cons_append, List.nil_append] at h ⊢
            rw [decode_dotted, hl.dotted, show appendRune 0x69 = [0x69] by decide]
            simp only [List.drop_succ_cons, List.drop_zero]
            constructor
            · rintro rfl
              exact .dotted ((mapRest_spells hl n rest' _ (by omega) (fun b hb => hv b (List.mem_cons_of_mem _ hb))).1 rfl)
            · intro hs
              cases hs with
              | letter hab _ => exact absurd hab.1 (by decide)
              | @dotted _ w hs =>
                rw [(mapRest_spells hl n rest' w (by omega) (fun b hb => hv b (by simp [hb]))).2 hs]
                rfl
          · refine iff_of_false ?_ (nospell ?_ ?_)
            · rw [e]; exact high (hl.other r hr hk hi) _
            · rw [e]; exact hk
            · rw [e]; exact hi

/-- The characters kept are those that would be written -/
theorem mapFirst_eq {lower : Nat → Nat} : ∀ (n : Nat) (done s : Bytes), s.length ≤ n →
    mapFirst lower n done s = done ++ mapRest lower n s
  | 0, done, s, h => by simp [mapFirst, mapRest]
  | n + 1, done, [], _ => by simp [mapFirst, mapRest]
  | n + 1, done, b0 :: rest, h => by
    rw [List.length_cons] at h
    rw [mapFirst, mapRest]
    rotate_left
    · simp
    · simp
    simp only
    by_cases hc : lower (decodeRune (b0 :: rest)).1 = (decodeRune (b0 :: rest)).1 ∧
        ((decodeRune (b0 :: rest)).1 ≠ runeError ∨ (decodeRune (b0 :: rest)).2 ≠ 1)
    · rw [if_pos hc, hc.1]
      have key : appendRune (decodeRune (b0 :: rest)).1 = (b0 :: rest).take (decodeRune (b0 :: rest)).2 ∧
          1 ≤ (decodeRune (b0 :: rest)).2 := by
        by_cases hb : b0.toNat < 0x80
        · rw [decode_ascii hb]
          simp only [List.take_succ_cons, List.take_zero, Nat.le_refl, and_true]
          rw [appendRune]
          simp only
          rw [if_pos (by omega)]
          simp
        · rcases decode_cases b0 rest (by omega) with e | ⟨r, rest', hsc, hr, es, e, hl2⟩
          · rw [e] at hc
            rcases hc.2 with h | h <;> exact absurd rfl h
          · rw [e, es]
            exact ⟨by rw [appendRune_eq hsc]; simp, by simp only; omega⟩
      rw [mapFirst_eq n _ _ (by simp; omega), key.1, List.append_assoc]
    · rw [if_neg hc, List.append_assoc]

theorem mapRest_ascii {lower : Nat → Nat} (hl : LowerTable lower) : ∀ (n : Nat) (s : Bytes), s.length ≤ n →
    (∀ b ∈ s, b < 0x80) → mapRest lower n s = s.map asciiLower
  | 0, s, h, _ => by rw [List.length_eq_zero_iff.1 (Nat.le_zero.1 h)]; rfl
  | n + 1, [], _, _ => rfl
  | n + 1, b0 :: rest, h, hs => by
    have hb : b0.toNat < 0x80 := UInt8.lt_iff_toNat_lt.1 (hs b0 List.mem_cons_self)
    rw [List.length_cons] at h
    rw [mapRest, decode_ascii hb, lower_byte hl hb, List.drop_succ_cons, List.drop_zero,
      mapRest_ascii hl n rest (by omega) (fun b hb => hs b (List.mem_cons_of_mem _ hb))]
    · rfl
    · simp

theorem goToLower_eq {lower : Nat → Nat} (hl : LowerTable lower) (s : Bytes) :
    goToLower lower s = mapRest lower s.length s := by
  rw [goToLower]
  by_cases h : s.all (fun b => b < 0x80) = true
  · rw [if_pos h, mapRest_ascii hl _ _ (Nat.le_refl _) (by simpa using h)]
  · rw [if_neg h, mapFirst_eq _ _ _ (Nat.le_refl _), List.nil_append]

theorem goToLower_spells {lower : Nat → Nat} (hl : LowerTable lower) (s v : Bytes) (hv : ∀ b ∈ v, isLowerAz b = true) :
    goToLower lower s = v ↔ Spells s v := by
  rw [goToLower_eq hl]
  exact mapRest_spells hl _ _ _ (Nat.le_refl _) hv

end Verif.Proofs
