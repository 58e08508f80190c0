import Verif.Proofs.CliText
import Verif.Model.Cli.Flags
import Verif.Spec.Flags
import Mathlib.Tactic.Linarith
import Mathlib.Tactic.Ring
import Mathlib.Tactic.NormNum

/-! # Parsing of the ttl flag -/

namespace Verif.Proofs

open Verif.Model Verif.Model.Cli Verif.Spec

theorem isDigit_iff (c : Byte) : IsDigit c ↔ (0x30 ≤ c ∧ c ≤ 0x39) := by
  unfold IsDigit
  rw [UInt8.le_iff_toNat_le, UInt8.le_iff_toNat_le]
  exact Iff.rfl

theorem digit_val {c : Byte} (h : IsDigit c) : (c - 0x30).toNat = c.toNat - 48 := by
  rw [UInt8.toNat_sub_of_le]
  · rfl
  · rw [UInt8.le_iff_toNat_le]; exact h.1

/-- Value of digits read after a prefix of value `n`. -/
theorem decimal_append_one (ds : Bytes) (c : Byte) :
    decimal (ds ++ [c]) = decimal ds * 10 + (c.toNat - 48) := by
  simp [decimal, Nat.ofDigits_cons]
  ring

theorem decimal_mono (ds es : Bytes) : decimal ds ≤ decimal (ds ++ es) := by
  induction es generalizing ds with
  | nil => simp
  | cons c es ih =>
    have h := ih (ds ++ [c])
    rw [List.append_assoc, List.singleton_append, decimal_append_one] at h
    omega

theorem parseUintLoop_eq : ∀ (rest pre : Bytes) (n : Nat), n = decimal pre →
    (∀ d ∈ rest, IsDigit d) → decimal (pre ++ rest) < 2 ^ 64 →
    parseUintLoop n rest = some (decimal (pre ++ rest))
  | [], pre, n, hn, _, _ => by simp [parseUintLoop, hn]
  | c :: rest, pre, n, hn, hd, hlt => by
    have hc := hd c (by simp)
    have h1 : n * 10 + (c - 0x30).toNat = decimal (pre ++ [c]) := by
      rw [decimal_append_one, digit_val hc, hn]
    have h2 : decimal (pre ++ [c]) < 2 ^ 64 := by
      have := decimal_mono (pre ++ [c]) rest
      rw [List.append_assoc, List.singleton_append] at this
      omega
    rw [parseUintLoop, if_pos ((isDigit_iff c).1 hc)]
    simp only [h1, if_pos h2]
    rw [parseUintLoop_eq rest (pre ++ [c]) _ rfl (fun d h => hd d (by simp [h]))
      (by simpa using hlt)]
    simp

theorem parseUintLoop_some : ∀ (rest pre : Bytes) (n v : Nat), n = decimal pre → n < 2 ^ 64 →
    parseUintLoop n rest = some v →
    (∀ d ∈ rest, IsDigit d) ∧ v = decimal (pre ++ rest) ∧ v < 2 ^ 64
  | [], pre, n, v, hn, hlt, h => by
    simp only [parseUintLoop, Option.some.injEq] at h
    subst h
    simpa [hn] using hlt
  | c :: rest, pre, n, v, hn, hlt, h => by
    rw [parseUintLoop] at h
    split at h
    · rename_i hc
      have hc := (isDigit_iff c).2 hc
      have h1 : n * 10 + (c - 0x30).toNat = decimal (pre ++ [c]) := by
        rw [decimal_append_one, digit_val hc, hn]
      simp only [h1] at h
      split at h
      · rename_i hlt'
        obtain ⟨a, b, d⟩ := parseUintLoop_some rest (pre ++ [c]) _ v rfl hlt' h
        refine ⟨?_, by simpa using b, d⟩
        intro d hd
        rcases List.mem_cons.1 hd with hd | hd
        · exact hd ▸ hc
        · exact a d hd
      · cases h
    · cases h

theorem parseUint_iff (s : Bytes) (v : Nat) :
    parseUint s = some v ↔ s ≠ [] ∧ (∀ d ∈ s, IsDigit d) ∧ decimal s = v ∧ v < 2 ^ 64 := by
  constructor
  · intro h
    unfold parseUint at h
    split at h
    · cases h
    · rename_i hs
      obtain ⟨a, b, c⟩ := parseUintLoop_some s [] 0 v (by simp [decimal]) (by norm_num) h
      exact ⟨hs, a, by simpa using b.symm, c⟩
  · rintro ⟨hs, hd, hv, hlt⟩
    unfold parseUint
    rw [if_neg hs]
    have := parseUintLoop_eq s [] 0 (by simp [decimal]) hd (by simpa [hv] using hlt)
    simpa [hv] using this

/-- Unit letters and their lengths, over all bytes. -/
def unitOf (c : Byte) : Option Nat :=
  if c = 0x64 ∨ c = 0x44 then some 86400
  else if c = 0x77 ∨ c = 0x57 then some 604800
  else if c = 0x6D ∨ c = 0x4D then some 2628000
  else if c = 0x79 ∨ c = 0x59 then some 31536000
  else none

theorem durationUnits_eq : ∀ c : Byte,
    durationUnits (lowerByte c) = (unitOf c).map (fun u : Nat => (u : Int) * 10 ^ 9) := by
  have key : ∀ n : Fin 256, durationUnits (lowerByte (UInt8.ofNat n)) =
      (unitOf (UInt8.ofNat n)).map (fun u : Nat => (u : Int) * 10 ^ 9) := by decide +kernel
  intro c
  have := key ⟨c.toNat, c.toNat_lt⟩
  simpa using this

theorem unitOf_iff (c : Byte) (u : Nat) : unitOf c = some u ↔ UnitSeconds c u := by
  have d : str "dD" = [0x64, 0x44] := by decide
  have w : str "wW" = [0x77, 0x57] := by decide
  have m : str "mM" = [0x6D, 0x4D] := by decide
  have y : str "yY" = [0x79, 0x59] := by decide
  constructor
  · intro h
    unfold unitOf at h
    split at h
    · rename_i hc; cases h; exact .day c (by simpa [d] using hc)
    · split at h
      · rename_i hc; cases h; exact .week c (by simpa [w] using hc)
      · split at h
        · rename_i hc; cases h; exact .month c (by simpa [m] using hc)
        · split at h
          · rename_i hc; cases h; exact .year c (by simpa [y] using hc)
          · cases h
  · intro h
    cases h with
    | day h => simp only [d, List.mem_cons, List.not_mem_nil, or_false] at h
               rcases h with h | h <;> subst h <;> decide
    | week h => simp only [w, List.mem_cons, List.not_mem_nil, or_false] at h
                rcases h with h | h <;> subst h <;> decide
    | month h => simp only [m, List.mem_cons, List.not_mem_nil, or_false] at h
                 rcases h with h | h <;> subst h <;> decide
    | year h => simp only [y, List.mem_cons, List.not_mem_nil, or_false] at h
                rcases h with h | h <;> subst h <;> decide

theorem parseTTL_of {s : Bytes} {q u : Nat} (h : IsTTL s q u) :
    parseTTL s = .ok (durMul (wrap64 q) ((u : Int) * 10 ^ 9)) := by
  obtain ⟨ds, c, rfl, hne, hd, hq, hlt, hu⟩ := h
  have h1 := (unitOf_iff c u).2 hu
  have h2 := (parseUint_iff ds q).2 ⟨hne, hd, hq, hlt⟩
  simp [parseTTL, durationUnits_eq, h1, h2]

theorem parseTTL_ok {s : Bytes} {d : Int} (h : parseTTL s = .ok d) : ∃ q u, IsTTL s q u := by
  unfold parseTTL at h
  split at h
  · cases h
  · rename_i c hc
    split at h
    · cases h
    · rename_i unit hunit
      split at h
      · cases h
      · rename_i q hq
        rw [durationUnits_eq] at hunit
        obtain ⟨u, hu, _⟩ : ∃ u : Nat, unitOf c = some u ∧ _ = unit := Option.map_eq_some_iff.1 hunit
        obtain ⟨a, b, e, f⟩ := (parseUint_iff _ q).1 hq
        obtain ⟨ds, rfl⟩ := List.getLast?_eq_some_iff.1 hc
        rw [List.dropLast_concat] at a b e
        exact ⟨q, u, ds, c, rfl, a, b, e, f, (unitOf_iff c u).1 hu⟩

theorem wrap64_mul (q : Int) (u : Int) : wrap64 (wrap64 q * u) = wrap64 (q * u) := by
  unfold wrap64
  have h : ((q + 2 ^ 63) % 2 ^ 64 - 2 ^ 63) * u + 2 ^ 63 =
      (q * u + 2 ^ 63) + 2 ^ 64 * (-((q + 2 ^ 63) / 2 ^ 64) * u) := by
    have := Int.emod_add_mul_ediv (q + 2 ^ 63) (2 ^ 64)
    have h' : (q + 2 ^ 63) % 2 ^ 64 = q + 2 ^ 63 - 2 ^ 64 * ((q + 2 ^ 63) / 2 ^ 64) := by linarith
    rw [h']; ring
  rw [h, Int.add_mul_emod_self_left]

theorem parseTTL_wrap {s : Bytes} {q u : Nat} (h : IsTTL s q u) :
    parseTTL s = .ok (wrap64 ((q * u * 10 ^ 9 : Nat) : Int)) := by
  rw [parseTTL_of h, durMul, wrap64_mul]
  push_cast
  rw [mul_assoc]

end Verif.Proofs
