import Verif.Proofs.Scanner

/-! Texts of phrases that end too early: for C115 -/

namespace Verif.Proofs

open Verif.Model Verif.Model.Cli Verif.Spec

theorem space_not_az : ∀ c ∈ whiteSpace, utf8 c ≠ [] ∧ ∀ b ∈ utf8 c, isLowerAz b = false := by decide +kernel

theorem solid_of_az {w : Bytes} (h : ∀ b ∈ w, isLowerAz b = true) : Solid w := by
  intro c hc hi
  obtain ⟨h1, h2⟩ := space_not_az c hc
  obtain ⟨b, hb⟩ := List.exists_mem_of_ne_nil _ h1
  have h3 := h b (hi.subset hb)
  rw [h2 b hb] at h3
  cases h3

theorem prefix_of_append {a b c : Bytes} (h : a <+: b ++ c) : a <+: b ∨ ∃ d, a = b ++ d ∧ d <+: c := by
  obtain ⟨t, ht⟩ := h
  rcases List.append_eq_append_iff.1 ht with ⟨u, h1, -⟩ | ⟨u, h1, h2⟩
  · exact .inl ⟨u, h1.symm⟩
  · exact .inr ⟨u, h1, t, h2.symm⟩

/-- A beginning of a list of words ends in or behind one of them. -/
theorem cut_text : ∀ (ws : List Bytes), ws ≠ [] → ∀ data, data <+: List.intercalate [0x20] ws →
    ∃ us w v vs, ws = us ++ v :: vs ∧ w <+: v ∧ data = List.intercalate [0x20] (us ++ [w])
  | [], h, _, _ => absurd rfl h
  | [a], _, data, h => ⟨[], data, a, [], rfl, by simpa [List.intercalate] using h, by simp [List.intercalate]⟩
  | a :: b :: r, _, data, h => by
    rw [intercalate_cons (by simp), List.append_assoc] at h
    rcases prefix_of_append h with h | ⟨d, hd, h⟩
    · exact ⟨[], data, a, b :: r, rfl, h, by simp [List.intercalate]⟩
    · cases d with
      | nil => exact ⟨[], a, a, b :: r, rfl, List.prefix_refl _, by simp [List.intercalate, hd]⟩
      | cons x d =>
        rw [List.singleton_append, List.cons_prefix_cons] at h
        obtain ⟨us, w, v, vs, h1, h2, h3⟩ := cut_text (b :: r) (by simp) d h.2
        refine ⟨a :: us, w, v, vs, by rw [h1]; rfl, h2, ?_⟩
        rw [List.cons_append, intercalate_cons (by simp), ← h3, hd, h.1, List.append_assoc]
        rfl

/-- The words of a text that ends too early -/
theorem scan_cut : ∀ (us : List Bytes) (w : Bytes), (∀ u ∈ us, u ≠ [] ∧ u.length < 65536 ∧ ∀ b ∈ u, isLowerAz b = true) →
    w.length < 65536 → (∀ b ∈ w, isLowerAz b = true) →
    scanWords (List.intercalate [0x20] (us ++ [w])) = us ++ if w = [] then [] else [w]
  | [], w, _, hl, hw => by
    rw [List.nil_append, show List.intercalate [(0x20 : Byte)] [w] = w from by simp [List.intercalate]]
    by_cases h : w = []
    · rw [if_pos h, h]; rfl
    · rw [if_neg h, scanWords_last h (solid_of_az hw) hl]; rfl
  | u :: us, w, hu, hl, hw => by
    obtain ⟨h1, h2, h3⟩ := hu u List.mem_cons_self
    have h4 : utf8 0x20 = [0x20] := by decide
    rw [List.cons_append, intercalate_cons (by simp), List.append_assoc, ← h4,
      scanWords_word h1 (solid_of_az h3) (by decide) (by rw [h4]; simp; omega), h4,
      scan_cut us w (fun x hx => hu x (List.mem_cons_of_mem _ hx)) hl hw]
    rfl

end Verif.Proofs
