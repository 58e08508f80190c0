import Verif.Spec.Variants
import Verif.Props.Repair
import Mathlib.Tactic.Ring
import Mathlib.Tactic.Linarith

/-! # Counting phrases that differ at some places -/

namespace Verif.Proofs

open Verif.Model Verif.Spec Verif.Props

/-- All lists with other numbers at some places -/
def variants (vals : Nat → List Nat) (is : List Nat) : List Nat → List (List Nat)
  | [] => [is]
  | p :: ps => (variants vals is ps).flatMap fun b => (vals p).map fun v => b.set p v

theorem mem_variants {vals : Nat → List Nat} {is : List Nat} : ∀ {ps : List Nat} {js : List Nat}, ps.Nodup →
    (∀ p ∈ ps, p < is.length) →
    (js ∈ variants vals is ps ↔ js.length = is.length ∧ (∀ p, p ∉ ps → js[p]? = is[p]?) ∧
      ∀ p ∈ ps, ∃ v ∈ vals p, js[p]? = some v)
  | [], js, _, _ => by
    simp only [variants, List.mem_singleton, List.not_mem_nil, not_false_eq_true, true_implies, false_implies,
      implies_true, and_true]
    constructor
    · rintro rfl; exact ⟨rfl, fun _ => rfl⟩
    · rintro ⟨-, h⟩; exact List.ext_getElem? h
  | p :: ps, js, hnd, hlt => by
    obtain ⟨hp, hnd⟩ := List.nodup_cons.1 hnd
    have hpl := hlt p List.mem_cons_self
    have ih := fun {js} => mem_variants (vals := vals) (is := is) (js := js) hnd
      (fun q hq => hlt q (List.mem_cons_of_mem _ hq))
    simp only [variants, List.mem_flatMap, List.mem_map]
    constructor
    · rintro ⟨b, hb, v, hv, rfl⟩
      obtain ⟨h1, h2, h3⟩ := ih.1 hb
      refine ⟨by simpa using h1, ?_, ?_⟩
      · intro q hq
        obtain ⟨hqp, hq⟩ := not_or.1 (List.mem_cons.not.1 hq)
        rw [List.getElem?_set_ne (Ne.symm hqp)]
        exact h2 q hq
      · intro q hq
        rcases List.mem_cons.1 hq with rfl | hq
        · exact ⟨v, hv, List.getElem?_set_self (by omega)⟩
        · rw [List.getElem?_set_ne (by rintro rfl; exact hp hq)]
          exact h3 q hq
    · rintro ⟨h1, h2, h3⟩
      obtain ⟨v, hv, hjv⟩ := h3 p List.mem_cons_self
      refine ⟨js.set p is[p], ih.2 ⟨by simpa using h1, ?_, ?_⟩, v, hv, ?_⟩
      · intro q hq
        by_cases hqp : q = p
        · subst hqp
          rw [List.getElem?_set_self (by omega), List.getElem?_eq_getElem hpl]
        · rw [List.getElem?_set_ne (Ne.symm hqp)]
          exact h2 q (by simp [hqp, hq])
      · intro q hq
        rw [List.getElem?_set_ne (by rintro rfl; exact hp hq)]
        exact h3 q (List.mem_cons_of_mem _ hq)
      · rw [List.set_set]
        apply List.ext_getElem?
        intro q
        by_cases hqp : q = p
        · subst hqp
          rw [List.getElem?_set_self (by omega), hjv]
        · rw [List.getElem?_set_ne (Ne.symm hqp)]

theorem nodup_variants {vals : Nat → List Nat} (hv : ∀ p, (vals p).Nodup) {is : List Nat} : ∀ {ps : List Nat}, ps.Nodup →
    (∀ p ∈ ps, p < is.length) → (variants vals is ps).Nodup
  | [], _, _ => by simp [variants]
  | p :: ps, hnd, hlt => by
    obtain ⟨hp, hnd⟩ := List.nodup_cons.1 hnd
    have hpl := hlt p List.mem_cons_self
    have hlt' : ∀ q ∈ ps, q < is.length := fun q hq => hlt q (List.mem_cons_of_mem _ hq)
    have hlen : ∀ b ∈ variants vals is ps, b.length = is.length := fun b hb => ((mem_variants hnd hlt').1 hb).1
    rw [variants, List.nodup_flatMap]
    refine ⟨?_, ?_⟩
    · intro b hb
      refine (hv p).map_on ?_
      intro v _ w _ h
      have := congrArg (·[p]?) h
      simpa [hlen b hb, hpl] using this
    · have h := nodup_variants hv hnd hlt'
      refine List.Pairwise.imp_of_mem ?_ h
      intro b c hb hc hbc
      show List.Disjoint _ _
      intro x hx hx'
      obtain ⟨v, -, rfl⟩ := List.mem_map.1 hx
      obtain ⟨w, -, hw⟩ := List.mem_map.1 hx'
      apply hbc
      have h1 := ((mem_variants hnd hlt').1 hb).2.1 p hp
      have h2 := ((mem_variants hnd hlt').1 hc).2.1 p hp
      apply List.ext_getElem?
      intro q
      by_cases hqp : q = p
      · subst hqp; rw [h1, h2]
      · have := congrArg (·[q]?) hw
        simp only [List.getElem?_set_ne (Ne.symm hqp)] at this
        exact this.symm

theorem ncard_filter {l : List (List Nat)} (hl : l.Nodup) (P : List Nat → Bool) {T : Set (List Nat)}
    (hT : ∀ js, js ∈ T ↔ js ∈ l ∧ P js = true) : T.ncard = l.countP P := by
  have e : T = ((l.filter P).toFinset : Set (List Nat)) := by
    ext js
    simp [hT]
  rw [e, Set.ncard_coe_finset, List.toFinset_card_of_nodup (hl.filter _), List.countP_eq_length_filter]

/-- Every filling of one more place counts `a` times, less those that count already. -/
theorem countP_flatMap {l : List (List Nat)} {P : List Nat → Bool} {f : List Nat → List (List Nat)} {a c : Nat}
    (h : ∀ b ∈ l, (f b).countP P + (if P b then c else 0) = a) :
    (l.flatMap f).countP P + c * l.countP P = a * l.length := by
  induction l with
  | nil => simp
  | cons b l ih =>
    have h1 := h b List.mem_cons_self
    have h2 := ih fun x hx => h x (List.mem_cons_of_mem _ hx)
    rw [List.flatMap_cons, List.countP_append, List.countP_cons, List.length_cons]
    by_cases hb : P b = true
    · rw [if_pos hb] at h1
      rw [if_pos hb, Nat.mul_add, Nat.mul_add]
      omega
    · rw [if_neg hb] at h1
      rw [if_neg hb, Nat.mul_add, Nat.mul_add]
      omega

theorem length_variants_cons {vals : Nat → List Nat} {is : List Nat} (p : Nat) (ps : List Nat) :
    (variants vals is (p :: ps)).length = (variants vals is ps).length * (vals p).length := by
  rw [variants, List.length_flatMap]
  have : (variants vals is ps).map (fun b => ((vals p).map fun v => b.set p v).length) =
      List.replicate (variants vals is ps).length (vals p).length := by
    rw [List.eq_replicate_iff]
    refine ⟨by simp, ?_⟩
    intro x hx
    obtain ⟨b, -, rfl⟩ := List.mem_map.1 hx
    rw [List.length_map]
  rw [this, List.sum_replicate]
  simp

theorem length_variants {vals : Nat → List Nat} {n : Nat} {is : List Nat} : ∀ {ps : List Nat},
    (∀ p ∈ ps, (vals p).length = n) → (variants vals is ps).length = n ^ ps.length
  | [], _ => by simp [variants]
  | p :: ps, h => by
    rw [length_variants_cons, length_variants fun q hq => h q (List.mem_cons_of_mem _ hq), h p List.mem_cons_self,
      List.length_cons, pow_succ]

end Verif.Proofs
