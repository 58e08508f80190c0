import Verif.Proofs.CliText
import Verif.Model.Cli.Layout
import Verif.Spec.Flags
import Mathlib.Data.List.TakeWhile
import Mathlib.Tactic.NormNum

/-! # The justification loop -/

namespace Verif.Proofs

open Verif.Model Verif.Model.Cli Verif.Spec

/-- What a line shows of its words: leading empty words leave no trace. -/
def shown (g : List Bytes) : Bytes := List.intercalate [0x20] (g.dropWhile (fun w => w = []))

theorem intercalate_snoc {sep : Bytes} : ∀ {es : List Bytes} (e : Bytes), es ≠ [] →
    List.intercalate sep (es ++ [e]) = List.intercalate sep es ++ sep ++ e
  | [], _, h => absurd rfl h
  | [x], e, _ => by simp [List.intercalate, List.intersperse]
  | x :: y :: es, e, _ => by
    rw [List.cons_append, intercalate_cons (by simp), intercalate_snoc (es := y :: es) e (by simp),
      intercalate_cons (e := x) (es := y :: es) (by simp)]
    simp

theorem shown_eq_nil {g : List Bytes} : shown g = [] ↔ ∀ w ∈ g, w = [] := by
  unfold shown
  constructor
  · intro h
    by_contra hc
    have hne : g.dropWhile (fun w => w = []) ≠ [] := by
      intro c; rw [List.dropWhile_eq_nil_iff] at c
      exact hc (by simpa using c)
    obtain ⟨x, xs, hx⟩ := List.exists_cons_of_ne_nil hne
    have hx0 : x ≠ [] := by
      have := List.head_dropWhile_not (fun w : Bytes => decide (w = [])) hne
      simpa [hx] using this
    rw [hx] at h
    cases xs with
    | nil => simp [List.intercalate] at h; exact hx0 h
    | cons y ys => rw [intercalate_cons (by simp)] at h; simp at h
  · intro h
    have : g.dropWhile (fun w => w = []) = [] := by
      rw [List.dropWhile_eq_nil_iff]; simpa using h
    simp [this, List.intercalate]

theorem shown_snoc (g : List Bytes) (w : Bytes) :
    shown (g ++ [w]) = if shown g = [] then w else shown g ++ [0x20] ++ w := by
  split
  · rename_i h
    have h := shown_eq_nil.1 h
    unfold shown
    rw [List.dropWhile_append_of_pos (by simpa using h)]
    by_cases hw : w = [] <;> simp [List.dropWhile, hw, List.intercalate]
  · rename_i h
    have hne : g.dropWhile (fun w => w = []) ≠ [] := by
      intro c; exact h (by simp [shown, c, List.intercalate])
    unfold shown
    rw [List.dropWhile_append]
    simp only [List.isEmpty_iff, hne, if_false]
    exact intercalate_snoc _ hne

theorem fillLine_spec (ind : Bytes) (M : Int) : ∀ (words g0 : List Bytes) (line : Bytes),
    line = ind ++ shown g0 → (line.length : Int) ≤ M ∨ g0 = [] →
    ∃ g rest, fillLine ind M line words = (ind ++ shown (g0 ++ g), rest) ∧ words = g ++ rest ∧
      (g ≠ [] ∨ (line.length : Int) ≤ M → ((ind ++ shown (g0 ++ g)).length : Int) ≤ M) ∧
      (∀ w ∈ g, (ind.length : Int) + w.length + 1 ≤ M) ∧
      (∀ w rest', words = w :: rest' → (line.length : Int) + w.length + 1 ≤ M → g ≠ [])
  | [], g0, line, hl, hM => ⟨[], [], by simp [fillLine, hl], by simp,
      by intro h; rcases h with h | h
         · exact absurd rfl h
         · simpa [hl] using h, by simp, by simp⟩
  | w :: words, g0, line, hl, hM => by
    rw [fillLine]
    split
    · rename_i hw
      have hcond : line ≠ ind ↔ shown g0 ≠ [] := by rw [hl]; simp
      have hl' : (if line ≠ ind then line ++ str " " else line) ++ w = ind ++ shown (g0 ++ [w]) := by
        rw [shown_snoc]
        by_cases hs : shown g0 = []
        · rw [if_neg (by rw [hcond]; simpa using hs), if_pos hs, hl, hs]; simp
        · rw [if_pos (hcond.2 hs), if_neg hs, hl]
          have : str " " = [0x20] := by decide
          rw [this]; simp
      have hlen : (((if line ≠ ind then line ++ str " " else line) ++ w).length : Int) ≤ M := by
        split
        · have : (str " ").length = 1 := by decide
          simp only [List.length_append, this]; push_cast; omega
        · simp only [List.length_append]; push_cast; omega
      obtain ⟨g, rest, h1, h2, h3, h4, _⟩ := fillLine_spec ind M words (g0 ++ [w]) _ hl' (Or.inl hlen)
      refine ⟨w :: g, rest, ?_, by simp [h2], ?_, ?_, by simp⟩
      · simpa using h1
      · intro _
        have := h3 (Or.inr hlen)
        simpa using this
      · intro x hx
        rcases List.mem_cons.1 hx with rfl | hx
        · have : ind.length ≤ line.length := by rw [hl]; simp
          omega
        · exact h4 x hx
    · rename_i hw
      refine ⟨[], w :: words, by simp [hl], by simp, ?_, by simp, ?_⟩
      · intro h; rcases h with h | h
        · exact absurd rfl h
        · simpa [hl] using h
      · intro w' rest' he h
        cases he
        exact absurd h hw

theorem justifyLoop_spec (ind : Bytes) (M : Int) : ∀ (steps : Nat) (words lines : List Bytes),
    words.length ≤ steps → (∀ w ∈ words, (ind.length : Int) + w.length + 1 ≤ M) →
    ∃ gs : List (List Bytes), gs.flatten = words ∧ (∀ g ∈ gs, g ≠ []) ∧
      (∀ g ∈ gs, ((ind ++ shown g).length : Int) ≤ M) ∧
      justifyLoop ind M steps lines words = some (lines ++ gs.map (fun g => ind ++ shown g))
  | _, [], lines, _, _ => ⟨[], by simp, by simp, by simp, by simp [justifyLoop]⟩
  | 0, _ :: _, _, h, _ => by simp at h
  | steps + 1, w :: words, lines, h, hw => by
    have h0 : shown [] = [] := by simp [shown, List.intercalate]
    obtain ⟨g, rest, h1, h2, h3, h4, h5⟩ :=
      fillLine_spec ind M (w :: words) [] ind (by simp [h0]) (Or.inr rfl)
    have hg : g ≠ [] := h5 w words rfl (hw w (by simp))
    have hlen : rest.length ≤ steps := by
      have := congrArg List.length h2
      have h' := List.length_pos_iff.2 hg
      simp only [List.length_cons, List.length_append] at this h
      omega
    obtain ⟨gs, i1, i2, i3, i4⟩ := justifyLoop_spec ind M steps rest
      (lines ++ [ind ++ shown g]) hlen (fun x hx => hw x (by rw [h2]; simp [hx]))
    refine ⟨g :: gs, by simp [i1, h2], ?_, ?_, ?_⟩
    · intro x hx; rcases List.mem_cons.1 hx with rfl | hx
      · exact hg
      · exact i2 x hx
    · intro x hx; rcases List.mem_cons.1 hx with rfl | hx
      · simpa using h3 (Or.inl hg)
      · exact i3 x hx
    · rw [justifyLoop, h1]
      simp only [List.nil_append]
      rw [i4]; simp

theorem justifyLoop_none (ind : Bytes) (M : Int) : ∀ (steps : Nat) (words lines : List Bytes),
    (∃ w ∈ words, M < (ind.length : Int) + w.length + 1) →
    justifyLoop ind M steps lines words = none
  | _, [], _, h => by simp at h
  | 0, _ :: _, _, _ => rfl
  | steps + 1, w :: words, lines, h => by
    have h0 : shown [] = [] := by simp [shown, List.intercalate]
    obtain ⟨g, rest, h1, h2, h3, h4, h5⟩ :=
      fillLine_spec ind M (w :: words) [] ind (by simp [h0]) (Or.inr rfl)
    rw [justifyLoop, h1]
    apply justifyLoop_none
    obtain ⟨x, hx, hl⟩ := h
    rw [h2] at hx
    rcases List.mem_append.1 hx with hx | hx
    · have := h4 x hx; omega
    · exact ⟨x, hx, hl⟩

end Verif.Proofs
