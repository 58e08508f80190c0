import Verif.Model.Cli.Run
import Verif.Props.Layout

/-!
# Usage texts and the width of the terminal (C65)
-/

namespace Verif.Props

open Verif.Model Verif.Model.Cli Verif.Proofs Verif.Spec

/-- The columns a terminal must have for the usage text of a command to come to an end. -/
def columnsNeeded : Cmd → Nat
  | .root => 23
  | .generate => 36
  | .recover => 42
  | .convert => 28

theorem layoutOutcome_eq (indent : Nat) (width : Int) (text : Bytes)
    (hlen : (split 0x20 text).length ≤ 100) (hpos : 0 < indent + width) :
    layoutOutcome (justifyWidth 100 indent width text) =
      if ∀ w ∈ split 0x20 text, (w.length : Int) < width then .ok () else .loops := by
  have ht : IsSpaced text (split 0x20 text) := ⟨split_ne _, split_mem _, (intercalate_split _).symm⟩
  split
  · rename_i h
    obtain ⟨gs, _, _, _, hg⟩ := c57_layout indent width text _ ht h
    rw [hg 100 hlen]
    rfl
  · rename_i h
    push Not at h
    rw [c57_diverges indent width text _ ht h, if_neg (by omega), if_neg]
    · rfl
    · have := Int.tdiv_nonneg (a := (text.length : Int)) (b := indent + width) (by omega) (by omega)
      omega

theorem foldl_andThen (l : List (Outcome Unit)) : ∀ a, (∀ o ∈ a :: l, o = .ok () ∨ o = .loops) →
    l.foldl Outcome.andThen a = if ∀ o ∈ a :: l, o = .ok () then .ok () else .loops := by
  induction l with
  | nil =>
    intro a h
    rcases h a (by simp) with rfl | rfl <;> simp
  | cons b l ih =>
    intro a h
    rw [List.foldl_cons, ih]
    · rcases h a (by simp) with rfl | rfl
      · simp [Outcome.andThen]
      · simp [Outcome.andThen]
    · intro o ho
      rcases List.mem_cons.1 ho with rfl | ho
      · rcases h a (by simp) with rfl | rfl
        · exact h b (by simp)
        · exact .inr rfl
      · exact h o (by simp [ho])

theorem layouts_eq (columns : Nat) (d : Bytes) {α : Type} (l : List α) (text : α → Bytes)
    (hd : (split 0x20 d).length ≤ 100) (hl : ∀ t ∈ l, (split 0x20 (text t)).length ≤ 100) :
    (l.map fun t => layoutOutcome (justifyOptionDescription 100 columns (text t))).foldl
      Outcome.andThen (layoutOutcome (justifyTerminalWidth 100 columns 2 d)) =
    if (∀ w ∈ split 0x20 d, (w.length : Int) < ((columns : Int) * 4).tdiv 5) ∧
      ∀ t ∈ l, ∀ w ∈ split 0x20 (text t), (w.length : Int) < (((columns : Int) - 8) * 4).tdiv 5
    then .ok () else .loops := by
  have hd' : 0 < ((2 : Nat) : Int) + ((columns : Int) * 4).tdiv 5 := by
    have := Int.tdiv_nonneg (a := (columns : Int) * 4) (b := 5) (by omega) (by omega)
    omega
  have ho : 0 < ((8 : Nat) : Int) + (((columns : Int) - 8) * 4).tdiv 5 := by
    by_cases h : 8 ≤ columns
    · have := Int.tdiv_nonneg (a := ((columns : Int) - 8) * 4) (b := 5) (by omega) (by omega)
      omega
    · have e : ((columns : Int) - 8) * 4 = -(((8 - columns : Nat) : Int) * 4) := by omega
      rw [e, Int.neg_tdiv, Int.tdiv_eq_ediv_of_nonneg (by omega)]
      omega
  have h8 : ∀ t ∈ l, layoutOutcome (justifyOptionDescription 100 columns (text t)) =
      if ∀ w ∈ split 0x20 (text t), (w.length : Int) < (((columns : Int) - 8) * 4).tdiv 5 then .ok ()
      else .loops := fun t ht => layoutOutcome_eq 8 _ _ (hl t ht) ho
  have h2 : layoutOutcome (justifyTerminalWidth 100 columns 2 d) =
      if ∀ w ∈ split 0x20 d, (w.length : Int) < ((columns : Int) * 4).tdiv 5 then .ok () else .loops :=
    layoutOutcome_eq 2 _ _ hd hd'
  rw [List.map_congr_left h8, h2, foldl_andThen]
  · congr 1
    simp only [List.mem_cons, List.mem_map, forall_eq_or_imp, forall_exists_index, and_imp,
      forall_apply_eq_imp_iff₂, eq_iff_iff]
    have key : ∀ p : Prop, [Decidable p] → ((if p then Outcome.ok () else Outcome.loops) = .ok () ↔ p) := by
      intro p _
      split <;> simp_all
    constructor
    · rintro ⟨h1, h2⟩
      exact ⟨(key _).1 h1, fun f hf => (key _).1 (h2 f hf)⟩
    · rintro ⟨h1, h2⟩
      exact ⟨(key _).2 h1, fun f hf => (key _).2 (h2 f hf)⟩
  · intro o hm
    simp only [List.mem_cons, List.mem_map] at hm
    rcases hm with rfl | ⟨f, hf, rfl⟩
    · split
      · exact .inl rfl
      · exact .inr rfl
    · split
      · exact .inl rfl
      · exact .inr rfl

theorem usage_short (cmd : Cmd) : (split 0x20 (descriptionOf cmd)).length ≤ 100 ∧
    ∀ f ∈ flagsOf cmd, (split 0x20 (faint (usageText cmd f.1))).length ≤ 100 := by
  cases cmd <;> decide +kernel

/-- All the texts of a command fit exactly if its longest words do. -/
theorem usage_eq (columns : Nat) (cmd : Cmd) : usage columns cmd =
    if (∀ w ∈ split 0x20 (descriptionOf cmd), (w.length : Int) < ((columns : Int) * 4).tdiv 5) ∧
      ∀ f ∈ flagsOf cmd, ∀ w ∈ split 0x20 (faint (usageText cmd f.1)),
        (w.length : Int) < (((columns : Int) - 8) * 4).tdiv 5 then .ok () else .loops := by
  have hlen := usage_short cmd
  have h := layouts_eq columns (descriptionOf cmd) (flagsOf cmd) (fun f => faint (usageText cmd f.1))
    hlen.1 hlen.2
  unfold usage
  rw [h]

/-- The longest word of a description and of the options -/
def longest : Cmd → Nat × Option Nat
  | .root => (17, none)
  | .generate => (8, some 21)
  | .recover => (8, some 26)
  | .convert => (10, some 15)

theorem longest_description (cmd : Cmd) :
    (∀ w ∈ split 0x20 (descriptionOf cmd), w.length ≤ (longest cmd).1) ∧
      ∃ w ∈ split 0x20 (descriptionOf cmd), w.length = (longest cmd).1 := by
  cases cmd <;> decide +kernel

theorem longest_option (cmd : Cmd) :
    (∀ f ∈ flagsOf cmd, ∀ w ∈ split 0x20 (faint (usageText cmd f.1)),
      ∃ n ∈ (longest cmd).2, w.length ≤ n) ∧
      ∀ n ∈ (longest cmd).2, ∃ f ∈ flagsOf cmd, ∃ w ∈ split 0x20 (faint (usageText cmd f.1)),
        w.length = n := by
  cases cmd <;> decide +kernel

/-- The usage text of a command comes to an end exactly on terminals with the given number of columns
or more; on others the program runs for ever. It never panics. -/
theorem c65_usage (columns : Nat) (cmd : Cmd) :
    usage columns cmd = if columnsNeeded cmd ≤ columns then .ok () else .loops := by
  rw [usage_eq]
  congr 1
  obtain ⟨h1, h2⟩ := longest_description cmd
  obtain ⟨h3, h4⟩ := longest_option cmd
  have e : ∀ n : Nat, 9 ≤ n → ((n : Int) < (((columns : Int) - 8) * 4).tdiv 5 ↔
      (n : Int) < (((columns : Int) - 8) * 4) / 5) := by
    intro n hn
    by_cases h : 8 ≤ columns
    · rw [Int.tdiv_eq_ediv_of_nonneg (by omega)]
    · have e : ((columns : Int) - 8) * 4 = -(((8 - columns : Nat) : Int) * 4) := by omega
      rw [e, Int.neg_tdiv, Int.tdiv_eq_ediv_of_nonneg (by omega)]
      omega
  have hd : ((columns : Int) * 4).tdiv 5 = ((columns : Int) * 4) / 5 :=
    Int.tdiv_eq_ediv_of_nonneg (by omega)
  rw [eq_iff_iff, hd]
  constructor
  · rintro ⟨a, b⟩
    obtain ⟨w, hw, hl⟩ := h2
    have ha := a w hw
    rw [hl] at ha
    cases cmd with
    | root => simp only [longest, columnsNeeded] at ha ⊢; omega
    | generate =>
      obtain ⟨f, hf, w, hw, hl⟩ := h4 21 rfl
      have := b f hf w hw
      rw [hl, e _ (by omega)] at this
      simp only [columnsNeeded]; omega
    | recover =>
      obtain ⟨f, hf, w, hw, hl⟩ := h4 26 rfl
      have := b f hf w hw
      rw [hl, e _ (by omega)] at this
      simp only [columnsNeeded]; omega
    | convert =>
      obtain ⟨f, hf, w, hw, hl⟩ := h4 15 rfl
      have := b f hf w hw
      rw [hl, e _ (by omega)] at this
      simp only [columnsNeeded]; omega
  · intro h
    constructor
    · intro w hw
      have := h1 w hw
      cases cmd <;> simp only [longest, columnsNeeded] at this h <;> omega
    · intro f hf w hw
      obtain ⟨n, hn, hl⟩ := h3 f hf w hw
      have hc : 8 ≤ columns := by cases cmd <;> simp only [columnsNeeded] at h <;> omega
      rw [Int.tdiv_eq_ediv_of_nonneg (by omega)]
      cases cmd with
      | root => cases hn
      | generate => cases hn; simp only [columnsNeeded] at h; omega
      | recover => cases hn; simp only [columnsNeeded] at h; omega
      | convert => cases hn; simp only [columnsNeeded] at h; omega

example : usage 80 .recover = .ok () ∧ usage 41 .recover = .loops ∧ usage 0 .root = .loops := by
  decide +kernel

end Verif.Props
