import Verif.Spec.Request
import Verif.Proofs.CliSimple
import Mathlib.Data.List.Infix

/-!
# `strings.TrimSpace` removes the white space around a text
-/

namespace Verif.Proofs

open Verif.Model Verif.Model.Cli Verif.Spec

theorem spaces_eq : spaces = whiteSpace.map utf8 := by decide +kernel

theorem mem_spaces {s : Bytes} : s ∈ spaces ↔ ∃ c ∈ whiteSpace, utf8 c = s := by
  rw [spaces_eq, List.mem_map]

theorem spaces_prefix : ∀ s ∈ spaces, ∀ s' ∈ spaces, s.isPrefixOf s' = true → s = s' := by decide +kernel

theorem spaces_suffix : ∀ s ∈ spaces, ∀ s' ∈ spaces, s.isSuffixOf s' = true → s = s' := by decide +kernel

/-- The bytes after the first are continuation bytes; the first is not. -/
theorem spaces_bytes : ∀ s ∈ spaces, s ≠ [] ∧ (∀ x ∈ s.tail, 0x80 ≤ x.toNat ∧ x.toNat < 0xC0) ∧
    ¬ (0x80 ≤ (s.headD 0).toNat ∧ (s.headD 0).toNat < 0xC0) := by decide +kernel

theorem find_unique {α : Type} {p : α → Bool} {a : α} : ∀ {l : List α}, a ∈ l → p a = true →
    (∀ b ∈ l, p b = true → b = a) → l.find? p = some a
  | b :: l, hm, ha, hu => by
    by_cases hb : p b = true
    · rw [List.find?_cons_of_pos hb, hu b List.mem_cons_self hb]
    · rw [List.find?_cons_of_neg hb]
      have hne : a ≠ b := fun e => hb (e ▸ ha)
      exact find_unique ((List.mem_cons.1 hm).resolve_left hne) ha
        (fun b hb => hu b (List.mem_cons_of_mem _ hb))

theorem headSpace_append {s : Bytes} (hs : s ∈ spaces) (rest : Bytes) : headSpace (s ++ rest) = some s := by
  refine find_unique hs (List.isPrefixOf_iff_prefix.2 (List.prefix_append s rest)) ?_
  intro b hb hp
  have hp := List.isPrefixOf_iff_prefix.1 hp
  rcases List.prefix_or_prefix_of_prefix hp (List.prefix_append s rest) with h | h
  · exact spaces_prefix b hb s hs (List.isPrefixOf_iff_prefix.2 h)
  · exact (spaces_prefix s hs b hb (List.isPrefixOf_iff_prefix.2 h)).symm

theorem lastSpace_append {s : Bytes} (hs : s ∈ spaces) (v : Bytes) : lastSpace (v ++ s) = some s := by
  refine find_unique hs (List.isSuffixOf_iff_suffix.2 (List.suffix_append v s)) ?_
  intro b hb hp
  have hp := List.isSuffixOf_iff_suffix.1 hp
  rcases List.suffix_or_suffix_of_suffix hp (List.suffix_append v s) with h | h
  · exact spaces_suffix b hb s hs (List.isSuffixOf_iff_suffix.2 h)
  · exact (spaces_suffix s hs b hb (List.isSuffixOf_iff_suffix.2 h)).symm

theorem trimLeft_skip : ∀ (a rest : Bytes), trimLeft a.length (a ++ rest) = trimLeft 0 rest
  | [], rest => rfl
  | x :: a, rest => by
    rw [List.length_cons, List.cons_append, trimLeft]
    exact trimLeft_skip a rest

theorem trimLeft_space {s : Bytes} (hs : s ∈ spaces) (rest : Bytes) :
    trimLeft 0 (s ++ rest) = trimLeft 0 rest := by
  have h := headSpace_append hs rest
  obtain ⟨x, t, rfl⟩ := List.exists_cons_of_ne_nil (spaces_bytes s hs).1
  rw [List.cons_append, trimLeft, ← List.cons_append, h]
  exact trimLeft_skip t rest

theorem trimLeft_blanks : ∀ (cs : List Nat) (rest : Bytes), (∀ c ∈ cs, c ∈ whiteSpace) →
    trimLeft 0 (cs.flatMap utf8 ++ rest) = trimLeft 0 rest
  | [], rest, _ => rfl
  | c :: cs, rest, h => by
    rw [List.flatMap_cons, List.append_assoc,
      trimLeft_space (mem_spaces.2 ⟨c, h c List.mem_cons_self, rfl⟩)]
    exact trimLeft_blanks cs rest (fun d hd => h d (List.mem_cons_of_mem _ hd))

theorem trimRight_stop {v : Bytes} (h : lastSpace v = none) : ∀ fuel, trimRight fuel v = v
  | 0 => rfl
  | _ + 1 => by rw [trimRight, h]

theorem trimRight_blanks {v : Bytes} (hv : lastSpace v = none) (cs : List Nat)
    (h : ∀ c ∈ cs, c ∈ whiteSpace) : ∀ fuel, cs.length ≤ fuel → trimRight fuel (v ++ cs.flatMap utf8) = v := by
  induction cs using List.reverseRecOn with
  | nil => intro fuel _; rw [List.flatMap_nil, List.append_nil]; exact trimRight_stop hv fuel
  | append_singleton cs c ih =>
    intro fuel hf
    rw [List.length_append] at hf
    cases fuel with
    | zero => simp at hf
    | succ fuel =>
      have hs : utf8 c ∈ spaces := mem_spaces.2 ⟨c, h c (by simp), rfl⟩
      rw [List.flatMap_append, List.flatMap_singleton, ← List.append_assoc, trimRight,
        lastSpace_append hs]
      dsimp only
      rw [List.length_append, Nat.add_sub_cancel, List.take_left']
      · exact ih (fun d hd => h d (by simp [hd])) fuel (by simpa using hf)
      · rfl

theorem headSpace_none_iff {u : Bytes} : headSpace u = none ↔ ∀ c ∈ whiteSpace, ¬ utf8 c <+: u := by
  rw [headSpace, List.find?_eq_none]
  constructor
  · intro h c hc hp
    exact h _ (mem_spaces.2 ⟨c, hc, rfl⟩) (List.isPrefixOf_iff_prefix.2 hp)
  · intro h s hs hp
    obtain ⟨c, hc, rfl⟩ := mem_spaces.1 hs
    exact h c hc (List.isPrefixOf_iff_prefix.1 hp)

theorem lastSpace_none_iff {u : Bytes} : lastSpace u = none ↔ ∀ c ∈ whiteSpace, ¬ utf8 c <:+ u := by
  rw [lastSpace, List.find?_eq_none]
  constructor
  · intro h c hc hp
    exact h _ (mem_spaces.2 ⟨c, hc, rfl⟩) (List.isSuffixOf_iff_suffix.2 hp)
  · intro h s hs hp
    obtain ⟨c, hc, rfl⟩ := mem_spaces.1 hs
    exact h c hc (List.isSuffixOf_iff_suffix.1 hp)

/-- White space does not begin inside a text and end in white space after it. -/
theorem prefix_blank {s u b : Bytes} (hs : s ∈ spaces) (hu : u ≠ []) (hb : Blank b) (h : s <+: u ++ b) :
    s <+: u := by
  by_cases hl : s.length ≤ u.length
  · exact List.prefix_of_prefix_length_le h (List.prefix_append u b) hl
  · exfalso
    obtain ⟨d, rfl⟩ : u <+: s := List.prefix_of_prefix_length_le (List.prefix_append u b) h (by omega)
    have hd : d <+: b := (List.prefix_append_right_inj u).1 h
    have hdne : d ≠ [] := by rintro rfl; simp at hl
    obtain ⟨x, d, rfl⟩ := List.exists_cons_of_ne_nil hdne
    obtain ⟨y, u, rfl⟩ := List.exists_cons_of_ne_nil hu
    have hx := (spaces_bytes _ hs).2.1 x (by simp)
    obtain ⟨cs, hc, rfl⟩ := hb
    cases cs with
    | nil => simp at hd
    | cons c cs =>
      have hsp := spaces_bytes (utf8 c) (mem_spaces.2 ⟨c, hc c List.mem_cons_self, rfl⟩)
      obtain ⟨z, t, hz⟩ := List.exists_cons_of_ne_nil hsp.1
      rw [List.flatMap_cons, hz, List.cons_append] at hd
      have : x = z := (List.cons_prefix_cons.1 hd).1
      have h3 := hsp.2.2
      rw [hz, List.headD_cons, ← this] at h3
      exact h3 hx

theorem utf8_length (c : Nat) : 1 ≤ (utf8 c).length := by
  unfold utf8
  repeat' split
  all_goals simp

theorem flatMap_utf8_length (cs : List Nat) : cs.length ≤ (cs.flatMap utf8).length := by
  induction cs with
  | nil => simp
  | cons c cs ih =>
    rw [List.flatMap_cons, List.length_cons, List.length_append]
    have := utf8_length c
    omega

theorem trimLeft_stop {u : Bytes} (h : headSpace u = none) : trimLeft 0 u = u := by
  cases u with
  | nil => rfl
  | cons x u => rw [trimLeft, h]

theorem trimSpace_of {t u : Bytes} (h : Trimmed t u) : trimSpace t = u := by
  obtain ⟨⟨a, b, ha, hb, rfl⟩, h1, h2⟩ := h
  have hlast := lastSpace_none_iff.2 h2
  obtain ⟨as, has, rfl⟩ := ha
  obtain ⟨bs, hbs, rfl⟩ := hb
  unfold trimSpace
  dsimp only
  rw [List.append_assoc, trimLeft_blanks as _ has]
  by_cases hu : u = []
  · subst hu
    have := trimLeft_blanks bs [] hbs
    rw [List.append_nil] at this
    rw [List.nil_append, this]
    rfl
  · have hh : headSpace (u ++ bs.flatMap utf8) = none := by
      rw [headSpace, List.find?_eq_none]
      intro s hs hp
      have hp := prefix_blank hs hu ⟨bs, hbs, rfl⟩ (List.isPrefixOf_iff_prefix.1 hp)
      obtain ⟨c, hc, rfl⟩ := mem_spaces.1 hs
      exact h1 c hc hp
    rw [trimLeft_stop hh]
    refine trimRight_blanks hlast bs hbs _ ?_
    have := flatMap_utf8_length bs
    rw [List.length_append]
    omega

/-! Every text can be trimmed. -/

theorem trimLeft_shape : ∀ (n : Nat) (t : Bytes), t.length ≤ n →
    ∃ cs : List Nat, (∀ c ∈ cs, c ∈ whiteSpace) ∧ t = cs.flatMap utf8 ++ trimLeft 0 t ∧
      headSpace (trimLeft 0 t) = none
  | n, t, hn => by
    cases h : headSpace t with
    | none => exact ⟨[], by simp, by rw [trimLeft_stop h]; rfl, by rw [trimLeft_stop h]; exact h⟩
    | some s =>
      have hs : s ∈ spaces := List.mem_of_find?_eq_some h
      have hp : s.isPrefixOf t = true := List.find?_some (p := fun s : Bytes => s.isPrefixOf t) h
      have hp := List.isPrefixOf_iff_prefix.1 hp
      obtain ⟨r, rfl⟩ := hp
      obtain ⟨c, hc, rfl⟩ := mem_spaces.1 hs
      have hl := utf8_length c
      rw [List.length_append] at hn
      match n, hn with
      | 0, hn => omega
      | n + 1, hn =>
        obtain ⟨cs, h1, h2, h3⟩ := trimLeft_shape n r (by omega)
        rw [trimLeft_space hs]
        refine ⟨c :: cs, ?_, ?_, h3⟩
        · intro d hd
          rcases List.mem_cons.1 hd with rfl | hd
          · exact hc
          · exact h1 d hd
        · rw [List.flatMap_cons, List.append_assoc, ← h2]

theorem trimRight_shape : ∀ (fuel : Nat) (t : Bytes), t.length ≤ fuel →
    ∃ cs : List Nat, (∀ c ∈ cs, c ∈ whiteSpace) ∧ t = trimRight fuel t ++ cs.flatMap utf8 ∧
      lastSpace (trimRight fuel t) = none
  | 0, t, hn => by
    have : t = [] := List.length_eq_zero_iff.1 (by omega)
    subst this
    exact ⟨[], by simp, rfl, by decide⟩
  | fuel + 1, t, hn => by
    cases h : lastSpace t with
    | none => exact ⟨[], by simp, by rw [trimRight_stop h]; simp, by rw [trimRight_stop h]; exact h⟩
    | some s =>
      have hs : s ∈ spaces := List.mem_of_find?_eq_some h
      have hp : s.isSuffixOf t = true := List.find?_some (p := fun s : Bytes => s.isSuffixOf t) h
      have hp := List.isSuffixOf_iff_suffix.1 hp
      obtain ⟨r, rfl⟩ := hp
      obtain ⟨c, hc, rfl⟩ := mem_spaces.1 hs
      have hl := utf8_length c
      rw [List.length_append] at hn
      obtain ⟨cs, h1, h2, h3⟩ := trimRight_shape fuel r (by omega)
      have e : trimRight (fuel + 1) (r ++ utf8 c) = trimRight fuel r := by
        rw [trimRight, h]
        dsimp only
        rw [List.length_append, Nat.add_sub_cancel, List.take_left']
        rfl
      rw [e]
      refine ⟨cs ++ [c], ?_, ?_, h3⟩
      · intro d hd
        rcases List.mem_append.1 hd with hd | hd
        · exact h1 d hd
        · rw [List.mem_singleton.1 hd]; exact hc
      · rw [List.flatMap_append, List.flatMap_singleton, ← List.append_assoc, ← h2]

theorem trimSpace_trimmed (t : Bytes) : Trimmed t (trimSpace t) := by
  obtain ⟨as, ha, e1, h1⟩ := trimLeft_shape t.length t le_rfl
  obtain ⟨bs, hb, e2, h2⟩ := trimRight_shape (trimLeft 0 t).length (trimLeft 0 t) le_rfl
  have e3 : trimSpace t = trimRight (trimLeft 0 t).length (trimLeft 0 t) := rfl
  rw [← e3] at e2 h2
  refine ⟨⟨_, _, ⟨as, ha, rfl⟩, ⟨bs, hb, rfl⟩, ?_⟩, ?_, lastSpace_none_iff.1 h2⟩
  · rw [List.append_assoc, ← e2, ← e1]
  · intro c hc hp
    refine headSpace_none_iff.1 h1 c hc ?_
    rw [e2]
    exact hp.trans (List.prefix_append _ _)

end Verif.Proofs
