import Verif.Model.Cli.Text
import Mathlib.Data.List.Forall2
import Mathlib.Data.List.Basic

/-! # Splitting and joining text -/

namespace Verif.Proofs

open Verif.Model Verif.Model.Cli

theorem splitLoop_free {sep : Byte} : ∀ (e : Bytes) (cur : Bytes), sep ∉ e →
    splitLoop sep cur e = [cur ++ e]
  | [], cur, _ => by simp [splitLoop]
  | x :: e, cur, h => by
    have hx : x ≠ sep := fun c => h (by simp [c])
    rw [splitLoop, if_neg hx, splitLoop_free e _ (fun c => h (List.mem_cons_of_mem _ c))]
    simp

theorem splitLoop_sep {sep : Byte} : ∀ (e : Bytes) (cur rest : Bytes), sep ∉ e →
    splitLoop sep cur (e ++ sep :: rest) = (cur ++ e) :: splitLoop sep [] rest
  | [], cur, rest, _ => by simp [splitLoop]
  | x :: e, cur, rest, h => by
    have hx : x ≠ sep := fun c => h (by simp [c])
    rw [List.cons_append, splitLoop, if_neg hx,
      splitLoop_sep e _ _ (fun c => h (List.mem_cons_of_mem _ c))]
    simp

/-- `strings.Split` finds the elements of a separated list. -/
theorem split_intercalate {sep : Byte} : ∀ (es : List Bytes), es ≠ [] → (∀ e ∈ es, sep ∉ e) →
    split sep (List.intercalate [sep] es) = es
  | [], h, _ => absurd rfl h
  | [e], _, h => by
    have := splitLoop_free e [] (h e (by simp))
    simpa [split, List.intercalate] using this
  | e :: e' :: es, _, h => by
    have ih := split_intercalate (e' :: es) (by simp)
      (fun x hx => h x (List.mem_cons_of_mem _ hx))
    have h1 := splitLoop_sep e [] (List.intercalate [sep] (e' :: es)) (h e (by simp))
    have h2 : List.intercalate [sep] (e :: e' :: es) =
        e ++ sep :: List.intercalate [sep] (e' :: es) := by
      simp [List.intercalate, List.intersperse]
    rw [h2]
    unfold split at ih ⊢
    rw [h1, ih]
    simp

theorem splitLoop_ne {sep : Byte} : ∀ (s cur : Bytes), splitLoop sep cur s ≠ []
  | [], cur => by simp [splitLoop]
  | x :: s, cur => by
    rw [splitLoop]
    split
    · simp
    · exact splitLoop_ne s _

theorem split_ne {sep : Byte} (s : Bytes) : split sep s ≠ [] := splitLoop_ne s []

theorem intercalate_cons {sep e : Bytes} {es : List Bytes} (h : es ≠ []) :
    List.intercalate sep (e :: es) = e ++ sep ++ List.intercalate sep es := by
  cases es with
  | nil => exact absurd rfl h
  | cons e' es => simp [List.intercalate, List.intersperse]

theorem intercalate_splitLoop {sep : Byte} : ∀ (s cur : Bytes),
    List.intercalate [sep] (splitLoop sep cur s) = cur ++ s
  | [], cur => by simp [splitLoop, List.intercalate]
  | x :: s, cur => by
    rw [splitLoop]
    split
    · rename_i hx
      rw [intercalate_cons (splitLoop_ne _ _), intercalate_splitLoop s []]
      simp [hx]
    · rw [intercalate_splitLoop s]; simp

theorem intercalate_split {sep : Byte} (s : Bytes) :
    List.intercalate [sep] (split sep s) = s := by
  simpa [split] using intercalate_splitLoop (sep := sep) s []

theorem splitLoop_mem {sep : Byte} : ∀ (s cur : Bytes), sep ∉ cur →
    ∀ e ∈ splitLoop sep cur s, sep ∉ e
  | [], cur, h, e, he => by
    simp only [splitLoop, List.mem_singleton] at he; exact he ▸ h
  | x :: s, cur, h, e, he => by
    rw [splitLoop] at he
    split at he
    · rcases List.mem_cons.1 he with he | he
      · exact he ▸ h
      · exact splitLoop_mem s [] (by simp) e he
    · rename_i hx
      exact splitLoop_mem s _ (by simp [h, Ne.symm hx]) e he

theorem split_mem {sep : Byte} (s : Bytes) : ∀ e ∈ split sep s, sep ∉ e :=
  splitLoop_mem s [] (by simp)

theorem join_eq_intercalate (sep : Bytes) : ∀ es : List Bytes,
    join sep es = List.intercalate sep es
  | [] => by simp [join, List.intercalate]
  | [e] => by simp [join, List.intercalate]
  | e :: e' :: es => by
    rw [join, intercalate_cons (by simp), join_eq_intercalate sep (e' :: es)]
    simp

/-! ## Words -/

theorem headSpace_none {x : Byte} {rest : Bytes} (h : isLowerAz x = true) :
    headSpace (x :: rest) = none := by
  have h1 : ¬ x < 0x61 := by
    simp only [isLowerAz, Bool.and_eq_true, decide_eq_true_eq] at h; simpa using h.1
  have h2 : ¬ 0x7A < x := by
    simp only [isLowerAz, Bool.and_eq_true, decide_eq_true_eq] at h; simpa using h.2
  rw [headSpace, List.find?_eq_none]
  intro s hs hp
  have key : ∀ s ∈ spaces, s ≠ [] ∧ (s.headD 0 < 0x61 ∨ 0x7A < s.headD 0) := by decide +kernel
  obtain ⟨hne, ha⟩ := key s hs
  obtain ⟨a, t, rfl⟩ := List.exists_cons_of_ne_nil hne
  rw [List.headD_cons] at ha
  have : a = x := by
    have := List.isPrefixOf_iff_prefix.1 hp
    simpa using (List.cons_prefix_cons.1 this).1
  subst this
  rcases ha with ha | ha
  · exact h1 ha
  · exact h2 ha

theorem fields_word : ∀ (w cur rest : Bytes), (∀ b ∈ w, isLowerAz b = true) →
    fields 0 cur (w ++ rest) = fields 0 (cur ++ w) rest
  | [], cur, rest, _ => by simp
  | x :: w, cur, rest, h => by
    rw [List.cons_append, fields, headSpace_none (h x (by simp))]
    simp only
    rw [fields_word w _ _ (fun b hb => h b (by simp [hb]))]
    simp

theorem fields_space (cur rest : Bytes) :
    fields 0 cur (0x20 :: rest) = (flush cur).map (fun w => (w, 1)) ++ fields 0 [] rest := by
  have : headSpace (0x20 :: rest) = some [0x20] := by
    simp [headSpace, spaces, List.find?, List.isPrefixOf]
  rw [fields, this]; rfl

theorem fields_newline (cur rest : Bytes) :
    fields 0 cur (0x0A :: rest) = (flush cur).map (fun w => (w, 1)) ++ fields 0 [] rest := by
  have : headSpace (0x0A :: rest) = some [0x0A] := by
    simp [headSpace, spaces, List.find?, List.isPrefixOf]
  rw [fields, this]; rfl

/-- A line of lower-case words is read back word by word. -/
theorem fields_line (rest : Bytes) : ∀ (ws : List Bytes),
    (∀ w ∈ ws, w ≠ [] ∧ ∀ b ∈ w, isLowerAz b = true) →
    fields 0 [] (List.intercalate [0x20] ws ++ 0x0A :: rest) = ws.map (fun w => (w, 1)) ++ fields 0 [] rest
  | [], _ => by
    simp only [List.intercalate, List.intersperse, List.flatten_nil, List.nil_append]
    rw [fields_newline]; simp [flush]
  | [w], h => by
    have hw := h w (by simp)
    have : List.intercalate [(0x20 : Byte)] [w] = w := by simp [List.intercalate]
    rw [this, fields_word w [] _ hw.2, fields_newline]
    simp [flush, hw.1]
  | w :: w' :: ws, h => by
    have hw := h w (by simp)
    rw [intercalate_cons (by simp), List.append_assoc, List.append_assoc,
      fields_word w [] _ hw.2]
    simp only [List.nil_append, List.singleton_append]
    rw [fields_space, fields_line rest (w' :: ws) (fun x hx => h x (List.mem_cons_of_mem _ hx))]
    simp [flush, hw.1]

theorem fields_intercalate (ws : List Bytes) (h : ∀ w ∈ ws, w ≠ [] ∧ ∀ b ∈ w, isLowerAz b = true) :
    fields 0 [] (List.intercalate [0x20] ws ++ [0x0A]) = ws.map fun w => (w, 1) := by
  rw [fields_line [] ws h]
  simp [fields, flush]

end Verif.Proofs
