import Verif.Spec.Words
import Verif.Proofs.CliTrim
import Verif.Props.Typing
import Verif.Props.Simple
import Verif.Props.Files

/-!
# Lemmas on the words that a command gets (C94)
-/

namespace Verif.Proofs

open Verif.Model Verif.Model.Cli Verif.Spec Verif.Props

/-! ## Files -/

theorem utf8_mem {c : Nat} (h : c ∈ whiteSpace) : utf8 c ∈ spaces := mem_spaces.2 ⟨c, h, rfl⟩

theorem spaces_short : ∀ s ∈ spaces, s.length ≤ 3 := by decide +kernel

theorem solid_iff {t : Bytes} : Solid t ↔ ∀ s ∈ spaces, ¬ s <:+: t := by
  constructor
  · intro h s hs
    obtain ⟨c, hc, rfl⟩ := mem_spaces.1 hs
    exact h c hc
  · exact fun h c hc => h _ (utf8_mem hc)

/-- No continuation byte at the start -/
def Lead (t : Bytes) : Prop := ∀ x r, t = x :: r → ¬ (0x80 ≤ x.toNat ∧ x.toNat < 0xC0)

theorem lead_space {s : Bytes} (hs : s ∈ spaces) (t : Bytes) : Lead (s ++ t) := by
  intro x r e
  obtain ⟨hne, -, hh⟩ := spaces_bytes s hs
  obtain ⟨y, u, rfl⟩ := List.exists_cons_of_ne_nil hne
  rw [List.cons_append, List.cons.injEq] at e
  rw [List.headD_cons, e.1] at hh
  exact hh

/-- White space does not begin inside a text and end behind it if what is behind begins with no continuation byte. -/
theorem prefix_lead {s u b : Bytes} (hs : s ∈ spaces) (hu : u ≠ []) (hb : Lead b) (h : s <+: u ++ b) : s <+: u := by
  by_cases hl : s.length ≤ u.length
  · exact List.prefix_of_prefix_length_le h (List.prefix_append u b) hl
  · exfalso
    obtain ⟨d, rfl⟩ : u <+: s := List.prefix_of_prefix_length_le (List.prefix_append u b) h (by omega)
    have hd : d <+: b := (List.prefix_append_right_inj u).1 h
    have hdne : d ≠ [] := by rintro rfl; simp at hl
    obtain ⟨x, d, rfl⟩ := List.exists_cons_of_ne_nil hdne
    obtain ⟨y, u, rfl⟩ := List.exists_cons_of_ne_nil hu
    obtain ⟨r, rfl⟩ := hd
    exact hb x _ rfl ((spaces_bytes _ hs).2.1 x (by simp))

theorem fields_skip : ∀ (a cur rest : Bytes), fields a.length cur (a ++ rest) = fields 0 cur rest
  | [], _, _ => rfl
  | x :: a, cur, rest => by
    rw [List.length_cons, List.cons_append, fields]
    exact fields_skip a cur rest

theorem fields_at_space {s : Bytes} (hs : s ∈ spaces) (cur rest : Bytes) :
    fields 0 cur (s ++ rest) = ((flush cur).map fun w => (w, s.length)) ++ fields 0 [] rest := by
  have h := headSpace_append hs rest
  obtain ⟨x, t, rfl⟩ := List.exists_cons_of_ne_nil (spaces_bytes s hs).1
  rw [List.cons_append, fields, ← List.cons_append, h]
  exact congrArg _ (fields_skip t [] rest)

theorem fields_gap : ∀ (cs : List Nat) (rest : Bytes), (∀ c ∈ cs, c ∈ whiteSpace) →
    fields 0 [] (cs.flatMap utf8 ++ rest) = fields 0 [] rest
  | [], _, _ => rfl
  | c :: cs, rest, h => by
    rw [List.flatMap_cons, List.append_assoc, fields_at_space (utf8_mem (h c List.mem_cons_self))]
    exact fields_gap cs rest fun d hd => h d (List.mem_cons_of_mem _ hd)

theorem solid_tail {x : Byte} {t : Bytes} (h : Solid (x :: t)) : Solid t := fun c hc hi =>
  h c hc (hi.trans (List.suffix_cons x t).isInfix)

theorem fields_solid : ∀ (w cur rest : Bytes), Solid w → Lead rest → fields 0 cur (w ++ rest) = fields 0 (cur ++ w) rest
  | [], cur, rest, _, _ => by simp
  | x :: w, cur, rest, hw, hr => by
    have h : headSpace (x :: (w ++ rest)) = none := by
      rw [headSpace, List.find?_eq_none]
      intro s hs hp
      have hp := prefix_lead hs (List.cons_ne_nil x w) hr (List.isPrefixOf_iff_prefix.1 hp)
      exact solid_iff.1 hw s hs hp.isInfix
    rw [List.cons_append, fields, h]
    dsimp only
    rw [fields_solid w _ _ (solid_tail hw) hr, List.append_assoc, List.singleton_append]

theorem fields_beyond (t : Bytes) : ∀ (cur : Bytes), cur ≠ [] →
    ∃ w n r, fields 0 cur t = (w, n) :: r ∧ cur.length < w.length + n := by
  induction t with
  | nil =>
    intro cur hc
    refine ⟨cur, 1, [], ?_, by omega⟩
    rw [fields, flush, if_neg hc]
    rfl
  | cons x t ih =>
    intro cur hc
    rw [fields]
    cases hh : headSpace (x :: t) with
    | none =>
      dsimp only
      obtain ⟨w, n, r, e, hl⟩ := ih (cur ++ [x]) (by simp)
      refine ⟨w, n, r, e, ?_⟩
      rw [List.length_append, List.length_singleton] at hl
      omega
    | some s =>
      have hs := List.mem_of_find?_eq_some hh
      refine ⟨cur, s.length, fields (s.length - 1) [] t, ?_, ?_⟩
      · rw [flush, if_neg hc]
        rfl
      · have := List.length_pos_of_ne_nil (spaces_bytes s hs).1
        omega

theorem fields_long (t : Bytes) : ∀ (b cur : Bytes), Solid b → (cur ≠ [] ∨ 3 ≤ b.length) →
    ∃ w n r, fields 0 cur (b ++ t) = (w, n) :: r ∧ cur.length + b.length < w.length + n
  | [], cur, _, h => by
    have hc : cur ≠ [] := h.resolve_right (by simp)
    simpa using fields_beyond t cur hc
  | x :: b, cur, hb, h => by
    rw [List.cons_append, fields]
    cases hh : headSpace (x :: (b ++ t)) with
    | none =>
      dsimp only
      obtain ⟨w, n, r, e, hl⟩ := fields_long t b (cur ++ [x]) (solid_tail hb) (.inl (by simp))
      refine ⟨w, n, r, e, ?_⟩
      rw [List.length_append, List.length_singleton] at hl
      rw [List.length_cons]
      omega
    | some s =>
      have hs := List.mem_of_find?_eq_some hh
      have hp : s <+: (x :: b) ++ t := List.isPrefixOf_iff_prefix.1 (by
        have := List.find?_some hh
        exact this)
      have hlen : (x :: b).length < s.length := by
        by_contra hn
        exact solid_iff.1 hb s hs
          (List.prefix_of_prefix_length_le hp (List.prefix_append _ _) (by omega)).isInfix
      have h3 := spaces_short s hs
      have hc : cur ≠ [] := h.resolve_right (by omega)
      refine ⟨cur, s.length, fields (s.length - 1) [] (b ++ t), ?_, by omega⟩
      rw [flush, if_neg hc]
      rfl

theorem lead_nil : Lead [] := fun _ _ h => by cases h

theorem scan_of_words {t : Bytes} {ws : List Bytes} (h : WordsIn t ws) : scanWords t = ws := by
  induction h with
  | none hg =>
    obtain ⟨cs, hcs, rfl⟩ := hg
    have := fields_gap cs [] hcs
    rw [List.append_nil] at this
    rw [scanWords, this]
    rfl
  | @last gap w hg hne hs hl =>
    obtain ⟨cs, hcs, rfl⟩ := hg
    have := fields_solid w [] [] hs lead_nil
    rw [List.append_nil] at this
    rw [scanWords, fields_gap cs _ hcs, this, fields, List.nil_append, flush, if_neg hne, List.map_singleton,
      List.takeWhile_cons_of_pos]
    · rfl
    · exact decide_eq_true hl
  | @next gap w t c ws hg hne hs hc hl _ ih =>
    obtain ⟨cs, hcs, rfl⟩ := hg
    rw [scanWords, fields_gap cs _ hcs, fields_solid w [] _ hs (lead_space (utf8_mem hc) t),
      fields_at_space (utf8_mem hc), List.nil_append, flush, if_neg hne, List.map_singleton, List.singleton_append,
      List.takeWhile_cons_of_pos, List.map_cons]
    · exact congrArg _ ih
    · exact decide_eq_true hl
  | @long gap w t hg hs hl =>
    obtain ⟨cs, hcs, rfl⟩ := hg
    obtain ⟨w', n, r, e, hlt⟩ := fields_long t w [] hs (.inr (by omega))
    rw [scanWords, fields_gap cs _ hcs, e, List.takeWhile_cons_of_neg]
    · rfl
    · rw [decide_eq_true_eq]
      have : maxScanTokenSize = 65536 := rfl
      simp only [List.length_nil] at hlt
      show ¬ w'.length + n ≤ maxScanTokenSize
      omega

/-- A text up to the first white space -/
theorem first_space : ∀ u : Bytes, ∃ w r, u = w ++ r ∧ Solid w ∧ (r = [] ∨ ∃ c ∈ whiteSpace, ∃ r', r = utf8 c ++ r')
  | [] => ⟨[], [], rfl, fun c _ h => by
      have := List.eq_nil_of_infix_nil h
      have hl := utf8_length c
      rw [this] at hl
      simp at hl, .inl rfl⟩
  | x :: u => by
    by_cases hp : ∃ c ∈ whiteSpace, utf8 c <+: x :: u
    · obtain ⟨c, hc, r', e⟩ := hp
      refine ⟨[], x :: u, rfl, fun c _ h => ?_, .inr ⟨c, hc, r', e.symm⟩⟩
      have := List.eq_nil_of_infix_nil h
      have hl := utf8_length c
      rw [this] at hl
      simp at hl
    · obtain ⟨w, r, e, hs, hr⟩ := first_space u
      refine ⟨x :: w, r, by rw [e]; rfl, fun c hc h => ?_, hr⟩
      rcases List.infix_cons_iff.1 h with h | h
      · exact hp ⟨c, hc, h.trans (by rw [e]; exact List.prefix_append (x :: w) r)⟩
      · exact hs c hc h

theorem strip (t : Bytes) : ∃ gap u, Spec.Blank gap ∧ t = gap ++ u ∧ ∀ c ∈ whiteSpace, ¬ utf8 c <+: u := by
  generalize hn : t.length = n
  induction n using Nat.strong_induction_on generalizing t with
  | _ n ih =>
    by_cases hp : ∃ c ∈ whiteSpace, utf8 c <+: t
    · obtain ⟨c, hc, r, rfl⟩ := hp
      have := utf8_length c
      rw [List.length_append] at hn
      obtain ⟨gap, u, ⟨cs, hcs, rfl⟩, e, hu⟩ := ih r.length (by omega) r rfl
      refine ⟨utf8 c ++ cs.flatMap utf8, u, ⟨c :: cs, ?_, rfl⟩, by rw [e, List.append_assoc], hu⟩
      intro d hd
      rcases List.mem_cons.1 hd with rfl | hd
      · exact hc
      · exact hcs d hd
    · exact ⟨[], t, ⟨[], by simp, rfl⟩, rfl, fun c hc h => hp ⟨c, hc, h⟩⟩

/-- A solid text and a part of white space that is not whole -/
theorem solid_part {w s : Bytes} (hw : Solid w) (hs : s ∈ spaces) (n : Nat) (hn : n < s.length) :
    Solid (w ++ s.take n) := by
  rw [solid_iff]
  intro s' hs' hi
  have hlead : Lead (s.take n) := by
    intro x r e
    have := lead_space hs [] x (r ++ s.drop n)
    rw [List.append_nil] at this
    refine this ?_
    conv_lhs => rw [← List.take_append_drop n s, e]
    rfl
  have part : ¬ s' <:+: s.take n := by
    rintro ⟨a, b, e⟩
    cases a with
    | nil =>
      have hp : s' <+: s.take n := ⟨b, e⟩
      have := spaces_prefix s' hs' s hs (List.isPrefixOf_iff_prefix.2 (hp.trans (List.take_prefix n s)))
      have hl := hp.length_le
      rw [this, List.length_take] at hl
      omega
    | cons y a =>
      obtain ⟨hne, -, hh⟩ := spaces_bytes s' hs'
      obtain ⟨z, s'', rfl⟩ := List.exists_cons_of_ne_nil hne
      have hz : z ∈ s.tail := by
        have h1 : s = (y :: (a ++ z :: s'' ++ b)) ++ s.drop n := by
          conv_lhs => rw [← List.take_append_drop n s, ← e]
          simp
        rw [h1]
        simp
      rw [List.headD_cons] at hh
      exact hh ((spaces_bytes s hs).2.1 z hz)
  clear hn
  induction w with
  | nil => exact part hi
  | cons x w ih =>
    rw [List.cons_append, List.infix_cons_iff] at hi
    rcases hi with hi | hi
    · exact solid_iff.1 hw s' hs' (prefix_lead hs' (List.cons_ne_nil x w) hlead hi).isInfix
    · exact ih (solid_tail hw) hi

theorem solid_infix {a b : Bytes} (h : a <:+: b) (hb : Solid b) : Solid a := fun c hc hi => hb c hc (hi.trans h)

theorem words_exist (t : Bytes) : ∃ ws, WordsIn t ws := by
  generalize hn : t.length = n
  induction n using Nat.strong_induction_on generalizing t with
  | _ n ih =>
    obtain ⟨gap, u, hg, rfl, hu⟩ := strip t
    obtain ⟨w, r, rfl, hs, hr⟩ := first_space u
    by_cases hw : w = []
    · subst hw
      rcases hr with rfl | ⟨c, hc, r', rfl⟩
      · exact ⟨[], by simpa using WordsIn.none hg⟩
      · exact absurd (List.prefix_append _ _) (hu c hc)
    · have big : ∀ v, Solid (v.take 65536) → 65536 ≤ v.length → WordsIn (gap ++ v) [] := by
        intro v h1 h2
        have := WordsIn.long (t := v.drop 65536) hg h1 (by rw [List.length_take]; omega)
        rwa [List.take_append_drop] at this
      rcases hr with rfl | ⟨c, hc, r', rfl⟩
      · rw [List.append_nil]
        by_cases hl : w.length < 65536
        · exact ⟨[w], .last hg hw hs hl⟩
        · exact ⟨[], big w (solid_infix (List.take_prefix _ _).isInfix hs) (by omega)⟩
      · by_cases hl : w.length + (utf8 c).length ≤ 65536
        · have hpos := List.length_pos_of_ne_nil hw
          obtain ⟨ws, h⟩ := ih r'.length (by
            rw [← hn]
            simp only [List.length_append]
            omega) r' rfl
          exact ⟨w :: ws, .next hg hw hs hc hl h⟩
        · refine ⟨[], big _ ?_ (by simp only [List.length_append]; omega)⟩
          by_cases hb : 65536 ≤ w.length
          · rw [List.take_append_of_le_length hb]
            exact solid_infix (List.take_prefix _ _).isInfix hs
          · have e : (w ++ (utf8 c ++ r')).take 65536 = w ++ (utf8 c).take (65536 - w.length) := by
              rw [List.take_append, List.take_of_length_le (by omega), List.take_append_of_le_length (by omega)]
            rw [e]
            exact solid_part hs (utf8_mem hc) _ (by omega)

theorem words_iff {t : Bytes} {ws : List Bytes} : WordsIn t ws ↔ scanWords t = ws := by
  refine ⟨scan_of_words, ?_⟩
  rintro rfl
  obtain ⟨ws, h⟩ := words_exist t
  rwa [scan_of_words h]

/-! ## Keys -/

/-- The result that goes with the end of a prompt -/
def entryRes : PromptEnd → Res (List Bytes)
  | .words ws => .ok ws
  | .aborted => .err .aborted
  | .ended => .err .stdinRead

theorem entryRes_inj {r r' : PromptEnd} (h : entryRes r = entryRes r') : r = r' := by
  cases r <;> cases r' <;> simp_all [entryRes]

/-- From any state -/
inductive RunsTo (word : Nat → Bytes) (offer : Bytes → Option Bytes) : Bytes → Typing → PromptEnd → Prop where
  | done {cs : Bytes} {s : Typing} : s.Done → RunsTo word offer cs s (.words s.words)
  | aborted {c : Byte} {cs : Bytes} {s : Typing} : ¬ s.Done → c = 3 ∨ c = 4 → RunsTo word offer (c :: cs) s .aborted
  | ended {s : Typing} : ¬ s.Done → RunsTo word offer [] s .ended
  | step {c : Byte} {cs : Bytes} {s s' : Typing} {r : PromptEnd} : ¬ s.Done → Press word offer c s s' →
    RunsTo word offer cs s' r → RunsTo word offer (c :: cs) s r

theorem press_not_end {word : Nat → Bytes} {offer : Bytes → Option Bytes} {c : Byte} {s s' : Typing}
    (h : Press word offer c s s') : c ≠ 3 ∧ c ≠ 4 := by
  cases h with
  | letter h1 h2 => refine ⟨?_, ?_⟩ <;> · rintro rfl; revert h1; decide
  | backspace => decide
  | left => decide
  | tab => decide
  | first he => rcases he with rfl | rfl <;> decide
  | other he => rcases he with rfl | rfl <;> decide
  | badVersion he => rcases he with rfl | rfl <;> decide
  | noWord he => rcases he with rfl | rfl | rfl <;> decide
  | ignored _ h => simp at h; exact ⟨h.1, h.2.1⟩

theorem runsTo_of_presses {word : Nat → Bytes} {offer : Bytes → Option Bytes} {pre rest : Bytes} {s s' : Typing}
    {r : PromptEnd} (h : Presses word offer pre s s') (hr : RunsTo word offer rest s' r) :
    RunsTo word offer (pre ++ rest) s r := by
  induction h with
  | nil => exact hr
  | cons h1 h2 _ ih => exact .step h1 h2 (ih hr)

theorem byKeys_iff {word : Nat → Bytes} {offer : Bytes → Option Bytes} {keys : Bytes} {r : PromptEnd} :
    ByKeys word offer keys r ↔ RunsTo word offer keys .start r := by
  constructor
  · rintro (⟨rfl, h, hd⟩ | ⟨rfl, hc, h, hd⟩ | ⟨h, hd⟩)
    · exact runsTo_of_presses h (.done hd)
    · exact runsTo_of_presses h (.aborted hd hc)
    · have := runsTo_of_presses h (.ended hd)
      rwa [List.append_nil] at this
  · intro h
    have key : ∀ {k : Bytes} {s : Typing} {r : PromptEnd}, RunsTo word offer k s r →
        (∃ pre rest s', k = pre ++ rest ∧ Presses word offer pre s s' ∧ s'.Done ∧ r = .words s'.words) ∨
        (∃ pre c rest s', k = pre ++ c :: rest ∧ (c = 3 ∨ c = 4) ∧ Presses word offer pre s s' ∧ ¬ s'.Done ∧
          r = .aborted) ∨ (∃ s', Presses word offer k s s' ∧ ¬ s'.Done ∧ r = .ended) := by
      intro k s r h
      induction h with
      | @done cs s hd => exact .inl ⟨[], cs, s, rfl, .nil, hd, rfl⟩
      | @aborted c cs s hd hc => exact .inr (.inl ⟨[], c, cs, s, rfl, hc, .nil, hd, rfl⟩)
      | @ended s hd => exact .inr (.inr ⟨s, .nil, hd, rfl⟩)
      | @step c cs s s' r hd hp _ ih =>
        rcases ih with ⟨pre, rest, s2, rfl, h1, h2, rfl⟩ | ⟨pre, c', rest, s2, rfl, hc, h1, h2, rfl⟩ | ⟨s2, h1, h2, rfl⟩
        · exact .inl ⟨c :: pre, rest, s2, rfl, .cons hd hp h1, h2, rfl⟩
        · exact .inr (.inl ⟨c :: pre, c', rest, s2, rfl, hc, .cons hd hp h1, h2, rfl⟩)
        · exact .inr (.inr ⟨s2, .cons hd hp h1, h2, rfl⟩)
    rcases key h with ⟨pre, rest, s, e, h1, h2, rfl⟩ | ⟨pre, c, rest, s, e, hc, h1, h2, rfl⟩ | ⟨s, h1, h2, rfl⟩
    · exact .done e h1 h2
    · exact .aborted e hc h1 h2
    · exact .ended h1 h2

theorem press_unique {word : Nat → Bytes} {offer : Bytes → Option Bytes}
    (hu : ∀ t w m n, offer t = some w → Needs word w m → Needs word w n → m = n) {c : Byte} {s a b : Typing}
    (h : Press word offer c s a) (h' : Press word offer c s b) : a = b := by
  have letter : (0x61 : Byte) ≤ c → c ≤ 0x7A → c ≠ 127 ∧ c ≠ 68 ∧ c ≠ 9 ∧ c ≠ 13 ∧ c ≠ 32 := by
    intro h1 h2
    refine ⟨?_, ?_, ?_, ?_, ?_⟩ <;> · rintro rfl; revert h1 h2; decide
  cases h with
  | letter h1 h2 =>
    obtain ⟨a1, a2, a3, a4, a5⟩ := letter h1 h2
    cases h' <;> simp_all
  | backspace => cases h' <;> simp_all (decide := true)
  | left => cases h' <;> simp_all (decide := true)
  | tab ho => cases h' <;> simp_all (decide := true)
  | first he ho hp hn =>
    have hx : c ≠ 127 ∧ c ≠ 68 ∧ c ≠ 9 ∧ ¬ (0x61 ≤ c) := by rcases he with rfl | rfl <;> decide
    obtain ⟨a1, a2, a3, a4⟩ := hx
    cases h' with
    | first he' ho' hp' hn' =>
      rw [ho, Option.some.injEq] at ho'
      subst ho'
      rw [hu _ _ _ _ ho hn hn']
    | badVersion he' ho' hp' hno =>
      rw [ho, Option.some.injEq] at ho'
      subst ho'
      exact absurd ⟨_, hn⟩ hno
    | other he' ho' hp' => exact absurd hp hp'
    | noWord he' ho' => rw [ho] at ho'; cases ho'
    | ignored _ h => simp at h; rcases he with rfl | rfl <;> simp at h
    | letter h1 => exact absurd h1 a4
    | backspace => exact absurd rfl a1
    | left => exact absurd rfl a2
    | tab => exact absurd rfl a3
  | other he ho hp =>
    have hx : c ≠ 127 ∧ c ≠ 68 ∧ c ≠ 9 ∧ ¬ (0x61 ≤ c) := by rcases he with rfl | rfl <;> decide
    obtain ⟨a1, a2, a3, a4⟩ := hx
    cases h' with
    | other he' ho' hp' =>
      rw [ho, Option.some.injEq] at ho'
      subst ho'
      rfl
    | first he' ho' hp' => exact absurd hp' hp
    | badVersion he' ho' hp' => exact absurd hp' hp
    | noWord he' ho' => rw [ho] at ho'; cases ho'
    | ignored _ h => simp at h; rcases he with rfl | rfl <;> simp at h
    | letter h1 => exact absurd h1 a4
    | backspace => exact absurd rfl a1
    | left => exact absurd rfl a2
    | tab => exact absurd rfl a3
  | badVersion he ho hp hno =>
    have hx : c ≠ 127 ∧ c ≠ 68 ∧ c ≠ 9 ∧ ¬ (0x61 ≤ c) := by rcases he with rfl | rfl <;> decide
    obtain ⟨a1, a2, a3, a4⟩ := hx
    cases h' with
    | badVersion => rfl
    | noWord => rfl
    | ignored => rfl
    | first he' ho' hp' hn' =>
      rw [ho, Option.some.injEq] at ho'
      subst ho'
      exact absurd ⟨_, hn'⟩ hno
    | other he' ho' hp' => exact absurd hp hp'
    | letter h1 => exact absurd h1 a4
    | backspace => exact absurd rfl a1
    | left => exact absurd rfl a2
    | tab => exact absurd rfl a3
  | noWord he ho =>
    have hx : c ≠ 127 ∧ c ≠ 68 ∧ ¬ (0x61 ≤ c) := by rcases he with rfl | rfl | rfl <;> decide
    obtain ⟨a1, a2, a4⟩ := hx
    cases h' with
    | noWord => rfl
    | badVersion => rfl
    | ignored => rfl
    | first he' ho' => rw [ho] at ho'; cases ho'
    | other he' ho' => rw [ho] at ho'; cases ho'
    | tab ho' => rw [ho] at ho'; cases ho'
    | letter h1 => exact absurd h1 a4
    | backspace => exact absurd rfl a1
    | left => exact absurd rfl a2
  | ignored hl hc =>
    simp only [List.mem_cons, List.not_mem_nil, or_false, not_or] at hc
    cases h' with
    | noWord => rfl
    | badVersion => rfl
    | ignored => rfl
    | letter h1 h2 => exact absurd ⟨h1, h2⟩ hl
    | backspace => simp at hc
    | left => simp at hc
    | tab => simp at hc
    | first he => rcases he with rfl | rfl <;> simp at hc
    | other he => rcases he with rfl | rfl <;> simp at hc

theorem runsTo_unique {word : Nat → Bytes} {offer : Bytes → Option Bytes}
    (hu : ∀ t w m n, offer t = some w → Needs word w m → Needs word w n → m = n) {k : Bytes} {s : Typing}
    {r r' : PromptEnd} (h : RunsTo word offer k s r) (h' : RunsTo word offer k s r') : r = r' := by
  induction h generalizing r' with
  | done hd =>
    cases h' with
    | done => rfl
    | aborted hn => exact absurd hd hn
    | ended hn => exact absurd hd hn
    | step hn => exact absurd hd hn
  | aborted hd hc =>
    cases h' with
    | done h => exact absurd h hd
    | aborted => rfl
    | step _ hp _ =>
      have := press_not_end hp
      exact absurd hc (by simp [this])
  | ended hd =>
    cases h' with
    | done h => exact absurd h hd
    | ended => rfl
  | step hd hp _ ih =>
    cases h' with
    | done h => exact absurd h hd
    | aborted _ hc =>
      have := press_not_end hp
      exact absurd hc (by simp [this])
    | step _ hp' h' =>
      obtain rfl := press_unique hu hp hp'
      exact ih h'

/-- The state of the model that goes with a state of the prompt -/
structure Follows (s : WordState) (a : Typing) : Prop where
  words : s.words = a.words
  text : s.wordInput = a.text
  place : s.i = a.place
  size : (a.needs = none ∧ s.wordCount = 1 ∧ s.i ≤ 0) ∨ (a.needs = some s.wordCount ∧ 2 ≤ s.wordCount)

theorem Follows.not_done {s : WordState} {a : Typing} (h : Follows s a) (hlt : s.i < s.wordCount) : ¬ a.Done := by
  rintro ⟨n, hn, hp⟩
  rcases h.size with ⟨h0, -, -⟩ | ⟨h1, -⟩
  · rw [h0] at hn; cases hn
  · rw [h1, Option.some.injEq] at hn
    have := h.place
    omega

theorem follows_step {L : WordList} (hL : L.Lawful) {s : WordState} {a : Typing} (h : Follows s a)
    (hlt : s.i < s.wordCount) {c : Byte} (h3 : c ≠ 3) (h4 : c ≠ 4) :
    ∃ a', Press L.word (offer L) c a a' ∧
      ((∃ s', keyStep L s c = .next s' ∧ Follows s' a' ∧ s'.i < s'.wordCount) ∨
        (keyStep L s c = .finished (.ok a'.words) ∧ a'.Done)) := by
  have keep : ∀ t', Follows { s with wordInput := t' } { a with text := t' } :=
    fun t' => ⟨h.words, rfl, h.place, h.size⟩
  have same : Follows { s with wordInput := a.text } a := keep a.text
  have hso : ∀ t', L.suffixes t' = [] → offer L t' = none := fun t' e => by simp [offer, e]
  have hso' : ∀ t' x r, L.suffixes t' = x :: r → offer L t' = some (t' ++ x) := fun t' x r e => by simp [offer, e]
  unfold keyStep
  rw [if_neg (by simp [h3, h4])]
  by_cases h68 : c = 68
  · subst h68
    refine ⟨_, .left, .inl ⟨{ s with i := s.i - 1, wordInput := [] }, ?_, ⟨h.words, rfl, by rw [h.place], ?_⟩, ?_⟩⟩
    · have : s.i - 1 < s.wordCount := by omega
      simp [nextWord, this]
    · rcases h.size with ⟨h0, h1, h2⟩ | h1
      · exact .inl ⟨h0, h1, by dsimp only; omega⟩
      · exact .inr h1
    · dsimp only; omega
  by_cases hl : 0x61 ≤ c ∧ c ≤ 0x7A
  · have hne : c ≠ 127 ∧ c ≠ 9 ∧ c ≠ 13 ∧ c ≠ 32 := by
      refine ⟨?_, ?_, ?_, ?_⟩ <;> · rintro rfl; revert hl; decide
    dsimp only
    rw [if_pos hl, if_neg hne.1, if_neg h68]
    refine ⟨_, .letter hl.1 hl.2, .inl ⟨{ s with wordInput := s.wordInput ++ [c] }, ?_, ?_, hlt⟩⟩
    · rw [decide_eq_false hne.2.1]
      dsimp only
      rw [if_neg (by simp [hne.2.2])]
    · rw [h.text]; exact keep _
  · dsimp only
    rw [if_neg hl, if_neg h68]
    by_cases hb : c = 127
    · subst hb
      refine ⟨_, .backspace, .inl ⟨{ s with wordInput := s.wordInput.dropLast }, ?_, ?_, hlt⟩⟩
      · rw [if_pos rfl]
        rfl
      · rw [h.text]; exact keep _
    · rw [if_neg hb, h.text]
      by_cases ht : c = 9
      · subst ht
        cases hs : L.suffixes a.text with
        | nil => exact ⟨a, .noWord (.inl rfl) (hso _ hs), .inl ⟨_, rfl, same, hlt⟩⟩
        | cons x r => exact ⟨_, .tab (hso' _ x r hs), .inl ⟨_, rfl, keep _, hlt⟩⟩
      · rw [decide_eq_false ht]
        dsimp only
        by_cases he : c = 13 ∨ c = 32
        · rw [if_pos he]
          cases hs : L.suffixes a.text with
          | nil => exact ⟨a, .noWord (.inr he) (hso _ hs), .inl ⟨_, rfl, same, hlt⟩⟩
          | cons x r =>
            have ho := hso' _ x r hs
            have hw := offer_word hL ho
            dsimp only
            by_cases h0 : s.i = 0
            · rw [if_pos h0]
              have hp : a.place = 0 := by rw [← h.place, h0]
              rcases version_cases hL hw with ⟨hv, hno⟩ | ⟨v, hv, hn, hsz⟩
              · rw [hv]
                exact ⟨a, .badVersion he ho hp hno, .inl ⟨_, rfl, same, hlt⟩⟩
              · rw [hv]
                have hbig : 2 ≤ mnemonicSize v := by
                  obtain ⟨j, hj, hjw⟩ := hw
                  rw [← hjw, needs_iff hL hj] at hn
                  omega
                refine ⟨_, .first he ho hp hn, .inl ⟨{ s with wordCount := mnemonicSize v
                                                              words := s.words ++ [a.text ++ x]
                                                              i := s.i + 1, wordInput := [] }, ?_, ?_, ?_⟩⟩
                · dsimp only [nextWord]
                  rw [if_pos (by omega)]
                · exact ⟨by rw [h.words], rfl, by rw [h0]; rfl, .inr ⟨rfl, hbig⟩⟩
                · dsimp only; omega
            · rw [if_neg h0]
              have hp : a.place ≠ 0 := by rw [← h.place]; exact h0
              refine ⟨_, .other he ho hp, ?_⟩
              dsimp only [nextWord]
              by_cases hlt' : s.i + 1 < (s.wordCount : Int)
              · rw [if_pos hlt']
                refine .inl ⟨_, rfl, ⟨by rw [h.words], rfl, by rw [h.place], ?_⟩, hlt'⟩
                rcases h.size with ⟨e0, e1, e2⟩ | e1
                · exact .inl ⟨e0, e1, by dsimp only; omega⟩
                · exact .inr e1
              · rw [if_neg hlt', h.words]
                refine .inr ⟨rfl, ?_⟩
                rcases h.size with ⟨e0, e1, e2⟩ | ⟨e1, -⟩
                · exfalso; omega
                · exact ⟨s.wordCount, e1, by
                    have := h.place
                    show a.place + 1 = (s.wordCount : Int)
                    omega⟩
        · rw [if_neg he]
          refine ⟨a, .ignored hl ?_, .inl ⟨_, rfl, same, hlt⟩⟩
          rw [not_or] at he
          simp [h3, h4, ht, he.1, he.2, h68, hb]

theorem follows_run {L : WordList} (hL : L.Lawful) : ∀ (stdin : Bytes) (s : WordState) (a : Typing), Follows s a →
    s.i < s.wordCount → ∃ r, RunsTo L.word (offer L) stdin a r ∧ (keyLoop L s stdin).1 = entryRes r
  | [], s, a, h, hlt => ⟨.ended, .ended (h.not_done hlt), rfl⟩
  | c :: stdin, s, a, h, hlt => by
    have hnd := h.not_done hlt
    rw [keyLoop]
    by_cases h34 : c = 3 ∨ c = 4
    · refine ⟨.aborted, .aborted hnd h34, ?_⟩
      unfold keyStep
      rw [if_pos h34]
      rfl
    · rw [not_or] at h34
      obtain ⟨a', hp, ⟨s', e, h1, h2⟩ | ⟨e, h1⟩⟩ := follows_step hL h hlt h34.1 h34.2
      · rw [e]
        obtain ⟨r, hr, e2⟩ := follows_run hL stdin s' a' h1 h2
        exact ⟨r, .step hnd hp hr, e2⟩
      · rw [e]
        exact ⟨.words a'.words, .step hnd hp (.done h1), rfl⟩

theorem offer_needs {L : WordList} (hL : L.Lawful) (t w : Bytes) (m n : Nat) (h : offer L t = some w)
    (h1 : Needs L.word w m) (h2 : Needs L.word w n) : m = n := needs_unique hL (offer_word hL h) h1 h2

theorem keys_iff {L : WordList} (hL : L.Lawful) (stdin : Bytes) (r : PromptEnd) :
    userInputMnemonic L stdin = entryRes r ↔ ByKeys L.word (offer L) stdin r := by
  rw [byKeys_iff]
  obtain ⟨r', h, e⟩ := follows_run hL stdin .start .start ⟨rfl, rfl, rfl, .inl ⟨rfl, rfl, by decide⟩⟩ (by decide)
  unfold userInputMnemonic
  rw [e]
  constructor
  · intro e'
    rwa [← entryRes_inj e']
  · intro h'
    rw [runsTo_unique (offer_needs hL) h h']

/-! ## Lines -/

theorem lines_exist (t : Bytes) : ∃ ls, Lines t ls := by
  induction h : t.length using Nat.strong_induction_on generalizing t with
  | _ n ih =>
    subst h
    by_cases hm : (0x0A : Byte) ∈ t
    · obtain ⟨l, t', rfl, hl⟩ : ∃ l t', t = l ++ 0x0A :: t' ∧ (0x0A : Byte) ∉ l := by
        clear ih
        induction t with
        | nil => cases hm
        | cons c t iht =>
          by_cases hc : c = 0x0A
          · exact ⟨[], t, by rw [hc]; rfl, by simp⟩
          · obtain ⟨l, t', rfl, hl⟩ := iht (by
              rcases List.mem_cons.1 hm with h | h
              · exact absurd h.symm hc
              · exact h)
            exact ⟨c :: l, t', rfl, by simp [hl, Ne.symm hc]⟩
      obtain ⟨ls, h⟩ := ih t'.length (by simp; omega) t' rfl
      exact ⟨_, .cons hl h⟩
    · by_cases hn : t = []
      · exact ⟨[], hn ▸ .nil⟩
      · exact ⟨[t], .last hn hm⟩

theorem lines_iff {L : WordList} (hL : L.Lawful) (stdin : Bytes) (r : PromptEnd) :
    userInputMnemonicSimple L stdin = entryRes r ↔ ByLines L.word L.toLower stdin r := by
  have key : ∀ {ls trimmed : List Bytes}, Lines stdin ls →
      List.Forall₂ Trimmed (ls.takeWhile (fun l => decide (l.length < 65536))) trimmed →
      userInputMnemonicSimple L stdin = entryRes (match simpleWanted L.word (trimmed.map L.toLower) with
        | none => .ended
        | some ws => .words ws) := by
    intro ls trimmed h1 h2
    rw [c50_lines hL stdin ls trimmed h1 h2]
    cases simpleWanted L.word (trimmed.map L.toLower) <;> rfl
  constructor
  · intro h
    obtain ⟨ls, hls⟩ := lines_exist stdin
    have hall : ∀ xs : List Bytes, List.Forall₂ Trimmed xs (xs.map trimSpace) := by
      intro xs
      induction xs with
      | nil => exact .nil
      | cons x xs ih => exact .cons (trimSpace_trimmed x) ih
    have e := key hls (hall _)
    rw [e] at h
    exact .intro hls (hall _) (entryRes_inj h).symm
  · rintro ⟨h1, h2, rfl⟩
    exact key h1 h2

/-! ## A command -/

theorem byLine_iff {env : Env} {input : InputFlags} :
    byLine env input = true ↔ input.simple = true ∨ env.rawError ≠ none := by
  unfold byLine
  cases input.simple <;> cases env.rawError <;> simp

theorem byLine_iff' {env : Env} {input : InputFlags} :
    byLine env input = false ↔ input.simple = false ∧ env.rawError = none := by
  unfold byLine
  cases input.simple <;> cases env.rawError <;> simp

theorem gets_iff {L : WordList} (hL : L.Lawful) {env : Env} {input : InputFlags} {ws : List Bytes} :
    inputWords L env input = .ok ws ↔ Gets L (offer L) env input ws := by
  have hent : ∀ x : Res (List Bytes), x = .ok ws ↔ x = entryRes (.words ws) := fun _ => Iff.rfl
  unfold inputWords
  by_cases hf : input.inputWordFile = []
  · rw [if_neg (by simp [hf])]
    cases hb : byLine env input with
    | true =>
      rw [if_pos rfl, hent, lines_iff hL]
      constructor
      · exact fun h => .lines hf (byLine_iff.1 hb) h
      · intro h
        cases h with
        | file h => exact absurd hf h
        | lines _ _ h => exact h
        | keys _ h1 h2 _ => rw [byLine_iff'.2 ⟨h1, h2⟩] at hb; cases hb
    | false =>
      rw [if_neg (by simp), hent, keys_iff hL]
      constructor
      · exact fun h => .keys hf (byLine_iff'.1 hb).1 (byLine_iff'.1 hb).2 h
      · intro h
        cases h with
        | file h => exact absurd hf h
        | lines _ h1 _ => rw [byLine_iff.2 h1] at hb; cases hb
        | keys _ _ _ h => exact h
  · rw [if_pos hf]
    constructor
    · intro h
      cases hc : env.fs.read input.inputWordFile with
      | none => rw [hc] at h; cases h
      | some content =>
        rw [hc, c47_reader hL] at h
        obtain ⟨rfl, h⟩ := h
        exact .file hf hc (words_iff.2 rfl) h
    · intro h
      cases h with
      | file _ hc hw h =>
        rw [hc, c47_reader hL]
        rw [words_iff.1 hw]
        exact ⟨rfl, h⟩
      | lines h => exact absurd h hf
      | keys h => exact absurd h hf

end Verif.Proofs
