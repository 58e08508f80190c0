import Verif.Props.Simple

/-! # C74 What the keys do at the interactive prompt -/

namespace Verif.Props

open Verif.Model Verif.Model.Cli Verif.Proofs Verif.Spec Verif.Instances

/-- The word offered to complete a text: the first one that the search finds. -/
def offer (L : WordList) (t : Bytes) : Option Bytes := (L.suffixes t).head?.map (t ++ ·)

theorem offer_word {L : WordList} (hL : L.Lawful) {t w : Bytes} (h : offer L t = some w) : IsWord L.word w := by
  unfold offer at h
  obtain ⟨s, hs, rfl⟩ := Option.map_eq_some_iff.1 h
  exact hL.suffix_word t s (List.mem_of_mem_head? hs)

/-- The state of the model that goes with words and text -/
structure Sim (L : WordList) (s : WordState) (ws : List Bytes) (t : Bytes) : Prop where
  words : s.words = ws
  text : s.wordInput = t
  pos : s.i = ws.length
  size : (ws = [] ∧ s.wordCount = 1) ∨ ∃ w rest, ws = w :: rest ∧ Needs L.word w s.wordCount
  all : ∀ w ∈ ws, IsWord L.word w

theorem needs_unique {L : WordList} (hL : L.Lawful) {w : Bytes} (hw : IsWord L.word w) {m n : Nat}
    (h1 : Needs L.word w m) (h2 : Needs L.word w n) : m = n := by
  obtain ⟨j, hj, rfl⟩ := hw
  rw [needs_iff hL hj] at h1 h2
  omega

theorem Sim.complete_iff {L : WordList} (hL : L.Lawful) {s : WordState} {ws : List Bytes} {t : Bytes}
    (h : Sim L s ws t) : Complete L.word ws ↔ (s.i = s.wordCount) := by
  constructor
  · rintro ⟨-, w, rest, hw, hn⟩
    rcases h.size with ⟨h0, -⟩ | ⟨w', rest', hw', hn'⟩
    · rw [h0] at hw; cases hw
    · rw [hw] at hw'
      cases hw'
      have := needs_unique hL (h.all w (by simp [hw])) hn hn'
      rw [h.pos, this]
  · intro he
    rcases h.size with ⟨h0, h1⟩ | ⟨w', rest', hw', hn'⟩
    · rw [h.pos, h0, h1] at he; cases he
    · refine ⟨h.all, w', rest', hw', ?_⟩
      have : ws.length = s.wordCount := by have := h.pos; omega
      rw [this]; exact hn'

/-- One key -/
theorem sim_step {L : WordList} (hL : L.Lawful) {s : WordState} {ws : List Bytes} {t : Bytes}
    (h : Sim L s ws t) (hlt : s.i < s.wordCount) {c : Byte} (h3 : c ≠ 3) (h4 : c ≠ 4) (h68 : c ≠ 68) :
    ∃ ws' t', Key L.word (offer L) c (ws, t) (ws', t') ∧
      ((∃ s', keyStep L s c = .next s' ∧ Sim L s' ws' t' ∧ s'.i < s'.wordCount) ∨
        (keyStep L s c = .finished (.ok ws') ∧ Complete L.word ws')) := by
  have keep : ∀ t', Sim L { s with wordInput := t' } ws t' :=
    fun t' => ⟨h.words, rfl, h.pos, h.size, h.all⟩
  have hso : ∀ t', L.suffixes t' = [] → offer L t' = none := fun t' e => by simp [offer, e]
  have hso' : ∀ t' x r, L.suffixes t' = x :: r → offer L t' = some (t' ++ x) := fun t' x r e => by simp [offer, e]
  unfold keyStep
  rw [if_neg (by simp [h3, h4])]
  by_cases hl : 0x61 ≤ c ∧ c ≤ 0x7A
  · -- a letter
    have hne : c ≠ 127 ∧ c ≠ 9 ∧ c ≠ 13 ∧ c ≠ 32 := by
      refine ⟨?_, ?_, ?_, ?_⟩ <;> · rintro rfl; revert hl; decide
    dsimp only
    rw [if_pos hl, if_neg hne.1, if_neg h68]
    refine ⟨ws, t ++ [c], .letter hl.1 hl.2, .inl ⟨{ s with wordInput := s.wordInput ++ [c] }, ?_, ?_, hlt⟩⟩
    · rw [decide_eq_false hne.2.1]
      dsimp only
      rw [if_neg (by simp [hne.2.2])]
    · rw [h.text]; exact keep _
  · dsimp only
    rw [if_neg hl, if_neg h68]
    by_cases hb : c = 127
    · subst hb
      refine ⟨ws, t.dropLast, .backspace, .inl ⟨{ s with wordInput := s.wordInput.dropLast }, ?_, ?_, hlt⟩⟩
      · rw [if_pos rfl]
        rfl
      · rw [h.text]; exact keep _
    · rw [if_neg hb, h.text]
      by_cases ht : c = 9
      · subst ht
        cases hs : L.suffixes t with
        | nil =>
          refine ⟨ws, t, .tabNothing (hso t hs), .inl ⟨{ s with wordInput := t }, rfl, keep t, hlt⟩⟩
        | cons x r =>
          exact ⟨ws, t ++ x, .tab (hso' t x r hs), .inl ⟨{ s with wordInput := t ++ x }, rfl, keep _, hlt⟩⟩
      · rw [decide_eq_false ht]
        dsimp only
        by_cases he : c = 13 ∨ c = 32
        · rw [if_pos he]
          cases hs : L.suffixes t with
          | nil => exact ⟨ws, t, .noWord he (hso t hs), .inl ⟨{ s with wordInput := t }, rfl, keep t, hlt⟩⟩
          | cons x r =>
            have ho := hso' t x r hs
            have hw := offer_word hL ho
            dsimp only
            have advance : ∀ n : Nat, (∃ w rest, ws ++ [t ++ x] = w :: rest ∧ Needs L.word w n) →
                (ws = [] → ∃ n, Needs L.word (t ++ x) n) →
                ∃ ws' t', Key L.word (offer L) c (ws, t) (ws', t') ∧
                  ((∃ s', nextWord { s with wordCount := n, words := s.words ++ [t ++ x], i := s.i + 1 } =
                      .next s' ∧ Sim L s' ws' t' ∧ s'.i < s'.wordCount) ∨
                  (nextWord { s with wordCount := n, words := s.words ++ [t ++ x], i := s.i + 1 } =
                    .finished (.ok ws') ∧ Complete L.word ws')) := by
              intro n hn hv
              refine ⟨ws ++ [t ++ x], [], .submit he ho hv, ?_⟩
              have hsim : Sim L { s with wordCount := n, words := s.words ++ [t ++ x], i := s.i + 1
                                         wordInput := [] } (ws ++ [t ++ x]) [] := by
                refine ⟨by rw [h.words], rfl, by simp [h.pos], .inr hn, ?_⟩
                intro w hmem
                rcases List.mem_append.1 hmem with hmem | hmem
                · exact h.all w hmem
                · rw [List.mem_singleton.1 hmem]; exact hw
              unfold nextWord
              dsimp only
              by_cases hlt' : s.i + 1 < (n : Int)
              · rw [if_pos hlt']
                exact .inl ⟨_, rfl, hsim, hlt'⟩
              · rw [if_neg hlt', h.words]
                refine .inr ⟨rfl, ?_⟩
                refine (hsim.complete_iff hL).2 ?_
                show s.i + 1 = (n : Int)
                -- never beyond the number of words
                rcases h.size with ⟨h0, h1⟩ | ⟨w', rest', hw', hn'⟩
                · obtain ⟨w, rest, e, hneed⟩ := hn
                  rw [h0, List.nil_append] at e
                  cases e
                  obtain ⟨j, hj, hjw⟩ := hw
                  rw [← hjw, needs_iff hL hj] at hneed
                  rw [h.pos, h0] at hlt' ⊢
                  simp at hlt' ⊢
                  omega
                · obtain ⟨w, rest, e, hneed⟩ := hn
                  rw [hw', List.cons_append] at e
                  cases e
                  have := needs_unique hL (h.all w' (by simp [hw'])) hneed hn'
                  omega
            by_cases h0 : s.i = 0
            · have hnil : ws = [] := by
                have := h.pos
                rw [h0] at this
                exact List.length_eq_zero_iff.1 (by omega)
              rw [if_pos h0]
              rcases version_cases hL hw with ⟨hv, hno⟩ | ⟨v, hv, hn, hsz⟩
              · rw [hv]
                exact ⟨ws, t, .badVersion he ho hnil hno, .inl ⟨{ s with wordInput := t }, rfl, keep t, hlt⟩⟩
              · rw [hv]
                exact advance (mnemonicSize v) ⟨t ++ x, [], by simp [hnil], hn⟩ (fun _ => ⟨_, hn⟩)
            · rw [if_neg h0]
              have hne : ws ≠ [] := by
                rintro rfl
                exact h0 (by simpa using h.pos)
              refine advance s.wordCount ?_ (fun e => absurd e hne)
              rcases h.size with ⟨e, -⟩ | ⟨w', rest', hw', hn'⟩
              · exact absurd e hne
              · exact ⟨w', rest' ++ [t ++ x], by simp [hw'], hn'⟩
        · rw [if_neg he]
          refine ⟨ws, t, .ignored hl ?_, .inl ⟨{ s with wordInput := t }, rfl, keep t, hlt⟩⟩
          rw [not_or] at he
          simp [h3, h4, ht, he.1, he.2, h68, hb]

/-- A key does one thing only. -/
theorem key_unique {word : Nat → Bytes} {offer : Bytes → Option Bytes} {c : Byte}
    {a b b' : List Bytes × Bytes} (h : Key word offer c a b) (h' : Key word offer c a b') : b = b' := by
  cases h <;> cases h' <;> first | rfl | (simp_all; done) | (exfalso; simp_all (decide := true); done) | skip
  all_goals
    exfalso
    have he : c = 13 ∨ c = 32 := by assumption
    have hl : (97 : Byte) ≤ c := by assumption
    rcases he with rfl | rfl <;> · revert hl; decide

theorem key_not_special {word : Nat → Bytes} {offer : Bytes → Option Bytes} {c : Byte}
    {a b : List Bytes × Bytes} (h : Key word offer c a b) : c ≠ 3 ∧ c ≠ 4 ∧ c ≠ 68 := by
  cases h with
  | letter h1 h2 => refine ⟨?_, ?_, ?_⟩ <;> · rintro rfl; revert h1; decide
  | backspace => decide
  | tab => decide
  | tabNothing => decide
  | submit he => rcases he with rfl | rfl <;> decide
  | badVersion he => rcases he with rfl | rfl <;> decide
  | noWord he => rcases he with rfl | rfl <;> decide
  | ignored _ h => simp at h; exact ⟨h.1, h.2.1, h.2.2.2.2.2.1⟩

/-- All three ways in which the prompt can end, from any state -/
theorem sim_run {L : WordList} (hL : L.Lawful) : ∀ (stdin : Bytes) (s : WordState) (ws : List Bytes) (t : Bytes),
    Sim L s ws t → s.i < s.wordCount → 68 ∉ stdin →
    (∃ pre ws' t' , Keys L.word (offer L) pre (ws, t) (ws', t') ∧
      ((∃ rest, stdin = pre ++ rest ∧ (keyLoop L s stdin).1 = .ok ws' ∧ Complete L.word ws') ∨
       (∃ c rest, stdin = pre ++ c :: rest ∧ (c = 3 ∨ c = 4) ∧ (keyLoop L s stdin).1 = .err .aborted ∧
          ¬ Complete L.word ws') ∨
       (stdin = pre ∧ (keyLoop L s stdin).1 = .err .stdinRead ∧ ¬ Complete L.word ws')))
  | [], s, ws, t, h, hlt, _ => by
    have hnc : ¬ Complete L.word ws := fun hc => by have := (h.complete_iff hL).1 hc; omega
    exact ⟨[], ws, t, .nil, .inr (.inr ⟨rfl, rfl, hnc⟩)⟩
  | c :: stdin, s, ws, t, h, hlt, hd => by
    have hnc : ¬ Complete L.word ws := fun hc => by have := (h.complete_iff hL).1 hc; omega
    by_cases h34 : c = 3 ∨ c = 4
    · refine ⟨[], ws, t, .nil, .inr (.inl ⟨c, stdin, rfl, h34, ?_, hnc⟩)⟩
      rw [keyLoop]
      unfold keyStep
      rw [if_pos h34]
    · rw [not_or] at h34
      obtain ⟨ws', t', hk, ⟨s', h1, h2, h3⟩ | ⟨h1, h2⟩⟩ := sim_step hL h hlt h34.1 h34.2
        (fun e => hd (by simp [e]))
      · obtain ⟨pre, ws2, t2, hks, hcase⟩ := sim_run hL stdin s' ws' t' h2 h3 (fun e => hd (by simp [e]))
        refine ⟨c :: pre, ws2, t2, .cons hnc hk hks, ?_⟩
        rw [keyLoop, h1]
        dsimp only
        rcases hcase with ⟨rest, e, h4, h5⟩ | ⟨c', rest, e, h4, h5, h6⟩ | ⟨e, h4, h5⟩
        · exact .inl ⟨rest, by rw [e]; rfl, h4, h5⟩
        · exact .inr (.inl ⟨c', rest, by rw [e]; rfl, h4, h5, h6⟩)
        · exact .inr (.inr ⟨by rw [e], h4, h5⟩)
      · refine ⟨[c], ws', t', .cons hnc hk .nil, .inl ⟨stdin, rfl, ?_, h2⟩⟩
        rw [keyLoop, h1]

theorem sim_start (L : WordList) : Sim L .start [] [] :=
  ⟨rfl, rfl, rfl, .inl ⟨rfl, rfl⟩, by simp⟩

/-- From the same state the same keys lead to the same state; of two lists of keys that lead to where the
prompt ends, one is not longer than the other. -/
theorem keys_unique {word : Nat → Bytes} {offer : Bytes → Option Bytes} :
    ∀ {k k' : Bytes} {a b b' : List Bytes × Bytes}, Keys word offer k a b → Keys word offer k' a b' →
      k <+: k' → (Complete word b.1 → k = k') ∧ (k = k' → b = b')
  | [], [], a, b, b', h, h', _ => by cases h; cases h'; simp
  | [], c :: k', a, b, b', h, h', _ => by
    cases h
    cases h' with
    | cons h1 _ _ => exact ⟨fun hc => absurd hc h1, fun e => by cases e⟩
  | c :: k, [], a, b, b', h, h', hp => by simp at hp
  | c :: k, c' :: k', a, b, b', h, h', hp => by
    obtain ⟨rfl, hp'⟩ := List.cons_prefix_cons.1 hp
    cases h with
    | cons h1 h2 h3 =>
      cases h' with
      | cons h1' h2' h3' =>
        have e := key_unique h2 h2'
        subst e
        obtain ⟨g1, g2⟩ := keys_unique h3 h3' hp'
        exact ⟨fun hc => by rw [g1 hc], fun e => g2 (by simpa using e)⟩

theorem keys_no_special {word : Nat → Bytes} {offer : Bytes → Option Bytes} {k : Bytes}
    {a b : List Bytes × Bytes} (h : Keys word offer k a b) : ∀ c ∈ k, c ≠ 3 ∧ c ≠ 4 ∧ c ≠ 68 := by
  induction h with
  | nil => simp
  | cons _ h2 _ ih =>
    intro c hc
    rcases List.mem_cons.1 hc with rfl | hc
    · exact key_not_special h2
    · exact ih c hc

/-- The prompt returns words exactly when the keys, read as documented, make a complete phrase of them. -/
theorem c74_returns {L : WordList} (hL : L.Lawful) (stdin : Bytes) (h : 68 ∉ stdin) (ws : List Bytes) :
    userInputMnemonic L stdin = .ok ws ↔
      ∃ pre rest t, stdin = pre ++ rest ∧ Keys L.word (offer L) pre ([], []) (ws, t) ∧ Complete L.word ws := by
  obtain ⟨pre, ws', t', hk, hcase⟩ := sim_run hL stdin .start [] [] (sim_start L) (by decide) h
  unfold userInputMnemonic
  constructor
  · intro hr
    rcases hcase with ⟨rest, e, h4, h5⟩ | ⟨c', rest, e, h4, h5, h6⟩ | ⟨e, h4, h5⟩
    · rw [h4] at hr
      cases hr
      exact ⟨pre, rest, t', e, hk, h5⟩
    · rw [h5] at hr; cases hr
    · rw [h4] at hr; cases hr
  · rintro ⟨pre2, rest2, t2, e2, hk2, hc2⟩
    have key : pre2 <+: pre → pre2 = pre ∧ ws = ws' := by
      intro hp
      obtain ⟨g1, g2⟩ := keys_unique hk2 hk hp
      have e := g1 hc2
      have := g2 e
      simp only [Prod.mk.injEq] at this
      exact ⟨e, this.1⟩
    rcases hcase with ⟨rest, e, h4, h5⟩ | ⟨c', rest, e, h4, h5, h6⟩ | ⟨e, h4, h5⟩
    · rcases List.prefix_or_prefix_of_prefix (l₃ := stdin) ⟨rest2, e2.symm⟩ ⟨rest, e.symm⟩ with hp | hp
      · rw [(key hp).2]; exact h4
      · obtain ⟨g1, g2⟩ := keys_unique hk hk2 hp
        have := g2 (g1 h5)
        simp only [Prod.mk.injEq] at this
        rw [← this.1]; exact h4
    · exfalso
      rcases List.prefix_or_prefix_of_prefix (l₃ := stdin) ⟨rest2, e2.symm⟩ ⟨c' :: rest, e.symm⟩ with hp | hp
      · exact h6 ((key hp).2 ▸ hc2)
      · -- the second list of keys goes on with the key that ends the prompt
        obtain ⟨d, rfl⟩ := hp
        cases d with
        | nil => exact h6 ((key ⟨[], by simp⟩).2 ▸ hc2)
        | cons x d =>
          rw [e, List.append_assoc] at e2
          have := List.append_cancel_left e2
          simp only [List.cons_append, List.cons.injEq] at this
          have hx := keys_no_special hk2 x (by simp)
          rcases h4 with rfl | rfl
          · exact hx.1 this.1.symm
          · exact hx.2.1 this.1.symm
    · exfalso
      subst e
      exact h5 ((key ⟨rest2, e2.symm⟩).2 ▸ hc2)

/-- It is aborted exactly when CTRL+C or CTRL+D comes before the phrase is complete. -/
theorem c74_aborted {L : WordList} (hL : L.Lawful) (stdin : Bytes) (h : 68 ∉ stdin) :
    userInputMnemonic L stdin = .err .aborted ↔
      ∃ pre c rest a, stdin = pre ++ c :: rest ∧ (c = 3 ∨ c = 4) ∧
        Keys L.word (offer L) pre ([], []) a ∧ ¬ Complete L.word a.1 := by
  obtain ⟨pre, ws', t', hk, hcase⟩ := sim_run hL stdin .start [] [] (sim_start L) (by decide) h
  unfold userInputMnemonic
  constructor
  · intro hr
    rcases hcase with ⟨rest, e, h4, h5⟩ | ⟨c', rest, e, h4, h5, h6⟩ | ⟨e, h4, h5⟩
    · rw [h4] at hr; cases hr
    · exact ⟨pre, c', rest, _, e, h4, hk, h6⟩
    · rw [h4] at hr; cases hr
  · rintro ⟨pre2, c, rest2, a, e2, hc, hk2, hn⟩
    rcases hcase with ⟨rest, e, h4, h5⟩ | ⟨c', rest, e, h4, h5, h6⟩ | ⟨e, h4, h5⟩
    · exfalso
      rcases List.prefix_or_prefix_of_prefix (l₃ := stdin) ⟨c :: rest2, e2.symm⟩ ⟨rest, e.symm⟩ with hp | hp
      · obtain ⟨d, rfl⟩ := hp
        cases d with
        | nil =>
          have := (keys_unique hk2 hk ⟨[], by simp⟩).2 (by simp)
          rw [this] at hn
          exact hn h5
        | cons x d =>
          rw [e, List.append_assoc] at e2
          have := List.append_cancel_left e2
          simp only [List.cons_append, List.cons.injEq] at this
          have hx := keys_no_special hk x (by simp)
          rcases hc with rfl | rfl
          · exact hx.1 this.1
          · exact hx.2.1 this.1
      · obtain ⟨g1, g2⟩ := keys_unique hk hk2 hp
        have := g2 (g1 h5)
        rw [← this] at hn
        exact hn h5
    · exact h5
    · exfalso
      subst e
      have hx := keys_no_special hk c (by rw [e2]; simp)
      rcases hc with rfl | rfl
      · exact hx.1 rfl
      · exact hx.2.1 rfl

/-- Otherwise the input ends too early. -/
theorem c74_otherwise {L : WordList} (hL : L.Lawful) (stdin : Bytes) (h : 68 ∉ stdin) :
    userInputMnemonic L stdin = .err .stdinRead ↔
      ∃ a, Keys L.word (offer L) stdin ([], []) a ∧ ¬ Complete L.word a.1 := by
  obtain ⟨pre, ws', t', hk, hcase⟩ := sim_run hL stdin .start [] [] (sim_start L) (by decide) h
  unfold userInputMnemonic
  constructor
  · intro hr
    rcases hcase with ⟨rest, e, h4, h5⟩ | ⟨c', rest, e, h4, h5, h6⟩ | ⟨e, h4, h5⟩
    · rw [h4] at hr; cases hr
    · rw [h5] at hr; cases hr
    · exact ⟨_, e ▸ hk, h5⟩
  · rintro ⟨a, hk2, hn⟩
    rcases hcase with ⟨rest, e, h4, h5⟩ | ⟨c', rest, e, h4, h5, h6⟩ | ⟨e, h4, h5⟩
    · exfalso
      obtain ⟨g1, g2⟩ := keys_unique hk hk2 ⟨rest, e.symm⟩
      have := g2 (g1 h5)
      rw [← this] at hn
      exact hn h5
    · exfalso
      have hx := keys_no_special hk2 c' (by rw [e]; simp)
      rcases h4 with rfl | rfl
      · exact hx.1 rfl
      · exact hx.2.1 rfl
    · exact h4

/-- Letters, a wrong letter erased, a digit ignored, a tab, return and space. -/
example : ∃ ws, userInputMnemonic toyWordList
    ((toyWord 5 ++ [120, 127, 0x31, 9, 13]) ++ (List.replicate 13 (toyWord 7 ++ [32])).flatten ++ [3]) = .ok ws ∧
    ws = toyWord 5 :: List.replicate 13 (toyWord 7) := by
  refine ⟨_, ?_, rfl⟩
  decide +kernel

end Verif.Props
