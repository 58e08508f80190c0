import Verif.Proofs.CliText
import Verif.Proofs.PhraseSpec
import Verif.Model.Cli.Input
import Verif.Spec.Prompt
import Mathlib.Tactic.NormNum
import Mathlib.Tactic.Linarith

/-! # The word prompts -/

namespace Verif.Proofs

open Verif.Model Verif.Model.Cli Verif.Spec

theorem word_inj {L : WordList} (hL : L.Lawful) {i j : Nat} (hi : i < 4096) (hj : j < 4096)
    (h : L.word i = L.word j) : i = j := by
  have h1 := (hL.lookup_iff (L.word i) i).2 ⟨hi, rfl⟩
  have h2 := (hL.lookup_iff (L.word i) j).2 ⟨hj, h.symm⟩
  rw [h1] at h2
  exact Option.some.inj h2

theorem parseVersion_word {L : WordList} (hL : L.Lawful) {j : Nat} (hj : j < 4096) :
    parseMnemonicVersion L (L.word j) =
      if j / 256 > 1 then .err .invalidVersion else .ok (j / 256) := by
  rw [parseVersion_eq, hL.lookup_word hj]

theorem needs_iff {L : WordList} (hL : L.Lawful) {j : Nat} (hj : j < 4096) (n : Nat) :
    Needs L.word (L.word j) n ↔ (j / 256 = 0 ∧ n = 14) ∨ (j / 256 = 1 ∧ n = 16) := by
  constructor
  · intro h
    generalize hw : L.word j = w at h
    cases h with
    | plaintext k hk => have := word_inj hL hj (by omega) hw; subst this; exact .inl ⟨hk, rfl⟩
    | encrypted k hk => have := word_inj hL hj (by omega) hw; subst this; exact .inr ⟨hk, rfl⟩
  · rintro (⟨h, rfl⟩ | ⟨h, rfl⟩)
    · exact .plaintext j h
    · exact .encrypted j h

/-- The version check of the prompts: an error, or the number of words needed. -/
theorem version_cases {L : WordList} (hL : L.Lawful) {w : Bytes} (hw : IsWord L.word w) :
    (parseMnemonicVersion L w = .err .invalidVersion ∧ ¬ ∃ n, Needs L.word w n) ∨
      ∃ v, parseMnemonicVersion L w = .ok v ∧ Needs L.word w (mnemonicSize v) ∧
        (mnemonicSize v = 14 ∨ mnemonicSize v = 16) := by
  obtain ⟨j, hj, rfl⟩ := hw
  rw [parseVersion_word hL hj]
  by_cases h : j / 256 > 1
  · left
    refine ⟨if_pos h, ?_⟩
    rintro ⟨n, hn⟩
    rw [needs_iff hL hj] at hn
    omega
  · right
    refine ⟨j / 256, if_neg h, ?_⟩
    have h0 : mnemonicSize 0 = 14 := by decide
    have h1 : mnemonicSize 1 = 16 := by decide
    rcases (by omega : j / 256 = 0 ∨ j / 256 = 1) with h | h
    · rw [h, h0]; exact ⟨.plaintext j h, .inl rfl⟩
    · rw [h, h1]; exact ⟨.encrypted j h, .inr rfl⟩

/-- An accepted phrase has as many words as its first word asks for. -/
theorem decode_size {L : WordList} (hL : L.Lawful) {ws : List Bytes} {dm : DecodedMnemonic}
    (h : decodeMnemonic L ws = .ok dm) :
    (dm.version = 0 ∧ ws.length = 14) ∨ (dm.version = 1 ∧ ws.length = 16) := by
  rw [decodeMnemonic_spec hL] at h
  unfold readPhrase at h
  split at h
  · cases h
  · split at h
    · cases h
    · rename_i i hi
      dsimp only at h
      generalize val ((bits 12 i).take 4) = ver at h
      generalize hsz : (if ver = 0 then 14 else 16) = sz at h
      split at h
      · cases h
      · rename_i hver
        split at h
        · cases h
        · rename_i hlen
          split at h
          · cases h
          · split at h
            · cases h
            · split at h
              · rename_i h0
                cases h
                left
                refine ⟨rfl, ?_⟩
                rw [not_not] at hlen
                rw [hlen, ← hsz]; simp [h0]
              · rename_i h0
                cases h
                right
                refine ⟨rfl, ?_⟩
                rw [not_not] at hlen
                rw [hlen, ← hsz]; simp [h0]

/-! ## The raw prompt -/

/-- Invariant after `k` presses of the left arrow. -/
structure KeyInv (L : WordList) (k : Nat) (s : WordState) : Prop where
  count : (s.words.length : Int) = s.i + k
  words : ∀ w ∈ s.words, IsWord L.word w
  running : s.i < s.wordCount
  size : (s.wordCount = 1 ∧ s.i ≤ 0) ∨ ((s.wordCount = 14 ∨ s.wordCount = 16) ∧
    ∃ w ∈ s.words, Needs L.word w s.wordCount)
  first : k = 0 → (s.words = [] ∧ s.i = 0) ∨ ∃ w rest, s.words = w :: rest ∧ Needs L.word w s.wordCount

theorem keyInv_start (L : WordList) : KeyInv L 0 .start where
  count := by simp [WordState.start]
  words := by simp [WordState.start]
  running := by simp [WordState.start]
  size := .inl ⟨rfl, le_rfl⟩
  first := fun _ => .inl ⟨rfl, rfl⟩

/-- What a finished prompt has returned. -/
def KeyDone (L : WordList) (k : Nat) (r : Res (List Bytes)) : Prop :=
  r = .err .aborted ∨ ∃ ws, r = .ok ws ∧ (∀ w ∈ ws, IsWord L.word w) ∧
    (∃ n, (∃ w ∈ ws, Needs L.word w n) ∧ (n = 14 ∨ n = 16) ∧ ws.length = n + k) ∧
    (k = 0 → Complete L.word ws)

/-- Either the prompt goes on with the invariant, or it has returned what it should. -/
def KeyOk (L : WordList) (k : Nat) : KeyStep → Prop
  | .next s' => KeyInv L k s'
  | .finished r => KeyDone L k r

theorem keyStep_inv {L : WordList} (hL : L.Lawful) {k : Nat} {s : WordState} (h : KeyInv L k s)
    (c : Byte) : KeyOk L (k + if c = 68 then 1 else 0) (keyStep L s c) := by
  obtain ⟨kk, hkk⟩ : ∃ kk, kk = k + if c = 68 then 1 else 0 := ⟨_, rfl⟩
  rw [← hkk]
  have keep : ∀ t, c ≠ 68 → KeyInv L kk { s with wordInput := t } := by
    intro t hc
    rw [if_neg hc, Nat.add_zero] at hkk
    subst hkk
    exact ⟨h.count, h.words, h.running, h.size, h.first⟩
  unfold keyStep
  split
  · exact Or.inl rfl
  · dsimp only
    generalize (if c = 127 then _ else _ : Bytes) = wi
    split
    · rename_i hc
      unfold nextWord
      have hr := h.running
      rw [if_pos hc] at hkk
      subst hkk
      rw [if_pos (by dsimp only; omega)]
      show KeyInv _ _ _
      refine ⟨?_, h.words, by dsimp only; omega, ?_, by omega⟩
      · have := h.count; dsimp only; push_cast; omega
      · rcases h.size with ⟨a, b⟩ | b
        · exact .inl ⟨a, by dsimp only; omega⟩
        · exact .inr b
    · rename_i hc
      rw [if_neg hc, Nat.add_zero] at hkk
      subst hkk
      split
      · exact keep _ hc
      · split
        · cases hs : L.suffixes wi with
          | nil => exact keep _ hc
          | cons sfx rest =>
            have hw : IsWord L.word (wi ++ sfx) := hL.suffix_word wi sfx (by rw [hs]; simp)
            have hall : ∀ w ∈ s.words ++ [wi ++ sfx], IsWord L.word w := by
              intro w hmem
              rcases List.mem_append.1 hmem with hmem | hmem
              · exact h.words w hmem
              · rw [List.mem_singleton.1 hmem]; exact hw
            have hcnt := h.count
            have hrun := h.running
            dsimp only
            split
            · rename_i hi
              rcases version_cases hL hw with ⟨hv, _⟩ | ⟨v, hv, hn, hsz⟩
              · rw [hv]; exact keep _ hc
              · rw [hv]
                dsimp only
                unfold nextWord
                rw [if_pos (by dsimp only; omega)]
                show KeyInv _ _ _
                refine ⟨?_, hall, by dsimp only; omega, .inr ⟨hsz, _, by simp, hn⟩, ?_⟩
                · simp only [List.length_append, List.length_singleton]; push_cast; omega
                · intro hk
                  have : s.words = [] := by
                    apply List.length_eq_zero_iff.1; omega
                  exact .inr ⟨_, [], by simp [this], hn⟩
            · rename_i hi
              unfold nextWord
              have hfirst : kk = 0 → ∃ w rest, s.words ++ [wi ++ sfx] = w :: rest ∧
                  Needs L.word w s.wordCount := by
                intro hk
                rcases h.first hk with ⟨_, h0⟩ | ⟨w, rest, h1, h2⟩
                · exact absurd h0 hi
                · exact ⟨w, rest ++ [wi ++ sfx], by simp [h1], h2⟩
              by_cases hlt : s.i + 1 < s.wordCount
              · rw [if_pos hlt]
                show KeyInv _ _ _
                refine ⟨?_, hall, hlt, ?_, ?_⟩
                · simp only [List.length_append, List.length_singleton]; push_cast; omega
                · rcases h.size with ⟨a, b⟩ | ⟨a, w, hw1, hw2⟩
                  · exact .inl ⟨a, by dsimp only; omega⟩
                  · exact .inr ⟨a, w, by simp [hw1], hw2⟩
                · intro hk; exact .inr (hfirst hk)
              · rw [if_neg hlt]
                show KeyDone _ _ _
                refine .inr ⟨_, rfl, hall, ?_, ?_⟩
                · rcases h.size with ⟨a, b⟩ | ⟨a, w, hw1, hw2⟩
                  · omega
                  · refine ⟨s.wordCount, ⟨w, by simp [hw1], hw2⟩, a, ?_⟩
                    simp only [List.length_append, List.length_singleton]; omega
                · intro hk
                  refine ⟨hall, ?_⟩
                  obtain ⟨w, rest, h1, h2⟩ := hfirst hk
                  refine ⟨w, rest, h1, ?_⟩
                  have : (s.words ++ [wi ++ sfx]).length = s.wordCount := by
                    simp only [List.length_append, List.length_singleton]; omega
                  rw [this]; exact h2
        · exact keep _ hc

theorem keyLoop_inv {L : WordList} (hL : L.Lawful) : ∀ (stdin : Bytes) (k : Nat) (s : WordState),
    KeyInv L k s → ∃ used, stdin = used ++ (keyLoop L s stdin).2 ∧
      ((keyLoop L s stdin).1 = .err .stdinRead ∨
        KeyDone L (k + used.count 68) (keyLoop L s stdin).1)
  | [], k, s, _ => ⟨[], by simp [keyLoop], .inl rfl⟩
  | c :: stdin, k, s, h => by
    have hstep := keyStep_inv hL h c
    rw [keyLoop]
    cases hk : keyStep L s c with
    | next s' =>
      rw [hk] at hstep
      obtain ⟨used, h1, h2⟩ := keyLoop_inv hL stdin _ s' hstep
      refine ⟨c :: used, by simpa using h1, ?_⟩
      have : k + (c :: used).count 68 = k + (if c = 68 then 1 else 0) + used.count 68 := by
        rw [List.count_cons]; simp only [beq_iff_eq]; omega
      rw [this]; exact h2
    | finished r =>
      rw [hk] at hstep
      refine ⟨[c], by simp, .inr ?_⟩
      have : k + [c].count 68 = k + (if c = 68 then 1 else 0) := by
        rw [List.count_cons]; simp
      rw [this]; exact hstep

/-! ## Typing a phrase -/

theorem keyStep_letter (L : WordList) (s : WordState) {c : Byte} (hc : isLowerAz c = true) :
    keyStep L s c = .next { s with wordInput := s.wordInput ++ [c] } := by
  simp only [isLowerAz, Bool.and_eq_true, decide_eq_true_eq] at hc
  have hne : ∀ x : Byte, x < 0x61 ∨ 0x7A < x → c ≠ x := by
    rintro x hx rfl
    rw [UInt8.le_iff_toNat_le, UInt8.le_iff_toNat_le] at hc
    rw [UInt8.lt_iff_toNat_lt, UInt8.lt_iff_toNat_lt] at hx
    omega
  have h3 := hne 3 (by decide)
  have h4 := hne 4 (by decide)
  have h127 := hne 127 (by decide)
  have h68 := hne 68 (by decide)
  have h9 := hne 9 (by decide)
  have h13 := hne 13 (by decide)
  have h32 := hne 32 (by decide)
  simp [keyStep, hc, h3, h4, h127, h68, h9, h13, h32]

theorem keyLoop_letters (L : WordList) : ∀ (w : Bytes) (s : WordState) (rest : Bytes),
    (∀ b ∈ w, isLowerAz b = true) →
    keyLoop L s (w ++ rest) = keyLoop L { s with wordInput := s.wordInput ++ w } rest
  | [], s, rest, _ => by simp
  | c :: w, s, rest, h => by
    rw [List.cons_append, keyLoop, keyStep_letter L s (h c (by simp))]
    dsimp only
    rw [keyLoop_letters L w _ rest (fun b hb => h b (by simp [hb]))]
    simp

theorem keyStep_submit {L : WordList} (hL : L.Lawful) (s : WordState) {j : Nat} (hj : j < 4096)
    {c : Byte} (hc : c = 13 ∨ c = 32) (hs : s.wordInput = L.word j) :
    keyStep L s c =
      if s.i = 0 then
        match parseMnemonicVersion L (L.word j) with
        | .err _ => .next s
        | .panic p => .finished (.panic p)
        | .ok v => nextWord { s with
            wordCount := mnemonicSize v, words := s.words ++ [L.word j], i := s.i + 1 }
      else nextWord { s with words := s.words ++ [L.word j], i := s.i + 1 } := by
  obtain ⟨r, hr⟩ := hL.suffix_exact j hj
  obtain ⟨i, wc, ws, wi⟩ := s
  dsimp only at hs
  subst hs
  rcases hc with rfl | rfl <;>
  · by_cases hi : i = 0
    · subst hi
      have : L.word j ++ [] = L.word j := List.append_nil _
      simp [keyStep]
      rw [hr]
      simp only [this]
      cases parseMnemonicVersion L (L.word j) <;> rfl
    · simp [keyStep, hi]
      rw [hr]
      simp

/-- The keys for a list of words, each followed by its submit key. -/
def keysFor (entries : List (Bytes × Byte)) : Bytes := entries.flatMap (fun e => e.1 ++ [e.2])

theorem keyLoop_typed {L : WordList} (hL : L.Lawful) (n : Nat) : ∀ (es : List (Bytes × Byte))
    (i : Nat) (pre : List Bytes) (rest : Bytes), es ≠ [] →
    (∀ e ∈ es, IsWord L.word e.1 ∧ (e.2 = 13 ∨ e.2 = 32)) → 0 < i → i + es.length = n →
    keyLoop L ⟨i, n, pre, []⟩ (keysFor es ++ rest) = (.ok (pre ++ es.map Prod.fst), rest)
  | [], _, _, _, h, _, _, _ => absurd rfl h
  | e :: es, i, pre, rest, _, he, hi, hn => by
    obtain ⟨⟨j, hj, hw⟩, hc⟩ := he e (by simp)
    have h0 : ¬ ((i : Int) = 0) := by omega
    have hkeys : keysFor (e :: es) ++ rest = e.1 ++ ([e.2] ++ (keysFor es ++ rest)) := by
      simp [keysFor]
    rw [hkeys, keyLoop_letters L _ _ _ (by rw [← hw]; exact hL.word_az j hj), List.singleton_append,
      keyLoop, keyStep_submit hL _ hj hc (by simp [hw])]
    dsimp only
    rw [if_neg h0]
    unfold nextWord
    dsimp only
    by_cases hlast : es = []
    · subst hlast
      simp only [List.length_cons, List.length_nil] at hn
      rw [if_neg (by omega)]
      simp [keysFor, hw]
    · have hl := List.length_pos_iff.2 hlast
      simp only [List.length_cons] at hn
      rw [if_pos (by omega)]
      dsimp only
      have ih := keyLoop_typed hL n es (i + 1) (pre ++ [e.1]) rest hlast
        (fun x hx => he x (by simp [hx])) (by omega) (by omega)
      simp only [Nat.cast_add, Nat.cast_one] at ih
      rw [hw, ih]
      simp

/-- Typing a complete phrase at the first word position. -/
theorem keyLoop_phrase {L : WordList} (hL : L.Lawful) (wc : Nat) (pre : List Bytes)
    (es : List (Bytes × Byte)) (rest : Bytes)
    (he : ∀ e ∈ es, e.2 = 13 ∨ e.2 = 32) (hc : Complete L.word (es.map Prod.fst)) :
    keyLoop L ⟨0, wc, pre, []⟩ (keysFor es ++ rest) = (.ok (pre ++ es.map Prod.fst), rest) := by
  obtain ⟨hall, w, tl, hes, hn⟩ := hc
  cases es with
  | nil => simp at hes
  | cons e es =>
    simp only [List.map_cons, List.cons.injEq] at hes
    obtain ⟨rfl, -⟩ := hes
    obtain ⟨j, hj, hw⟩ := hall e.1 (by simp)
    have hkeys : keysFor (e :: es) ++ rest = e.1 ++ ([e.2] ++ (keysFor es ++ rest)) := by
      simp [keysFor]
    rw [hkeys, keyLoop_letters L _ _ _ (by rw [← hw]; exact hL.word_az j hj), List.singleton_append,
      keyLoop, keyStep_submit hL _ hj (he e (by simp)) (by simp [hw])]
    simp only [if_true]
    rcases version_cases hL (hall e.1 (by simp)) with ⟨_, hno⟩ | ⟨v, hv, hv1, hv2⟩
    · exact absurd ⟨_, hn⟩ hno
    · rw [hw, hv]
      dsimp only
      have hlen : mnemonicSize v = (e :: es).length := by
        rw [← hw, needs_iff hL hj] at hv1 hn
        simp only [List.length_map] at hn
        omega
      have hes : es ≠ [] := by
        intro h; subst h; simp at hlen; omega
      unfold nextWord
      dsimp only
      rw [if_pos (by omega)]
      have ih := keyLoop_typed hL (mnemonicSize v) es 1 (pre ++ [e.1]) rest hes
        (fun x hx => ⟨hall x.1 (by
          simp only [List.map_cons, List.mem_cons, List.mem_map]
          exact .inr ⟨x, hx, rfl⟩), he x (by simp [hx])⟩)
        (by omega) (by rw [hlen]; simp; omega)
      simpa using ih

/-- Typing one word, pressing the left arrow, then typing a complete phrase. -/
theorem keyLoop_revise {L : WordList} (hL : L.Lawful) (w : Bytes) (n : Nat) (hw : IsWord L.word w)
    (hn : Needs L.word w n) (es : List (Bytes × Byte)) (rest : Bytes)
    (he : ∀ e ∈ es, e.2 = 13 ∨ e.2 = 32) (hc : Complete L.word (es.map Prod.fst)) :
    keyLoop L .start (w ++ [13, 68] ++ keysFor es ++ rest) = (.ok (w :: es.map Prod.fst), rest) := by
  obtain ⟨j, hj, hjw⟩ := hw
  have hkeys : w ++ [13, 68] ++ keysFor es ++ rest = w ++ (13 :: 68 :: (keysFor es ++ rest)) := by
    simp
  rw [hkeys, keyLoop_letters L _ _ _ (by rw [← hjw]; exact hL.word_az j hj), keyLoop,
    keyStep_submit hL _ hj (.inl rfl) (by simp [hjw, WordState.start])]
  simp only [WordState.start, if_true]
  rcases version_cases hL ⟨j, hj, hjw⟩ with ⟨_, hno⟩ | ⟨v, hv, hv1, hv2⟩
  · exact absurd ⟨_, hn⟩ hno
  · rw [hjw, hv]
    dsimp only
    unfold nextWord
    dsimp only
    rw [if_pos (by omega)]
    dsimp only
    rw [keyLoop]
    have hstep : keyStep L ⟨0 + 1, mnemonicSize v, [] ++ [w], []⟩ 68 =
        .next ⟨0, mnemonicSize v, [w], []⟩ := by
      simp only [keyStep, nextWord]
      rw [if_neg (by decide), if_pos trivial, if_pos (by omega)]
      simp
    rw [hstep]
    dsimp only
    rw [keyLoop_phrase hL (mnemonicSize v) [w] es rest he hc]
    simp

end Verif.Proofs
