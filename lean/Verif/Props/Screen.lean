import Verif.Props.Typing
import Verif.Proofs.Screen

/-! # C75 to C77 What the interactive prompt shows -/

namespace Verif.Props

open Verif.Model Verif.Model.Cli Verif.Proofs Verif.Spec Verif.Instances

theorem offer_getD (L : WordList) (t : Bytes) : (offer L t).getD t = t ++ headSuffix L t := by
  unfold offer headSuffix
  cases L.suffixes t <;> simp

theorem offer_none {L : WordList} {t : Bytes} : offer L t = none ↔ L.suffixes t = [] := by
  unfold offer
  cases L.suffixes t <;> simp

theorem keysOut_next {L : WordList} {s s' : WordState} {c : Byte} (h : keyStep L s c = .next s') (k : Bytes) :
    (keysOut L s (c :: k)).2 = (keysOut L s' k).2 := by
  conv_lhs => unfold keysOut
  rw [← keyRound_snd] at h
  rcases hk : keyRound L s c with ⟨out, st⟩
  rw [hk] at h
  simp only at h
  rw [h]

theorem keysOut_finished {L : WordList} {s : WordState} {c : Byte} {r : Res (List Bytes)}
    (h : keyStep L s c = .finished r) (k : Bytes) : (keysOut L s (c :: k)).2 = none := by
  conv_lhs => unfold keysOut
  rw [← keyRound_snd] at h
  rcases hk : keyRound L s c with ⟨out, st⟩
  rw [hk] at h
  simp only at h
  rw [h]

theorem keys_head {word : Nat → Bytes} {offer : Bytes → Option Bytes} {k : Bytes} {a b : List Bytes × Bytes}
    (h : Keys word offer k a b) (hn : ¬ Complete word b.1) : ¬ Complete word a.1 := by
  cases h with
  | nil => exact hn
  | cons h1 => exact h1

/-- The prompt is in the state that the keys lead to. -/
theorem sim_keys {L : WordList} (hL : L.Lawful) {keys : Bytes} {a b : List Bytes × Bytes}
    (hk : Keys L.word (offer L) keys a b) : ∀ {s : WordState}, Sim L s a.1 a.2 → s.i < s.wordCount →
    ¬ Complete L.word b.1 → ∃ s', (keysOut L s keys).2 = some s' ∧ Sim L s' b.1 b.2 ∧ s'.i < s'.wordCount := by
  induction hk with
  | nil => exact fun hs hi _ => ⟨_, rfl, hs, hi⟩
  | @cons c cs a b d hna hkey hrest ih =>
    intro s hs hi hn
    obtain ⟨h3, h4, h68⟩ := key_not_special hkey
    obtain ⟨ws', t', hkey', hcase⟩ := sim_step hL hs hi h3 h4 h68
    have e := key_unique hkey hkey'
    subst e
    rcases hcase with ⟨s1, hst, hs1, hi1⟩ | ⟨hst, hcomp⟩
    · rw [keysOut_next hst]
      exact ih hs1 hi1 hn
    · exact absurd hcomp (keys_head hrest hn)

/-- A state that the prompt waits in is one that the keys lead to. -/
theorem keys_sim {L : WordList} (hL : L.Lawful) : ∀ (keys : Bytes) (s : WordState) (ws : List Bytes) (t : Bytes),
    Sim L s ws t → s.i < s.wordCount → 68 ∉ keys → ∀ s', (keysOut L s keys).2 = some s' →
    ∃ ws' t', Keys L.word (offer L) keys (ws, t) (ws', t') ∧ Sim L s' ws' t' ∧ ¬ Complete L.word ws'
  | [], s, ws, t, hs, hi, _, s', h => by
    cases h
    exact ⟨ws, t, .nil, hs, fun hc => by have := (hs.complete_iff hL).1 hc; omega⟩
  | c :: keys, s, ws, t, hs, hi, h68, s', h => by
    by_cases h34 : c = 3 ∨ c = 4
    · have : keyStep L s c = .finished (.err .aborted) := by unfold keyStep; rw [if_pos h34]
      rw [keysOut_finished this] at h
      cases h
    obtain ⟨ws1, t1, hkey, hcase⟩ := sim_step hL hs hi (fun e => h34 (.inl e)) (fun e => h34 (.inr e))
      (fun e => h68 (by simp [e]))
    rcases hcase with ⟨s1, hst, hs1, hi1⟩ | ⟨hst, hcomp⟩
    · rw [keysOut_next hst] at h
      obtain ⟨ws', t', hk, hs', hn⟩ := keys_sim hL keys s1 ws1 t1 hs1 hi1 (fun e => h68 (by simp [e])) s' h
      exact ⟨ws', t', .cons (fun hc => by have := (hs.complete_iff hL).1 hc; omega) hkey hk, hs', hn⟩
    · rw [keysOut_finished hst] at h
      cases h

/-- All that is typed, with the word offered, fits on its line. -/
def AllFit (L : WordList) (width : Nat) (keys : Bytes) : Prop :=
  ∀ pre ws t, pre <+: keys → Keys L.word (offer L) pre ([], []) (ws, t) →
    (promptFor (ws.length + 1) ++ (offer L t).getD t).length < width

theorem AllFit.model {L : WordList} (hL : L.Lawful) {width : Nat} {keys : Bytes} (h : AllFit L width keys)
    (h68 : 68 ∉ keys) :
    ∀ pre s', pre <+: keys → (keysOut L .start pre).2 = some s' → Fit L width s' := by
  intro pre s' hp hs
  obtain ⟨ws, t, hk, hsim, -⟩ := keys_sim hL pre .start [] [] (sim_start L) (by decide)
    (fun e => h68 (hp.subset e)) s' hs
  have := h pre ws t hp hk
  rw [offer_getD, ← List.append_assoc] at this
  unfold Fit
  rw [promptText_eq, hsim.pos, hsim.text]
  exact this

/-- What is on the screen while the prompt waits -/
theorem screen_wait {L : WordList} (hL : L.Lawful) {t0 : Term} (hu : t0.Usable 46) {keys : Bytes}
    (hf : AllFit L t0.width keys) {ws : List Bytes} {t : Bytes} (hk : Keys L.word (offer L) keys ([], []) (ws, t))
    (hn : ¬ Complete L.word ws) :
    ∃ s sug, Ready (t0.feed promptHeader) ∧ t0.row ≤ (t0.feed promptHeader).row ∧
      (t0.feed promptHeader).width = t0.width ∧ (∀ r c, r < t0.row → (t0.feed promptHeader).cell r c = t0.cell r c) ∧
      (keysOut L .start keys).2 = some s ∧ Sim L s ws t ∧ s.i < s.wordCount ∧
      Wait (t0.feed promptHeader) (t0.feed (shownAfter L keys).1) (promptText s.i ++ s.wordInput) sug ∧ Sug L s sug := by
  obtain ⟨r, h1, h2, h3⟩ := ready_header hu.esc hu.topRow hu.rowTop hu.rows hu.columns
  have hfm := hf.model hL (fun e => (keys_no_special hk 68 e).2.2 rfl)
  rw [← h2] at hfm
  obtain ⟨w0, s0⟩ := ready_prompt (L := L) r (hfm [] .start ⟨_, rfl⟩ rfl)
  obtain ⟨s, hs, hsim, hi⟩ := sim_keys hL hk (sim_start L) (by decide) hn
  obtain ⟨hw, -⟩ := screen_keys hL r keys _ .start [] w0 s0 hfm
  obtain ⟨sug, w, sg⟩ := hw s hs
  refine ⟨s, sug, r, h1, h2, h3, hs, hsim, hi, ?_, sg⟩
  have e : (shownAfter L keys).1 = promptHeader ++ (wordPrompt 0 ++ (keysOut L .start keys).1) := by
    simp [shownAfter]
  rw [e, feed_append, feed_append]
  exact w

theorem key_submits {word : Nat → Bytes} {offer : Bytes → Option Bytes} {c : Byte} {a b : List Bytes × Bytes}
    (h : Key word offer c a b) (hc : c = 13 ∨ c = 32) (hb : b.2 = []) (ha : a.2 ≠ []) :
    ∃ w, offer a.2 = some w ∧ b.1 = a.1 ++ [w] := by
  cases h with
  | submit _ ho _ => exact ⟨_, ho, rfl⟩
  | badVersion => exact absurd hb ha
  | noWord => exact absurd hb ha
  | ignored => exact absurd hb ha
  | backspace => rcases hc with h | h <;> cases h
  | tabNothing => exact absurd hb ha
  | tab => rcases hc with h | h <;> cases h
  | letter => simp at hb

/-- While the prompt waits for a key, one row of the terminal shows its number, the text typed and faintly the
rest of the word offered, and nothing else. The cursor is after the text. What return would submit is what is
seen, once something was typed. Only that row and the one below have changed since the header was written. -/
theorem c75_shown {L : WordList} (hL : L.Lawful) {t0 : Term} (hu : t0.Usable 46) {keys : Bytes}
    (hf : AllFit L t0.width keys) {ws : List Bytes} {t : Bytes} (hk : Keys L.word (offer L) keys ([], []) (ws, t))
    (hn : ¬ Complete L.word ws) :
    ∃ row sug, t0.row ≤ row ∧
      (t0.feed (shownAfter L keys).1).row = row ∧
      (t0.feed (shownAfter L keys).1).col = (promptFor (ws.length + 1) ++ t).length ∧
      (t0.feed (shownAfter L keys).1).top ≤ row ∧
      row + 1 < (t0.feed (shownAfter L keys).1).top + (t0.feed (shownAfter L keys).1).height ∧
      (t0.feed (shownAfter L keys).1).Shows row (plain (promptFor (ws.length + 1) ++ t) ++ faintly sug) ∧
      (t ≠ [] → t ++ sug = (offer L t).getD t) ∧
      (t = [] → sug = [] ∨ offer L [] = some sug) ∧
      (∀ c ws', c = 13 ∨ c = 32 → Key L.word (offer L) c (ws, t) (ws', []) → t ≠ [] → ws' = ws ++ [t ++ sug]) ∧
      (∀ r c, r ≠ row → r ≠ row + 1 →
        (t0.feed (shownAfter L keys).1).cell r c = (t0.feed promptHeader).cell r c) ∧
      (∀ r c, r < t0.row → (t0.feed (shownAfter L keys).1).cell r c = t0.cell r c) := by
  obtain ⟨s, sug, r, h1, h2, h3, -, hsim, hi, w, sg⟩ := screen_wait hL hu hf hk hn
  rw [promptText_eq, hsim.pos, hsim.text] at w
  have sg' : sug = headSuffix L t ∨ (sug = [] ∧ t = []) := by
    have := sg
    unfold Sug at this
    rwa [hsim.text] at this
  have hsug : t ≠ [] → t ++ sug = (offer L t).getD t := by
    intro hne
    rw [offer_getD]
    rcases sg' with e | ⟨-, e⟩
    · rw [e]
    · exact absurd e hne
  refine ⟨_, sug, h1, w.row, w.col, ?_, ?_, fun c _ => w.shown c, hsug, ?_, ?_, w.others, ?_⟩
  · rw [w.top]; exact r.top
  · rw [w.top, w.height]; exact r.bottom
  · rintro rfl
    rcases sg' with e | ⟨e, -⟩
    · cases hsx : L.suffixes [] with
      | nil => left; rw [e, headSuffix, hsx]; rfl
      | cons x r' => right; rw [e, headSuffix, offer, hsx]; simp
    · exact .inl e
  · intro c ws' hc hkey hne
    rw [hsug hne]
    obtain ⟨w', ho, e⟩ := key_submits hkey hc rfl hne
    rw [ho]; exact e
  · intro rr c hr
    rw [w.others rr c (by omega) (by omega)]
    exact h3 rr c hr

theorem keys_snoc {word : Nat → Bytes} {offer : Bytes → Option Bytes} {k : Bytes} {c : Byte}
    {a b d : List Bytes × Bytes} (h : Keys word offer k a b) (hn : ¬ Complete word b.1) (hc : Key word offer c b d) :
    Keys word offer (k ++ [c]) a d := by
  induction h with
  | nil => exact .cons hn hc .nil
  | cons h1 h2 _ ih => exact .cons h1 h2 (ih hn hc)

theorem parse_no_panic (L : WordList) (w : Bytes) {p : Panic} : parseMnemonicVersion L w ≠ .panic p := by
  unfold parseMnemonicVersion
  split <;> simp

theorem version_of_word {L : WordList} (hL : L.Lawful) {i : Nat} (hi : i < 4096) :
    (∃ v, parseMnemonicVersion L (L.word i) = .ok v) ↔ i / 256 < 2 := by
  have hlk : L.lookup (L.toLower (L.word i)) = some i := by
    rw [lower_word hL hi]
    exact (hL.lookup_iff _ _).2 ⟨hi, rfl⟩
  have hv : i >>> (bitsPerWord - mnemonicVersionBitCount) = i / 256 := by
    rw [Nat.shiftRight_eq_div_pow]; rfl
  simp only [parseMnemonicVersion, parseMnemonicVersionRaw, hlk, hv, versionCheck, mnemonicVersionLatest]
  by_cases h : i / 256 > 1
  · rw [if_pos h]; simp; omega
  · rw [if_neg h]; simp; omega

/-- The row below tells after each key why the text cannot be submitted, or nothing. -/
theorem c76_messages {L : WordList} (hL : L.Lawful) {t0 : Term} (hu : t0.Usable 46) {keys : Bytes} {c : Byte}
    (hf : AllFit L t0.width (keys ++ [c])) {a b : List Bytes × Bytes} (hk : Keys L.word (offer L) keys ([], []) a)
    (hn : ¬ Complete L.word a.1) (hkey : Key L.word (offer L) c a b) (hnb : ¬ Complete L.word b.1) {m : Option Bytes}
    (hm : Below L.word (offer L) c a b m) :
    match m with
    | none => (t0.feed (shownAfter L (keys ++ [c])).1).Shows ((t0.feed (shownAfter L (keys ++ [c])).1).row + 1) []
    | some text => (t0.feed (shownAfter L (keys ++ [c])).1).Starts ((t0.feed (shownAfter L (keys ++ [c])).1).row + 1) text := by
  obtain ⟨ws, t⟩ := a
  have hf0 : AllFit L t0.width keys := fun pre ws t hp => hf pre ws t (hp.trans (List.prefix_append _ _))
  obtain ⟨s, sug, r, h1, h2, h3, hs, hsim, hi, w, sg⟩ := screen_wait hL hu hf0 hk hn
  have hks : Keys L.word (offer L) (keys ++ [c]) ([], []) b := keys_snoc hk hn hkey
  have hfm := hf.model hL (fun e => (keys_no_special hks 68 e).2.2 rfl)
  obtain ⟨k3, k4, k68⟩ := key_not_special hkey
  obtain ⟨ws', t', hkey', hcase⟩ := sim_step hL hsim hi k3 k4 k68
  have e := key_unique hkey hkey'
  subst e
  rcases hcase with ⟨s', hst, hs1, hi1⟩ | ⟨-, hcomp⟩
  swap
  · exact absurd hcomp hnb
  have happ := keysOut_append (b := [c]) keys hs
  have hone : keysOut L s [c] = ((keyRound L s c).1, some s') := by
    have hst' := hst
    rw [← keyRound_snd] at hst'
    unfold keysOut
    rcases hkr : keyRound L s c with ⟨out, st⟩
    rw [hkr] at hst'
    simp only at hst'
    rw [hst']
    simp [keysOut]
  rw [hone] at happ
  have eo : (shownAfter L (keys ++ [c])).1 = (shownAfter L keys).1 ++ (keyRound L s c).1 := by
    simp only [shownAfter]
    rw [happ.1]
    simp
  rw [eo, feed_append]
  generalize t0.feed (shownAfter L keys).1 = u at w
  have fit0 : Fit L (t0.feed promptHeader).width s := by
    rw [h2]; exact hfm keys s (List.prefix_append _ _) hs
  have fit1 : Fit L (t0.feed promptHeader).width s' := by
    rw [h2]; exact hfm (keys ++ [c]) s' (List.prefix_refl _) happ.2
  obtain ⟨sug', w', -, nt⟩ := (screen_round hL r c w sg fit0).1 s' (by rw [keyRound_snd]; exact hst) fit1
  rw [w'.row]
  have es : s.wordInput = t := hsim.text
  have es' : s'.wordInput = t' := hs1.text
  cases hm with
  | good hc ho =>
    simp only [List.mem_cons, List.not_mem_nil, or_false, not_or] at hc
    intro k _
    refine (nt.redrawn k68 hc.2.1 hc.2.2 (.inl hc.1)).1 ?_ k
    rw [es']
    rcases ho with ho | ho
    · exact .inl (fun e => ho (offer_none.2 e))
    · exact .inr ho
  | hopeless hc ho hne =>
    simp only [List.mem_cons, List.not_mem_nil, or_false, not_or] at hc
    refine (nt.redrawn k68 hc.2.1 hc.2.2 (.inl hc.1)).2 ?_ ?_
    · rw [es']; exact offer_none.1 ho
    · rw [es']; exact hne
  | enter hc ho hne =>
    rcases hc with rfl | hc
    · refine (nt.redrawn (by decide) (by decide) (by decide) (.inr ?_)).2 ?_ ?_
      · rw [es]; exact offer_none.1 ho
      · rw [es']; exact offer_none.1 ho
      · rw [es']; exact hne rfl
    · exact nt.noWord hc (by rw [es]; exact offer_none.1 ho)
  | tabEmpty ho =>
    intro k _
    refine (nt.redrawn (by decide) (by decide) (by decide) (.inr ?_)).1 (.inr es') k
    rw [es]; exact offer_none.1 ho
  | @version _ _ i hc hi' ho hv =>
    have ho' := ho
    unfold offer at ho'
    obtain ⟨x, hx, e⟩ := Option.map_eq_some_iff.1 ho'
    cases hsx : L.suffixes t with
    | nil => rw [hsx] at hx; cases hx
    | cons x' r' =>
      rw [hsx] at hx
      cases hx
      cases hp : parseMnemonicVersion L (L.word i) with
      | err er =>
        have := nt.version hc x r' (by rw [es]; exact hsx) (by rw [hsim.pos]; rfl) er (by rw [es, e]; exact hp)
        rw [es, e, (version_message hL hi' hp).2] at this
        exact this
      | ok v =>
        exfalso
        have := (version_of_word hL hi').1 ⟨v, hp⟩
        omega
      | panic p => exact absurd hp (parse_no_panic _ _)


/-- However the prompt ends, its row is blank, the row below holds nothing but parts of messages, and everything
else is as the header left it, apart from a blank row that may come in at the bottom: no letter that was typed stays on the screen or in the scrollback, provided that
the text always fitted on its line. All keys are allowed here, also the left arrow. -/
theorem c77_erased {L : WordList} (hL : L.Lawful) {t0 : Term} (hu : t0.Usable 46) (stdin : Bytes)
    (hf : ∀ pre s, pre <+: stdin → (shownAfter L pre).2 = some s →
      (promptFor (s.i + 1) ++ (offer L s.wordInput).getD s.wordInput).length < t0.width) :
    let start := t0.feed promptHeader
    let row := start.row
    t0.row ≤ row ∧ (t0.feed (promptOutput L stdin)).Shows row [] ∧
      (∀ c, (t0.feed (promptOutput L stdin)).cell (row + 1) c = start.cell (row + 1) c ∨
        (t0.feed (promptOutput L stdin)).cell (row + 1) c = .blank ∨
        ∃ m, IsMessage m ∧ c < m.length ∧ (t0.feed (promptOutput L stdin)).cell (row + 1) c = ⟨m.getD c 0, false⟩) ∧
      (∀ r c, r ≠ row → r ≠ row + 1 →
        (t0.feed (promptOutput L stdin)).cell r c =
          if r = row + 2 ∧ start.top + start.height ≤ r then .blank else start.cell r c) ∧
      (∀ r c, r < t0.row → (t0.feed (promptOutput L stdin)).cell r c = t0.cell r c) ∧
      (t0.feed (promptOutput L stdin)).row = row + 2 ∧ (t0.feed (promptOutput L stdin)).col = 0 := by
  obtain ⟨r, h1, h2, h3⟩ := ready_header hu.esc hu.topRow hu.rowTop hu.rows hu.columns
  have hfm : ∀ pre s', pre <+: stdin → (keysOut L .start pre).2 = some s' → Fit L (t0.feed promptHeader).width s' := by
    intro pre s' hp hs
    have := hf pre s' hp hs
    rw [offer_getD, ← List.append_assoc] at this
    rw [Fit, promptText_eq, h2]
    exact this
  obtain ⟨w0, s0⟩ := ready_prompt (L := L) r (hfm [] .start ⟨_, rfl⟩ rfl)
  obtain ⟨hw, hd⟩ := screen_keys hL r stdin _ .start [] w0 s0 hfm
  have key : ∃ u, Base (t0.feed promptHeader) u ∧ t0.feed (promptOutput L stdin) = u.feed promptDeferred := by
    cases hs : (keysOut L .start stdin).2 with
    | none =>
      obtain ⟨u, b, e⟩ := hd hs
      refine ⟨u, b, ?_⟩
      have : promptOutput L stdin = promptHeader ++ (wordPrompt 0 ++ (keysOut L .start stdin).1) := by
        unfold promptOutput shownAfter
        rcases hk : keysOut L .start stdin with ⟨o, st⟩
        rw [hk] at hs
        simp only at hs
        subst hs
        simp
      rw [this, feed_append, feed_append]
      exact e
    | some s =>
      obtain ⟨sug, w, -⟩ := hw s hs
      refine ⟨_, w.toBase, ?_⟩
      have : promptOutput L stdin = promptHeader ++ (wordPrompt 0 ++ ((keysOut L .start stdin).1 ++ promptDeferred)) := by
        unfold promptOutput shownAfter
        rcases hk : keysOut L .start stdin with ⟨o, st⟩
        rw [hk] at hs
        simp only at hs
        subst hs
        simp
      rw [this, feed_append, feed_append, feed_append]
  obtain ⟨u, b, e⟩ := key
  rw [e]
  obtain ⟨d1, d2, d3, d4, d5, d6⟩ := b.deferred r
  refine ⟨h1, ?_, d5, d6, ?_, d1, d2⟩
  · intro c _
    rw [d4]
    simp
  · intro rr c hr
    rw [d6 rr c (by omega) (by omega), if_neg (by omega), h3 rr c hr]

instance (t : Term) (row : Nat) (text : Bytes) : Decidable (t.Starts row text) :=
  inferInstanceAs (Decidable (∀ c, c < text.length → _))

instance (t : Term) (row : Nat) (cells : List Cell) : Decidable (t.Shows row cells) :=
  inferInstanceAs (Decidable (∀ c, c < t.width → _))

/-- An empty terminal -/
def emptyTerm (width height : Nat) : Term :=
  { width, height, cell := fun _ _ => .blank, top := 0, row := 0, col := 0 }

/-- Text that does not fit on the line stays on the screen when the prompt ends: only the last row of it is
erased (here 38 letters on a terminal of 46 columns that remembers a full line with the cursor, as xterm does, then
CTRL+C). -/
theorem c77_wrapped_stays :
    (emptyTerm 46 24).Usable 46 ∧
    ((emptyTerm 46 24).feed (promptOutput toyWordList (List.replicate 38 0x7A ++ [3]))).Starts 10
      (promptFor 1 ++ List.replicate 35 0x7A) := by
  refine ⟨⟨rfl, by decide, by decide, by decide, by decide⟩, ?_⟩
  set_option maxRecDepth 100000 in decide +kernel

/-- A message is written over the last one without erasing it. -/
theorem c76_remnant :
    ((emptyTerm 80 24).feed (shownAfter toyWordList (toyWord 512 ++ [13, 0x7A])).1).Starts 9
      (str "No matching words found in the wordlist!e: 2") := by
  set_option maxRecDepth 100000 in decide +kernel

/-- What is typed with few keys is short. -/
theorem keys_short {L : WordList} {m : Nat} (hm : ∀ t w, offer L t = some w → w.length ≤ m)
    {keys : Bytes} {a b : List Bytes × Bytes} (h : Keys L.word (offer L) keys a b) :
    b.1.length ≤ a.1.length + keys.length ∧ b.2.length ≤ max m a.2.length + keys.length := by
  induction h with
  | nil => exact ⟨by simp, by simp⟩
  | cons _ hk _ ih =>
    obtain ⟨h1, h2⟩ := ih
    cases hk with
    | letter => simp at h1 h2 ⊢; omega
    | backspace => simp at h1 h2 ⊢; omega
    | tab ho => have := hm _ _ ho; simp at h1 h2 ⊢; omega
    | tabNothing => simp at h1 h2 ⊢; omega
    | submit => simp at h1 h2 ⊢; omega
    | badVersion => simp at h1 h2 ⊢; omega
    | noWord => simp at h1 h2 ⊢; omega
    | ignored => simp at h1 h2 ⊢; omega

theorem promptFor_length {n : Nat} (h : n < 99) : (promptFor (n + 1)).length ≤ 11 := by
  have : ∀ n < 99, (promptFor ((n : Nat) + 1)).length ≤ 11 := by decide +kernel
  exact this n h

/-- Up to 98 keys fit on a wide terminal. -/
theorem allFit_short {L : WordList} {m width : Nat} (hm : ∀ t w, offer L t = some w → w.length ≤ m) {keys : Bytes}
    (hk : keys.length ≤ 98) (hw : m + keys.length + 11 < width) : AllFit L width keys := by
  intro pre ws t hp h
  obtain ⟨h1, h2⟩ := keys_short hm h
  have := hp.length_le
  have h3 := promptFor_length (n := ws.length) (by simp at h1; omega)
  rw [List.length_append]
  cases ho : offer L t with
  | none => simp at h2 ⊢; omega
  | some w => have := hm t w ho; simp at h2 ⊢; omega

theorem toy_offer_short : ∀ t w, offer toyWordList t = some w → w.length ≤ 3 := by
  intro t w h
  obtain ⟨i, -, e⟩ := offer_word toyWordList_lawful h
  rw [← e]
  simp [toyWordList, toyWord]

/-- C75 and C76 apply to a word submitted and a letter of the next. -/
example : (emptyTerm 80 24).Usable 46 ∧ AllFit toyWordList 80 (toyWord 5 ++ [13] ++ [0x70]) ∧
    Keys toyWordList.word (offer toyWordList) (toyWord 5 ++ [13]) ([], []) ([toyWord 5], []) ∧
    ¬ Complete toyWordList.word [toyWord 5] ∧
    Key toyWordList.word (offer toyWordList) 0x70 ([toyWord 5], []) ([toyWord 5], [0x70]) ∧
    Below toyWordList.word (offer toyWordList) 0x70 ([toyWord 5], []) ([toyWord 5], [0x70]) none := by
  have hn0 : ¬ Complete toyWordList.word [] := by
    rintro ⟨-, w, rest, e, -⟩; cases e
  have hn1 : ¬ Complete toyWordList.word [toyWord 5] := by
    rintro ⟨-, w, rest, e, h⟩
    have := (needs_iff toyWordList_lawful (j := 5) (by decide) 1).1 (by cases e; exact h)
    omega
  have ho : offer toyWordList [0x61, 0x61, 0x66] = some (toyWord 5) := by decide +kernel
  refine ⟨⟨rfl, by decide, by decide, by decide, by decide⟩, allFit_short toy_offer_short (by decide) (by decide), ?_, hn1,
    .letter (by decide) (by decide), .good (by decide) (.inl (by decide +kernel))⟩
  rw [show toyWord 5 ++ [13] = [0x61, 0x61, 0x66, 13] by decide]
  exact .cons hn0 (.letter (by decide) (by decide)) (.cons hn0 (.letter (by decide) (by decide))
    (.cons hn0 (.letter (by decide) (by decide)) (.cons hn0
      (.submit (.inl rfl) ho (fun _ => ⟨14, .plaintext 5 (by decide)⟩)) .nil)))

/-- C77 applies to a word submitted, a letter, the left arrow and CTRL+C. -/
example : ∀ pre s, pre <+: (toyWord 5 ++ [13, 0x70, 0x1B, 0x5B, 68, 3]) → (shownAfter toyWordList pre).2 = some s →
    (promptFor (s.i + 1) ++ (offer toyWordList s.wordInput).getD s.wordInput).length < (emptyTerm 80 24).width := by
  intro pre s hp hs
  have h : ∀ n < 10, (shownAfter toyWordList ((toyWord 5 ++ [13, 0x70, 0x1B, 0x5B, 68, 3]).take n)).2.all (fun s =>
      (promptFor (s.i + 1) ++ (offer toyWordList s.wordInput).getD s.wordInput).length < 80) = true := by
    decide +kernel
  obtain ⟨x, e⟩ := hp
  have hl : pre.length ≤ 9 := by
    have := congrArg List.length e
    simp [toyWord] at this
    omega
  have := h pre.length (by omega)
  rw [← e, List.take_left, hs] at this
  exact of_decide_eq_true this

end Verif.Props
