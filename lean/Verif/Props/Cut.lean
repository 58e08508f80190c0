import Verif.Proofs.Cut
import Verif.Props.Others
import Verif.Props.Places
import Verif.Props.Repair
import Verif.Props.Success

/-!
# Word files that end too early (C115)
-/

namespace Verif.Props

open Verif.Model Verif.Model.Cli Verif.Spec Verif.Proofs Verif.Instances

/-- Which beginnings of the text of a phrase are read as a phrase: the whole, the whole without its line feed, and what ends
inside the last word if the letters left of it are a word themselves. -/
theorem c115_cut {L : WordList} (hL : L.Lawful) (init : List Bytes) (last : Bytes) (hc : Complete L.word (init ++ [last]))
    (data : Bytes) (h : data <+: phraseText (init ++ [last])) (ws : List Bytes) :
    readWordFile L (some data) = .ok ws ↔
      ws = init ++ [last] ∧ data = phraseText ws ∨
      ∃ w, IsWord L.word w ∧ w <+: last ∧ ws = init ++ [w] ∧ data = List.intercalate [0x20] ws := by
  have hword : ∀ w, IsWord L.word w → w ≠ [] ∧ w.length < 65536 ∧ ∀ b ∈ w, isLowerAz b = true := by
    rintro w ⟨j, hj, rfl⟩
    exact ⟨hL.word_ne j hj, hL.word_short j hj, hL.word_az j hj⟩
  have hlow : ∀ us : List Bytes, (∀ u ∈ us, ∀ b ∈ u, isLowerAz b = true) → us.map L.toLower = us := by
    intro us hu
    conv_rhs => rw [← List.map_id us]
    refine List.map_congr_left fun u h1 => ?_
    have h2 : ∀ b : Byte, isLowerAz b = true → b < 0x80 ∧ asciiLower b = b := by
      intro b hb
      simp only [isLowerAz, Bool.and_eq_true, decide_eq_true_eq, UInt8.le_iff_toNat_le] at hb
      refine ⟨by rw [UInt8.lt_iff_toNat_lt]; exact lt_of_le_of_lt hb.2 (by decide), if_neg ?_⟩
      rw [UInt8.le_iff_toNat_le, UInt8.le_iff_toNat_le]
      exact fun h => absurd (le_trans hb.1 h.2) (by decide)
    rw [hL.lower_ascii u fun b hb => (h2 b (hu u h1 b hb)).1]
    conv_rhs => rw [id, ← List.map_id u]
    exact List.map_congr_left fun b hb => (h2 b (hu u h1 b hb)).2
  have hinit : ∀ u ∈ init, IsWord L.word u := fun u hu => hc.1 u (List.mem_append_left _ hu)
  have hlast : IsWord L.word last := hc.1 last (by simp)
  rw [c47_reader hL]
  constructor
  · rintro ⟨h1, h2⟩
    unfold phraseText at h
    rcases prefix_of_append h with h | ⟨d, hd, h⟩
    · right
      obtain ⟨us, w, v, vs, h3, h4, h5⟩ := cut_text _ (by simp) data h
      have hv := hword v (hc.1 v (by rw [h3]; simp))
      have hus : ∀ u ∈ us, IsWord L.word u := fun u hu => hc.1 u (by rw [h3]; simp [hu])
      have hwaz : ∀ b ∈ w, isLowerAz b = true := fun b hb => hv.2.2 b (h4.subset hb)
      rw [h5, scan_cut us w (fun u hu => hword u (hus u hu)) (lt_of_le_of_lt h4.length_le hv.2.1) hwaz,
        hlow _ (by
          intro u hu b hb
          rcases List.mem_append.1 hu with hu | hu
          · exact (hword u (hus u hu)).2.2 b hb
          · split at hu
            · cases hu
            · rw [List.mem_singleton.1 hu] at hb; exact hwaz b hb)] at h1
      obtain ⟨hall, x, rest, hx, hn⟩ := h2
      obtain ⟨-, x', rest', hx', hn'⟩ := hc
      have hlen := congrArg List.length h3
      have hlen' := congrArg List.length h1
      have hpos : ∀ {m y}, Needs L.word y m → m = 14 ∨ m = 16 := by
        intro m y h
        cases h <;> simp
      have h14 := hpos hn
      have h14' := hpos hn'
      cases us with
      | nil =>
        rw [h1] at h14
        split at h14 <;> simp at h14
      | cons u us =>
        have e1 : x = u := by rw [h1] at hx; simpa using (List.cons.inj hx).1.symm
        have e2 : x' = u := by rw [h3] at hx'; simpa using (List.cons.inj hx').1.symm
        rw [e1] at hn
        rw [e2] at hn'
        have hsame := needs_unique hL (hus u List.mem_cons_self) hn hn'
        have hw : w ≠ [] := by
          intro hw
          rw [if_pos hw, List.append_nil] at hlen'
          rw [hlen', hlen, List.length_append] at hsame
          simp at hsame
        rw [if_neg hw] at h1 hlen'
        have hvs : vs = [] := by
          rw [hlen', hlen, List.length_append, List.length_append] at hsame
          simp at hsame
          exact hsame
        rw [hvs] at h3
        obtain ⟨rfl, h6⟩ := List.append_inj' h3 rfl
        have h6 : last = v := by simpa using h6
        exact ⟨w, hall w (by rw [h1]; simp), by rw [h6]; exact h4, h1, by rw [h1]; exact h5⟩
    · cases d with
      | nil =>
        right
        rw [List.append_nil] at hd
        refine ⟨last, hlast, List.prefix_refl _, ?_⟩
        have h3 := scan_cut init last (fun u hu => hword u (hinit u hu)) (hword last hlast).2.1 (hword last hlast).2.2
        rw [← hd, if_neg (hword last hlast).1] at h3
        rw [h3, hlow _ fun u hu => (hword u (hc.1 u hu)).2.2] at h1
        exact ⟨h1, by rw [h1]; exact hd⟩
      | cons x d =>
        left
        rw [List.cons_prefix_cons, List.prefix_nil] at h
        have hd : data = phraseText (init ++ [last]) := by rw [hd, h.1, h.2]; rfl
        have h3 := scan_content hL hc.1
        rw [content_eq] at h3
        rw [hd] at h1
        unfold phraseText at h1
        rw [h3, lower_words hL hc.1] at h1
        exact ⟨h1, by rw [h1]; exact hd⟩
  · rintro (⟨rfl, rfl⟩ | ⟨w, hw, h1, rfl, rfl⟩)
    · unfold phraseText
      rw [← content_eq, scan_content hL hc.1, lower_words hL hc.1]
      exact ⟨rfl, hc⟩
    · have hall : ∀ u ∈ init ++ [w], IsWord L.word u := by
        intro u hu
        rcases List.mem_append.1 hu with hu | hu
        · exact hinit u hu
        · rw [List.mem_singleton.1 hu]; exact hw
      rw [scan_cut init w (fun u hu => hword u (hinit u hu)) (hword w hw).2.1 (hword w hw).2.2, if_neg (hword w hw).1,
        lower_words hL hall]
      refine ⟨rfl, hall, ?_⟩
      obtain ⟨-, x, rest, hx, hn⟩ := hc
      cases init with
      | nil =>
        exfalso
        have : ([] ++ [last] : List Bytes).length = 14 ∨ ([] ++ [last] : List Bytes).length = 16 := by
          generalize ([] ++ [last] : List Bytes).length = m at hn
          cases hn <;> simp
        simp at this
      | cons u init =>
        obtain ⟨rfl, -⟩ := List.cons.inj hx
        exact ⟨u, init ++ [w], rfl, by simpa using hn⟩

/-- If no word of the list begins another, a beginning of the text is read as nothing but the phrase itself. -/
theorem c115_free {L : WordList} (hL : L.Lawful) (hp : ∀ i j, i < 4096 → j < 4096 → L.word i <+: L.word j → i = j)
    (phrase : List Bytes) (hc : Complete L.word phrase) (data : Bytes) (h : data <+: phraseText phrase) (ws : List Bytes) :
    readWordFile L (some data) = .ok ws ↔ ws = phrase ∧ phraseText phrase <+: data ++ [0x0A] := by
  obtain ⟨init, last, rfl⟩ : ∃ init last, phrase = init ++ [last] := by
    obtain ⟨-, x, rest, hx, -⟩ := hc
    rw [hx]
    exact ⟨_, _, (List.dropLast_append_getLast (by simp)).symm⟩
  rw [c115_cut hL init last hc data h]
  obtain ⟨j, hj, hlast⟩ := hc.1 last (by simp)
  constructor
  · rintro (⟨rfl, rfl⟩ | ⟨w, ⟨i, hi, rfl⟩, h1, rfl, rfl⟩)
    · exact ⟨rfl, List.prefix_append _ _⟩
    · rw [← hlast] at h1
      rw [hp i j hi hj h1, hlast]
      exact ⟨rfl, List.prefix_refl _⟩
  · rintro ⟨rfl, h1⟩
    rcases prefix_of_append h with h2 | ⟨d, hd, h2⟩
    · right
      refine ⟨last, ⟨j, hj, hlast⟩, List.prefix_refl _, rfl, ?_⟩
      refine List.IsPrefix.eq_of_length h2 ?_
      have e1 := h1.length_le
      have e2 := h2.length_le
      unfold phraseText at e1
      simp only [List.length_append, List.length_singleton] at e1
      omega
    · cases d with
      | nil => exact .inr ⟨last, ⟨j, hj, hlast⟩, List.prefix_refl _, rfl, by rw [hd, List.append_nil]⟩
      | cons x d =>
        rw [List.cons_prefix_cons, List.prefix_nil] at h2
        exact .inl ⟨rfl, by rw [hd, h2.1, h2.2]; rfl⟩

/-- Two accepted phrases that differ in the last word hold the same but for the low seven bits of the time. -/
theorem c115_contents {L : WordList} (hL : L.Lawful) (init : List Bytes) (w w' : Bytes) (hi : ∀ u ∈ init, IsWord L.word u)
    (hw : IsWord L.word w) (hw' : IsWord L.word w') (hne : w ≠ w') (dm dm' : DecodedMnemonic)
    (h : decodeMnemonic L (init ++ [w]) = .ok dm) (h' : decodeMnemonic L (init ++ [w']) = .ok dm') :
    dm' = { dm with creationOffset := dm'.creationOffset } ∧ dm'.creationOffset ≠ dm.creationOffset ∧
      dm'.creationOffset / 128 = dm.creationOffset / 128 := by
  obtain ⟨c, hc, rfl, hcw, -⟩ := decode_ok_words hL h
  obtain ⟨c', hc', rfl, hcw', -⟩ := decode_ok_words hL h'
  have hall : ∀ v, IsWord L.word v → ∀ u ∈ init ++ [v], IsWord L.word u := by
    intro v hv u hu
    rcases List.mem_append.1 hu with hu | hu
    · exact hi u hu
    · rw [List.mem_singleton.1 hu]; exact hv
  rw [lower_words hL (hall w hw)] at hcw
  rw [lower_words hL (hall w' hw')] at hcw'
  obtain ⟨hcw0, hcw0'⟩ := And.intro hcw hcw'
  have hlen := congrArg List.length hcw
  have hlen' := congrArg List.length hcw'
  rw [List.length_append, List.length_singleton] at hlen hlen'
  have key : ∀ {pre pre' : List Nat} {a a' : Nat}, (∀ i ∈ pre, i < 4096) → (∀ i ∈ pre', i < 4096) →
      (pre ++ [a]).map L.word = init ++ [w] → (pre' ++ [a']).map L.word = init ++ [w'] →
      pre = pre' ∧ L.word a = w ∧ L.word a' = w' := by
    intro pre pre' a a' h1 h2 h3 h4
    rw [List.map_append] at h3 h4
    obtain ⟨h5, h6⟩ := List.append_inj' h3 rfl
    obtain ⟨h7, h8⟩ := List.append_inj' h4 rfl
    exact ⟨word_inj hL h1 h2 (by rw [h5, h7]), by simpa using h6, by simpa using h8⟩
  cases c with
  | plaintext s o =>
    obtain ⟨k, hk, hp⟩ := places_plaintext L.word hc.1 hc.2
    rw [hp] at hcw hlen
    cases c' with
    | plaintext s' o' =>
      obtain ⟨k', hk', hp'⟩ := places_plaintext L.word hc'.1 hc'.2
      rw [hp'] at hcw'
      obtain ⟨ho, ho'⟩ := And.intro hc.2 hc'.2
      have := key (pre := digitsBE 4096 11 s ++ [o / 2 ^ 19, o / 2 ^ 7 % 4096])
        (pre' := digitsBE 4096 11 s' ++ [o' / 2 ^ 19, o' / 2 ^ 7 % 4096])
        (by
          intro i hi
          rcases List.mem_append.1 hi with hi | hi
          · exact digitsBE_lt (by norm_num) _ _ i hi
          · simp only [List.mem_cons, List.not_mem_nil, or_false] at hi
            omega)
        (by
          intro i hi
          rcases List.mem_append.1 hi with hi | hi
          · exact digitsBE_lt (by norm_num) _ _ i hi
          · simp only [List.mem_cons, List.not_mem_nil, or_false] at hi
            omega)
        (a := o % 2 ^ 7 * 32 + k) (a' := o' % 2 ^ 7 * 32 + k')
        (by rw [List.append_assoc]; exact hcw) (by rw [List.append_assoc]; exact hcw')
      obtain ⟨h1, h2, h3⟩ := this
      obtain ⟨h4, h5⟩ := List.append_inj h1 (by simp)
      have h4 := eleven_inj (d := 0) hc.1 hc'.1 (by simpa using h4)
      simp only [List.cons.injEq, and_true] at h5
      subst h4
      refine ⟨rfl, ?_, ?_⟩
      · intro he
        have he : o' = o := he
        subst he
        rw [hcw0] at hcw0'
        exact hne (by simpa using hcw0')
      · show o' / 128 = o / 128
        omega
    | encrypted e' s' v' o' =>
      obtain ⟨k', hk', hp'⟩ := places_encrypted L.word hc'.1 hc'.2.1 hc'.2.2.1 hc'.2.2.2
      rw [hp'] at hlen'
      simp at hlen hlen'
      omega
  | encrypted e s v o =>
    obtain ⟨k, hk, hp⟩ := places_encrypted L.word hc.1 hc.2.1 hc.2.2.1 hc.2.2.2
    rw [hp] at hcw hlen
    cases c' with
    | plaintext s' o' =>
      obtain ⟨k', hk', hp'⟩ := places_plaintext L.word hc'.1 hc'.2
      rw [hp'] at hlen'
      simp at hlen hlen'
      omega
    | encrypted e' s' v' o' =>
      obtain ⟨k', hk', hp'⟩ := places_encrypted L.word hc'.1 hc'.2.1 hc'.2.2.1 hc'.2.2.2
      rw [hp'] at hcw'
      obtain ⟨he, hs, hv, ho⟩ := hc
      obtain ⟨he', hs', hv', ho'⟩ := hc'
      have := key (pre := digitsBE 4096 11 (2 ^ 128 + e) ++ [s / 2 ^ 7, s % 2 ^ 7 * 32 + v, o / 2 ^ 19, o / 2 ^ 7 % 4096])
        (pre' := digitsBE 4096 11 (2 ^ 128 + e') ++ [s' / 2 ^ 7, s' % 2 ^ 7 * 32 + v', o' / 2 ^ 19, o' / 2 ^ 7 % 4096])
        (by
          intro i hi
          rcases List.mem_append.1 hi with hi | hi
          · exact digitsBE_lt (by norm_num) _ _ i hi
          · simp only [List.mem_cons, List.not_mem_nil, or_false] at hi
            omega)
        (by
          intro i hi
          rcases List.mem_append.1 hi with hi | hi
          · exact digitsBE_lt (by norm_num) _ _ i hi
          · simp only [List.mem_cons, List.not_mem_nil, or_false] at hi
            omega)
        (a := o % 2 ^ 7 * 32 + k) (a' := o' % 2 ^ 7 * 32 + k')
        (by rw [List.append_assoc]; exact hcw) (by rw [List.append_assoc]; exact hcw')
      obtain ⟨h1, h2, h3⟩ := this
      obtain ⟨h4, h5⟩ := List.append_inj h1 (by simp)
      have h4 := eleven_inj (d := 1) he he' (by simpa using h4)
      simp only [List.cons.injEq, and_true] at h5
      have h6 : s = s' := by omega
      have h7 : v = v' := by omega
      subst h4 h6 h7
      refine ⟨rfl, ?_, ?_⟩
      · intro he
        have he : o' = o := he
        subst he
        rw [hcw0] at hcw0'
        exact hne (by simpa using hcw0')
      · show o' / 128 = o / 128
        omega

/-- Whether a wrong word goes unnoticed depends on its place and on the two words alone: there are 128 differences of two
indices, bit by bit, that do (one is zero). -/
theorem c115_wrong (n i : Nat) (hn : n = 14 ∨ n = 16) (hi : 1 ≤ i) (hin : i < n) :
    ∃ K : List Nat, K.Nodup ∧ K.length = 128 ∧ (∀ x ∈ K, x < 4096) ∧ 0 ∈ K ∧
      ∀ (L : WordList), L.Lawful → ∀ is : List Nat, (hl : is.length = n) → (∀ x ∈ is, x < 4096) →
        (decodeMnemonic L (is.map L.word)).isOk = true → ∀ j < 4096,
        (is[i] ^^^ j ∈ K → (decodeMnemonic L ((is.set i j).map L.word)).isOk = true) ∧
        (is[i] ^^^ j ∉ K → decodeMnemonic L ((is.set i j).map L.word) = .err .invalidChecksum) := by
  have hnb : payloadBytes n = 21 ∧ n = 14 ∨ payloadBytes n = 24 ∧ n = 16 := by
    rcases hn with rfl | rfl
    · exact .inl ⟨rfl, rfl⟩
    · exact .inr ⟨rfl, rfl⟩
  refine ⟨(List.range (2 ^ 12)).filter (fun x => decide (lin (payloadBytes n) (x * 2 ^ (12 * (n - 1 - i))) = 0)),
    List.nodup_range.filter _, ?_, ?_, ?_, ?_⟩
  · exact count_later _ _ 0 (by omega) (by decide)
  · intro x hx
    simpa using (List.mem_filter.1 hx).1
  · have := lin_xor (payloadBytes n) 0 0
    rw [Nat.xor_self, Nat.xor_self] at this
    simp [this]
  · intro L hL is hl hlt hok j hj
    subst hl
    have hd := decodeWords_map hL hlt
    obtain ⟨dm, hdm⟩ : ∃ dm, decodeMnemonic L (is.map L.word) = .ok dm := by
      cases h : decodeMnemonic L (is.map L.word) with
      | ok dm => exact ⟨dm, rfl⟩
      | err e => rw [h] at hok; cases hok
      | panic p => rw [h] at hok; cases hok
    obtain ⟨is', i0, hd', hh, hs, hz⟩ := accepted_shape hL hdm
    rw [hd] at hd'
    cases hd'
    rw [List.length_map] at hs hz
    have hlt' : ∀ x ∈ is.set i j, x < 4096 := by
      intro x hx
      rcases List.mem_or_eq_of_mem_set hx with h | h
      · exact hlt x h
      · rw [h]; exact hj
    have := decode_indices hL hlt' (i0 := i0) (by rw [head?_set hi, hh]) (by simpa using hs)
    simp only [List.length_set] at this
    rw [ofDigits_set hlt (List.getElem?_eq_getElem hin) hj, synd_xor, hz, Nat.zero_xor] at this
    have hx : is[i] ^^^ j < 2 ^ 12 := Nat.xor_lt_two_pow (hlt _ (List.getElem_mem _)) hj
    simp only [List.mem_filter, List.mem_range, decide_eq_true_eq, hx, true_and]
    constructor
    · intro h
      exact (this.resolve_right fun h' => h'.2 h).1
    · intro h
      exact (this.resolve_left fun h' => h h'.2).1

/-- A process that recovers a key from a beginning of the text: it was all of it, but for the line feed, or the last word was cut
short to another word that the checksum accepts. -/
theorem c115_recover {L : WordList} (hL : L.Lawful) {C : Crypto} (hC : C.Lawful) (env : Env) (args : List Bytes)
    (settings : List (Bytes × FlagValue)) (hmeans : Means args (.run .recover settings)) (prompts : List (Res Bytes))
    (hps : ∀ r ∈ prompts, PromptResult r) (rnd : Bytes) (hin : (recoverOptions settings).input.inputWordFile ≠ [])
    (init : List Bytes) (last : Bytes) (hc : Complete L.word (init ++ [last])) (data : Bytes)
    (hd : env.fs.read (recoverOptions settings).input.inputWordFile = some data) (h : data <+: phraseText (init ++ [last]))
    (hok : (main L C env args ⟨prompts, rnd, []⟩).2.1 = .exited 0) :
    phraseText (init ++ [last]) <+: data ++ [0x0A] ∨ ∃ w pw seed offset, IsWord L.word w ∧ w <+: last ∧ w ≠ last ∧
      data = List.intercalate [0x20] (init ++ [w]) ∧ Holds (indexOf L) C.toPhraseCrypto (init ++ [w]) pw seed offset := by
  obtain ⟨words, unlocking, forKey, more, hg, hu, -, -⟩ :=
    (((c92_process hL hC env args .recover settings hmeans prompts hps rnd).2.1 rfl).1 hok).phrase
  have hread : readWordFile L (some data) = .ok words := by
    have := (gets_iff hL).2 hg
    unfold inputWords at this
    rw [if_pos hin, hd] at this
    exact this
  rcases (c115_cut hL init last hc data h words).1 hread with ⟨h1, h2⟩ | ⟨w, h1, h2, h3, h4⟩
  · rw [h2, h1]
    exact .inl (List.prefix_append _ _)
  · by_cases hw : w = last
    · left
      rw [h4, h3, hw]
      exact List.prefix_refl _
    · right
      rw [h3] at h4 hu
      cases hu with
      | plaintext hh => exact ⟨w, _, _, _, h1, h2, hw, h4, hh⟩
      | encrypted _ hh => exact ⟨w, _, _, _, h1, h2, hw, h4, hh⟩

/-- Whoever reads the file while the phrase is being saved, on a path that others cannot redirect, or afterwards: they get the
phrase, or, before the end or after a failure, the phrase with its last word cut short to another word. -/
theorem c115_moment {L : WordList} (hL : L.Lawful) (c : Cred) (env : SaveEnv) (words : List Bytes) (hc : Complete L.word words)
    (p : Bytes) (s : Scene) (hw : Whole s.tree c) (ho : OpenThere s) (hf : FirmPath s.tree c p) (d : Nat) (name : Bytes)
    (hr : s.tree.resolve c p = .ok (.missing d name)) (hm : c.may (s.tree.inode d) 2 = true) (s' : Scene) (m : Saving)
    (hl : Later c env words p (s, .begin s.tree c p) (s', m)) (i : Nat) (data : Bytes) (hi : s'.tree.stat c p = .ok i)
    (hd : (s'.tree.inode i).node = .file data) (ws : List Bytes) (h : readWordFile L (some data) = .ok ws) :
    ws = words ∨ m ≠ .done (.ok ()) ∧ ∃ init last w, words = init ++ [last] ∧ ws = init ++ [w] ∧ IsWord L.word w ∧
      w <+: last ∧ w ≠ last := by
  rcases c113_saved c env words p s hw ho hf d name hr hm s' m hl with ⟨h1, -⟩ | ⟨data', h1, h2, h3⟩
  · rw [h1] at hi; cases hi
  · obtain ⟨i', -, h4, h5, -⟩ := h2.there
    rw [hi] at h4
    cases h4
    rw [hd] at h5
    cases h5
    obtain ⟨init, last, rfl⟩ : ∃ init last, words = init ++ [last] := by
      obtain ⟨-, x, rest, hx, -⟩ := hc
      rw [hx]
      exact ⟨_, _, (List.dropLast_append_getLast (by simp)).symm⟩
    rcases (c115_cut hL init last hc data h1 ws).1 h with ⟨h6, -⟩ | ⟨w, h6, h7, h8, h9⟩
    · exact .inl h6
    · by_cases hwl : w = last
      · rw [hwl] at h8; exact .inl h8
      · refine .inr ⟨fun hdone => ?_, init, last, w, rfl, h8, h6, h7, hwl⟩
        rcases h3 _ hdone with ⟨-, h10⟩ | ⟨h10, -⟩
        · rw [h10, h8] at h9
          have h11 := congrArg List.getLast? h9
          unfold phraseText at h11
          rw [List.getLast?_append_of_ne_nil _ (by simp)] at h11
          obtain ⟨j, hj, rfl⟩ := h6
          have h12 : (List.intercalate [(0x20 : Byte)] (init ++ [L.word j])).getLast? = (L.word j).getLast? := by
            clear h h1 h3 h9 h10 h11 hd hc hl h2 h8
            induction init with
            | nil => simp [List.intercalate]
            | cons a r ih =>
              rw [List.cons_append, intercalate_cons (by simp), List.getLast?_append_of_ne_nil, ih]
              intro h0
              rw [h0] at ih
              exact hL.word_ne j hj (List.getLast?_eq_none_iff.1 ih.symm)
          rw [h12] at h11
          have := hL.word_az j hj 0x0A (List.mem_of_getLast? h11.symm)
          cases this
        · cases h10

/-- The toy list with the word `al` in place of the one with index 141; `all` has 187. -/
def shortWord (i : Nat) : Bytes := if i = 141 then str "al" else toyWord i

def shortLookup (w : Bytes) : Option Nat :=
  if w = str "al" then some 141
  else match toyLookup w with
    | some i => if i = 141 then none else some i
    | none => none

theorem shortLookup_iff (w : Bytes) (i : Nat) : shortLookup w = some i ↔ i < 4096 ∧ shortWord i = w := by
  unfold shortLookup shortWord
  by_cases hw : w = str "al"
  · rw [if_pos hw, hw]
    constructor
    · intro h
      cases h
      exact ⟨by decide, rfl⟩
    · rintro ⟨hi, h⟩
      by_cases h1 : i = 141
      · rw [h1]
      · rw [if_neg h1] at h
        have := congrArg List.length h
        exact nomatch (this : 3 = 2)
  · rw [if_neg hw]
    constructor
    · intro h
      cases ht : toyLookup w with
      | none => rw [ht] at h; cases h
      | some k =>
        rw [ht] at h
        dsimp only at h
        by_cases hk : k = 141
        · rw [if_pos hk] at h; cases h
        · rw [if_neg hk] at h
          cases h
          rw [if_neg hk]
          exact (toyLookup_iff w i).1 ht
    · rintro ⟨hi, h⟩
      by_cases h1 : i = 141
      · rw [if_pos h1] at h; exact absurd h.symm hw
      · rw [if_neg h1] at h
        rw [(toyLookup_iff w i).2 ⟨hi, h⟩]
        exact if_neg h1

def shortWordList : WordList where
  word := shortWord
  lookup := shortLookup
  toLower := fun w => w.map asciiLower
  suffixes := fun q => if (shortLookup q).isSome then [[]] else []
  exactMatch := fun w => (shortLookup w).isSome

theorem shortWordList_lawful : shortWordList.Lawful where
  lookup_iff := shortLookup_iff
  word_ne := by
    intro i hi h
    have h : shortWord i = [] := h
    unfold shortWord at h
    split at h <;> cases h
  word_short := by
    intro i hi
    show (shortWord i).length < 65536
    unfold shortWord
    split
    · decide
    · exact toyWordList_lawful.word_short i hi
  word_az := by
    intro i hi
    show ∀ b ∈ shortWord i, isLowerAz b = true
    unfold shortWord
    split
    · decide
    · exact toyWordList_lawful.word_az i hi
  lower_ascii := by intro w _; rfl
  suffix_word := by
    intro q s hs
    have hs : s ∈ if (shortLookup q).isSome then [[]] else [] := hs
    split at hs
    · next h =>
      obtain ⟨i, h⟩ := Option.isSome_iff_exists.1 h
      rw [List.mem_singleton.1 hs]
      obtain ⟨h1, h2⟩ := (shortLookup_iff q i).1 h
      exact ⟨i, h1, by rw [List.append_nil]; exact h2⟩
    · cases hs
  suffix_exact := by
    intro i hi
    refine ⟨[], if_pos ?_⟩
    show (shortLookup (shortWord i)).isSome = true
    rw [(shortLookup_iff _ i).2 ⟨hi, rfl⟩]
    rfl
  exact_iff := by
    intro w
    show (shortLookup w).isSome = true ↔ _
    rw [Option.isSome_iff_exists]
    exact exists_congr (fun i => shortLookup_iff w i)

theorem short_read : readWordFile shortWordList
    (some (List.intercalate [0x20] (List.replicate 10 (str "aaa") ++ [str "aen", str "aaa", str "aaa", str "al"]))) =
      .ok (List.replicate 10 (str "aaa") ++ [str "aen", str "aaa", str "aaa", str "al"]) := by
  have h : ∀ w ∈ List.replicate 10 (str "aaa") ++ [str "aen", str "aaa", str "aaa", str "all"], IsWord shortWordList.word w := by
    intro w hw
    simp only [List.mem_append, List.mem_cons, List.not_mem_nil, or_false] at hw
    rcases hw with hw | rfl | rfl | rfl | rfl
    · rw [List.eq_of_mem_replicate hw]; exact ⟨0, by decide, rfl⟩
    · exact ⟨77, by decide, rfl⟩
    · exact ⟨0, by decide, rfl⟩
    · exact ⟨0, by decide, rfl⟩
    · exact ⟨187, by decide, rfl⟩
  exact (c115_cut shortWordList_lawful (List.replicate 10 (str "aaa") ++ [str "aen", str "aaa", str "aaa"]) (str "all")
    ⟨h, str "aaa", _, rfl, .plaintext 0 rfl⟩ _ (by decide +kernel) _).2
    (.inr ⟨str "al", ⟨141, by decide, rfl⟩, by decide +kernel, rfl, rfl⟩)

/-- It does happen: there are a word list, a phrase, and a beginning of its text that is read as another phrase and accepted, for
a key with another time of creation. -/
theorem c115_unnoticed : ∃ L : WordList, L.Lawful ∧ ∃ (seed : Seed) (ws ws' : List Bytes) (data : Bytes),
    encodeMnemonicPlaintext L seed 5 = .ok ws ∧ data <+: phraseText ws ∧ data.length + 2 = (phraseText ws).length ∧
    readWordFile L (some data) = .ok ws' ∧ decodeMnemonic L ws = .ok ⟨0, seed.value, none, 0, 5⟩ ∧
    decodeMnemonic L ws' = .ok ⟨0, seed.value, none, 0, 4⟩ := by
  refine ⟨shortWordList, shortWordList_lawful, ⟨0, (77 : Int)⟩,
    List.replicate 10 (str "aaa") ++ [str "aen", str "aaa", str "aaa", str "all"],
    List.replicate 10 (str "aaa") ++ [str "aen", str "aaa", str "aaa", str "al"],
    List.intercalate [0x20] (List.replicate 10 (str "aaa") ++ [str "aen", str "aaa", str "aaa", str "al"]), ?_⟩
  exact ⟨by decide +kernel, by decide +kernel, by decide +kernel, short_read, by decide +kernel, by decide +kernel⟩

/-! ## examples -/

/-- A phrase of the list whose words are all three letters long -/
theorem cut_complete : Complete toyWordList.word (List.replicate 13 (str "aaa") ++ [str "abc"]) := by
  refine ⟨?_, str "aaa", _, rfl, .plaintext 0 rfl⟩
  intro w hw
  rcases List.mem_append.1 hw with hw | hw
  · rw [List.eq_of_mem_replicate hw]; exact ⟨0, by decide, rfl⟩
  · rw [List.mem_singleton.1 hw]; exact ⟨18, by decide, rfl⟩

/-- The whole text without its line feed is read; without the last letter it is not. -/
example : readWordFile toyWordList (some (List.intercalate [0x20] (List.replicate 13 (str "aaa") ++ [str "abc"]))) =
      .ok (List.replicate 13 (str "aaa") ++ [str "abc"]) ∧
    ∀ ws, readWordFile toyWordList (some (List.intercalate [0x20] (List.replicate 13 (str "aaa") ++ [str "ab"]))) ≠ .ok ws := by
  have hp : ∀ i j, i < 4096 → j < 4096 → toyWord i <+: toyWord j → i = j := by
    intro i j hi hj h
    have h := h.eq_of_length rfl
    have h1 := (toyLookup_iff _ i).2 ⟨hi, rfl⟩
    rw [h, (toyLookup_iff _ j).2 ⟨hj, rfl⟩] at h1
    exact (Option.some.inj h1).symm
  constructor
  · exact (c115_free toyWordList_lawful hp _ cut_complete _ (by decide +kernel) _).2 ⟨rfl, by decide +kernel⟩
  · intro ws h
    have := ((c115_free toyWordList_lawful hp _ cut_complete _ (by decide +kernel) ws).1 h).2
    revert this
    decide +kernel

/-- Two phrases that differ in their last words -/
example := c115_contents shortWordList_lawful (List.replicate 10 (str "aaa") ++ [str "aen", str "aaa", str "aaa"]) (str "all") (str "al")
  (by
    intro w hw
    simp only [List.mem_append, List.mem_cons, List.not_mem_nil, or_false] at hw
    rcases hw with hw | rfl | rfl | rfl
    · rw [List.eq_of_mem_replicate hw]; exact ⟨0, by decide, rfl⟩
    · exact ⟨77, by decide, rfl⟩
    · exact ⟨0, by decide, rfl⟩
    · exact ⟨0, by decide, rfl⟩)
  ⟨187, by decide, rfl⟩ ⟨141, by decide, rfl⟩ (by decide) ⟨0, 77, none, 0, 5⟩ ⟨0, 77, none, 0, 4⟩ (by decide +kernel) (by decide +kernel)

example := c115_wrong 14 13 (.inl rfl) (by decide) (by decide)

/-- `recover -in-word-file new`, with a file that ends one letter and a line feed too early, succeeds. -/
example :
    let words := List.replicate 10 (str "aaa") ++ [str "aen", str "aaa", str "aaa"]
    let env := { sampleEnv with fs := { dir := fun p => if p = str "new" then some 0 else none
                                        data := fun _ => List.intercalate [0x20] (words ++ [str "al"])
                                        next := 1 } }
    env.fs.read (str "new") = some (List.intercalate [0x20] (words ++ [str "al"])) ∧
      List.intercalate [0x20] (words ++ [str "al"]) <+: phraseText (words ++ [str "all"]) ∧
      (main shortWordList toyCrypto env [str "recover", str "-in-word-file", str "new"] ⟨[], [], []⟩).2.1 = .exited 0 := by
  intro words env
  refine ⟨rfl, by decide +kernel, ?_⟩
  have hm : Means [str "recover", str "-in-word-file", str "new"] (.run .recover [(str "in-word-file", .string (str "new"))]) :=
    .positional (by decide) (.positional _ ((classify_positional _).1 (by decide)))
      (.run (positional := []) .recover (by decide) ((c63_accepted .recover _ _ _).1 (by decide +kernel)))
  rw [(c92_process shortWordList_lawful toyCrypto_lawful env _ _ _ hm _ (by simp) _).2.1 rfl]
  obtain ⟨part, hp, -⟩ := good_only (t := (recoverOptions [(str "in-word-file", .string (str "new"))]).key.only)
    (m := true) (subkeys := none) (by decide)
  refine ⟨by decide, ⟨part, ⟨.inl (by decide), hp⟩, ?_⟩, words ++ [str "al"], [], [], [], ?_, .plaintext (seed := 77) (offset := 4) ?_,
    rfl, rfl⟩
  · exact Nat.zero_le _
  · rw [← gets_iff shortWordList_lawful]
    exact short_read
  · show readPhrase _ _ = _
    decide +kernel

/-- A moment at which the file can be read: the end -/
example : ∃ s' m i data ws, Later sampleCred sampleEnv.save (List.replicate 13 (str "aaa") ++ [str "abc"]) (str "/home/new")
    (sampleScene, .begin sampleScene.tree sampleCred (str "/home/new")) (s', m) ∧ s'.tree.stat sampleCred (str "/home/new") = .ok i ∧
    (s'.tree.inode i).node = .file data ∧ readWordFile toyWordList (some data) = .ok ws := by
  obtain ⟨n, h2⟩ := c113_alone sampleCred sampleEnv.save (List.replicate 13 (str "aaa") ++ [str "abc"]) (str "/home/new")
    sampleScene.tree (sample_whole _ (by decide))
  have h3 := later_alone (c := sampleCred) (env := sampleEnv.save) (words := List.replicate 13 (str "aaa") ++ [str "abc"])
    (p := str "/home/new") n sampleScene (.begin sampleScene.tree sampleCred (str "/home/new"))
  rw [h2, show (saveMnemonicT sampleScene.tree sampleCred sampleEnv.save (List.replicate 13 (str "aaa") ++ [str "abc"])
    (str "/home/new")).2 = .ok () from saveMnemonicT_ready (d := 1) (name := str "new") rfl rfl] at h3
  rcases c113_saved sampleCred sampleEnv.save _ (str "/home/new") sampleScene (sample_whole _ (by decide))
    sample_openThere home_firm 1 (str "new") rfl rfl _ _ h3 with ⟨-, h⟩ | ⟨data, h4, h5, h6⟩
  · cases (h _ rfl).1
  · rcases h6 _ rfl with ⟨-, h⟩ | ⟨h, -⟩
    · obtain ⟨i, -, h7, h8, -⟩ := h5.there
      exact ⟨_, _, i, data, _, h3, h7, h8, (c115_cut toyWordList_lawful _ _ cut_complete data h4 _).2 (.inl ⟨rfl, h⟩)⟩
    · cases h

end Verif.Props
