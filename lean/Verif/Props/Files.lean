import Verif.Proofs.CliFiles
import Verif.Instances

/-!
# Word files: C47, C48
-/

namespace Verif.Props

open Verif.Model Verif.Model.Cli Verif.Spec Verif.Proofs Verif.Instances

/-! ## C47 Word file round trip and no overwriting -/

/-- The text of a phrase in a file: the words on one line, a single space between them. -/
def phraseText (ws : List Bytes) : Bytes := List.intercalate [0x20] ws ++ [0x0A]

/-- A file that is there when saveMnemonic checks is never touched, nor is any other, and an error is
returned. -/
theorem c47_existing (w : World) (env : SaveEnv) (words : List Bytes) (p : Bytes)
    (h : w.fs.read p ≠ none) :
    (∃ e, (saveMnemonic w.fs env words p).2 = .err e) ∧
    ∀ n, w.run ((saveMnemonic w.fs env words p).1.take n) = w := by
  obtain ⟨e, he⟩ := save_existing w.fs env words p (by
    intro hc; exact h (by simp [FS.read, hc]))
  rw [he]
  exact ⟨⟨e, rfl⟩, fun n => by simp⟩

/-- At every crash point (after `n` of the actions) the target is missing or holds a prefix of the
phrase text, and no other path has changed. Whatever fails, the outcome is success or an error. -/
theorem c47_crash (w : World) (hwf : w.fs.Wf) (env : SaveEnv) (words : List Bytes) (p : Bytes)
    (h : w.fs.read p = none) (n : Nat) :
    let w' := w.run ((saveMnemonic w.fs env words p).1.take n)
    (w'.fs.read p = none ∨ ∃ k, w'.fs.read p = some ((phraseText words).take k)) ∧
    (∀ q, q ≠ p → w'.fs.read q = w.fs.read q) ∧
    w'.stdout = w.stdout ∧ w'.shown = w.shown := by
  have hd : w.fs.dir p = none := by simpa [FS.read] using h
  have key : ∀ bs, (∃ k, bs = (phraseText words).take k) → ∀ n,
      let w' := w.run ((.openTrunc p 0o600 :: bs.map .write : List Act).take n)
      (w'.fs.read p = none ∨ ∃ k, w'.fs.read p = some ((phraseText words).take k)) ∧
      (∀ q, q ≠ p → w'.fs.read q = w.fs.read q) ∧
      w'.stdout = w.stdout ∧ w'.shown = w.shown := by
    rintro bs ⟨k, rfl⟩ n
    cases n with
    | zero => exact ⟨.inl h, fun _ _ => rfl, rfl, rfl⟩
    | succ n =>
      dsimp only
      rw [List.take_succ_cons, ← List.map_take, run_create w p _ _ hd]
      refine ⟨.inr ⟨min n k, ?_⟩, fun q hq => read_other w.fs hwf p q _ _ hq, rfl, rfl⟩
      rw [read_created, List.take_take]
  have hc : wordFileContent words = phraseText words := content_eq words
  rcases save_shape w.fs env words p hd with ⟨e, he⟩ | ⟨k, he⟩ | he
  · rw [he]
    exact ⟨.inl (by simpa using h), fun _ _ => by simp, by simp, by simp⟩
  · rw [he, hc]
    exact key _ ⟨k, rfl⟩ n
  · rw [he, hc]
    have hk : ∃ k, phraseText words = (phraseText words).take k := ⟨_, (List.take_length).symm⟩
    exact key _ hk n

/-- When saving succeeds the file was not there before, it holds the phrase text now, and reading it
yields the same words. Nothing else has changed. -/
theorem c47_round_trip {L : WordList} (hL : L.Lawful) (w : World) (hwf : w.fs.Wf) (env : SaveEnv)
    (words : List Bytes) (p : Bytes) (h : (saveMnemonic w.fs env words p).2 = .ok ()) :
    let w' := w.run (saveMnemonic w.fs env words p).1
    w.fs.read p = none ∧ w'.fs.read p = some (phraseText words) ∧
    (∀ q, q ≠ p → w'.fs.read q = w.fs.read q) ∧
    (Complete L.word words → readWordFile L (w'.fs.read p) = .ok words) := by
  by_cases hd : w.fs.dir p = none
  · have hc : wordFileContent words = phraseText words := content_eq words
    rcases save_shape w.fs env words p hd with ⟨e, he⟩ | ⟨k, he⟩ | he
    · rw [he] at h; cases h
    · rw [he] at h; cases h
    · rw [he]
      dsimp only
      rw [run_create w p _ _ hd, hc]
      dsimp only
      have hr := read_created w.fs p (phraseText words) (0o600 &&& ~~~w.fs.umask)
      refine ⟨by simp [FS.read, hd], hr, fun q hq => read_other w.fs hwf p q _ _ hq, ?_⟩
      intro hcomp
      rw [hr, readWordFile_iff hL, ← hc, scan_content hL hcomp.1, lower_words hL hcomp.1]
      exact ⟨rfl, hcomp⟩
  · obtain ⟨e, he⟩ := save_existing w.fs env words p hd
    rw [he] at h; cases h

/-- Exactly which files are accepted: those whose words, lower-cased, are a complete phrase. `scanWords`
leaves out everything from the first word of 65536 bytes or more (see C59). -/
theorem c47_reader {L : WordList} (hL : L.Lawful) (content : Bytes) (ws : List Bytes) :
    readWordFile L (some content) = .ok ws ↔
      ws = (scanWords content).map L.toLower ∧ Complete L.word ws :=
  readWordFile_iff hL content ws

/-- The sample file system: one file, "old". -/
def sampleFS : FS :=
  { dir := fun p => if p = str "old" then some 0 else none
    data := fun _ => str "precious"
    next := 1 }

def sampleWorld : World := ⟨sampleFS, none, [], []⟩

theorem sampleFS_wf : sampleFS.Wf := by
  intro p i h
  simp only [sampleFS] at h
  split at h
  · cases h; decide
  · cases h

def sampleWords : List Bytes := List.replicate 14 (toyWord 5)

theorem sampleWords_complete : Complete toyWordList.word sampleWords := by
  refine ⟨?_, toyWord 5, List.replicate 13 (toyWord 5), rfl, ?_⟩
  · intro w hw
    rw [List.eq_of_mem_replicate hw]
    exact ⟨5, by norm_num, rfl⟩
  · unfold sampleWords
    rw [List.length_replicate]
    exact .plaintext 5 (by norm_num)

def allGoesWell : SaveEnv := ⟨false, false, none⟩

/-- A successful save, and one of the existing file. -/
example : (saveMnemonic sampleFS allGoesWell sampleWords (str "new")).2 = .ok () ∧
    readWordFile toyWordList ((sampleWorld.run (saveMnemonic sampleFS allGoesWell sampleWords
      (str "new")).1).fs.read (str "new")) = .ok sampleWords :=
  ⟨by decide +kernel, (c47_round_trip toyWordList_lawful sampleWorld sampleFS_wf allGoesWell sampleWords
    (str "new") (by decide +kernel)).2.2.2 sampleWords_complete⟩

example : sampleWorld.fs.read (str "old") ≠ none ∧
    (saveMnemonic sampleFS allGoesWell sampleWords (str "old")).2 = .err .fileExists ∧
    sampleWorld.fs.read (str "new") = none := by decide +kernel

/-- Out of space after nine bytes. -/
example : (sampleWorld.run (saveMnemonic sampleFS ⟨false, false, some 9⟩ sampleWords
    (str "new")).1).fs.read (str "new") = some ((phraseText sampleWords).take 9) := by decide +kernel

/-! ## C48 A concurrent writer can defeat the no-overwrite check -/

/-- What happens to the file system: an action of ours, or an operation of another process. -/
inductive Event where
  | own (a : Act)
  | foreign (f : FS → FS)

def Event.own? : Event → Option Act
  | .own a => some a
  | .foreign _ => none

def happen (w : World) : Event → World
  | .own a => w.step a
  | .foreign f => { w with fs := f w.fs }

/-- Other processes can do anything to directory and contents, but the number of a file that existed is
not given to a new one. -/
def Event.Legal : Event → Prop
  | .own _ => True
  | .foreign f => ∀ fs : FS, fs.Wf → (f fs).Wf ∧ fs.next ≤ (f fs).next

/-- The events are those of a call of saveMnemonic up to some point, with foreign operations in between.
The check was made at the start, in `w`. -/
def Interleaves (w : World) (env : SaveEnv) (words : List Bytes) (p : Bytes) (evs : List Event) : Prop :=
  evs.filterMap Event.own? <+: (saveMnemonic w.fs env words p).1 ∧ ∀ e ∈ evs, e.Legal

/-- Opening and writing with interference only afterwards: each action leaves every file alone except
the one numbered `i`. -/
theorem writes_only (i : Nat) : ∀ (evs : List Event) (w : World),
    (∃ k, w.handle = some (i, k)) → (∀ a ∈ evs.filterMap Event.own?, ∃ b, a = .write b) →
    ∀ before a after, evs = before ++ .own a :: after → ∀ j, j ≠ i →
      ((before.foldl happen w).step a).fs.data j = (before.foldl happen w).fs.data j
  | [], _, _, _, before, _, _, h, _, _ => by simp at h
  | .own a :: evs, w, ⟨k, hk⟩, ho, before, a', after, h, j, hj => by
    obtain ⟨b, rfl⟩ := ho a (by simp [Event.own?])
    have hs : w.step (.write b) = { w with fs := w.fs.setData i (writeAt (w.fs.data i) k b), handle := some (i, k + 1) } := by
      simp only [World.step, hk]
    cases before with
    | nil =>
      simp only [List.nil_append, List.cons.injEq, Event.own.injEq] at h
      obtain ⟨rfl, -⟩ := h
      simp only [List.foldl_nil, hs]
      exact setData_other _ _ hj
    | cons e before =>
      simp only [List.cons_append, List.cons.injEq] at h
      obtain ⟨rfl, h⟩ := h
      rw [List.foldl_cons]
      exact writes_only i evs _ ⟨k + 1, by simp [happen, hs]⟩
        (fun a ha => ho a (by simp [Event.own?, ha])) before a' after h j hj
  | .foreign f :: evs, w, ⟨k, hk⟩, ho, before, a', after, h, j, hj => by
    cases before with
    | nil => simp at h
    | cons e before =>
      simp only [List.cons_append, List.cons.injEq] at h
      obtain ⟨rfl, h⟩ := h
      rw [List.foldl_cons]
      exact writes_only i evs _ ⟨k, by simpa [happen] using hk⟩
        (fun a ha => ho a (by simpa [List.filterMap_cons, Event.own?] using ha)) before a' after h j hj

theorem save_acts (fs : FS) (env : SaveEnv) (words : List Bytes) (p : Bytes) :
    (saveMnemonic fs env words p).1 = [] ∨ fs.dir p = none ∧
      ∃ bs : Bytes, (saveMnemonic fs env words p).1 = .openTrunc p 0o600 :: bs.map .write := by
  by_cases hd : fs.dir p = none
  · rcases save_shape fs env words p hd with ⟨e, he⟩ | ⟨k, he⟩ | he
    · left; rw [he]
    · right; rw [he]; exact ⟨hd, _, rfl⟩
    · right; rw [he]; exact ⟨hd, _, rfl⟩
  · obtain ⟨e, he⟩ := save_existing fs env words p hd
    left; rw [he]

/-- If nothing happens between the check and the opening of the file, then no action changes a file
other than the one it created itself, which is number `w.fs.next` and did not exist when the check was
made. This holds whatever other processes do after the opening. -/
theorem c48_quiet (w : World) (env : SaveEnv) (words : List Bytes) (p : Bytes)
    (a₀ : Act) (evs : List Event) (h : Interleaves w env words p (.own a₀ :: evs))
    (before after : List Event) (a : Act) (he : .own a₀ :: evs = before ++ .own a :: after)
    (j : Nat) (hj : j ≠ w.fs.next) :
    ((before.foldl happen w).step a).fs.data j = (before.foldl happen w).fs.data j := by
  obtain ⟨h1, -⟩ := h
  simp only [List.filterMap_cons, Event.own?] at h1
  rcases save_acts w.fs env words p with hs | ⟨hd, bs, hs⟩
  · rw [hs] at h1
    have := List.prefix_nil.mp h1
    cases this
  · rw [hs, List.cons_prefix_cons] at h1
    obtain ⟨rfl, h1⟩ := h1
    have hstep : w.step (.openTrunc p 0o600) =
        { w with fs := w.fs.create p (0o600 &&& ~~~w.fs.umask), handle := some (w.fs.next, 0) } := by
      simp only [World.step, hd]
    cases before with
    | nil =>
      simp only [List.nil_append, List.cons.injEq, Event.own.injEq] at he
      obtain ⟨rfl, -⟩ := he
      simp only [List.foldl_nil, hstep, FS.create, hj, if_false]
    | cons e before =>
      simp only [List.cons_append, List.cons.injEq] at he
      obtain ⟨rfl, he⟩ := he
      rw [List.foldl_cons]
      refine writes_only w.fs.next evs _ ⟨0, by simp [happen, hstep]⟩ ?_ before a after he j hj
      intro a ha
      obtain ⟨b, -, rfl⟩ := List.mem_map.mp (h1.subset ha)
      exact ⟨b, rfl⟩

/-- Another process creates the file, with contents `c` and permissions `m`. -/
def createWith (p c : Bytes) (m : UInt16) : Event := .foreign (fun fs => (fs.create p m).setData fs.next c)

theorem createWith_legal (p c : Bytes) (m : UInt16) : (createWith p c m).Legal := by
  intro fs h
  refine ⟨?_, by simp [FS.create, FS.setData]⟩
  intro q i hq
  simp only [FS.create, FS.setData] at hq ⊢
  split at hq
  · cases hq; omega
  · have := h q i hq; omega

/-- A file that another process creates between the check and the opening is overwritten: whatever it
held, it ends up holding the phrase, and saveMnemonic reports success. -/
theorem c48_overwrites (w : World) (env : SaveEnv) (words : List Bytes) (p c : Bytes) (m : UInt16)
    (h : (saveMnemonic w.fs env words p).2 = .ok ()) :
    let evs := createWith p c m :: (saveMnemonic w.fs env words p).1.map .own
    Interleaves w env words p evs ∧
    (happen w (createWith p c m)).fs.read p = some c ∧
    (happen w (createWith p c m)).fs.dir p = some w.fs.next ∧
    (evs.foldl happen w).fs.data w.fs.next = phraseText words := by
  have hd : w.fs.dir p = none := by
    by_contra hd
    obtain ⟨e, he⟩ := save_existing w.fs env words p hd
    rw [he] at h; cases h
  have hs : (saveMnemonic w.fs env words p).1 =
      .openTrunc p 0o600 :: (wordFileContent words).map .write := by
    rcases save_shape w.fs env words p hd with ⟨e, he⟩ | ⟨k, he⟩ | he
    · rw [he] at h; cases h
    · rw [he] at h; cases h
    · rw [he]
  dsimp only
  refine ⟨⟨?_, ?_⟩, read_created w.fs p c m, by simp [happen, createWith, FS.create, FS.setData], ?_⟩
  · have : ((saveMnemonic w.fs env words p).1.map Event.own).filterMap Event.own? =
        (saveMnemonic w.fs env words p).1 := by
      rw [List.filterMap_map]
      exact List.filterMap_some
    rw [List.filterMap_cons, show (createWith p c m).own? = none from rfl]
    dsimp only
    rw [this]
    exact List.prefix_rfl
  · intro e he
    rcases List.mem_cons.mp he with rfl | he
    · exact createWith_legal p c m
    · obtain ⟨a, -, rfl⟩ := List.mem_map.mp he
      trivial
  · rw [List.foldl_cons, List.foldl_map]
    change ((happen w (createWith p c m)).run _).fs.data w.fs.next = _
    rw [hs, run_cons]
    have hstep : (happen w (createWith p c m)).step (.openTrunc p 0o600) =
        { w with fs := ((w.fs.create p m).setData w.fs.next c).setData w.fs.next []
                 handle := some (w.fs.next, 0) } := by
      simp [happen, createWith, World.step, FS.create, FS.setData]
    rw [hstep, run_writes _ _ w.fs.next (by simp [setData_same])]
    simp [setData_same, content_eq, phraseText]

/-- A schedule without and one with interference. -/
example : Interleaves sampleWorld allGoesWell sampleWords (str "new")
    ((saveMnemonic sampleFS allGoesWell sampleWords (str "new")).1.map .own) ∧
    (saveMnemonic sampleFS allGoesWell sampleWords (str "new")).1.length = 57 := by
  refine ⟨⟨?_, ?_⟩, by decide +kernel⟩
  · rw [List.filterMap_map]
    exact (List.filterMap_some (l := (saveMnemonic sampleFS allGoesWell sampleWords (str "new")).1)).symm ▸
      List.prefix_rfl
  · intro e he
    obtain ⟨a, -, rfl⟩ := List.mem_map.mp he
    trivial

example := c48_overwrites sampleWorld allGoesWell sampleWords (str "new") (str "precious too") 0o644
  (by decide +kernel)

/-! ## C59 Word files with an over-long tail are accepted -/

/-- A phrase, a word of at least 65536 letters, and anything after that: accepted. -/
theorem c59_long_tail {L : WordList} (hL : L.Lawful) (ws : List Bytes) (hc : Complete L.word ws)
    (junk : Bytes) (hj : ∀ b ∈ junk, 0x61 ≤ b ∧ b ≤ 0x7A) (hlen : 65536 ≤ junk.length) (more : Bytes) :
    readWordFile L (some (phraseText ws ++ junk ++ 0x0A :: more)) = .ok ws := by
  replace hj : ∀ b ∈ junk, isLowerAz b = true := by simpa [isLowerAz] using hj
  have hw : ∀ w ∈ ws, w ≠ [] ∧ ∀ b ∈ w, isLowerAz b = true := by
    intro w hw
    obtain ⟨j, hj, rfl⟩ := hc.1 w hw
    exact ⟨hL.word_ne j hj, hL.word_az j hj⟩
  have hs : scanWords (phraseText ws ++ junk ++ 0x0A :: more) = ws := by
    unfold scanWords phraseText
    rw [List.append_assoc, List.append_assoc, List.singleton_append, fields_line _ ws hw,
      fields_word junk [] _ hj, fields_newline]
    have hne : junk ≠ [] := by rintro rfl; simp at hlen
    have hflush : (flush ([] ++ junk)).map (fun w => (w, 1)) = [(junk, 1)] := by simp [flush, hne]
    rw [hflush, List.takeWhile_append_of_pos]
    · rw [List.singleton_append, List.takeWhile_cons_of_neg, List.append_nil, List.map_map]
      · exact List.map_id ws
      · rw [decide_eq_true_eq]
        exact Nat.not_le.mpr (Nat.lt_succ_of_le hlen)
    · intro p hp
      obtain ⟨w, hw, rfl⟩ := List.mem_map.1 hp
      obtain ⟨j, hj, rfl⟩ := hc.1 w hw
      exact decide_eq_true (hL.word_short j hj)
  rw [readWordFile_iff hL, hs, lower_words hL hc.1]
  exact ⟨rfl, hc⟩

/-- With a shorter extra word the file is rejected. -/
theorem c59_short_tail {L : WordList} (hL : L.Lawful) (ws : List Bytes) (hc : Complete L.word ws)
    (junk : Bytes) (hj : ∀ b ∈ junk, 0x61 ≤ b ∧ b ≤ 0x7A) (hne : junk ≠ []) (hlen : junk.length < 65536)
    (more : Bytes) (ws' : List Bytes) :
    readWordFile L (some (phraseText ws ++ junk ++ 0x0A :: more)) ≠ .ok ws' := by
  replace hj : ∀ b ∈ junk, isLowerAz b = true := by simpa [isLowerAz] using hj
  have hw : ∀ w ∈ ws, w ≠ [] ∧ ∀ b ∈ w, isLowerAz b = true := by
    intro w hw
    obtain ⟨j, hj, rfl⟩ := hc.1 w hw
    exact ⟨hL.word_ne j hj, hL.word_az j hj⟩
  have hs : ∃ tail, scanWords (phraseText ws ++ junk ++ 0x0A :: more) = ws ++ junk :: tail := by
    unfold scanWords phraseText
    rw [List.append_assoc, List.append_assoc, List.singleton_append, fields_line _ ws hw,
      fields_word junk [] _ hj, fields_newline]
    have hflush : (flush ([] ++ junk)).map (fun w => (w, 1)) = [(junk, 1)] := by simp [flush, hne]
    rw [hflush, List.takeWhile_append_of_pos]
    · rw [List.singleton_append, List.takeWhile_cons_of_pos, List.map_append, List.map_map, List.map_cons]
      · exact ⟨_, congrArg (· ++ _) (List.map_id ws)⟩
      · exact decide_eq_true hlen
    · intro p hp
      obtain ⟨w, hw, rfl⟩ := List.mem_map.1 hp
      obtain ⟨j, hj, rfl⟩ := hc.1 w hw
      exact decide_eq_true (hL.word_short j hj)
  obtain ⟨tail, hs⟩ := hs
  intro h
  rw [readWordFile_iff hL, hs] at h
  obtain ⟨rfl, hc'⟩ := h
  obtain ⟨hmem, w, rest, rfl, hn⟩ := hc
  obtain ⟨-, w', rest', he, hn'⟩ := hc'
  rw [List.map_append, lower_words hL hmem] at he hn'
  simp only [List.cons_append, List.cons.injEq] at he
  obtain ⟨rfl, rfl⟩ := he
  obtain ⟨j, hj, rfl⟩ := hmem w (by simp)
  rw [needs_iff hL hj] at hn hn'
  simp only [List.length_append, List.length_cons, List.length_map] at hn hn'
  omega

example := c59_long_tail toyWordList_lawful sampleWords sampleWords_complete
  (List.replicate 70000 0x61) (by intro b hb; rw [List.eq_of_mem_replicate hb]; decide)
  (by rw [List.length_replicate]; norm_num) (str "and so on")

example := c59_short_tail toyWordList_lawful sampleWords sampleWords_complete
  (str "extra") (by decide) (by decide) (by decide) []

end Verif.Props
