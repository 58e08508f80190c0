import Verif.Model.Cli.Files
import Verif.Proofs.CliText
import Verif.Proofs.CliInput
import Verif.Spec.Prompt
import Mathlib.Data.List.TakeWhile

/-!
# Lemmas about word files
-/

namespace Verif.Proofs

open Verif.Model Verif.Model.Cli Verif.Spec

theorem writeAt_end (c : Bytes) (b : Byte) : writeAt c c.length b = c ++ [b] := by
  simp [writeAt]

theorem setData_same (fs : FS) (i : Nat) (c : Bytes) : (fs.setData i c).data i = c := by
  simp [FS.setData]

theorem setData_other (fs : FS) {i j : Nat} (c : Bytes) (h : j ≠ i) :
    (fs.setData i c).data j = fs.data j := by
  simp [FS.setData, h]

theorem setData_twice (fs : FS) (i : Nat) (c d : Bytes) :
    (fs.setData i c).setData i d = fs.setData i d := by
  simp only [FS.setData, FS.mk.injEq, true_and, and_true]
  funext j
  by_cases h : j = i <;> simp [h]

theorem setData_self (fs : FS) (i : Nat) : fs.setData i (fs.data i) = fs := by
  cases fs
  simp only [FS.setData, FS.mk.injEq, true_and, and_true]
  funext j
  by_cases h : j = i <;> simp [h]

@[simp] theorem run_nil (w : World) : w.run [] = w := rfl
@[simp] theorem run_cons (w : World) (a : Act) (as : List Act) :
    w.run (a :: as) = (w.step a).run as := rfl
theorem run_append (w : World) (as bs : List Act) : w.run (as ++ bs) = (w.run as).run bs := by
  simp [World.run]

/-- Writing at the end of the open file appends. -/
theorem run_writes : ∀ (bs : Bytes) (w : World) (i : Nat),
    w.handle = some (i, (w.fs.data i).length) →
    w.run (bs.map .write) = { w with
      fs := w.fs.setData i (w.fs.data i ++ bs)
      handle := some (i, (w.fs.data i).length + bs.length) }
  | [], w, i, h => by
    cases w
    simp only at h
    simp [setData_self, h]
  | b :: bs, w, i, h => by
    have hs : w.step (.write b) = { w with
        fs := w.fs.setData i (w.fs.data i ++ [b])
        handle := some (i, (w.fs.data i).length + 1) } := by
      simp only [World.step, h, writeAt_end]
    have h' : (w.step (.write b)).handle =
        some (i, ((w.step (.write b)).fs.data i).length) := by
      rw [hs]; simp [setData_same]
    rw [List.map_cons, run_cons, run_writes bs _ i h', hs]
    simp [setData_same, setData_twice, Nat.add_assoc, Nat.add_comm]

/-- A file newly created and written to. -/
theorem run_create (w : World) (p : Bytes) (bs : Bytes) (perm : UInt16) (h : w.fs.dir p = none) :
    w.run (.openTrunc p perm :: bs.map .write) = { w with
      fs := (w.fs.create p (perm &&& ~~~w.fs.umask)).setData w.fs.next bs
      handle := some (w.fs.next, bs.length) } := by
  have hs : w.step (.openTrunc p perm) =
      { w with fs := w.fs.create p (perm &&& ~~~w.fs.umask), handle := some (w.fs.next, 0) } := by
    simp only [World.step, h]
  have hd : (w.fs.create p (perm &&& ~~~w.fs.umask)).data w.fs.next = [] := by simp [FS.create]
  have h' : (w.step (.openTrunc p perm)).handle =
      some (w.fs.next, ((w.step (.openTrunc p perm)).fs.data w.fs.next).length) := by
    rw [hs]; simp [hd]
  rw [run_cons, run_writes bs _ w.fs.next h', hs]
  simp [hd]

theorem read_created (fs : FS) (p : Bytes) (c : Bytes) (m : UInt16) :
    ((fs.create p m).setData fs.next c).read p = some c := by
  simp [FS.read, FS.create, FS.setData]

theorem read_other (fs : FS) (hwf : fs.Wf) (p q : Bytes) (c : Bytes) (m : UInt16) (h : q ≠ p) :
    ((fs.create p m).setData fs.next c).read q = fs.read q := by
  simp only [FS.read, FS.create, FS.setData, h, if_false]
  cases hd : fs.dir q with
  | none => rfl
  | some i =>
    have : i ≠ fs.next := by have := hwf q i hd; omega
    simp [this]

/-- What saveMnemonic does when the file is not there: some of the bytes of the text, all of them if it
succeeds. -/
theorem save_shape (fs : FS) (env : SaveEnv) (words : List Bytes) (p : Bytes)
    (h : fs.dir p = none) :
    (∃ e, saveMnemonic fs env words p = ([], .err e)) ∨
    (∃ n, saveMnemonic fs env words p =
      (.openTrunc p 0o600 :: ((wordFileContent words).take n).map .write, .err .fileWrite)) ∨
    saveMnemonic fs env words p =
      (.openTrunc p 0o600 :: (wordFileContent words).map .write, .ok ()) := by
  unfold saveMnemonic
  rw [h]
  cases env.statFails
  · cases env.openFails
    · cases env.writeFails with
      | none => exact .inr (.inr rfl)
      | some n => exact .inr (.inl ⟨n, rfl⟩)
    · exact .inl ⟨_, rfl⟩
  · exact .inl ⟨_, rfl⟩

theorem save_existing (fs : FS) (env : SaveEnv) (words : List Bytes) (p : Bytes)
    (h : fs.dir p ≠ none) : ∃ e, saveMnemonic fs env words p = ([], .err e) := by
  unfold saveMnemonic
  cases env.statFails
  · rw [if_neg (by simp), if_pos (Option.isSome_iff_ne_none.mpr h)]
    exact ⟨_, rfl⟩
  · exact ⟨_, rfl⟩

theorem content_eq (words : List Bytes) :
    wordFileContent words = List.intercalate [0x20] words ++ [0x0A] := by
  unfold wordFileContent
  rw [join_eq_intercalate]
  rfl

/-! ## reading -/

theorem readLoop_ok {L : WordList} (hL : L.Lawful) : ∀ (ts acc ws : List Bytes),
    readLoop L acc ts = .ok ws →
    ws = acc ++ ts.map L.toLower ∧ ∀ t ∈ ts, IsWord L.word (L.toLower t)
  | [], acc, ws, h => by
    simp only [readLoop, Res.ok.injEq] at h
    simp [h]
  | t :: ts, acc, ws, h => by
    rw [readLoop] at h
    dsimp only at h
    split at h
    · cases h
    · rename_i j hj
      split at h
      · cases h
      · obtain ⟨h1, h2⟩ := readLoop_ok hL ts _ ws h
        refine ⟨by simpa using h1, ?_⟩
        intro x hx
        rcases List.mem_cons.mp hx with rfl | hx
        · exact ⟨j, (hL.lookup_iff _ _).mp hj⟩
        · exact h2 x hx

theorem readLoop_words {L : WordList} (hL : L.Lawful) : ∀ (ts acc : List Bytes),
    (∀ t ∈ ts, IsWord L.word (L.toLower t)) → acc.length + ts.length ≤ 100 →
    readLoop L acc ts = .ok (acc ++ ts.map L.toLower)
  | [], acc, _, _ => by simp [readLoop]
  | t :: ts, acc, h, hlen => by
    obtain ⟨j, hj⟩ := h t List.mem_cons_self
    rw [readLoop]
    dsimp only
    rw [(hL.lookup_iff _ j).mpr hj]
    simp only [List.length_cons] at hlen
    dsimp only
    rw [if_neg (by simp; omega), readLoop_words hL ts _ (fun x hx => h x (List.mem_cons_of_mem _ hx))
      (by simp; omega)]
    simp

/-- The size check of readWordFile, which ignores version errors. -/
theorem size_needs {L : WordList} (hL : L.Lawful) {w : Bytes} (hw : IsWord L.word w) (n : Nat)
    (hn : n ≠ 0) : n = mnemonicSize (parseMnemonicVersionRaw L w).1 ↔ Needs L.word w n := by
  obtain ⟨j, hj, rfl⟩ := hw
  have hl : L.lookup (L.toLower (L.word j)) = some j := hL.lookup_word hj
  have hv : (parseMnemonicVersionRaw L (L.word j)).1 = j / 256 := by
    unfold parseMnemonicVersionRaw
    rw [hl]
    simp [Nat.shiftRight_eq_div_pow, bitsPerWord, mnemonicVersionBitCount]
  rw [hv, needs_iff hL hj]
  have hsz : mnemonicSize (j / 256) = if j / 256 = 0 then 14 else if j / 256 = 1 then 16 else 0 := by
    generalize j / 256 = v
    match v with
    | 0 => rfl
    | 1 => rfl
    | v + 2 => simp [mnemonicSize, payloadBitCount]
  rw [hsz]
  split
  · omega
  · split <;> omega

theorem readWordFile_iff {L : WordList} (hL : L.Lawful) (content : Bytes) (ws : List Bytes) :
    readWordFile L (some content) = .ok ws ↔
      ws = (scanWords content).map L.toLower ∧ Complete L.word ws := by
  unfold readWordFile
  dsimp only
  constructor
  · intro h
    obtain ⟨ws', h1, h2⟩ := Res.bind_eq_ok.mp h
    obtain ⟨e, hall⟩ := readLoop_ok hL _ _ _ h1
    rw [List.nil_append] at e
    subst e
    have hmem : ∀ w ∈ (scanWords content).map L.toLower, IsWord L.word w := by
      intro w hw
      obtain ⟨t, ht, rfl⟩ := List.mem_map.mp hw
      exact hall t ht
    split at h2
    · cases h2
    · rename_i first rest hws
      split at h2
      · cases h2
      · rename_i hlen
        rw [not_not] at hlen
        cases h2
        refine ⟨rfl, hmem, first, rest, hws, ?_⟩
        exact (size_needs hL (hmem first (by simp [hws])) _ (by simp [hws])).mp hlen
  · rintro ⟨rfl, hmem, first, rest, hws, hn⟩
    have hlen : ((scanWords content).map L.toLower).length = 14 ∨
        ((scanWords content).map L.toLower).length = 16 := by
      generalize ((scanWords content).map L.toLower).length = n at hn
      cases hn <;> simp
    have hr := readLoop_words hL (scanWords content) []
      (fun t ht => hmem _ (List.mem_map_of_mem ht)) (by simp at hlen ⊢; omega)
    rw [hr, Res.bind_ok, List.nil_append, hws]
    dsimp only
    rw [← hws, if_neg (by
      rw [not_not]
      exact (size_needs hL (hmem first (by simp [hws])) _ (by simp [hws])).mpr hn)]

/-- The saved text is scanned back word by word. -/
theorem scan_content {L : WordList} (hL : L.Lawful) {ws : List Bytes}
    (h : ∀ w ∈ ws, IsWord L.word w) : scanWords (wordFileContent ws) = ws := by
  unfold scanWords
  rw [content_eq, fields_intercalate ws, List.takeWhile_eq_self_iff.2]
  · rw [List.map_map]
    exact List.map_id ws
  · intro p hp
    obtain ⟨w, hw, rfl⟩ := List.mem_map.1 hp
    obtain ⟨j, hj, rfl⟩ := h w hw
    exact decide_eq_true (hL.word_short j hj)
  · intro w hw
    obtain ⟨j, hj, rfl⟩ := h w hw
    exact ⟨hL.word_ne j hj, hL.word_az j hj⟩

theorem lower_words {L : WordList} (hL : L.Lawful) {ws : List Bytes}
    (h : ∀ w ∈ ws, IsWord L.word w) : ws.map L.toLower = ws := by
  conv_rhs => rw [← List.map_id ws]
  apply List.map_congr_left
  intro w hw
  obtain ⟨j, hj, rfl⟩ := h w hw
  exact hL.lower_word hj

end Verif.Proofs
