import Verif.Proofs.Saving
import Verif.Proofs.Deeds
import Verif.Props.Tree

/-!
# Saving a phrase while processes of other users are at work (C113)
-/

namespace Verif.Props

open Verif.Model Verif.Model.Cli Verif.Spec Verif.Proofs Verif.Instances

section
variable (c : Cred) (env : SaveEnv) (words : List Bytes) (p : Bytes)

/-- The calls by which an unprivileged process can act on files do no more than `Meddles` says. -/
theorem c113_calls (a : Cred) (h0 : a.user ≠ 0) (s : Scene) (hw : Whole s.tree a) (deed : Deed) : Meddles a s (s.does a deed) :=
  does_meddles h0 hw deed

/-- Without others, saveMnemonic does in small steps what C112 is about. -/
theorem c113_alone (t : Tree) (hw : Whole t c) : ∃ n, Saving.alone c env words p n (t, .begin t c p) =
    ((TreeWorld.run c ⟨t, none, [], []⟩ (saveMnemonicT t c env words p).1).tree, .done (saveMnemonicT t c env words p).2) :=
  alone_saves hw env words p

/-- A free name that others cannot redirect: at any time either no file is there yet, or the user's own with a beginning of the
phrase, which nobody else has open or may open. It stays so whatever others do. -/
theorem c113_saved (s : Scene) (hw : Whole s.tree c) (ho : OpenThere s) (hf : FirmPath s.tree c p) (d : Nat) (name : Bytes)
    (hr : s.tree.resolve c p = .ok (.missing d name)) (hm : c.may (s.tree.inode d) 2 = true) (s' : Scene) (m : Saving)
    (hl : Later c env words p (s, .begin s.tree c p) (s', m)) :
    s'.tree.stat c p = .error .noent ∧ (∀ r, m = .done r → r = .err .fileWrite ∧ env.openFails = true) ∨
    ∃ data, data <+: phraseText words ∧ Kept c p data s' ∧
      ∀ r, m = .done r → r = .ok () ∧ data = phraseText words ∨ r = .err .fileWrite ∧ env.writeFails.isSome = true := by
  have hbegin : SaveInv c env words p d name s (.begin s.tree c p) := by
    refine ⟨⟨hw, ho, hf, hr, hm⟩, ?_⟩
    have := looksFor_start hw hf
    rw [hr] at this
    exact this
  have hinv := saveInv_later hl hbegin
  have hfree : ∀ {s' : Scene}, SaveReady c p d name s' → s'.tree.stat c p = .error .noent := fun h => by
    unfold Tree.stat; rw [h.leads]
  rw [show phraseText words = wordFileContent words from (content_eq words).symm]
  cases m with
  | stat l => exact .inl ⟨hfree hinv.1, fun _ h => by cases h⟩
  | opening l => exact .inl ⟨hfree hinv.1, fun _ h => by cases h⟩
  | writing i k rest =>
    obtain ⟨-, -, data, h2, -, h4⟩ := hinv
    exact .inr ⟨data, ⟨rest, h2.symm⟩, h4.kept, fun _ h => by cases h⟩
  | done r =>
    rcases hinv with ⟨⟨h1, -, -⟩, i, h2⟩ | ⟨h1, ⟨h2, h3⟩ | ⟨i, n, h2, h3⟩⟩
    · exact .inr ⟨_, List.prefix_refl _, h2.kept, fun _ h => by cases h; exact .inl ⟨h1, rfl⟩⟩
    · exact .inl ⟨hfree h3, fun _ h => by cases h; exact ⟨h1, h2⟩⟩
    · refine .inr ⟨_, List.take_prefix _ _, h3.kept, fun _ h => ?_⟩
      cases h
      exact .inr ⟨h1, by rw [h2]; rfl⟩

/-- Whatever a path that others cannot redirect leads to: saveMnemonic returns what it would return without them. -/
theorem c113_result (s : Scene) (hw : Whole s.tree c) (ho : OpenThere s) (hf : FirmPath s.tree c p) (s' : Scene) (r : Res Unit)
    (hl : Later c env words p (s, .begin s.tree c p) (s', .done r)) : r = (saveMnemonicT s.tree c env words p).2 := by
  by_cases h : ∃ d name, s.tree.resolve c p = .ok (.missing d name) ∧ c.may (s.tree.inode d) 2 = true
  · obtain ⟨d, name, hr, hm⟩ := h
    have hbegin : SaveInv c env words p d name s (.begin s.tree c p) := by
      refine ⟨⟨hw, ho, hf, hr, hm⟩, ?_⟩
      have := looksFor_start hw hf
      rw [hr] at this
      exact this
    rw [saveMnemonicT_ready hr hm]
    have hi := saveInv_later hl hbegin
    rcases hi with ⟨⟨h1, h2, h3⟩, -⟩ | ⟨h1, ⟨h2, -⟩ | ⟨i, n, h2, -⟩⟩
    · rw [if_neg (by rw [h2, h3]; decide), h1]
    · rw [if_pos (Or.inl h2), h1]
    · rw [if_pos (Or.inr (by rw [h2]; rfl)), h1]
  · have hno : ∀ d name, s.tree.resolve c p = .ok (.missing d name) → c.may (s.tree.inode d) 2 = false := by
      intro d name hr
      cases hm : c.may (s.tree.inode d) 2 with
      | false => rfl
      | true => exact absurd ⟨d, name, hr, hm⟩ h
    rw [saveMnemonicT_vain hno]
    exact vainInv_later (r := s.tree.resolve c p) hl ⟨⟨hw, hf, rfl, hno⟩, looksFor_start hw hf⟩

/-- If the path does not lead to a free name where the user may create a file, no step of saveMnemonic changes any file. -/
theorem c113_untouched (s : Scene) (hw : Whole s.tree c) (hf : FirmPath s.tree c p)
    (hno : ∀ d name, s.tree.resolve c p = .ok (.missing d name) → c.may (s.tree.inode d) 2 = false) (s' : Scene) (m : Saving)
    (hl : Later c env words p (s, .begin s.tree c p) (s', m)) : (m.step c env words p s'.tree).1 = s'.tree := by
  have hi := vainInv_later (r := s.tree.resolve c p) hl ⟨⟨hw, hf, rfl, hno⟩, looksFor_start hw hf⟩
  have hi' := vainInv_later (r := s.tree.resolve c p) (hl.step (.save s' m)) ⟨⟨hw, hf, rfl, hno⟩, looksFor_start hw hf⟩
  dsimp only at hi hi'
  cases m with
  | done q => rfl
  | writing i k rest => exact (show False from hi).elim
  | stat l =>
    match l with
    | .on w => rfl
    | .ends (.ok (.found _)) => rfl
    | .ends (.ok (.missing _ _)) => rfl
    | .ends (.error e) =>
      unfold Saving.step
      dsimp only
      split <;> rfl
  | opening l =>
    cases l with
    | ends _ => rfl
    | on w =>
      unfold Saving.step at hi' ⊢
      dsimp only at hi' ⊢
      cases hs : s'.tree.look c w with
      | on w' => rfl
      | ends r =>
        rw [hs] at hi'
        dsimp only at hi' ⊢
        split
        · rfl
        · rename_i t' i hc
          rw [hc] at hi'
          exact (show False from hi').elim

/-- A file that is the user's alone stays so, whatever others do. -/
theorem c113_stays (s : Scene) (hw : Whole s.tree c) (ho : OpenThere s) (hf : FirmPath s.tree c p) (data : Bytes)
    (hk : Kept c p data s) (r : Res Unit) (s' : Scene) (m : Saving) (hl : Later c env words p (s, .done r) (s', m)) :
    Kept c p data s' ∧ FirmPath s'.tree c p := by
  obtain ⟨i, hi, hst, hn, hown, hmode, hrd, hwr, -⟩ := hk
  have hheld : Held c p s i data := by
    refine ⟨hw, ho, hf, ?_, hi, hn, hown, hmode, hrd, hwr⟩
    unfold Tree.stat at hst
    cases hr : s.tree.resolve c p with
    | error e => rw [hr] at hst; cases hst
    | ok sp =>
      rw [hr] at hst
      cases sp with
      | missing _ _ => cases hst
      | found j => cases hst; rfl
  have : ∀ x : Scene × Saving, Later c env words p (s, .done r) x → x.2 = .done r ∧ Held c p x.1 i data := by
    intro x hx
    induction hx with
    | refl => exact ⟨rfl, hheld⟩
    | step _ hg ih =>
      cases hg with
      | save s1 m1 =>
        obtain ⟨h1, h2⟩ := ih
        dsimp only at h1 h2
        subst h1
        exact ⟨rfl, h2⟩
      | other m1 a h0 hu hm => exact ⟨ih.1, held_other ih.2 h0 hu hm⟩
  exact ⟨(this _ hl).2.kept, (this _ hl).2.firm⟩

/-- In a sticky directory where everybody may create files: once saveMnemonic itself has created the file, it is the user's
alone. -/
theorem c113_shared (s : Scene) (hw : Whole s.tree c) (ho : OpenThere s) (d : Nat) (name : Bytes)
    (hf : ∀ x n, OnWay s.tree (s.tree.origin c.cwd p) (components p) x n → Firm s.tree c.user x n ∨ (x = d ∧ n = name) ∧
      Trusted c.user (s.tree.inode d).owner ∧ (s.tree.inode d).mode &&& 0o1000 ≠ 0)
    (hr : s.tree.resolve c p = .ok (.missing d name)) (hm : c.may (s.tree.inode d) 2 = true) (w : Way)
    (hlook : s.tree.look c w = .ends (.ok (.missing d name))) (hopen : env.openFails = false) (s' : Scene) (m : Saving)
    (hl : Later c env words p ({ s with tree := (Saving.step c env words p s.tree (.opening (.on w))).1 },
      (Saving.step c env words p s.tree (.opening (.on w))).2) (s', m)) :
    ∃ data, data <+: phraseText words ∧ Kept c p data s' ∧
      ∀ r, m = .done r → r = .ok () ∧ data = phraseText words ∨ r = .err .fileWrite ∧ env.writeFails.isSome = true := by
  have hstep : Saving.step c env words p s.tree (.opening (.on w)) =
      (s.tree.add c d name 0o600 [], .writing s.tree.next 0 (wordFileContent words)) := by
    unfold Saving.step
    dsimp only
    rw [hlook, hopen]
    dsimp only
    rw [if_neg (by decide)]
    unfold Tree.createAt
    dsimp only
    rw [if_pos hm]
  rw [hstep] at hl
  have hbegin : SaveInv c env words p d name { s with tree := s.tree.add c d name 0o600 [] }
      (.writing s.tree.next 0 (wordFileContent words)) :=
    ⟨hopen, fun _ _ => Nat.zero_le _, [], rfl, rfl, created_held hw ho hf hr⟩
  have hinv := saveInv_later hl hbegin
  have hnot : ∀ x : Scene × Saving, Later c env words p ({ s with tree := s.tree.add c d name 0o600 [] },
      .writing s.tree.next 0 (wordFileContent words)) x →
      (∃ i k rest, x.2 = .writing i k rest) ∨ ∃ r, x.2 = .done r := by
    intro x hx
    induction hx with
    | refl => exact .inl ⟨_, _, _, rfl⟩
    | step _ hg ih =>
      cases hg with
      | other m1 a h0 hu hm => exact ih
      | save s1 m1 =>
        dsimp only at ih ⊢
        rcases ih with ⟨i, k, rest, rfl⟩ | ⟨r, rfl⟩
        · unfold Saving.step
          dsimp only
          split
          · exact .inr ⟨_, rfl⟩
          · cases rest with
            | nil => exact .inr ⟨_, rfl⟩
            | cons b rest =>
              dsimp only
              split <;> exact .inl ⟨_, _, _, rfl⟩
        · exact .inr ⟨_, rfl⟩
  rw [show phraseText words = wordFileContent words from (content_eq words).symm]
  rcases hnot _ hl with ⟨i, k, rest, h⟩ | ⟨r, h⟩
  · dsimp only at h; subst h
    obtain ⟨-, -, data, h2, -, h4⟩ := hinv
    exact ⟨data, ⟨rest, h2.symm⟩, h4.kept, fun _ h => by cases h⟩
  · dsimp only at h; subst h
    rcases hinv with ⟨⟨h1, -, -⟩, i, h2⟩ | ⟨h1, ⟨h2, h3⟩ | ⟨i, n, h2, h3⟩⟩
    · exact ⟨_, List.prefix_refl _, h2.kept, fun _ h => by cases h; exact .inl ⟨h1, rfl⟩⟩
    · rw [hopen] at h2; cases h2
    · refine ⟨_, List.take_prefix _ _, h3.kept, fun _ h => ?_⟩
      cases h
      exact .inr ⟨h1, by rw [h2]; rfl⟩

/-- Others cannot keep saveMnemonic from ending, on any path. -/
theorem c113_ends (run : Nat → Scene × Saving) (hgo : ∀ n, Goes c env words p (run n) (run (n + 1)))
    (hfair : ∀ n, ∃ k ≥ n, run (k + 1) = ({ (run k).1 with tree := ((run k).2.step c env words p (run k).1.tree).1 },
      ((run k).2.step c env words p (run k).1.tree).2)) : ∃ n r, ∀ k ≥ n, (run k).2 = .done r := by
  have hle : ∀ n, Saving.rank (run (n + 1)).2 ≤ Saving.rank (run n).2 ∧
      (∀ r, (run n).2 = .done r → (run (n + 1)).2 = .done r) := by
    intro n
    have hg := hgo n
    generalize run n = x at hg
    generalize run (n + 1) = y at hg
    cases hg with
    | other m a h0 hu hm => exact ⟨le_refl _, fun _ h => h⟩
    | save s m =>
      cases hd : Saving.isDone m with
      | true => dsimp only; rw [step_done _ _ _ _ _ _ hd]; exact ⟨le_refl _, fun _ h => h⟩
      | false => exact ⟨le_of_lt (step_rank c env words p s.tree m hd), fun r h => by dsimp only at h; subst h; cases hd⟩
  have hmono : ∀ n k, Saving.rank (run (n + k)).2 ≤ Saving.rank (run n).2 := by
    intro n k
    induction k with
    | zero => exact le_refl _
    | succ k ih => exact le_trans (hle (n + k)).1 ih
  have hstay : ∀ n r, (run n).2 = .done r → ∀ k ≥ n, (run k).2 = .done r := by
    intro n r h k hk
    obtain ⟨j, rfl⟩ := Nat.exists_eq_add_of_le hk
    clear hk
    induction j with
    | zero => exact h
    | succ j ih => exact (hle (n + j)).2 r ih
  have key : ∀ x, ∀ n, Saving.rank (run n).2 = x → ∃ n r, (run n).2 = .done r := by
    intro x
    induction x using WellFoundedLT.induction with
    | _ x ih =>
      intro n hn
      obtain ⟨k, hk, hs⟩ := hfair n
      cases hd : Saving.isDone (run k).2 with
      | true =>
        cases hm : (run k).2 with
        | done r => exact ⟨k, r, hm⟩
        | stat _ => rw [hm] at hd; cases hd
        | opening _ => rw [hm] at hd; cases hd
        | writing _ _ _ => rw [hm] at hd; cases hd
      | false =>
        refine ih _ ?_ (k + 1) rfl
        obtain ⟨j, rfl⟩ := Nat.exists_eq_add_of_le hk
        have h1 := step_rank c env words p (run (n + j)).1.tree (run (n + j)).2 hd
        rw [hs, ← hn]
        exact lt_of_lt_of_le h1 (hmono n j)
  obtain ⟨n, r, h⟩ := key _ 0 rfl
  exact ⟨n, r, hstay n r h⟩

end

/-- From generate to recover: if generate succeeds, its phrase is saved however other users interfere, and recover prints the
same key whatever they do afterwards. -/
theorem c113_recovers {L : WordList} (hL : L.Lawful) {C : Crypto} (hC : C.Lawful) (s : Scene) (c : Cred) (hs : Whole s.tree c)
    (ho : OpenThere s) (env : Env) (args : List Bytes) (prompts : List (Res Bytes)) (rnd : Bytes)
    (settings : List (Bytes × FlagValue)) (hmeans : Means args (.run .generate settings))
    (hout : (generateOptions settings).outputWordFile ≠ []) (hf : FirmPath s.tree c (generateOptions settings).outputWordFile)
    (hk : (generateOptions settings).key.encryptKeys = false) (hu : c.umask &&& 0o400 = 0)
    (hok : (mainT L C s.tree c env args ⟨prompts, rnd, []⟩).2.1 = .exited 0) :
    let opts := generateOptions settings
    let w := (TreeWorld.mk s.tree none [] []).run c (mainT L C s.tree c env args ⟨prompts, rnd, []⟩).2.2.acts
    ∃ words, w.tree.open c opts.outputWordFile = .ok (phraseText words) ∧
      ∀ s', Later c env.save words opts.outputWordFile (s, .begin s.tree c opts.outputWordFile) (s', .done (.ok ())) →
        Kept c opts.outputWordFile (phraseText words) s' ∧
        ∀ (env2 : Env) (args2 : List Bytes) (prompts2 : List (Res Bytes)) (rnd2 : Bytes)
          (settings2 : List (Bytes × FlagValue)), Means args2 (.run .recover settings2) →
          let ropts := recoverOptions settings2
          ropts.input.inputWordFile = opts.outputWordFile →
          env2.armor = env.armor → ropts.key = opts.key →
          ropts.selfCert = true → ropts.encIndex = 0 → ropts.authIndex = 0 → ropts.sigIndex = 0 →
          (opts.encryptPhrase = true → ∃ (wrong : List Bytes) (pw : Bytes) (rest : List (Res Bytes)),
            prompts2 = wrong.map .ok ++ .ok pw :: rest ∧
            prompts.head? = some (.ok pw) ∧ ∀ p ∈ wrong, WrongPassword L C words p) →
          (mainT L C s'.tree c env2 args2 ⟨prompts2, rnd2, []⟩).2.1 = .exited 0 ∧
          (TreeWorld.mk s'.tree none [] []).run c (mainT L C s'.tree c env2 args2 ⟨prompts2, rnd2, []⟩).2.2.acts =
            ⟨s'.tree, none, w.stdout, []⟩ := by
  intro opts w
  obtain ⟨d, name, words, mnk, o, key, hr, hone, hstat, -⟩ :=
    c112_saved hL hC s.tree c hs env args prompts rnd settings hmeans hout hok
  obtain ⟨d', name', words', hone', hstat', hrec⟩ :=
    c112_recovers hL hC s.tree c hs env args prompts rnd settings hmeans hout hk hok
  have hopened : ∀ (t : Tree) i data, t.stat c opts.outputWordFile = .ok i → (t.inode i).node = .file data →
      (t.inode i).owner = c.user → (t.inode i).mode &&& 0o777 = 0o600 &&& ~~~c.umask &&& 0o777 →
      t.open c opts.outputWordFile = .ok data := by
    intro t i data h1 h2 h3 h4
    unfold Tree.open
    rw [h1]
    dsimp only
    have hmay : c.may (t.inode i) 4 = true := by
      unfold Cred.may
      by_cases h0 : c.user = 0
      · rw [if_pos h0]
      · rw [if_neg h0, if_pos h3.symm]
        have := (owner_bit c.umask).2 hu
        have hm : ∀ m : UInt16, (m >>> 6) &&& (4 : UInt16) = ((m &&& 0o777) >>> 6) &&& (4 : UInt16) := by
          intro m
          rw [← UInt16.toBitVec_inj]
          show m.toBitVec >>> 6 &&& 4#16 = (m.toBitVec &&& 0o777#16) >>> 6 &&& 4#16
          generalize m.toBitVec = b
          apply BitVec.eq_of_getLsbD_eq
          intro j hj
          rcases (by omega : j = 2 ∨ j < 2 ∨ 2 < j) with rfl | h | h
          · simp
          · have : (4#16).getLsbD j = false := by revert hj; revert h; revert j; decide
            simp [this]
          · have : (4#16).getLsbD j = false := by revert h; revert hj; revert j; decide
            simp [this]
        rw [hm, h4, ← hm, this]
        rfl
    rw [if_pos hmay, h2]
    rfl
  refine ⟨words', ?_, ?_⟩
  · exact hopened _ _ _ hstat' hone'.file.1 hone'.file.2.1 (by rw [hone'.file.2.2.2])
  · intro s' hl
    have hm : c.may (s.tree.inode d) 2 = true := by
      obtain ⟨ha, hg⟩ := mainT_generate (L := L) (C := C) s.tree c env args prompts rnd settings hmeans
      rcases generate_does hL hC (seenBy s.tree c env settings .generate) opts hout prompts rnd with ⟨-, h⟩ |
        ⟨mnk, o, master, keyPw, pw, key, words1, k, bs, g, h1, h2, h3, h4, h5, h6⟩
      · exact absurd (hg hok) h
      obtain ⟨d', name', hr', hm'⟩ := refused_none (t := s.tree) (c := c) (env := env.save) (p := opts.outputWordFile) h1 h3
      rw [hr] at hr'
      cases hr'
      exact hm'
    have hkept : Kept c opts.outputWordFile (phraseText words') s' := by
      rcases c113_saved c env.save words' opts.outputWordFile s hs ho hf d name hr hm s' _ hl with ⟨-, h⟩ | ⟨data, -, h1, h2⟩
      · cases (h _ rfl).1
      · rcases h2 _ rfl with ⟨-, h⟩ | ⟨h, -⟩
        · rw [← h]; exact h1
        · cases h
    refine ⟨hkept, ?_⟩
    intro env2 args2 prompts2 rnd2 settings2 hmeans2 ropts b1 b2 b3 b4 b5 b6 b7 b8
    obtain ⟨i, -, h1, h2, h3, h4, -⟩ := hkept
    exact hrec s'.tree c env2 args2 prompts2 rnd2 settings2 hmeans2 (by rw [b1]; exact hout)
      (by rw [b1]; exact hopened _ _ _ h1 h2 h3 h4) b2 b3 b4 b5 b6 b7 b8

/-! ## a shared directory -/

theorem later_trans {c : Cred} {env : SaveEnv} {words : List Bytes} {p : Bytes} {x y z : Scene × Saving}
    (h1 : Later c env words p x y) (h2 : Later c env words p y z) : Later c env words p x z := by
  induction h2 with
  | refl => exact h1
  | step _ hg ih => exact ih.step hg

theorem later_alone {c : Cred} {env : SaveEnv} {words : List Bytes} {p : Bytes} : ∀ (n : Nat) (s : Scene) (m : Saving),
    Later c env words p (s, m) ({ s with tree := (Saving.alone c env words p n (s.tree, m)).1 },
      (Saving.alone c env words p n (s.tree, m)).2)
  | 0, _, _ => .refl _
  | n + 1, s, m => later_trans (.step (.refl _) (.save s m)) (later_alone n _ _)

/-- User 1000 saves a phrase as `/tmp/new`. -/
def sampleScene : Scene := ⟨sampleTree, fun _ => false, fun _ => false⟩

theorem sample_openThere : OpenThere sampleScene := fun _ h => by rcases h with h | h <;> cases h

/-- A process of user 1001 with umask 0 -/
def openCred : Cred := { otherCred with umask := 0 }

/-- It makes a file that everybody may write to, and opens it for reading. -/
def trapScene : Scene := (sampleScene.does openCred (.write (str "/tmp/new") 0o666)).does openCred (.read (str "/tmp/new"))

/-- Between os.Stat and os.WriteFile another user can put a file of theirs in the place in a shared directory; saveMnemonic
writes the whole phrase to it, without an error, and that user reads it. -/
theorem c113_stolen : ∃ (s : Scene) (c a : Cred) (p : Bytes) (d : Nat) (name : Bytes), Whole s.tree c ∧ OpenThere s ∧
    a.user ≠ 0 ∧ a.user ≠ c.user ∧ s.tree.resolve c p = .ok (.missing d name) ∧ (s.tree.inode d).owner = 0 ∧
    (s.tree.inode d).mode = 0o1777 ∧
    ∀ (env : SaveEnv) (words : List Bytes), env.openFails = false → env.writeFails = none → ∃ s' i,
      Later c env words p (s, .begin s.tree c p) (s', .done (.ok ())) ∧ s'.tree.stat c p = .ok i ∧
      (s'.tree.inode i).node = .file (phraseText words) ∧ (s'.tree.inode i).owner = a.user ∧ s'.reads i = true ∧
      s'.tree.open a p = .ok (phraseText words) := by
  refine ⟨sampleScene, sampleCred, openCred, str "/tmp/new", 2, str "new", sample_whole _ (by decide), sample_openThere,
    by decide, by decide, by rfl, by rfl, by rfl, ?_⟩
  intro env words h1 h2
  have hfirst : Later sampleCred env words (str "/tmp/new") (sampleScene, .begin sampleScene.tree sampleCred (str "/tmp/new"))
      (sampleScene, .opening (sampleTree.start sampleCred (str "/tmp/new"))) := by
    have h : Saving.alone sampleCred env words (str "/tmp/new") 3
        (sampleScene.tree, .begin sampleScene.tree sampleCred (str "/tmp/new")) =
        (sampleTree, .opening (sampleTree.start sampleCred (str "/tmp/new"))) := by
      show Saving.alone sampleCred env words (str "/tmp/new") 2
        (sampleTree, .stat (sampleTree.look sampleCred ⟨40, 0, [str "tmp", str "new"], false⟩)) = _
      show Saving.alone sampleCred env words (str "/tmp/new") 1
        (sampleTree, .stat (sampleTree.look sampleCred ⟨40, 2, [str "new"], false⟩)) = _
      rfl
    have := later_alone (c := sampleCred) (env := env) (words := words) (p := str "/tmp/new") 3 sampleScene
      (.begin sampleScene.tree sampleCred (str "/tmp/new"))
    rw [h] at this
    exact this
  have hmade := c113_calls openCred (by decide) sampleScene (sample_whole _ (by decide)) (.write (str "/tmp/new") 0o666)
  have htrap : Later sampleCred env words (str "/tmp/new")
      (sampleScene, .opening (sampleTree.start sampleCred (str "/tmp/new")))
      (trapScene, .opening (sampleTree.start sampleCred (str "/tmp/new"))) :=
    .step (.step (.refl _) (.other _ openCred (by decide) (by decide) hmade))
      (.other _ openCred (by decide) (by decide) (c113_calls openCred (by decide) _
        (whole_kept hmade (sample_whole _ (by decide))) (.read (str "/tmp/new"))))
  have hwrite : Saving.alone sampleCred env words (str "/tmp/new") 2
      (trapScene.tree, .opening (sampleTree.start sampleCred (str "/tmp/new"))) =
      (trapScene.tree.setData 7 [], .writing 7 0 (wordFileContent words)) := by
    have hl1 : trapScene.tree.look sampleCred ⟨40, 0, [str "tmp", str "new"], false⟩ = .on ⟨40, 2, [str "new"], false⟩ := rfl
    have hl2 : trapScene.tree.look sampleCred ⟨40, 2, [str "new"], false⟩ = .ends (.ok (.found 7)) := rfl
    have hc : trapScene.tree.createAt sampleCred (.ok (.found 7)) 0o600 = .ok (trapScene.tree.setData 7 [], 7) := rfl
    have hs1 : Saving.step sampleCred env words (str "/tmp/new") trapScene.tree
        (.opening (.on ⟨40, 0, [str "tmp", str "new"], false⟩)) =
        (trapScene.tree, .opening (.on ⟨40, 2, [str "new"], false⟩)) := by
      unfold Saving.step
      dsimp only
      rw [hl1]
    have hs2 : Saving.step sampleCred env words (str "/tmp/new") trapScene.tree
        (.opening (.on ⟨40, 2, [str "new"], false⟩)) =
        (trapScene.tree.setData 7 [], .writing 7 0 (wordFileContent words)) := by
      unfold Saving.step
      dsimp only
      rw [hl2, h1]
      dsimp only
      rw [if_neg (by decide), hc]
    show Saving.step sampleCred env words (str "/tmp/new")
      (Saving.step sampleCred env words (str "/tmp/new") trapScene.tree
        (.opening (.on ⟨40, 0, [str "tmp", str "new"], false⟩))).1
      (Saving.step sampleCred env words (str "/tmp/new") trapScene.tree
        (.opening (.on ⟨40, 0, [str "tmp", str "new"], false⟩))).2 = _
    rw [hs1]
    exact hs2
  obtain ⟨n, hn⟩ := alone_writing sampleCred env words (str "/tmp/new") 7 [] [] (wordFileContent words) 0
    (trapScene.tree.setData 7 []) ⟨[], rfl⟩ (fun n h => by rw [h2] at h; cases h)
  rw [h2] at hn
  dsimp only at hn
  have htree : (TreeWorld.run sampleCred ⟨trapScene.tree.setData 7 [], some (7, 0), [], []⟩
      ((wordFileContent words).map .write)).tree = (trapScene.tree.setData 7 []).setData 7 (wordFileContent words) := by
    obtain ⟨-, -, -, h3, -⟩ := run_tree_writes sampleCred (wordFileContent words)
      ⟨trapScene.tree.setData 7 [], some (7, 0), [], []⟩ 7 [] rfl rfl
    exact h3 (by unfold wordFileContent; exact List.append_ne_nil_of_right_ne_nil _ (by decide))
  rw [htree] at hn
  have hlast := later_alone (c := sampleCred) (env := env) (words := words) (p := str "/tmp/new") (2 + n) trapScene
    (.opening (sampleTree.start sampleCred (str "/tmp/new")))
  rw [alone_add, hwrite, hn] at hlast
  refine ⟨_, 7, later_trans (later_trans hfirst htrap) hlast, ?_⟩
  rw [show phraseText words = wordFileContent words from (content_eq words).symm]
  generalize wordFileContent words = data
  dsimp only
  have hstat : ∀ c : Cred, trapScene.tree.stat c (str "/tmp/new") = .ok 7 →
      ((trapScene.tree.setData 7 []).setData 7 data).stat c (str "/tmp/new") = .ok 7 := by
    intro c h
    rw [← h]
    unfold Tree.stat Tree.resolve
    rw [walk_setData (x := []) rfl, walk_setData (x := []) rfl]
    rfl
  have h5 := hstat sampleCred rfl
  refine ⟨h5, rfl, rfl, rfl, ?_⟩
  have h3 := hstat openCred rfl
  have h4 : openCred.may (((trapScene.tree.setData 7 []).setData 7 data).inode 7) 4 = true := by
    have : openCred.may (trapScene.tree.inode 7) 4 = true := by decide +kernel
    exact this
  unfold Tree.open
  rw [h3]
  dsimp only
  rw [if_pos h4]
  rfl

/-! ## examples -/

/-- `/home/new` cannot be redirected by others. -/
theorem home_firm : FirmPath sampleTree sampleCred (str "/home/new") := by
  have h2 : ∀ x n, OnWay sampleTree 1 [str "new"] x n → Firm sampleTree 1000 x n := by
    intro x n h
    cases h with
    | here => exact ⟨.inl rfl, .inl (by decide)⟩
    | down h1 h2 => cases h1; exact nomatch (h2 : none = some _)
    | link h1 h2 => cases h1; exact nomatch (h2 : none = some _)
  intro x n h
  have h : OnWay sampleTree 0 [str "home", str "new"] x n := h
  cases h with
  | here => exact ⟨.inr rfl, .inl (by decide)⟩
  | down h1 h3 h4 h5 =>
    cases h1
    have h3 := Option.some.inj h3
    rw [← h3] at h5
    exact h2 _ _ h5
  | link h1 h3 h4 =>
    cases h1
    have h3 := Option.some.inj h3
    rw [← h3] at h4
    cases h4

example := c113_calls otherCred (by decide) sampleScene (sample_whole _ (by decide)) (.unlink (str "/tmp/round"))

/-- Only what user 1001 owns goes: the link, not a file of user 1000 (who has the shared directory's other entry here). -/
example :
    let s := sampleScene.does sampleCred (.write (str "/tmp/mine") 0o644)
    ((s.does otherCred (.unlink (str "/tmp/round"))).tree.stat otherCred (str "/tmp/round"),
      (s.does otherCred (.unlink (str "/tmp/mine"))).tree.stat otherCred (str "/tmp/mine"),
      (s.does otherCred (.rename (str "/tmp/mine") (str "/theirs/y"))).tree.stat otherCred (str "/tmp/mine"),
      (s.does otherCred (.link (str "/tmp/mine") (str "/theirs/y"))).tree.stat otherCred (str "/theirs/y"),
      (s.does otherCred (.symlink (str "/tmp/mine") (str "/tmp/z"))).tree.stat otherCred (str "/tmp/z"),
      (s.does otherCred (.mkdir (str "/home/q") 0o777)).tree.stat otherCred (str "/home/q"),
      (s.does otherCred (.mkdir (str "q") 0o777)).tree.stat otherCred (str "/tmp/q")) =
    (.error .noent, .ok 7, .ok 7, .ok 7, .ok 7, .error .acces, .ok 8) := rfl

example := c113_alone sampleCred sampleEnv.save [str "a"] (str "/tmp/new") sampleTree (sample_whole _ (by decide))

example := c113_saved sampleCred sampleEnv.save [str "a"] (str "/home/new") sampleScene (sample_whole _ (by decide)) sample_openThere
  home_firm 1 (str "new") rfl rfl _ _ (.step (.refl _) (.save _ _))

example := c113_result sampleCred sampleEnv.save [str "a"] (str "/home/new") sampleScene (sample_whole _ (by decide)) sample_openThere
  home_firm

/-- A run in which the other user puts a directory into the shared one while the phrase is being saved -/
theorem sample_run : ∃ s', Later sampleCred sampleEnv.save [str "a"] (str "/home/new")
    (sampleScene, .begin sampleScene.tree sampleCred (str "/home/new")) (s', .done (.ok ())) := by
  have hm := c113_calls otherCred (by decide) sampleScene (sample_whole _ (by decide)) (.mkdir (str "q") 0o777)
  have h1 : Later sampleCred sampleEnv.save [str "a"] (str "/home/new")
      (sampleScene, .begin sampleScene.tree sampleCred (str "/home/new"))
      (sampleScene.does otherCred (.mkdir (str "q") 0o777), .begin sampleScene.tree sampleCred (str "/home/new")) :=
    .step (.refl _) (.other _ otherCred (by decide) (by decide) hm)
  have hw : Whole (sampleScene.does otherCred (.mkdir (str "q") 0o777)).tree sampleCred :=
    whole_kept hm (sample_whole _ (by decide))
  obtain ⟨n, h2⟩ := c113_alone sampleCred sampleEnv.save [str "a"] (str "/home/new") _ hw
  have h3 := later_alone (c := sampleCred) (env := sampleEnv.save) (words := [str "a"]) (p := str "/home/new") n
    (sampleScene.does otherCred (.mkdir (str "q") 0o777)) (.begin sampleScene.tree sampleCred (str "/home/new"))
  rw [show Saving.begin sampleScene.tree sampleCred (str "/home/new") =
    Saving.begin (sampleScene.does otherCred (.mkdir (str "q") 0o777)).tree sampleCred (str "/home/new") from rfl, h2] at h3
  rw [show (saveMnemonicT (sampleScene.does otherCred (.mkdir (str "q") 0o777)).tree sampleCred sampleEnv.save [str "a"]
    (str "/home/new")).2 = .ok () from saveMnemonicT_ready (d := 1) (name := str "new") rfl rfl] at h3
  exact ⟨_, later_trans h1 h3⟩

example : ∃ s', Kept sampleCred (str "/home/new") (str "a\n") s' := by
  obtain ⟨s', h⟩ := sample_run
  rcases c113_saved sampleCred sampleEnv.save [str "a"] (str "/home/new") sampleScene (sample_whole _ (by decide))
    sample_openThere home_firm 1 (str "new") rfl rfl _ _ h with ⟨-, h⟩ | ⟨data, -, h1, h2⟩
  · cases (h _ rfl).1
  · rcases h2 _ rfl with ⟨-, h⟩ | ⟨h, -⟩
    · exact ⟨s', by rw [h] at h1; exact h1⟩
    · cases h

/-- `/home/old` is there, so nothing is written. -/
theorem old_firm : FirmPath sampleTree sampleCred (str "/home/old") := by
  have h2 : ∀ x n, OnWay sampleTree 1 [str "old"] x n → Firm sampleTree 1000 x n := by
    intro x n h
    cases h with
    | here => exact ⟨.inl rfl, .inl (by decide)⟩
    | down h1 h3 h4 =>
      cases h1
      have h3 := Option.some.inj h3
      rw [← h3] at h4
      cases h4
    | link h1 h3 h4 =>
      cases h1
      have h3 := Option.some.inj h3
      rw [← h3] at h4
      cases h4
  intro x n h
  have h : OnWay sampleTree 0 [str "home", str "old"] x n := h
  cases h with
  | here => exact ⟨.inr rfl, .inl (by decide)⟩
  | down h1 h3 h4 h5 =>
    cases h1
    have h3 := Option.some.inj h3
    rw [← h3] at h5
    exact h2 _ _ h5
  | link h1 h3 h4 =>
    cases h1
    have h3 := Option.some.inj h3
    rw [← h3] at h4
    cases h4

example := c113_untouched sampleCred sampleEnv.save [str "a"] (str "/home/old") sampleScene (sample_whole _ (by decide)) old_firm
  (fun _ _ h => nomatch (h : Except.ok (Spot.found 6) = _)) _ _ (.refl _)

/-- In `/tmp` the last name is the only one that others could take. -/
example := c113_shared sampleCred sampleEnv.save [str "a"] (str "/tmp/new") sampleScene (sample_whole _ (by decide))
  sample_openThere 2 (str "new") (by
    have h2 : ∀ x n, OnWay sampleTree 2 [str "new"] x n → x = 2 ∧ n = str "new" := by
      intro x n h
      cases h with
      | here => exact ⟨rfl, rfl⟩
      | down h1 h2 => cases h1; exact nomatch (h2 : none = some _)
      | link h1 h2 => cases h1; exact nomatch (h2 : none = some _)
    intro x n h
    have h : OnWay sampleTree 0 [str "tmp", str "new"] x n := h
    cases h with
    | here => exact .inl ⟨.inr rfl, .inl (by decide)⟩
    | down h1 h3 h4 h5 =>
      cases h1
      have h3 := Option.some.inj h3
      rw [← h3] at h5
      exact .inr ⟨h2 _ _ h5, .inr rfl, by decide⟩
    | link h1 h3 h4 =>
      cases h1
      have h3 := Option.some.inj h3
      rw [← h3] at h4
      cases h4) rfl rfl ⟨40, 2, [str "new"], false⟩ rfl rfl

/-- The file is there, and empty so far. -/
example :
    let s : Scene := { sampleScene with tree := sampleTree.add sampleCred 1 (str "new") 0o600 [] }
    ∀ s' m, Later sampleCred sampleEnv.save [str "a"] (str "/home/new") (s, .done (.err .fileWrite)) (s', m) →
      Kept sampleCred (str "/home/new") [] s' ∧ FirmPath s'.tree sampleCred (str "/home/new") := by
  intro s s' m hl
  have h : Held sampleCred (str "/home/new") s sampleTree.next [] :=
    created_held (s := sampleScene) (d := 1) (sample_whole _ (by decide)) sample_openThere
      (fun x n h => .inl (home_firm x n h)) rfl
  exact c113_stays sampleCred sampleEnv.save [str "a"] (str "/home/new") s h.whole h.opened h.firm [] h.kept _ s' m hl

/-- Alone, saveMnemonic takes every step. -/
example (c : Cred) (env : SaveEnv) (words : List Bytes) (p : Bytes) (s : Scene) (m : Saving) :
    ∃ run : Nat → Scene × Saving, run 0 = (s, m) ∧ ∃ n r, ∀ k ≥ n, (run k).2 = .done r := by
  let next (x : Scene × Saving) : Scene × Saving :=
    ({ x.1 with tree := (x.2.step c env words p x.1.tree).1 }, (x.2.step c env words p x.1.tree).2)
  refine ⟨fun n => next^[n] (s, m), rfl, c113_ends c env words p _ (fun n => ?_) (fun n => ⟨n, le_refl _, ?_⟩)⟩
  · rw [Function.iterate_succ_apply']
    exact .save _ _
  · rw [Function.iterate_succ_apply']

theorem saveHome_means : Means (saveAt (str "/home/new"))
    (.run .generate [(str "name", .string (str "Bob")), (str "out-word-file", .string (str "/home/new"))]) :=
  .positional (by decide) (.positional _ ((classify_positional _).1 (by decide)))
    (.run (positional := []) .generate (by decide) ((c63_accepted .generate _ _ _).1 (by decide +kernel)))

example := c113_recovers toyWordList_lawful toyCrypto_lawful sampleScene sampleCred (sample_whole _ (by decide)) sample_openThere
  sampleEnv _ [] sampleRandom _ saveHome_means (by decide) home_firm rfl (by decide) (by decide +kernel)

end Verif.Props
