import Verif.Proofs.Several
import Verif.Props.Others

/-!
# Several runs that save phrases at the same time (C114)
-/

namespace Verif.Props

open Verif.Model Verif.Model.Cli Verif.Spec Verif.Proofs Verif.Instances

section
variable {ι : Type} [DecidableEq ι] (runs : ι → SaveRun)

/-- Paths that others cannot redirect lead to different free places: every run saves its phrase as if it were alone. -/
theorem c114_each (s : Scene) (ho : OpenThere s) (hw : ∀ k, Whole s.tree (runs k).cred)
    (hf : ∀ k, FirmPath s.tree (runs k).cred (runs k).path) (place : ι → Nat × Bytes)
    (hr : ∀ k, s.tree.resolve (runs k).cred (runs k).path = .ok (.missing (place k).1 (place k).2))
    (hm : ∀ k, (runs k).cred.may (s.tree.inode (place k).1) 2 = true) (hp : ∀ k l, k ≠ l → place k ≠ place l)
    (s' : Scene) (m : ι → Saving) (hl : AllLater runs (s, beginAll runs s.tree) (s', m)) (k : ι) :
    (s'.tree.stat (runs k).cred (runs k).path = .error .noent ∧
      (∀ r, m k = .done r → r = .err .fileWrite ∧ (runs k).env.openFails = true) ∨
    ∃ data, data <+: phraseText (runs k).words ∧ Kept (runs k).cred (runs k).path data s' ∧
      ∀ r, m k = .done r → r = .ok () ∧ data = phraseText (runs k).words ∨
        r = .err .fileWrite ∧ (runs k).env.writeFails.isSome = true) ∧
    ∀ r, m k = .done r → r = (saveMnemonicT s.tree (runs k).cred (runs k).env (runs k).words (runs k).path).2 := by
  have hbegin : AllInv runs place s (beginAll runs s.tree) := by
    refine ⟨fun k => ⟨⟨hw k, ho, hf k, hr k, hm k⟩, ?_⟩, fun k l _ i h => by rw [hr k] at h; cases h⟩
    have := looksFor_start (hw k) (hf k)
    rw [hr k] at this
    exact this
  have hinv := (allInv_later hp hl hbegin).each k
  dsimp only at hinv
  have hfree : ∀ {s' : Scene}, SaveReady (runs k).cred (runs k).path (place k).1 (place k).2 s' →
      s'.tree.stat (runs k).cred (runs k).path = .error .noent := fun h => by
    unfold Tree.stat; rw [h.leads]
  rw [show phraseText (runs k).words = wordFileContent (runs k).words from (content_eq _).symm, saveMnemonicT_ready (hr k) (hm k)]
  generalize m k = q at hinv
  cases q with
  | stat l => exact ⟨.inl ⟨hfree hinv.1, fun _ h => by cases h⟩, fun _ h => by cases h⟩
  | opening l => exact ⟨.inl ⟨hfree hinv.1, fun _ h => by cases h⟩, fun _ h => by cases h⟩
  | writing i k rest =>
    obtain ⟨-, -, data, h2, -, h4⟩ := hinv
    exact ⟨.inr ⟨data, ⟨rest, h2.symm⟩, h4.kept, fun _ h => by cases h⟩, fun _ h => by cases h⟩
  | done r =>
    rcases hinv with ⟨⟨h1, h5, h6⟩, i, h2⟩ | ⟨h1, ⟨h2, h3⟩ | ⟨i, n, h2, h3⟩⟩
    · refine ⟨.inr ⟨_, List.prefix_refl _, h2.kept, fun _ h => by cases h; exact .inl ⟨h1, rfl⟩⟩, fun _ h => ?_⟩
      cases h
      rw [if_neg (by rw [h5, h6]; decide), h1]
    · refine ⟨.inl ⟨hfree h3, fun _ h => by cases h; exact ⟨h1, h2⟩⟩, fun _ h => ?_⟩
      cases h
      rw [if_pos (Or.inl h2), h1]
    · refine ⟨.inr ⟨_, List.take_prefix _ _, h3.kept, fun _ h => ?_⟩, fun _ h => ?_⟩
      · cases h
        exact .inr ⟨h1, by rw [h2]; rfl⟩
      · cases h
        rw [if_pos (Or.inr (by rw [h2]; rfl)), h1]

/-- Whatever the others do, and wherever the paths lead: a run that goes on now and then ends. -/
theorem c114_ends (k : ι) (run : Nat → Scene × (ι → Saving)) (hgo : ∀ n, AllGo runs (run n) (run (n + 1)))
    (hfair : ∀ n, ∃ j ≥ n, (run (j + 1)).2 k = ((runs k).step (run j).1.tree ((run j).2 k)).2) :
    ∃ n r, ∀ j ≥ n, (run j).2 k = .done r := by
  have hle : ∀ n, Saving.rank ((run (n + 1)).2 k) ≤ Saving.rank ((run n).2 k) ∧
      (∀ r, (run n).2 k = .done r → (run (n + 1)).2 k = .done r) := by
    intro n
    have hg := hgo n
    generalize run n = x at hg
    generalize run (n + 1) = y at hg
    cases hg with
    | other m a h0 hu hm => exact ⟨le_refl _, fun _ h => h⟩
    | save s m l =>
      by_cases hkl : k = l
      · subst hkl
        dsimp only
        rw [if_pos rfl]
        cases hd : Saving.isDone (m k) with
        | true => unfold SaveRun.step; rw [step_done _ _ _ _ _ _ hd]; exact ⟨le_refl _, fun _ h => h⟩
        | false =>
          exact ⟨le_of_lt (step_rank _ _ _ _ s.tree (m k) hd), fun r h => by rw [h] at hd; cases hd⟩
      · dsimp only
        rw [if_neg hkl]
        exact ⟨le_refl _, fun _ h => h⟩
  have hmono : ∀ n j, Saving.rank ((run (n + j)).2 k) ≤ Saving.rank ((run n).2 k) := by
    intro n j
    induction j with
    | zero => exact le_refl _
    | succ j ih => exact le_trans (hle (n + j)).1 ih
  have hstay : ∀ n r, (run n).2 k = .done r → ∀ j ≥ n, (run j).2 k = .done r := by
    intro n r h j hj
    obtain ⟨i, rfl⟩ := Nat.exists_eq_add_of_le hj
    clear hj
    induction i with
    | zero => exact h
    | succ i ih => exact (hle (n + i)).2 r ih
  have key : ∀ x, ∀ n, Saving.rank ((run n).2 k) = x → ∃ n r, (run n).2 k = .done r := by
    intro x
    induction x using WellFoundedLT.induction with
    | _ x ih =>
      intro n hn
      obtain ⟨j, hj, hs⟩ := hfair n
      cases hd : Saving.isDone ((run j).2 k) with
      | true =>
        cases hm : (run j).2 k with
        | done r => exact ⟨j, r, hm⟩
        | stat _ => rw [hm] at hd; cases hd
        | opening _ => rw [hm] at hd; cases hd
        | writing _ _ _ => rw [hm] at hd; cases hd
      | false =>
        refine ih _ ?_ (j + 1) rfl
        obtain ⟨i, rfl⟩ := Nat.exists_eq_add_of_le hj
        rw [hs, ← hn]
        exact lt_of_lt_of_le (step_rank _ _ _ _ _ _ hd) (hmono n i)
  obtain ⟨n, r, h⟩ := key _ 0 rfl
  exact ⟨n, r, hstay n r h⟩

theorem allLater_trans {x y z : Scene × (ι → Saving)} (h1 : AllLater runs x y) (h2 : AllLater runs y z) : AllLater runs x z := by
  induction h2 with
  | refl => exact h1
  | step _ hg ih => exact ih.step hg

theorem allLater_alone (k : ι) : ∀ (n : Nat) (s : Scene) (m : ι → Saving), AllLater runs (s, m)
    ({ s with tree := (Saving.alone (runs k).cred (runs k).env (runs k).words (runs k).path n (s.tree, m k)).1 },
      fun l => if l = k then (Saving.alone (runs k).cred (runs k).env (runs k).words (runs k).path n (s.tree, m k)).2 else m l)
  | 0, s, m => by
    have : (fun l => if l = k then m k else m l) = m := by
      funext l
      by_cases h : l = k
      · rw [if_pos h, h]
      · rw [if_neg h]
    unfold Saving.alone
    dsimp only
    rw [this]
    exact .refl _
  | n + 1, s, m => by
    refine allLater_trans runs (.step (.refl _) (.save s m k)) ?_
    have := allLater_alone k n { s with tree := ((runs k).step s.tree (m k)).1 }
      (fun l => if l = k then ((runs k).step s.tree (m k)).2 else m l)
    dsimp only at this
    rw [if_pos rfl] at this
    have he : (fun l => if l = k then (Saving.alone (runs k).cred (runs k).env (runs k).words (runs k).path n
        (((runs k).step s.tree (m k)).1, ((runs k).step s.tree (m k)).2)).2 else
          if l = k then ((runs k).step s.tree (m k)).2 else m l) =
        fun l => if l = k then (Saving.alone (runs k).cred (runs k).env (runs k).words (runs k).path (n + 1) (s.tree, m k)).2
          else m l := by
      funext l
      by_cases h : l = k
      · rw [if_pos h, if_pos h]; rfl
      · rw [if_neg h, if_neg h, if_neg h]
    rw [he] at this
    exact this

end

theorem setData_again (t : Tree) (i : Nat) (x y : Bytes) : (t.setData i x).setData i y = t.setData i y := by
  unfold Tree.setData
  congr 1
  funext j
  by_cases hj : j = i
  · simp [hj]
  · simp [hj]

theorem writeAt_over (data : Bytes) (k : Nat) (b : Byte) (h : k ≤ data.length) :
    writeAt data k b = data.take k ++ b :: data.drop (k + 1) := by
  unfold writeAt
  rw [Nat.sub_eq_zero_of_le h, List.replicate_zero, List.append_nil]

/-- Bytes written over what is there -/
theorem alone_over {c : Cred} {env : SaveEnv} {words : List Bytes} {p : Bytes} (hf : env.writeFails = none) (i : Nat) :
    ∀ (rest : Bytes) (k : Nat) (t : Tree) (data : Bytes), k ≤ data.length →
    Saving.alone c env words p (rest.length + 1) (t.setData i data, .writing i k rest) =
      (t.setData i (data.take k ++ rest ++ data.drop (k + rest.length)), .done (.ok ()))
  | [], k, t, data, _ => by
    show Saving.step c env words p (t.setData i data) (.writing i k []) = _
    unfold Saving.step
    dsimp only
    rw [hf, if_neg (by simp)]
    simp
  | b :: rest, k, t, data, hk => by
    have hstep : Saving.step c env words p (t.setData i data) (.writing i k (b :: rest)) =
        (t.setData i (writeAt data k b), .writing i (k + 1) rest) := by
      unfold Saving.step
      dsimp only
      rw [hf, if_neg (by simp), show ((t.setData i data).inode i).node = .file data from by simp [Tree.setData]]
      dsimp only
      rw [setData_again]
    show Saving.alone c env words p (rest.length + 1)
      (Saving.step c env words p (t.setData i data) (.writing i k (b :: rest))) = _
    rw [hstep, writeAt_over _ _ _ hk]
    have hlen : k + 1 ≤ (data.take k ++ b :: data.drop (k + 1)).length := by
      simp; omega
    have := alone_over (c := c) (words := words) (p := p) hf i rest (k + 1)
      (t.setData i (data.take k ++ b :: data.drop (k + 1))) (data.take k ++ b :: data.drop (k + 1)) hlen
    rw [setData_again, setData_again] at this
    rw [this]
    have htake : (data.take k).length = k := by simp [hk]
    congr 2
    have h1 : (data.take k ++ b :: data.drop (k + 1)).take (k + 1) = data.take k ++ [b] := by
      rw [List.take_append, htake]
      simp
    have h2 : (data.take k ++ b :: data.drop (k + 1)).drop (k + 1 + rest.length) = data.drop (k + (rest.length + 1)) := by
      rw [List.drop_append, htake]
      have : k + 1 + rest.length - k = rest.length + 1 := by omega
      rw [this, List.drop_succ_cons, List.drop_drop]
      rw [List.drop_eq_nil_of_le (by simp; omega)]
      simp
      congr 1
      omega
    rw [h1, h2]
    simp

/-- Two runs -/
def both (a b : Saving) (k : Bool) : Saving := if k then b else a

theorem both_first {runs : Bool → SaveRun} {n : Nat} {s : Scene} {a b a' : Saving} {t : Tree}
    (h : Saving.alone (runs false).cred (runs false).env (runs false).words (runs false).path n (s.tree, a) = (t, a')) :
    AllLater runs (s, both a b) ({ s with tree := t }, both a' b) := by
  have := allLater_alone runs false n s (both a b)
  rw [show both a b false = a from rfl, h] at this
  rw [show both a' b = fun l => if l = false then a' else both a b l from by funext l; cases l <;> rfl]
  exact this

theorem both_second {runs : Bool → SaveRun} {n : Nat} {s : Scene} {a b b' : Saving} {t : Tree}
    (h : Saving.alone (runs true).cred (runs true).env (runs true).words (runs true).path n (s.tree, b) = (t, b')) :
    AllLater runs (s, both a b) ({ s with tree := t }, both a b') := by
  have := allLater_alone runs true n s (both a b)
  rw [show both a b true = b from rfl, h] at this
  rw [show both a b' = fun l => if l = true then b' else both a b l from by funext l; cases l <;> rfl]
  exact this

/-- `/home/new` created, and still empty -/
def homeTree : Tree := sampleTree.add sampleCred 1 (str "new") 0o600 []

theorem home_stat (env : SaveEnv) (words : List Bytes) : Saving.alone sampleCred env words (str "/home/new") 3
    (sampleTree, .begin sampleTree sampleCred (str "/home/new")) =
    (sampleTree, .opening (sampleTree.start sampleCred (str "/home/new"))) := by
  show Saving.alone sampleCred env words (str "/home/new") 2
    (sampleTree, .stat (sampleTree.look sampleCred ⟨40, 0, [str "home", str "new"], false⟩)) = _
  show Saving.alone sampleCred env words (str "/home/new") 1
    (sampleTree, .stat (sampleTree.look sampleCred ⟨40, 1, [str "new"], false⟩)) = _
  rfl

theorem home_create (words : List Bytes) : Saving.alone sampleCred ⟨false, false, none⟩ words (str "/home/new") 2
    (sampleTree, .opening (sampleTree.start sampleCred (str "/home/new"))) =
    (homeTree, .writing 7 0 (wordFileContent words)) := by
  have hl1 : sampleTree.look sampleCred ⟨40, 0, [str "home", str "new"], false⟩ = .on ⟨40, 1, [str "new"], false⟩ := rfl
  have hl2 : sampleTree.look sampleCred ⟨40, 1, [str "new"], false⟩ = .ends (.ok (.missing 1 (str "new"))) := rfl
  have hc : sampleTree.createAt sampleCred (.ok (.missing 1 (str "new"))) 0o600 = .ok (homeTree, 7) := rfl
  have hs1 : Saving.step sampleCred ⟨false, false, none⟩ words (str "/home/new") sampleTree
      (.opening (.on ⟨40, 0, [str "home", str "new"], false⟩)) =
      (sampleTree, .opening (.on ⟨40, 1, [str "new"], false⟩)) := by
    unfold Saving.step
    dsimp only
    rw [hl1]
  have hs2 : Saving.step sampleCred ⟨false, false, none⟩ words (str "/home/new") sampleTree
      (.opening (.on ⟨40, 1, [str "new"], false⟩)) = (homeTree, .writing 7 0 (wordFileContent words)) := by
    unfold Saving.step
    dsimp only
    rw [hl2]
    dsimp only
    rw [if_neg (by decide), hc]
  show Saving.step sampleCred ⟨false, false, none⟩ words (str "/home/new")
    (Saving.step sampleCred ⟨false, false, none⟩ words (str "/home/new") sampleTree
      (.opening (.on ⟨40, 0, [str "home", str "new"], false⟩))).1
    (Saving.step sampleCred ⟨false, false, none⟩ words (str "/home/new") sampleTree
      (.opening (.on ⟨40, 0, [str "home", str "new"], false⟩))).2 = _
  rw [hs1]
  exact hs2

theorem home_again (words : List Bytes) : Saving.alone sampleCred ⟨false, false, none⟩ words (str "/home/new") 2
    (homeTree, .opening (sampleTree.start sampleCred (str "/home/new"))) =
    (homeTree.setData 7 [], .writing 7 0 (wordFileContent words)) := by
  have hl1 : homeTree.look sampleCred ⟨40, 0, [str "home", str "new"], false⟩ = .on ⟨40, 1, [str "new"], false⟩ := rfl
  have hl2 : homeTree.look sampleCred ⟨40, 1, [str "new"], false⟩ = .ends (.ok (.found 7)) := rfl
  have hc : homeTree.createAt sampleCred (.ok (.found 7)) 0o600 = .ok (homeTree.setData 7 [], 7) := rfl
  have hs1 : Saving.step sampleCred ⟨false, false, none⟩ words (str "/home/new") homeTree
      (.opening (.on ⟨40, 0, [str "home", str "new"], false⟩)) =
      (homeTree, .opening (.on ⟨40, 1, [str "new"], false⟩)) := by
    unfold Saving.step
    dsimp only
    rw [hl1]
  have hs2 : Saving.step sampleCred ⟨false, false, none⟩ words (str "/home/new") homeTree
      (.opening (.on ⟨40, 1, [str "new"], false⟩)) = (homeTree.setData 7 [], .writing 7 0 (wordFileContent words)) := by
    unfold Saving.step
    dsimp only
    rw [hl2]
    dsimp only
    rw [if_neg (by decide), hc]
  show Saving.step sampleCred ⟨false, false, none⟩ words (str "/home/new")
    (Saving.step sampleCred ⟨false, false, none⟩ words (str "/home/new") homeTree
      (.opening (.on ⟨40, 0, [str "home", str "new"], false⟩))).1
    (Saving.step sampleCred ⟨false, false, none⟩ words (str "/home/new") homeTree
      (.opening (.on ⟨40, 0, [str "home", str "new"], false⟩))).2 = _
  rw [hs1]
  exact hs2

/-- Two runs for one free name at the same time can both succeed; then the file holds the second phrase and what stands beyond
its end in the first: nothing of the first if it is not longer. -/
theorem c114_lost : ∃ (s : Scene) (c : Cred) (p : Bytes) (d : Nat) (name : Bytes), Whole s.tree c ∧ OpenThere s ∧
    FirmPath s.tree c p ∧ s.tree.resolve c p = .ok (.missing d name) ∧ c.may (s.tree.inode d) 2 = true ∧
    ∀ (words words' : List Bytes), ∃ s' i,
      AllLater (fun k : Bool => ⟨c, ⟨false, false, none⟩, if k then words' else words, p⟩)
        (s, fun _ => .begin s.tree c p) (s', fun _ => .done (.ok ())) ∧ s'.tree.stat c p = .ok i ∧
      (s'.tree.inode i).node = .file (phraseText words' ++ (phraseText words).drop (phraseText words').length) := by
  refine ⟨sampleScene, sampleCred, str "/home/new", 1, str "new", sample_whole _ (by decide), sample_openThere, home_firm, by rfl,
    by rfl, ?_⟩
  intro words words'
  let runs : Bool → SaveRun := fun k => ⟨sampleCred, ⟨false, false, none⟩, if k then words' else words, str "/home/new"⟩
  have h1 : AllLater runs
      (sampleScene, both (.begin sampleTree sampleCred (str "/home/new")) (.begin sampleTree sampleCred (str "/home/new"))) _ :=
    both_first (home_stat _ _)
  have h2 := allLater_trans runs h1 (both_second (home_stat _ _))
  have h3 := allLater_trans runs h2 (both_first (home_create words))
  have h4 := allLater_trans runs h3 (both_second (home_again words'))
  have h5 := allLater_trans runs h4 (both_first
    (alone_over (words := words) rfl 7 (wordFileContent words) 0 homeTree [] (Nat.zero_le _)))
  have h6 := allLater_trans runs h5 (both_second
    (alone_over (words := words') rfl 7 (wordFileContent words') 0 homeTree _ (Nat.zero_le _)))
  rw [show both (.begin sampleTree sampleCred (str "/home/new")) (.begin sampleTree sampleCred (str "/home/new")) =
    fun _ => .begin sampleTree sampleCred (str "/home/new") from by funext k; cases k <;> rfl,
    show both (.done (.ok ())) (.done (.ok ())) = fun _ => .done (.ok ()) from by funext k; cases k <;> rfl] at h6
  refine ⟨_, 7, h6, ?_⟩
  rw [show phraseText words = wordFileContent words from (content_eq words).symm,
    show phraseText words' = wordFileContent words' from (content_eq words').symm]
  generalize wordFileContent words = x
  generalize wordFileContent words' = y
  dsimp only
  have hstat : ∀ data, (homeTree.setData 7 data).stat sampleCred (str "/home/new") = .ok 7 := by
    intro data
    have h : homeTree.stat sampleCred (str "/home/new") = .ok 7 := rfl
    rw [← h]
    unfold Tree.stat Tree.resolve
    rw [walk_setData (x := []) rfl, show (homeTree.setData 7 data).origin sampleCred.cwd (str "/home/new") =
      homeTree.origin sampleCred.cwd (str "/home/new") from rfl]
  refine ⟨hstat _, ?_⟩
  simp [Tree.setData]

/-! ## examples -/

/-- `/home/b` cannot be redirected by others either. -/
theorem second_firm : FirmPath sampleTree sampleCred (str "/home/b") := by
  have h2 : ∀ x n, OnWay sampleTree 1 [str "b"] x n → Firm sampleTree 1000 x n := by
    intro x n h
    cases h with
    | here => exact ⟨.inl rfl, .inl (by decide)⟩
    | down h1 h2 => cases h1; exact nomatch (h2 : none = some _)
    | link h1 h2 => cases h1; exact nomatch (h2 : none = some _)
  intro x n h
  have h : OnWay sampleTree 0 [str "home", str "b"] x n := h
  cases h with
  | here => exact ⟨.inr rfl, .inl (by decide)⟩
  | down h1 h3 h4 h5 =>
    cases h1
    have h3 := Option.some.inj h3
    rw [← h3] at h5
    exact h2 _ _ h5
  | link h1 h3 h4 =>
    cases h1
    have h3 := Option.some.inj h3
    rw [← h3] at h4
    cases h4

/-- One run saves to `/home/new`, another to `/home/b`. -/
def sampleRuns (k : Bool) : SaveRun :=
  ⟨sampleCred, ⟨false, false, none⟩, if k then [str "b"] else [str "a"], if k then str "/home/b" else str "/home/new"⟩

/-- The two runs take every second step. -/
def alternate (s : Scene) (n : Nat) : Scene × (Bool → Saving) :=
  n.rec (s, beginAll sampleRuns s.tree) fun n x =>
    ({ x.1 with tree := ((sampleRuns (n % 2 = 1)).step x.1.tree (x.2 (n % 2 = 1))).1 },
      fun l => if l = decide (n % 2 = 1) then ((sampleRuns (n % 2 = 1)).step x.1.tree (x.2 (n % 2 = 1))).2 else x.2 l)

theorem alternate_go (s : Scene) (n : Nat) : AllGo sampleRuns (alternate s n) (alternate s (n + 1)) := .save _ _ _

theorem alternate_later (s : Scene) : ∀ n, AllLater sampleRuns (s, beginAll sampleRuns s.tree) (alternate s n)
  | 0 => .refl _
  | n + 1 => .step (alternate_later s n) (alternate_go s n)

theorem alternate_ends (s : Scene) (k : Bool) : ∃ n r, ∀ j ≥ n, (alternate s j).2 k = .done r := by
  refine c114_ends sampleRuns k (alternate s) (alternate_go s) (fun n => ⟨2 * n + k.toNat, by cases k <;> simp <;> omega, ?_⟩)
  have hk : decide ((2 * n + k.toNat) % 2 = 1) = k := by cases k <;> simp
  show (if k = decide ((2 * n + k.toNat) % 2 = 1) then
    ((sampleRuns (decide ((2 * n + k.toNat) % 2 = 1))).step (alternate s (2 * n + k.toNat)).1.tree
      ((alternate s (2 * n + k.toNat)).2 (decide ((2 * n + k.toNat) % 2 = 1)))).2
    else (alternate s (2 * n + k.toNat)).2 k) = _
  rw [hk, if_pos rfl]

/-- Both phrases are there in the end. -/
example : ∃ n, Kept sampleCred (str "/home/new") (str "a\n") (alternate sampleScene n).1 ∧
    Kept sampleCred (str "/home/b") (str "b\n") (alternate sampleScene n).1 := by
  obtain ⟨n, r, hn⟩ := alternate_ends sampleScene false
  obtain ⟨n', r', hn'⟩ := alternate_ends sampleScene true
  refine ⟨n + n', ?_⟩
  have key := c114_each sampleRuns sampleScene sample_openThere (fun _ => sample_whole sampleCred (by decide))
    (fun k => by cases k; exacts [home_firm, second_firm]) (fun k => (1, if k then str "b" else str "new"))
    (fun k => by cases k <;> rfl) (fun k => by cases k <;> rfl) (by decide) _ _ (alternate_later sampleScene (n + n'))
  constructor
  · obtain ⟨h1, h2⟩ := key false
    have h := hn (n + n') (by omega)
    have hr : r = .ok () := h2 _ h
    rw [hr] at h
    rcases h1 with ⟨-, h3⟩ | ⟨data, -, h3, h4⟩
    · cases (h3 _ h).1
    · rcases h4 _ h with ⟨-, h5⟩ | ⟨h5, -⟩
      · rw [h5] at h3; exact h3
      · cases h5
  · obtain ⟨h1, h2⟩ := key true
    have h := hn' (n + n') (by omega)
    have hr : r' = .ok () := h2 _ h
    rw [hr] at h
    rcases h1 with ⟨-, h3⟩ | ⟨data, -, h3, h4⟩
    · cases (h3 _ h).1
    · rcases h4 _ h with ⟨-, h5⟩ | ⟨h5, -⟩
      · rw [h5] at h3; exact h3
      · cases h5

end Verif.Props
