import Verif.Proofs.Others
import Mathlib.Data.Prod.Lex

/-! saveMnemonic among other processes. -/

namespace Verif.Proofs

open Verif.Model Verif.Model.Cli Verif.Spec

theorem own_bits (m u : UInt16) (h : m &&& 0o777 = 0o600 &&& ~~~u &&& 0o777) : ¬ ((m >>> 3) &&& 4 : UInt16) = 4 ∧
    ¬ ((m >>> 3) &&& 2 : UInt16) = 2 ∧ ¬ (m &&& 4 : UInt16) = 4 ∧ ¬ (m &&& 2 : UInt16) = 2 := by
  rw [← UInt16.toBitVec_inj] at h
  have h' : m.toBitVec &&& 0o777#16 = 0o600#16 &&& ~~~u.toBitVec &&& 0o777#16 := h
  refine ⟨?_, ?_, ?_, ?_⟩ <;> rw [← UInt16.toBitVec_inj] <;> intro h2
  · have h1 := congrArg (·.getLsbD 5) h'
    have h2 := congrArg (·.getLsbD 2) (show m.toBitVec >>> 3 &&& 4#16 = 4#16 from h2)
    simp at h1 h2
    rw [h1] at h2; cases h2
  · have h1 := congrArg (·.getLsbD 4) h'
    have h2 := congrArg (·.getLsbD 1) (show m.toBitVec >>> 3 &&& 2#16 = 2#16 from h2)
    simp at h1 h2
    rw [h1] at h2; cases h2
  · have h1 := congrArg (·.getLsbD 2) h'
    have h2 := congrArg (·.getLsbD 2) (show m.toBitVec &&& 4#16 = 4#16 from h2)
    simp at h1 h2
    rw [h1] at h2; cases h2
  · have h1 := congrArg (·.getLsbD 1) h'
    have h2 := congrArg (·.getLsbD 1) (show m.toBitVec &&& 2#16 = 2#16 from h2)
    simp at h1 h2
    rw [h1] at h2; cases h2

theorem own_may {i : Inode} {u : UInt16} (h : i.mode &&& 0o777 = 0o600 &&& ~~~u &&& 0o777) {a : Cred} (h0 : a.user ≠ 0)
    (hu : a.user ≠ i.owner) : a.may i 4 = false ∧ a.may i 2 = false := by
  obtain ⟨h1, h2, h3, h4⟩ := own_bits i.mode u h
  unfold Cred.may
  rw [if_neg h0, if_neg hu, if_neg h0, if_neg hu]
  by_cases hg : i.group = a.group ∨ a.groups i.group = true
  · rw [if_pos hg, if_pos hg]; exact ⟨by simpa using h1, by simpa using h2⟩
  · rw [if_neg hg, if_neg hg]; exact ⟨by simpa using h3, by simpa using h4⟩

/-- The file is there, and nobody else gets at it. -/
structure Held (c : Cred) (p : Bytes) (s : Scene) (i : Nat) (data : Bytes) : Prop where
  whole : Whole s.tree c
  opened : OpenThere s
  firm : FirmPath s.tree c p
  leads : s.tree.resolve c p = .ok (.found i)
  lt : i < s.tree.next
  node : (s.tree.inode i).node = .file data
  owner : (s.tree.inode i).owner = c.user
  mode : (s.tree.inode i).mode &&& 0o777 = 0o600 &&& ~~~c.umask &&& 0o777
  reads : s.reads i = false
  writes : s.writes i = false

theorem Held.stat {c : Cred} {p : Bytes} {s : Scene} {i : Nat} {data : Bytes} (h : Held c p s i data) : s.tree.stat c p = .ok i := by
  unfold Tree.stat; rw [h.leads]

theorem Held.kept {c : Cred} {p : Bytes} {s : Scene} {i : Nat} {data : Bytes} (h : Held c p s i data) : Kept c p data s :=
  ⟨i, h.lt, h.stat, h.node, h.owner, h.mode, h.reads, h.writes,
    fun _ h0 hu => own_may h.mode h0 (by rw [h.owner]; exact hu)⟩

theorem held_other {c a : Cred} {p : Bytes} {s s' : Scene} {i : Nat} {data : Bytes} (h : Held c p s i data) (h0 : a.user ≠ 0)
    (hu : a.user ≠ c.user) (hm : Meddles a s s') : Held c p s' i data := by
  have hne : (s.tree.inode i).owner ≠ a.user := by rw [h.owner]; exact fun h => hu h.symm
  obtain ⟨h4, h2⟩ := own_may h.mode h0 (fun h => hne h.symm)
  refine ⟨whole_kept hm h.whole, openThere_kept hm h.opened, firmPath_kept hm h0 hu h.whole h.firm, ?_,
    Nat.lt_of_lt_of_le h.lt hm.next, ?_, ?_, ?_, ?_, ?_⟩
  · rw [resolve_same hm h0 hu h.whole h.firm]; exact h.leads
  · obtain ⟨x, h5, h6⟩ := hm.files i h.lt data h.node
    rcases h6 with h6 | h6 | h6
    · rw [h5, h6]
    · rw [h.writes] at h6; cases h6
    · rw [h2] at h6; cases h6
  · rw [hm.owner i h.lt]; exact h.owner
  · rw [(hm.mode i h.lt hne).2.1]; exact h.mode
  · cases hr : s'.reads i with
    | false => rfl
    | true =>
      rcases hm.reads i hr with h5 | h5 | h5
      · rw [h.reads] at h5; cases h5
      · exact absurd h.lt (Nat.not_lt.2 h5.1)
      · rw [h4] at h5; cases h5.2
  · cases hr : s'.writes i with
    | false => rfl
    | true =>
      rcases hm.writes i hr with h5 | h5 | h5
      · rw [h.writes] at h5; cases h5
      · exact absurd h.lt (Nat.not_lt.2 h5.1)
      · rw [h2] at h5; cases h5.2

/-! ## writing to it -/

theorem onWay_setData {t : Tree} {i : Nat} {data : Bytes} {d y : Nat} {parts : List Bytes}
    {n : Bytes} (ho : OnWay (t.setData i data) d parts y n) : OnWay t d parts y n := by
  have hback : ∀ j e, ((t.setData i data).inode j).node = .dir e → (t.inode j).node = .dir e := by
    intro j e h
    unfold Tree.setData at h
    dsimp only at h
    by_cases hj : j = i
    · rw [if_pos hj] at h; cases h
    · rw [if_neg hj] at h; exact h
  have hlink : ∀ j e, ((t.setData i data).inode j).node = .link e → (t.inode j).node = .link e := by
    intro j e h
    unfold Tree.setData at h
    dsimp only at h
    by_cases hj : j = i
    · rw [if_pos hj] at h; cases h
    · rw [if_neg hj] at h; exact h
  induction ho with
  | here d name rest => exact .here d name rest
  | down h1 h2 h3 _ ih => exact .down (hback _ _ h1) h2 (hback _ _ h3) ih
  | link h1 h2 h3 _ ih => exact .link (hback _ _ h1) h2 (hlink _ _ h3) ih

theorem setData_attr (t : Tree) (i : Nat) (data : Bytes) (j : Nat) : ((t.setData i data).inode j).owner = (t.inode j).owner ∧
    ((t.setData i data).inode j).group = (t.inode j).group ∧ ((t.setData i data).inode j).mode = (t.inode j).mode := by
  unfold Tree.setData
  dsimp only
  by_cases hj : j = i
  · rw [if_pos hj, hj]; exact ⟨rfl, rfl, rfl⟩
  · rw [if_neg hj]; exact ⟨rfl, rfl, rfl⟩

theorem walkWith_setData {t : Tree} {i : Nat} {x : Bytes} (hn : (t.inode i).node = .file x) (data : Bytes) (c : Cred)
    {follow follow' : Nat → List Bytes → Bool → Except Errno Spot} (hf : ∀ d parts slash, follow' d parts slash = follow d parts slash) :
    ∀ (parts : List Bytes) (d : Nat) (slash : Bool),
      (t.setData i data).walkWith c follow' d parts slash = t.walkWith c follow d parts slash
  | [], d, slash => by rw [Tree.walkWith, Tree.walkWith]
  | name :: rest, d, slash => by
    have hor : ∀ p, (t.setData i data).origin d p = t.origin d p := fun p => rfl
    have hi : ((t.setData i data).inode i).node = .file data := by simp [Tree.setData]
    have hj : ∀ j, j ≠ i → (t.setData i data).inode j = t.inode j := fun j h => by simp [Tree.setData, h]
    rw [Tree.walkWith, Tree.walkWith]
    by_cases hd : d = i
    · rw [hd, hi, hn]
    rw [hj d hd]
    cases (t.inode d).node with
    | file _ => rfl
    | link _ => rfl
    | special _ => rfl
    | dir e =>
      dsimp only
      cases e name with
      | none => rfl
      | some k =>
        dsimp only
        by_cases hk : k = i
        · rw [hk, hi, hn]
        rw [hj k hk]
        cases (t.inode k).node with
        | file _ => rfl
        | special _ => rfl
        | link target => dsimp only; rw [hor, hf]
        | dir _ => dsimp only; rw [walkWith_setData hn data c hf rest k slash]

theorem walk_setData {t : Tree} {i : Nat} {x : Bytes} (hn : (t.inode i).node = .file x) (data : Bytes) (c : Cred) :
    ∀ (n d : Nat) (parts : List Bytes) (slash : Bool), (t.setData i data).walk c n d parts slash = t.walk c n d parts slash
  | 0, d, parts, slash => walkWith_setData hn data c (fun _ _ _ => rfl) parts d slash
  | n + 1, d, parts, slash => walkWith_setData hn data c (walk_setData hn data c n) parts d slash

theorem held_write {c : Cred} {p : Bytes} {s : Scene} {i : Nat} {data : Bytes} (h : Held c p s i data) (data' : Bytes) :
    Held c p { s with tree := s.tree.setData i data' } i data' := by
  have ha := setData_attr s.tree i data'
  refine ⟨⟨h.whole.root, h.whole.cwd, ?_⟩, h.opened, ?_, ?_, h.lt, ?_, ?_, ?_, h.reads, h.writes⟩
  · intro d hd e hn
    by_cases hj : d = i
    · simp [Tree.setData, hj] at hn
    · exact h.whole.entries d hd e (by simpa [Tree.setData, hj] using hn)
  · intro x n ho
    obtain ⟨h1, h2⟩ := h.firm x n (onWay_setData ho)
    refine ⟨by rw [(ha x).1]; exact h1, ?_⟩
    rw [(ha x).2.2]
    rcases h2 with h2 | ⟨h2, e, j, h3, h4, h5⟩
    · exact .inl h2
    · refine .inr ⟨h2, e, j, ?_, h4, by rw [(ha j).1]; exact h5⟩
      have : x ≠ i := by rintro rfl; rw [h.node] at h3; cases h3
      simpa [Tree.setData, this] using h3
  · have := h.leads
    unfold Tree.resolve at this ⊢
    dsimp only
    rw [walk_setData h.node]
    exact this
  · simp [Tree.setData]
  · rw [(ha i).1]; exact h.owner
  · rw [(ha i).2.2]; exact h.mode

/-! ## before it is created -/

/-- A path leads to a free name where the user may create a file, and nobody else can redirect it. -/
structure SaveReady (c : Cred) (p : Bytes) (d : Nat) (name : Bytes) (s : Scene) : Prop where
  whole : Whole s.tree c
  opened : OpenThere s
  firm : FirmPath s.tree c p
  leads : s.tree.resolve c p = .ok (.missing d name)
  may : c.may (s.tree.inode d) 2 = true

theorem ready_other {c a : Cred} {p : Bytes} {d : Nat} {name : Bytes} {s s' : Scene} (h : SaveReady c p d name s) (h0 : a.user ≠ 0)
    (hu : a.user ≠ c.user) (hm : Meddles a s s') : SaveReady c p d name s' := by
  refine ⟨whole_kept hm h.whole, openThere_kept hm h.opened, firmPath_kept hm h0 hu h.whole h.firm, ?_, ?_⟩
  · rw [resolve_same hm h0 hu h.whole h.firm]; exact h.leads
  · obtain ⟨hd, -, e, hn, -⟩ := (resolve_lands h.whole p).2 d name h.leads
    obtain ⟨e', -, -, h1, h2, h3⟩ := firm_entry hm h0 hu (h.firm d name (resolve_onWay h.leads)) hd hn
    rw [may_congr c h1 h2 h3]; exact h.may

theorem firm_oneMore {t t' : Tree} {c c₀ : Cred} {d₀ : Nat} {name₀ data : Bytes} (hs : Whole t c) (hm : OneMore t c₀ d₀ name₀ data t')
    {x : Nat} {n : Bytes} (hx : x < t.next) (hf : Firm t c.user x n ∨ c₀.user = c.user ∧ (x = d₀ ∧ n = name₀) ∧
      Trusted c.user (t.inode d₀).owner ∧ (t.inode d₀).mode &&& 0o1000 ≠ 0) : Firm t' c.user x n := by
  obtain ⟨e₀, e₀', hd0, he0, hd0', he0', hoth, hown, hgrp, hmode⟩ := hm.dir
  have hattr : ∀ j, j < t.next → (t'.inode j).owner = (t.inode j).owner ∧ (t'.inode j).mode = (t.inode j).mode := by
    intro j hj
    by_cases hjd : j = d₀
    · rw [hjd]; exact ⟨hown, hmode⟩
    · rw [hm.others j hjd (Nat.ne_of_lt hj)]; exact ⟨rfl, rfl⟩
  rcases hf with ⟨h1, h2⟩ | ⟨hu, ⟨h1, h1'⟩, h2, h3⟩
  · refine ⟨by rw [(hattr x hx).1]; exact h1, ?_⟩
    rw [(hattr x hx).2]
    rcases h2 with h2 | ⟨h2, e, i, h3, h4, h5⟩
    · exact .inl h2
    · have hi := hs.entries x hx e h3 n i h4
      by_cases hxd : x = d₀
      · subst hxd
        rw [hd0] at h3; cases h3
        have hne : n ≠ name₀ := by rintro rfl; rw [he0] at h4; cases h4
        exact .inr ⟨h2, e₀', i, hd0', by rw [hoth n hne]; exact h4, by rw [(hattr i hi).1]; exact h5⟩
      · exact .inr ⟨h2, e, i, by rw [hm.others x hxd (Nat.ne_of_lt hx)]; exact h3, h4, by rw [(hattr i hi).1]; exact h5⟩
  · subst h1 h1'
    refine ⟨by rw [hown]; exact h2, .inr ⟨by rw [hmode]; exact h3, e₀', t.next, hd0', he0', ?_⟩⟩
    rw [hm.file.2.1]; exact .inl hu

/-- The file created is the user's alone; it is enough that the last directory is sticky. -/
theorem created_held {c : Cred} {p : Bytes} {d : Nat} {name : Bytes} {s : Scene} (hw : Whole s.tree c) (ho : OpenThere s)
    (hf : ∀ x n, OnWay s.tree (s.tree.origin c.cwd p) (components p) x n → Firm s.tree c.user x n ∨ (x = d ∧ n = name) ∧
      Trusted c.user (s.tree.inode d).owner ∧ (s.tree.inode d).mode &&& 0o1000 ≠ 0)
    (hl : s.tree.resolve c p = .ok (.missing d name)) :
    Held c p { s with tree := s.tree.add c d name 0o600 [] } s.tree.next [] := by
  have hfree := (resolve_lands hw p).2 d name hl
  have hm := add_oneMore hfree []
  generalize ht : s.tree.add c d name 0o600 [] = t' at hm
  have hor : t'.origin c.cwd p = s.tree.origin c.cwd p := by unfold Tree.origin; rw [hm.root]
  have hnext := hm.next
  refine ⟨⟨by rw [hm.root, hnext]; exact Nat.lt_succ_of_lt hw.root, by rw [hnext]; exact Nat.lt_succ_of_lt hw.cwd, ?_⟩, ?_, ?_, ?_, ?_,
    hm.file.1, hm.file.2.1, ?_, ?_, ?_⟩
  · dsimp only
    intro x hx e hn n i he
    rw [hnext] at hx ⊢
    by_cases hxn : x = s.tree.next
    · rw [hxn, hm.file.1] at hn; cases hn
    have hx' : x < s.tree.next := by omega
    obtain ⟨e₀, e₀', hd0, he0, hd0', he0', hoth, -⟩ := hm.dir
    by_cases hxd : x = d
    · subst hxd
      rw [hd0'] at hn; cases hn
      by_cases hnn : n = name
      · rw [hnn, he0'] at he; cases he; omega
      · rw [hoth n hnn] at he
        exact Nat.lt_succ_of_lt (hw.entries x hx' _ hd0 n i he)
    · rw [hm.others x hxd hxn] at hn
      exact Nat.lt_succ_of_lt (hw.entries x hx' _ hn n i he)
  · intro i hi
    dsimp only
    rw [hnext]
    exact Nat.lt_succ_of_lt (ho i hi)
  · intro x n hx
    dsimp only at hx ⊢
    rw [hor] at hx
    obtain ⟨h1, h2⟩ := onWay_oneMore hw hm hx (origin_lt hw.root hw.cwd _)
    exact firm_oneMore hw hm h2 ((hf x n h1).imp id fun h => ⟨rfl, h⟩)
  · dsimp only
    rcases resolve_changes hw hm p with h | h | h
    · exact absurd hl h.1
    · exact h.2
    · rw [hl] at h; cases h.1
  · dsimp only; rw [hnext]; exact Nat.lt_succ_self _
  · dsimp only
    rw [hm.file.2.2.2]
  · cases hr : s.reads s.tree.next with
    | false => rfl
    | true => exact absurd (ho _ (.inl hr)) (Nat.lt_irrefl _)
  · cases hr : s.writes s.tree.next with
    | false => rfl
    | true => exact absurd (ho _ (.inr hr)) (Nat.lt_irrefl _)

/-! ## the invariant -/

/-- A lookup that will end at this place -/
def LooksFor (c : Cred) (s : Scene) (r : Except Errno Spot) : Looking → Prop
  | .on w => w.dir < s.tree.next ∧ FirmFrom s.tree c.user w.dir w.parts ∧ Tree.goOn s.tree c w = r
  | .ends r' => r' = r

theorem looksFor_other {c a : Cred} {s s' : Scene} (hw : Whole s.tree c) (h0 : a.user ≠ 0) (hu : a.user ≠ c.user)
    (hm : Meddles a s s') {r : Except Errno Spot} {l : Looking} (h : LooksFor c s r l) : LooksFor c s' r l := by
  cases l with
  | ends _ => exact h
  | on w =>
    obtain ⟨h1, h2, h3⟩ := h
    refine ⟨Nat.lt_of_lt_of_le h1 hm.next, firmFrom_kept hm h0 hu hw h1 h2, ?_⟩
    unfold Tree.goOn at h3 ⊢
    rw [walk_same hm h0 hu hw _ _ _ _ h1 h2]; exact h3

theorem looksFor_start {c : Cred} {s : Scene} (hw : Whole s.tree c) {p : Bytes} (hf : FirmPath s.tree c p) :
    LooksFor c s (s.tree.resolve c p) (s.tree.start c p) := by
  have := resolve_start s.tree c p
  cases hs : s.tree.start c p with
  | ends r => rw [hs] at this; exact this.symm
  | on w =>
    rw [hs] at this
    obtain ⟨h1, h2⟩ := start_on hw hf hs
    exact ⟨h1, h2, this.symm⟩

theorem looksFor_look {c : Cred} {s : Scene} (hw : Whole s.tree c) {r : Except Errno Spot} {w : Way}
    (h : LooksFor c s r (.on w)) : LooksFor c s r (s.tree.look c w) := by
  obtain ⟨h1, h2, h3⟩ := h
  have := walk_look s.tree c w
  cases hs : s.tree.look c w with
  | ends r' => rw [hs] at this; exact this.symm.trans h3
  | on w' =>
    rw [hs] at this
    obtain ⟨h4, h5⟩ := look_on hw hs h1 h2
    exact ⟨h4, h5, this.symm.trans h3⟩

/-- A path that leads to a free name is well formed. -/
theorem start_ready {t : Tree} {c : Cred} {p : Bytes} {sp : Spot} (h : t.resolve c p = .ok sp) : ∃ w, t.start c p = .on w := by
  unfold Tree.resolve at h
  unfold Tree.start
  split at h
  · cases h
  rename_i h1
  rw [if_neg h1]
  split at h
  · cases h
  rename_i h2
  rw [if_neg h2]
  split at h
  · cases h
  rename_i h3
  rw [if_neg h3]
  exact ⟨_, rfl⟩

def SaveInv (c : Cred) (env : SaveEnv) (words : List Bytes) (p : Bytes) (d : Nat) (name : Bytes) (s : Scene) : Saving → Prop
  | .stat l => SaveReady c p d name s ∧ LooksFor c s (.ok (.missing d name)) l
  | .opening l => SaveReady c p d name s ∧ LooksFor c s (.ok (.missing d name)) l ∧ ∃ w, l = .on w
  | .writing i k rest => env.openFails = false ∧ (∀ n, env.writeFails = some n → k ≤ n) ∧
      ∃ data, wordFileContent words = data ++ rest ∧ k = data.length ∧ Held c p s i data
  | .done r => (r = .ok () ∧ env.openFails = false ∧ env.writeFails = none) ∧ (∃ i, Held c p s i (wordFileContent words)) ∨
      r = .err .fileWrite ∧ (env.openFails = true ∧ SaveReady c p d name s ∨
        ∃ i n, env.writeFails = some n ∧ Held c p s i ((wordFileContent words).take n))

theorem saveInv_other {c a : Cred} {env : SaveEnv} {words : List Bytes} {p : Bytes} {d : Nat} {name : Bytes} {s s' : Scene}
    {m : Saving} (h : SaveInv c env words p d name s m) (h0 : a.user ≠ 0) (hu : a.user ≠ c.user) (hm : Meddles a s s') :
    SaveInv c env words p d name s' m := by
  cases m with
  | stat l => exact ⟨ready_other h.1 h0 hu hm, looksFor_other h.1.whole h0 hu hm h.2⟩
  | opening l => exact ⟨ready_other h.1 h0 hu hm, looksFor_other h.1.whole h0 hu hm h.2.1, h.2.2⟩
  | writing i k rest =>
    obtain ⟨h1, h5, data, h2, h3, h4⟩ := h
    exact ⟨h1, h5, data, h2, h3, held_other h4 h0 hu hm⟩
  | done r =>
    rcases h with ⟨h1, i, h2⟩ | ⟨h1, ⟨h2, h3⟩ | ⟨i, n, h2, h3⟩⟩
    · exact .inl ⟨h1, i, held_other h2 h0 hu hm⟩
    · exact .inr ⟨h1, .inl ⟨h2, ready_other h3 h0 hu hm⟩⟩
    · exact .inr ⟨h1, .inr ⟨i, n, h2, held_other h3 h0 hu hm⟩⟩

theorem saveInv_step {c : Cred} {env : SaveEnv} {words : List Bytes} {p : Bytes} {d : Nat} {name : Bytes} {s : Scene}
    {m : Saving} (h : SaveInv c env words p d name s m) :
    SaveInv c env words p d name { s with tree := (m.step c env words p s.tree).1 } (m.step c env words p s.tree).2 := by
  cases m with
  | stat l =>
    cases l with
    | on w => exact ⟨h.1, looksFor_look h.1.whole h.2⟩
    | ends r =>
      obtain ⟨h1, h2⟩ := h
      cases (show r = .ok (.missing d name) from h2)
      refine ⟨h1, ?_, start_ready h1.leads⟩
      have := looksFor_start h1.whole h1.firm
      rw [h1.leads] at this
      exact this
  | opening l =>
    obtain ⟨h1, h2, w, rfl⟩ := h
    have hl := looksFor_look h1.whole h2
    unfold Saving.step
    dsimp only
    cases hs : s.tree.look c w with
    | on w' =>
      rw [hs] at hl
      exact ⟨h1, hl, w', rfl⟩
    | ends r =>
      rw [hs] at hl
      cases (show r = .ok (.missing d name) from hl)
      dsimp only
      cases ho : env.openFails with
      | true =>
        rw [if_pos rfl]
        exact .inr ⟨rfl, .inl ⟨ho, h1⟩⟩
      | false =>
        rw [if_neg (by decide)]
        unfold Tree.createAt
        dsimp only
        rw [if_pos h1.may]
        exact ⟨ho, fun _ _ => Nat.zero_le _, [], by simp, rfl, created_held h1.whole h1.opened (fun x n hx => .inl (h1.firm x n hx)) h1.leads⟩
  | writing i k rest =>
    obtain ⟨h1, h5, data, h2, h3, h4⟩ := h
    unfold Saving.step
    dsimp only
    by_cases hf : env.writeFails = some k
    · rw [if_pos hf]
      refine .inr ⟨rfl, .inr ⟨i, k, hf, ?_⟩⟩
      rw [h2, h3, List.take_left]
      exact h4
    · rw [if_neg hf]
      cases rest with
      | nil =>
        dsimp only
        rw [List.append_nil] at h2
        cases hw : env.writeFails with
        | none =>
          rw [if_neg (by decide)]
          exact .inl ⟨⟨rfl, h1, hw⟩, i, by rw [h2]; exact h4⟩
        | some n =>
          rw [if_pos (by rfl)]
          by_cases hn : data.length ≤ n
          · exact .inr ⟨rfl, .inr ⟨i, n, hw, by rw [h2, List.take_of_length_le hn]; exact h4⟩⟩
          · exact absurd (h3 ▸ h5 n hw) hn
      | cons b rest =>
        dsimp only
        rw [h4.node]
        dsimp only
        rw [h3, writeAt_end]
        exact ⟨h1, fun n hn => Nat.lt_of_le_of_ne (h3 ▸ h5 n hn) (fun hk => hf (by rw [hn, h3, hk])),
          data ++ [b], by rw [h2, List.append_assoc]; rfl, by simp, held_write h4 _⟩
  | done r => exact h

theorem saveInv_later {c : Cred} {env : SaveEnv} {words : List Bytes} {p : Bytes} {d : Nat} {name : Bytes}
    {x y : Scene × Saving} (hl : Later c env words p x y) (h : SaveInv c env words p d name x.1 x.2) :
    SaveInv c env words p d name y.1 y.2 := by
  induction hl with
  | refl => exact h
  | step _ hg ih =>
    cases hg with
    | save s m => exact saveInv_step ih
    | other m a h0 hu hm => exact saveInv_other ih h0 hu hm

/-! ## the result -/

/-- saveMnemonic will not write anything. -/
structure Vain (c : Cred) (p : Bytes) (r : Except Errno Spot) (s : Scene) : Prop where
  whole : Whole s.tree c
  firm : FirmPath s.tree c p
  leads : s.tree.resolve c p = r
  no : ∀ d name, r = .ok (.missing d name) → c.may (s.tree.inode d) 2 = false

theorem vain_other {c a : Cred} {p : Bytes} {r : Except Errno Spot} {s s' : Scene} (h : Vain c p r s) (h0 : a.user ≠ 0)
    (hu : a.user ≠ c.user) (hm : Meddles a s s') : Vain c p r s' := by
  refine ⟨whole_kept hm h.whole, firmPath_kept hm h0 hu h.whole h.firm, ?_, ?_⟩
  · rw [resolve_same hm h0 hu h.whole h.firm]; exact h.leads
  · intro d name hr
    have hl := h.leads.trans hr
    obtain ⟨hd, -, e, hn, -⟩ := (resolve_lands h.whole p).2 d name hl
    obtain ⟨e', -, -, h1, h2, h3⟩ := firm_entry hm h0 hu (h.firm d name (resolve_onWay hl)) hd hn
    rw [may_congr c h1 h2 h3]; exact h.no d name hr

/-- What it returns then -/
def vainResult : Except Errno Spot → Res Unit
  | .ok (.found _) => .err .fileExists
  | .ok (.missing _ _) => .err .fileWrite
  | .error e => if e = .noent then .err .fileWrite else .err .fileInaccessible

def VainInv (c : Cred) (p : Bytes) (r : Except Errno Spot) (s : Scene) : Saving → Prop
  | .stat l => Vain c p r s ∧ LooksFor c s r l
  | .opening l => Vain c p r s ∧ LooksFor c s r l ∧ vainResult r = .err .fileWrite
  | .writing _ _ _ => False
  | .done q => q = vainResult r

theorem vainInv_later {c : Cred} {env : SaveEnv} {words : List Bytes} {p : Bytes} {r : Except Errno Spot}
    {x y : Scene × Saving} (hl : Later c env words p x y) (h : VainInv c p r x.1 x.2) : VainInv c p r y.1 y.2 := by
  induction hl with
  | refl => exact h
  | step _ hg ih =>
    cases hg with
    | other m a h0 hu hm =>
      cases m with
      | stat l => exact ⟨vain_other ih.1 h0 hu hm, looksFor_other ih.1.whole h0 hu hm ih.2⟩
      | opening l => exact ⟨vain_other ih.1 h0 hu hm, looksFor_other ih.1.whole h0 hu hm ih.2.1, ih.2.2⟩
      | writing i k rest => exact ih
      | done q => exact ih
    | save s m =>
      dsimp only at ih ⊢
      cases m with
      | stat l =>
        obtain ⟨h1, h2⟩ := ih
        cases l with
        | on w => exact ⟨h1, looksFor_look h1.whole h2⟩
        | ends r' =>
          have h2 : r' = r := h2
          subst h2
          have hst : LooksFor c s r' (s.tree.start c p) := by
            have := looksFor_start h1.whole h1.firm
            rw [h1.leads] at this
            exact this
          cases r' with
          | error e =>
            unfold Saving.step
            dsimp only
            by_cases he : e = .noent
            · rw [if_pos he]
              exact ⟨h1, hst, by unfold vainResult; dsimp only; rw [if_pos he]⟩
            · rw [if_neg he]
              show _ = vainResult _
              unfold vainResult
              dsimp only
              rw [if_neg he]
          | ok sp =>
            cases sp with
            | found i => rfl
            | missing d name => exact ⟨h1, hst, rfl⟩
      | opening l =>
        obtain ⟨h1, h2, h3⟩ := ih
        cases l with
        | ends r' => exact h3.symm
        | on w =>
          have hl := looksFor_look h1.whole h2
          unfold Saving.step
          dsimp only
          cases hs : s.tree.look c w with
          | on w' => rw [hs] at hl; exact ⟨h1, hl, h3⟩
          | ends r' =>
            rw [hs] at hl
            have hl : r' = r := hl
            subst hl
            have : (if env.openFails then .error .other else s.tree.createAt c r' 0o600 : Except Errno (Tree × Nat)) =
                .error .other ∨ ∃ e, (if env.openFails then .error .other else s.tree.createAt c r' 0o600 :
                  Except Errno (Tree × Nat)) = .error e := by
              by_cases ho : env.openFails = true
              · rw [if_pos ho]; exact .inl rfl
              rw [if_neg ho]
              right
              unfold Tree.createAt
              cases r' with
              | error e => exact ⟨e, rfl⟩
              | ok sp =>
                cases sp with
                | found i => cases h3
                | missing d name => dsimp only; rw [if_neg (by rw [h1.no d name rfl]; decide)]; exact ⟨_, rfl⟩
            rcases this with h4 | ⟨e, h4⟩ <;> simp only [h4] <;> exact h3.symm
      | writing i k rest => exact (show False from ih).elim
      | done q => exact ih

/-- The result of saveMnemonic when nobody interferes -/
theorem saveMnemonicT_vain {t : Tree} {c : Cred} {env : SaveEnv} {words : List Bytes} {p : Bytes}
    (h : ∀ d name, t.resolve c p = .ok (.missing d name) → c.may (t.inode d) 2 = false) :
    (saveMnemonicT t c env words p).2 = vainResult (t.resolve c p) := by
  unfold saveMnemonicT Tree.stat
  cases hr : t.resolve c p with
  | error e =>
    dsimp only [vainResult]
    by_cases he : e = .noent
    · rw [if_neg (by simp [he]), if_pos he]
      have : ∃ e', (if env.openFails then .error .other else t.create c p 0o600 : Except Errno (Tree × Nat)) = .error e' := by
        by_cases ho : env.openFails = true
        · rw [if_pos ho]; exact ⟨_, rfl⟩
        · rw [if_neg ho]; unfold Tree.create; rw [hr]; exact ⟨_, rfl⟩
      obtain ⟨e', h1⟩ := this
      simp only [h1]
    · rw [if_pos he, if_neg he]
  | ok sp =>
    cases sp with
    | found i => rfl
    | missing d name =>
      dsimp only [vainResult]
      rw [if_neg (by decide)]
      have : ∃ e', (if env.openFails then .error .other else t.create c p 0o600 : Except Errno (Tree × Nat)) = .error e' := by
        by_cases ho : env.openFails = true
        · rw [if_pos ho]; exact ⟨_, rfl⟩
        · rw [if_neg ho]; unfold Tree.create; rw [hr]; dsimp only; rw [if_neg (by rw [h d name hr]; decide)]; exact ⟨_, rfl⟩
      obtain ⟨e', h1⟩ := this
      simp only [h1]

theorem saveMnemonicT_ready {t : Tree} {c : Cred} {env : SaveEnv} {words : List Bytes} {p : Bytes} {d : Nat} {name : Bytes}
    (hr : t.resolve c p = .ok (.missing d name)) (hm : c.may (t.inode d) 2 = true) :
    (saveMnemonicT t c env words p).2 = if env.openFails = true ∨ env.writeFails.isSome = true then .err .fileWrite else .ok () := by
  unfold saveMnemonicT Tree.stat
  rw [hr]
  dsimp only
  rw [if_neg (by decide)]
  by_cases ho : env.openFails = true
  · rw [if_pos (Or.inl ho), if_pos ho]
  · rw [if_neg ho]
    unfold Tree.create
    rw [hr]
    dsimp only
    rw [if_pos hm]
    dsimp only
    cases hw : env.writeFails with
    | none => rw [if_neg (by simp [ho])]
    | some n => rw [if_pos (by exact Or.inr rfl)]

/-! ## the end -/

def Saving.isDone : Saving → Bool
  | .done _ => true
  | _ => false

/-- How much is left to do at most -/
def Saving.rank : Saving → ℕ ×ₗ ℕ ×ₗ ℕ
  | .stat (.on w) => toLex (3, toLex (w.links, w.parts.length + 1))
  | .stat (.ends _) => toLex (3, toLex (0, 0))
  | .opening (.on w) => toLex (2, toLex (w.links, w.parts.length + 1))
  | .opening (.ends _) => toLex (2, toLex (0, 0))
  | .writing _ _ rest => toLex (1, toLex (0, rest.length))
  | .done _ => toLex (0, toLex (0, 0))

theorem look_less {t : Tree} {c : Cred} {w w' : Way} (h : t.look c w = .on w') :
    w'.links < w.links ∨ w'.links = w.links ∧ w'.parts.length < w.parts.length := by
  obtain ⟨links, d, parts, slash⟩ := w
  unfold Tree.look at h
  dsimp only at h ⊢
  cases parts with
  | nil => cases h
  | cons name rest =>
    dsimp only at h
    cases hn : (t.inode d).node with
    | file _ => rw [hn] at h; cases h
    | link _ => rw [hn] at h; cases h
    | special _ => rw [hn] at h; cases h
    | dir e =>
      rw [hn] at h
      dsimp only at h
      by_cases hm : c.may (t.inode d) 1 = false
      · rw [if_pos hm] at h; cases h
      rw [if_neg hm] at h
      by_cases hlen : name.length > 255
      · rw [if_pos hlen] at h; cases h
      rw [if_neg hlen] at h
      cases he : e name with
      | none => rw [he] at h; cases h
      | some i =>
        rw [he] at h
        dsimp only at h
        cases hk : (t.inode i).node with
        | file _ => rw [hk] at h; cases h
        | special _ => rw [hk] at h; cases h
        | link target =>
          rw [hk] at h
          dsimp only at h
          by_cases ht : target = []
          · rw [if_pos ht] at h; cases h
          rw [if_neg ht] at h
          cases links with
          | zero => cases h
          | succ n => cases h; exact .inl (Nat.lt_succ_self _)
        | dir e1 =>
          rw [hk] at h
          dsimp only at h
          by_cases hr : rest = []
          · rw [if_pos hr] at h; cases h
          · rw [if_neg hr] at h; cases h; exact .inr ⟨rfl, Nat.lt_succ_self _⟩

theorem rank_lt {a a' b b' x x' : ℕ} (h : a < a' ∨ a = a' ∧ (b < b' ∨ b = b' ∧ x < x')) :
    (toLex (a, toLex (b, x)) : ℕ ×ₗ ℕ ×ₗ ℕ) < toLex (a', toLex (b', x')) := by
  rw [Prod.Lex.toLex_lt_toLex, Prod.Lex.toLex_lt_toLex]
  exact h

theorem step_rank (c : Cred) (env : SaveEnv) (words : List Bytes) (p : Bytes) (t : Tree) (m : Saving) (hm : Saving.isDone m = false) :
    Saving.rank (m.step c env words p t).2 < Saving.rank m := by
  cases m with
  | done r => cases hm
  | writing i k rest =>
    unfold Saving.step
    dsimp only
    by_cases hf : env.writeFails = some k
    · rw [if_pos hf]; exact rank_lt (.inl (by decide))
    rw [if_neg hf]
    cases rest with
    | nil => exact rank_lt (.inl (by decide))
    | cons b rest =>
      dsimp only
      split <;> exact rank_lt (.inr ⟨rfl, .inr ⟨rfl, Nat.lt_succ_self _⟩⟩)
  | stat l =>
    cases l with
    | on w =>
      unfold Saving.step
      dsimp only
      cases h : t.look c w with
      | ends r =>
        refine rank_lt (.inr ⟨rfl, ?_⟩)
        rcases Nat.eq_zero_or_pos w.links with h1 | h1
        · exact .inr ⟨h1.symm, Nat.succ_pos _⟩
        · exact .inl h1
      | on w' =>
        refine rank_lt (.inr ⟨rfl, ?_⟩)
        rcases look_less h with h1 | ⟨h1, h2⟩
        · exact .inl h1
        · exact .inr ⟨h1, Nat.succ_lt_succ h2⟩
    | ends r =>
      have hopen : ∀ l, Saving.rank (.opening l) < Saving.rank (.stat (.ends r)) := fun l => by
        cases l <;> exact rank_lt (.inl (by decide))
      cases r with
      | error e =>
        unfold Saving.step
        dsimp only
        split
        · exact hopen _
        · exact rank_lt (.inl (by decide))
      | ok sp =>
        cases sp with
        | found i => exact rank_lt (.inl (by decide))
        | missing d n => exact hopen _
  | opening l =>
    cases l with
    | ends r => exact rank_lt (.inl (by decide))
    | on w =>
      unfold Saving.step
      dsimp only
      cases h : t.look c w with
      | on w' =>
        refine rank_lt (.inr ⟨rfl, ?_⟩)
        rcases look_less h with h1 | ⟨h1, h2⟩
        · exact .inl h1
        · exact .inr ⟨h1, Nat.succ_lt_succ h2⟩
      | ends r =>
        dsimp only
        split <;> exact rank_lt (.inl (by decide))

theorem step_done (c : Cred) (env : SaveEnv) (words : List Bytes) (p : Bytes) (t : Tree) (m : Saving) (hm : Saving.isDone m = true) :
    m.step c env words p t = (t, m) := by
  cases m with
  | done r => rfl
  | stat l => cases hm
  | opening l => cases hm
  | writing i k rest => cases hm

/-! ## alone -/

/-- Steps without others in between -/
def Saving.alone (c : Cred) (env : SaveEnv) (words : List Bytes) (p : Bytes) : Nat → Tree × Saving → Tree × Saving
  | 0, x => x
  | n + 1, x => Saving.alone c env words p n (x.2.step c env words p x.1)

theorem alone_add (c : Cred) (env : SaveEnv) (words : List Bytes) (p : Bytes) : ∀ (n m : Nat) (x : Tree × Saving),
    Saving.alone c env words p (n + m) x = Saving.alone c env words p m (Saving.alone c env words p n x)
  | 0, m, x => by rw [Nat.zero_add]; rfl
  | n + 1, m, x => by
    rw [Nat.succ_add]
    exact alone_add c env words p n m _

theorem alone_stat (c : Cred) (env : SaveEnv) (words : List Bytes) (p : Bytes) (t : Tree) : ∀ (links len : Nat) (w : Way),
    w.links = links → w.parts.length = len →
    ∃ n, Saving.alone c env words p n (t, .stat (.on w)) = (t, .stat (.ends (Tree.goOn t c w))) := by
  intro links
  induction links using Nat.strongRecOn with
  | _ links ihl =>
    intro len
    induction len using Nat.strongRecOn with
    | _ len ihp =>
      intro w h1 h2
      have hw := walk_look t c w
      cases h : t.look c w with
      | ends r =>
        rw [h] at hw
        refine ⟨1, ?_⟩
        show (t, Saving.stat (t.look c w)) = _
        rw [h, hw]
      | on w' =>
        rw [h] at hw
        have : ∃ n, Saving.alone c env words p n (t, .stat (.on w')) = (t, .stat (.ends (Tree.goOn t c w'))) := by
          rcases look_less h with h3 | ⟨h3, h4⟩
          · exact ihl _ (h1 ▸ h3) _ w' rfl rfl
          · exact ihp _ (h2 ▸ h4) w' (h3.trans h1) rfl
        obtain ⟨n, hn⟩ := this
        refine ⟨n + 1, ?_⟩
        show Saving.alone c env words p n (t, Saving.stat (t.look c w)) = _
        rw [h, hn, hw]

theorem alone_opening (c : Cred) (env : SaveEnv) (words : List Bytes) (p : Bytes) (t : Tree) : ∀ (links len : Nat) (w : Way),
    w.links = links → w.parts.length = len →
    ∃ n, Saving.alone c env words p n (t, .opening (.on w)) =
      match (if env.openFails then .error .other else t.createAt c (Tree.goOn t c w) 0o600 : Except Errno (Tree × Nat)) with
      | .error _ => (t, .done (.err .fileWrite))
      | .ok (t', i) => (t', .writing i 0 (wordFileContent words)) := by
  intro links
  induction links using Nat.strongRecOn with
  | _ links ihl =>
    intro len
    induction len using Nat.strongRecOn with
    | _ len ihp =>
      intro w h1 h2
      have hw := walk_look t c w
      cases h : t.look c w with
      | ends r =>
        rw [h] at hw
        refine ⟨1, ?_⟩
        show Saving.step c env words p t (.opening (.on w)) = _
        unfold Saving.step
        dsimp only
        simp only [h, hw]
        generalize (if env.openFails = true then Except.error Errno.other else t.createAt c r 0o600) = q
        cases q <;> rfl
      | on w' =>
        rw [h] at hw
        rw [hw]
        have := (show _ ∨ _ from look_less h).elim (fun h3 => ihl _ (h1 ▸ h3) _ w' rfl rfl)
          (fun h3 => ihp _ (h2 ▸ h3.2) w' (h3.1.trans h1) rfl)
        obtain ⟨n, hn⟩ := this
        refine ⟨n + 1, ?_⟩
        show Saving.alone c env words p n (Saving.step c env words p t (.opening (.on w))) = _
        have hs : Saving.step c env words p t (.opening (.on w)) = (t, .opening (.on w')) := by
          unfold Saving.step
          dsimp only
          rw [h]
        rw [hs, hn]

theorem alone_writing (c : Cred) (env : SaveEnv) (words : List Bytes) (p : Bytes) (i : Nat) (o : Bytes) (sh : List (List Bytes)) :
    ∀ (rest : Bytes) (k : Nat) (t : Tree), (∃ data, (t.inode i).node = .file data) → (∀ n, env.writeFails = some n → k ≤ n) →
    ∃ n, Saving.alone c env words p n (t, .writing i k rest) =
      ((TreeWorld.run c ⟨t, some (i, k), o, sh⟩
        ((match env.writeFails with | some n => rest.take (n - k) | none => rest).map .write)).tree,
        .done (if env.writeFails.isSome then .err .fileWrite else .ok ()))
  | rest, k, t, ⟨data, hn⟩, hk => by
    by_cases hf : env.writeFails = some k
    · refine ⟨1, ?_⟩
      show Saving.step c env words p t (.writing i k rest) = _
      unfold Saving.step
      dsimp only
      rw [if_pos hf, hf]
      dsimp only
      rw [Nat.sub_self]
      rfl
    cases rest with
    | nil =>
      refine ⟨1, ?_⟩
      show Saving.step c env words p t (.writing i k []) = _
      unfold Saving.step
      dsimp only
      rw [if_neg hf]
      cases env.writeFails <;> simp [TreeWorld.run]
    | cons b rest =>
      obtain ⟨n, h⟩ := alone_writing c env words p i o sh rest (k + 1) (t.setData i (writeAt data k b))
        ⟨_, by simp [Tree.setData]; rfl⟩ (fun n hn => Nat.lt_of_le_of_ne (hk n hn) (fun e => hf (by rw [hn, e])))
      refine ⟨n + 1, ?_⟩
      show Saving.alone c env words p n (Saving.step c env words p t (.writing i k (b :: rest))) = _
      have hs : Saving.step c env words p t (.writing i k (b :: rest)) =
          (t.setData i (writeAt data k b), .writing i (k + 1) rest) := by
        unfold Saving.step
        dsimp only
        rw [if_neg hf, hn]
      rw [hs, h]
      have hstep : TreeWorld.step c ⟨t, some (i, k), o, sh⟩ (.write b) =
          ⟨t.setData i (writeAt data k b), some (i, k + 1), o, sh⟩ := by
        unfold TreeWorld.step
        dsimp only
        rw [hn]
      have hrun : ∀ l : Bytes, TreeWorld.run c ⟨t, some (i, k), o, sh⟩ ((b :: l).map .write) =
          TreeWorld.run c ⟨t.setData i (writeAt data k b), some (i, k + 1), o, sh⟩ (l.map .write) := fun l => by
        show TreeWorld.run c (TreeWorld.step c ⟨t, some (i, k), o, sh⟩ (.write b)) (l.map .write) = _
        rw [hstep]
      cases hw : env.writeFails with
      | none => dsimp only; rw [hrun]
      | some m =>
        have : m - k = m - (k + 1) + 1 := by
          have := hk m hw
          have : m ≠ k := fun e => hf (by rw [hw, e])
          omega
        dsimp only
        rw [this, List.take_succ_cons, hrun]

/-- Without others, the steps do what `saveMnemonicT` says. -/
theorem alone_saves {t : Tree} {c : Cred} (hs : Whole t c) (env : SaveEnv) (words : List Bytes) (p : Bytes) :
    ∃ n, Saving.alone c env words p n (t, .begin t c p) =
      ((TreeWorld.run c ⟨t, none, [], []⟩ (saveMnemonicT t c env words p).1).tree, .done (saveMnemonicT t c env words p).2) := by
  have hstat : ∃ n, Saving.alone c env words p n (t, .begin t c p) = (t, .stat (.ends (t.resolve c p))) := by
    have hr := resolve_start t c p
    unfold Saving.begin
    cases h : t.start c p with
    | ends r => rw [h] at hr; exact ⟨0, by rw [hr]; rfl⟩
    | on w =>
      rw [h] at hr
      rw [hr]
      exact alone_stat c env words p t _ _ w rfl rfl
  have hopen : ∃ n, Saving.alone c env words p n (t, .opening (t.start c p)) =
      match (if env.openFails then .error .other else t.create c p 0o600 : Except Errno (Tree × Nat)) with
      | .error _ => (t, .done (.err .fileWrite))
      | .ok (t', i) => (t', .writing i 0 (wordFileContent words)) := by
    have hr := resolve_start t c p
    rw [create_createAt]
    cases h : t.start c p with
    | on w =>
      rw [h] at hr
      rw [hr]
      exact alone_opening c env words p t _ _ w rfl rfl
    | ends r =>
      rw [h] at hr
      have hre : ∃ e, t.resolve c p = .error e := by
        unfold Tree.start at h
        split at h
        · cases h; exact ⟨_, hr⟩
        split at h
        · cases h; exact ⟨_, hr⟩
        split at h
        · cases h; exact ⟨_, hr⟩
        · cases h
      obtain ⟨e, he⟩ := hre
      refine ⟨1, ?_⟩
      rw [he]
      have : (if env.openFails then .error .other else t.createAt c (.error e) 0o600 : Except Errno (Tree × Nat)) =
          .error (if env.openFails then .other else e) := by
        cases env.openFails <;> rfl
      rw [this]
      rfl
  obtain ⟨n, hn⟩ := hstat
  have hchain : ∀ {x y : Tree × Saving}, (∃ m, Saving.alone c env words p m x = y) →
      Saving.step c env words p t (.stat (.ends (t.resolve c p))) = x →
      ∃ n, Saving.alone c env words p n (t, .begin t c p) = y := by
    rintro x y ⟨m, hm⟩ hx
    refine ⟨n + (m + 1), ?_⟩
    rw [alone_add, hn]
    show Saving.alone c env words p m (Saving.step c env words p t (.stat (.ends (t.resolve c p)))) = y
    rw [hx, hm]
  -- what follows when the file is not there
  have hlast : t.stat c p = .error .noent → ∃ n, Saving.alone c env words p n (t, .opening (t.start c p)) =
      ((TreeWorld.run c ⟨t, none, [], []⟩ (saveMnemonicT t c env words p).1).tree, .done (saveMnemonicT t c env words p).2) := by
    intro hst
    obtain ⟨m, hm⟩ := hopen
    unfold saveMnemonicT
    rw [hst]
    dsimp only
    rw [if_neg (by decide)]
    by_cases ho : env.openFails = true
    · rw [if_pos ho] at hm ⊢
      exact ⟨m, hm⟩
    rw [if_neg ho] at hm ⊢
    cases hc : t.create c p 0o600 with
    | error e => rw [hc] at hm; exact ⟨m, hm⟩
    | ok r =>
      obtain ⟨t', i⟩ := r
      rw [hc] at hm
      dsimp only at hm ⊢
      have hfile : ∃ data, (t'.inode i).node = .file data := by
        have hl := resolve_lands hs p
        unfold Tree.create at hc
        unfold Tree.stat at hst
        cases hr : t.resolve c p with
        | error e => rw [hr] at hc; cases hc
        | ok sp =>
          cases sp with
          | found j => rw [hr] at hst; cases hst
          | missing d name =>
            rw [hr] at hc
            dsimp only at hc
            by_cases hmay : c.may (t.inode d) 2 = true
            · rw [if_pos hmay] at hc
              cases hc
              exact ⟨_, (add_oneMore (hl.2 d name hr) []).file.1⟩
            · rw [if_neg hmay] at hc; cases hc
      obtain ⟨q, hq⟩ := alone_writing c env words p i [] [] (wordFileContent words) 0 t' hfile (fun _ _ => Nat.zero_le _)
      refine ⟨m + q, ?_⟩
      rw [alone_add, hm, hq]
      have hstep : TreeWorld.step c ⟨t, none, [], []⟩ (.openTrunc p 0o600) = ⟨t', some (i, 0), [], []⟩ := by
        unfold TreeWorld.step
        dsimp only
        rw [hc]
      cases hw : env.writeFails with
      | none =>
        show _ = ((TreeWorld.run c (TreeWorld.step c ⟨t, none, [], []⟩ (.openTrunc p 0o600)) _).tree, _)
        rw [hstep]
        rfl
      | some k =>
        show _ = ((TreeWorld.run c (TreeWorld.step c ⟨t, none, [], []⟩ (.openTrunc p 0o600)) _).tree, _)
        rw [hstep]
        rfl
  cases hr : t.resolve c p with
  | error e =>
    have hst : t.stat c p = .error e := by unfold Tree.stat; rw [hr]
    by_cases he : e = .noent
    · refine hchain (hlast (by rw [hst, he])) ?_
      rw [hr, he]
      rfl
    · have h1 : saveMnemonicT t c env words p = ([], .err .fileInaccessible) := by
        unfold saveMnemonicT
        rw [hst]
        dsimp only
        rw [if_pos he]
      rw [h1]
      refine hchain ⟨0, rfl⟩ ?_
      rw [hr]
      unfold Saving.step
      dsimp only
      rw [if_neg he]
      rfl
  | ok sp =>
    cases sp with
    | found i =>
      have h1 : saveMnemonicT t c env words p = ([], .err .fileExists) := by
        unfold saveMnemonicT Tree.stat
        rw [hr]
      rw [h1]
      refine hchain ⟨0, rfl⟩ ?_
      rw [hr]
      rfl
    | missing d name =>
      refine hchain (hlast (by unfold Tree.stat; rw [hr])) ?_
      rw [hr]
      rfl

end Verif.Proofs
