import Verif.Proofs.Others

/-! What calls of the operating system can do. -/

namespace Verif.Proofs

open Verif.Model Verif.Model.Cli Verif.Spec

/-- The process may change what the name leads to. -/
def Leave (a : Cred) (t : Tree) (d : Nat) (e : Bytes → Option Nat) (name : Bytes) : Prop :=
  a.may (t.inode d) 2 = true ∧ ((t.inode d).mode &&& 0o1000 = 0 ∨ (t.inode d).owner = a.user ∨
    ∀ i, e name = some i → (t.inode i).owner = a.user)

/-- Trees that differ in entries only -/
theorem meddles_entries {a : Cred} {s : Scene} {t' : Tree} (hr : t'.root = s.tree.root) (hx : t'.next = s.tree.next)
    (hattr : ∀ i, (t'.inode i).owner = (s.tree.inode i).owner ∧ (t'.inode i).group = (s.tree.inode i).group ∧
      (t'.inode i).mode = (s.tree.inode i).mode)
    (hdir : ∀ d e, (s.tree.inode d).node = .dir e → ∃ e', (t'.inode d).node = .dir e' ∧
      ∀ name, e' name = e name ∨ Leave a s.tree d e name)
    (hnode : ∀ i, (∀ e, (s.tree.inode i).node ≠ .dir e) → (t'.inode i).node = (s.tree.inode i).node)
    (hnamed : ∀ d < t'.next, ∀ e, (t'.inode d).node = .dir e → ∀ name i, e name = some i → i < t'.next) :
    Meddles a s { s with tree := t' } where
  root := hr
  next := by dsimp only; rw [hx]
  owner i _ := (hattr i).1
  mode i _ _ := ⟨(hattr i).2.1, by rw [(hattr i).2.2], fun _ => (hattr i).2.2⟩
  entries d _ e hn := hdir d e hn
  links i _ x hn := by rw [hnode i (by simp [hn])]; exact hn
  files i _ x hn := ⟨x, by rw [hnode i (by simp [hn])]; exact hn, .inl rfl⟩
  specials i _ x hn := ⟨x, by rw [hnode i (by simp [hn])]; exact hn⟩
  created i h1 h2 := absurd h2 (by dsimp only; rw [hx]; exact Nat.not_lt.2 h1)
  named := hnamed
  reads i h := .inl h
  writes i h := .inl h

theorem meddles_refl {a c : Cred} {s : Scene} (hw : Whole s.tree c) : Meddles a s s :=
  meddles_entries (t' := s.tree) rfl rfl (fun _ => ⟨rfl, rfl, rfl⟩) (fun _ e h => ⟨e, h, fun _ => .inl rfl⟩) (fun _ _ => rfl) hw.entries

theorem setEntry_attr (t : Tree) (d : Nat) (name : Bytes) (x : Option Nat) (i : Nat) :
    ((t.setEntry d name x).inode i).owner = (t.inode i).owner ∧ ((t.setEntry d name x).inode i).group = (t.inode i).group ∧
    ((t.setEntry d name x).inode i).mode = (t.inode i).mode := by
  unfold Tree.setEntry
  dsimp only
  by_cases h : i = d
  · rw [if_pos h, h]
    cases (t.inode d).node <;> exact ⟨rfl, rfl, rfl⟩
  · rw [if_neg h]; exact ⟨rfl, rfl, rfl⟩

theorem setEntry_dir (t : Tree) (d : Nat) (name : Bytes) (x : Option Nat) {i : Nat} {e : Bytes → Option Nat}
    (h : (t.inode i).node = .dir e) :
    ((t.setEntry d name x).inode i).node = .dir (fun n => if i = d ∧ n = name then x else e n) := by
  unfold Tree.setEntry
  dsimp only
  by_cases hi : i = d
  · subst hi
    rw [if_pos rfl, h]
    simp
  · rw [if_neg hi, h]
    simp [hi]

theorem setEntry_node (t : Tree) (d : Nat) (name : Bytes) (x : Option Nat) {i : Nat} (h : ∀ e, (t.inode i).node ≠ .dir e) :
    ((t.setEntry d name x).inode i).node = (t.inode i).node := by
  unfold Tree.setEntry
  dsimp only
  by_cases hi : i = d
  · subst hi
    rw [if_pos rfl]
    cases hn : (t.inode i).node with
    | dir e => exact absurd hn (h e)
    | _ => simp [hn]
  · rw [if_neg hi]

theorem setEntry_whole {t : Tree} {c : Cred} (hw : Whole t c) (d : Nat) (name : Bytes) {x : Option Nat} (hx : ∀ i, x = some i → i < t.next) :
    Whole (t.setEntry d name x) c := by
  refine ⟨hw.root, hw.cwd, fun i hi e hn n j he => ?_⟩
  cases hk : (t.inode i).node with
  | dir e1 =>
    rw [setEntry_dir t d name x hk] at hn
    cases hn
    dsimp only at he
    by_cases hc : i = d ∧ n = name
    · rw [if_pos hc] at he; exact hx j he
    · rw [if_neg hc] at he; exact hw.entries i hi e1 hk n j he
  | file y => rw [setEntry_node t d name x (by simp [hk]), hk] at hn; cases hn
  | link y => rw [setEntry_node t d name x (by simp [hk]), hk] at hn; cases hn
  | special y => rw [setEntry_node t d name x (by simp [hk]), hk] at hn; cases hn

theorem meddles_setEntry {a c : Cred} {s : Scene} (hw : Whole s.tree c) {d : Nat} {name : Bytes} {x : Option Nat}
    (hx : ∀ i, x = some i → i < s.tree.next) (hl : ∀ e, (s.tree.inode d).node = .dir e → Leave a s.tree d e name) :
    Meddles a s { s with tree := s.tree.setEntry d name x } := by
  refine meddles_entries rfl rfl (setEntry_attr _ _ _ _) ?_ (fun i h => setEntry_node _ _ _ _ h) (setEntry_whole hw d name hx).entries
  intro i e h
  refine ⟨_, setEntry_dir _ _ _ _ h, fun n => ?_⟩
  by_cases hc : i = d ∧ n = name
  · right; rw [hc.1, hc.2]; exact hl e (hc.1 ▸ h)
  · left; rw [if_neg hc]

/-- A name taken out of a directory and given to the node in another -/
theorem meddles_move {a c : Cred} {s : Scene} (hw : Whole s.tree c) {d d' : Nat} {name name' : Bytes} {x x' : Option Nat}
    (hx : ∀ i, x = some i → i < s.tree.next) (hl : ∀ e, (s.tree.inode d).node = .dir e → Leave a s.tree d e name)
    (hx' : ∀ i, x' = some i → i < s.tree.next) (hl' : ∀ e, (s.tree.inode d').node = .dir e → Leave a s.tree d' e name') :
    Meddles a s { s with tree := (s.tree.setEntry d' name' x').setEntry d name x } := by
  have hw1 := setEntry_whole hw d' name' hx'
  refine meddles_entries rfl rfl (fun i => ?_) ?_ (fun i h => ?_) (setEntry_whole hw1 d name hx).entries
  · obtain ⟨h1, h2, h3⟩ := setEntry_attr (s.tree.setEntry d' name' x') d name x i
    obtain ⟨h4, h5, h6⟩ := setEntry_attr s.tree d' name' x' i
    exact ⟨h1.trans h4, h2.trans h5, h3.trans h6⟩
  · intro i e h
    refine ⟨_, setEntry_dir _ _ _ _ (setEntry_dir _ _ _ _ h), fun n => ?_⟩
    by_cases hc : i = d ∧ n = name
    · right; rw [hc.1, hc.2]; exact hl e (hc.1 ▸ h)
    · rw [if_neg hc]
      by_cases hc' : i = d' ∧ n = name'
      · right; rw [hc'.1, hc'.2]; exact hl' e (hc'.1 ▸ h)
      · left; rw [if_neg hc']
  · have h1 := setEntry_node s.tree d' name' x' h
    rw [setEntry_node _ _ _ _ (by rw [h1]; exact h), h1]

theorem addNode_new {t : Tree} (a : Cred) {d : Nat} (hd : d < t.next) (name : Bytes) (node : Node) (mode : UInt16) :
    (t.addNode a d name node mode).inode t.next =
      ⟨node, a.user, if (t.inode d).mode &&& 0o2000 = 0 then a.group else (t.inode d).group, mode⟩ := by
  have : t.next ≠ d := Nat.ne_of_gt hd
  simp [Tree.addNode, Tree.setEntry, this]

theorem addNode_old {t : Tree} (a : Cred) {d : Nat} (name : Bytes) (node : Node) (mode : UInt16) {i : Nat} (hi : i < t.next) :
    (t.addNode a d name node mode).inode i = (t.setEntry d name (some t.next)).inode i := by
  have h1 : i ≠ t.next := Nat.ne_of_lt hi
  unfold Tree.addNode Tree.setEntry
  dsimp only
  by_cases hid : i = d
  · subst hid
    rw [if_pos rfl, if_pos rfl, if_neg h1]
  · rw [if_neg hid, if_neg hid, if_neg h1]

/-- A new node -/
theorem meddles_addNode {a c : Cred} {s : Scene} (hw : Whole s.tree c) {d : Nat} (hd : d < s.tree.next) {name : Bytes} {node : Node}
    {mode : UInt16} (hnode : ∀ e, node = .dir e → ∀ n i, e n = some i → i < s.tree.next + 1)
    (hl : ∀ e, (s.tree.inode d).node = .dir e → Leave a s.tree d e name) (writes : Nat → Bool)
    (hwr : ∀ i, writes i = true → s.writes i = true ∨ i = s.tree.next) :
    Meddles a s { s with tree := s.tree.addNode a d name node mode, writes := writes } := by
  have hold : ∀ i, i < s.tree.next → (s.tree.addNode a d name node mode).inode i =
      (s.tree.setEntry d name (some s.tree.next)).inode i := fun i hi => addNode_old a name node mode hi
  have hattr := setEntry_attr s.tree d name (some s.tree.next)
  refine ⟨rfl, Nat.le_succ _, ?_, ?_, ?_, ?_, ?_, ?_, ?_, ?_, ?_, ?_⟩
  · intro i hi
    dsimp only
    rw [hold i hi]; exact (hattr i).1
  · intro i hi _
    dsimp only
    rw [hold i hi, (hattr i).2.1, (hattr i).2.2]
    exact ⟨rfl, rfl, fun _ => rfl⟩
  · intro i hi e hn
    dsimp only
    rw [hold i hi]
    refine ⟨_, setEntry_dir _ _ _ _ hn, fun n => ?_⟩
    by_cases hc : i = d ∧ n = name
    · right; rw [hc.1, hc.2]; exact hl e (hc.1 ▸ hn)
    · left; rw [if_neg hc]
  · intro i hi x hn
    dsimp only
    rw [hold i hi, setEntry_node _ _ _ _ (by simp [hn])]; exact hn
  · intro i hi x hn
    dsimp only
    rw [hold i hi, setEntry_node _ _ _ _ (by simp [hn])]; exact ⟨x, hn, .inl rfl⟩
  · intro i hi x hn
    dsimp only
    rw [hold i hi, setEntry_node _ _ _ _ (by simp [hn])]; exact ⟨x, hn⟩
  · intro i h1 h2
    have h2' : i < s.tree.next + 1 := h2
    have : i = s.tree.next := by omega
    subst this
    dsimp only
    rw [addNode_new a hd]
  · intro i hi e hn n j he
    have hi' : i < s.tree.next + 1 := hi
    show j < s.tree.next + 1
    dsimp only at hn
    by_cases hin : i = s.tree.next
    · subst hin
      rw [addNode_new a hd] at hn
      exact hnode e hn n j he
    · have hlt : i < s.tree.next := by omega
      rw [hold i hlt] at hn
      cases hk : (s.tree.inode i).node with
      | dir e1 =>
        rw [setEntry_dir _ _ _ _ hk] at hn
        cases hn
        dsimp only at he
        by_cases hc : i = d ∧ n = name
        · rw [if_pos hc] at he; cases he; exact Nat.lt_succ_self _
        · rw [if_neg hc] at he; exact Nat.lt_succ_of_lt (hw.entries i hlt e1 hk n j he)
      | file y => rw [setEntry_node _ _ _ _ (by simp [hk]), hk] at hn; cases hn
      | link y => rw [setEntry_node _ _ _ _ (by simp [hk]), hk] at hn; cases hn
      | special y => rw [setEntry_node _ _ _ _ (by simp [hk]), hk] at hn; cases hn
  · intro i h; exact .inl h
  · intro i h
    rcases hwr i h with h | h
    · exact .inl h
    · exact .inr (.inl ⟨Nat.le_of_eq h.symm, by rw [h]; exact Nat.lt_succ_self _⟩)

theorem add_addNode {t : Tree} (a : Cred) {d : Nat} (hd : d < t.next) (name : Bytes) (perm : UInt16) (data : Bytes) :
    t.add a d name perm data = t.addNode a d name (.file data) (perm &&& ~~~a.umask) := by
  have hne : d ≠ t.next := Nat.ne_of_lt hd
  unfold Tree.add Tree.addNode Tree.setEntry
  dsimp only
  congr 1
  funext j
  by_cases hj : j = t.next
  · subst hj
    rw [if_pos rfl, if_neg (Ne.symm hne), if_pos rfl]
  · rw [if_neg hj]
    by_cases hjd : j = d
    · rw [if_pos hjd, if_pos hjd, if_neg hne]
      cases (t.inode d).node <;> rfl
    · rw [if_neg hjd, if_neg hjd, if_neg hj]

/-- A file written to -/
theorem meddles_setData {a c : Cred} {s : Scene} (hw : Whole s.tree c) {i : Nat} {x : Bytes} (hn : (s.tree.inode i).node = .file x)
    (data : Bytes) (hm : s.writes i = true ∨ a.may (s.tree.inode i) 2 = true) (writes : Nat → Bool)
    (hwr : ∀ j, writes j = true → s.writes j = true ∨ j = i ∧ i < s.tree.next ∧ a.may (s.tree.inode i) 2 = true) :
    Meddles a s { s with tree := s.tree.setData i data, writes := writes } := by
  have hj : ∀ j, j ≠ i → (s.tree.setData i data).inode j = s.tree.inode j := fun j h => by simp [Tree.setData, h]
  have hi : (s.tree.setData i data).inode i = { s.tree.inode i with node := .file data } := by simp [Tree.setData]
  refine ⟨rfl, Nat.le_refl _, ?_, ?_, ?_, ?_, ?_, ?_, ?_, ?_, ?_, ?_⟩
  · intro j _
    dsimp only
    by_cases h : j = i
    · rw [h, hi]
    · rw [hj j h]
  · intro j _ _
    dsimp only
    by_cases h : j = i
    · rw [h, hi]; exact ⟨rfl, rfl, fun _ => rfl⟩
    · rw [hj j h]; exact ⟨rfl, rfl, fun _ => rfl⟩
  · intro j _ e he
    have h : j ≠ i := by rintro rfl; rw [hn] at he; cases he
    dsimp only
    rw [hj j h]; exact ⟨e, he, fun _ => .inl rfl⟩
  · intro j _ y hy
    have h : j ≠ i := by rintro rfl; rw [hn] at hy; cases hy
    dsimp only
    rw [hj j h]; exact hy
  · intro j _ y hy
    dsimp only
    by_cases h : j = i
    · rw [h, hi]; exact ⟨data, rfl, .inr hm⟩
    · rw [hj j h]; exact ⟨y, hy, .inl rfl⟩
  · intro j _ y hy
    have h : j ≠ i := by rintro rfl; rw [hn] at hy; cases hy
    dsimp only
    rw [hj j h]; exact ⟨y, hy⟩
  · intro j h1 h2; exact absurd h2 (Nat.not_lt.2 h1)
  · intro j hlt e he
    have h : j ≠ i := by rintro rfl; dsimp only at he; rw [hi] at he; cases he
    dsimp only at he
    rw [hj j h] at he
    exact hw.entries j hlt e he
  · intro j h; exact .inl h
  · intro j h
    rcases hwr j h with h | ⟨h1, h2, h3⟩
    · exact .inl h
    · rw [h1]; exact .inr (.inr ⟨h2, h3⟩)

theorem meddles_open {a c : Cred} {s : Scene} (hw : Whole s.tree c) (reads writes : Nat → Bool)
    (hr : ∀ i, reads i = true → s.reads i = true ∨ i < s.tree.next ∧ a.may (s.tree.inode i) 4 = true)
    (hwr : ∀ i, writes i = true → s.writes i = true ∨ i < s.tree.next ∧ a.may (s.tree.inode i) 2 = true) :
    Meddles a s { s with reads := reads, writes := writes } := by
  have h := meddles_refl (a := a) hw
  exact ⟨h.root, h.next, h.owner, h.mode, h.entries, h.links, h.files, h.specials, h.created, h.named,
    fun i hi => (hr i hi).elim .inl fun h => .inr (.inr h), fun i hi => (hwr i hi).elim .inl fun h => .inr (.inr h)⟩

theorem meddles_chmod {a c : Cred} {s : Scene} (hw : Whole s.tree c) {i : Nat} (ho : (s.tree.inode i).owner = a.user) (mode : UInt16) :
    Meddles a s { s with tree := { s.tree with
      inode := fun j => if j = i then { s.tree.inode i with mode := mode } else s.tree.inode j } } := by
  have hnode : ∀ j, (if j = i then { s.tree.inode i with mode := mode } else s.tree.inode j : Inode).node = (s.tree.inode j).node := by
    intro j
    by_cases h : j = i
    · rw [if_pos h, h]
    · rw [if_neg h]
  refine ⟨rfl, Nat.le_refl _, ?_, ?_, ?_, ?_, ?_, ?_, ?_, ?_, ?_, ?_⟩
  · intro j _
    dsimp only
    by_cases h : j = i
    · rw [if_pos h, h]
    · rw [if_neg h]
  · intro j _ hne
    have h : j ≠ i := by rintro rfl; exact hne ho
    dsimp only
    rw [if_neg h]; exact ⟨rfl, rfl, fun _ => rfl⟩
  · intro j _ e he
    exact ⟨e, (hnode j).trans he, fun _ => .inl rfl⟩
  · intro j _ x hx; exact (hnode j).trans hx
  · intro j _ x hx; exact ⟨x, (hnode j).trans hx, .inl rfl⟩
  · intro j _ x hx; exact ⟨x, (hnode j).trans hx⟩
  · intro j h1 h2; exact absurd h2 (Nat.not_lt.2 h1)
  · intro j hlt e he
    exact hw.entries j hlt e ((hnode j).symm.trans he)
  · intro j h; exact .inl h
  · intro j h; exact .inl h

/-- The directory of a path's last name -/
theorem parent_lands {t : Tree} {c : Cred} (hw : Whole t c) {p : Bytes} {d : Nat} {name : Bytes} (h : t.parent c p = some (d, name)) :
    d < t.next := by
  unfold Tree.parent at h
  cases hc : (components p).reverse with
  | nil => rw [hc] at h; cases h
  | cons n rest =>
    rw [hc] at h
    dsimp only at h
    split at h
    · cases h
    · have hl := walk_lands hw 40 (t.origin c.cwd p) rest.reverse true (origin_lt hw.root hw.cwd _)
      generalize t.walk c 40 (t.origin c.cwd p) rest.reverse true = r at h hl
      cases r with
      | error e => cases h
      | ok sp =>
        cases sp with
        | missing _ _ => cases h
        | found i =>
          dsimp only at h
          split at h
          · split at h
            · cases h; exact hl.1 d rfl
            · cases h
          · cases h

theorem stat_lands {t : Tree} {c : Cred} (hw : Whole t c) {p : Bytes} {i : Nat} (h : t.stat c p = .ok i) : i < t.next := by
  unfold Tree.stat at h
  cases hr : t.resolve c p with
  | error e => rw [hr] at h; cases h
  | ok sp =>
    rw [hr] at h
    cases sp with
    | missing _ _ => cases h
    | found j => cases h; exact (resolve_lands hw p).1 _ hr

theorem entry_leave {a : Cred} {t : Tree} {d : Nat} {name : Bytes} (hn : t.entry d name = none) (hm : a.may (t.inode d) 2 = true)
    (e : Bytes → Option Nat) (he : (t.inode d).node = .dir e) : Leave a t d e name := by
  refine ⟨hm, .inr (.inr fun i hi => ?_)⟩
  unfold Tree.entry at hn
  rw [he] at hn
  dsimp only at hn
  rw [hn] at hi; cases hi

theorem entry_lt {t : Tree} {c : Cred} (hw : Whole t c) {d : Nat} (hd : d < t.next) {name : Bytes} {i : Nat}
    (h : t.entry d name = some i) : i < t.next := by
  unfold Tree.entry at h
  cases hk : (t.inode d).node with
  | dir e => rw [hk] at h; exact hw.entries d hd e hk name i h
  | file _ => rw [hk] at h; cases h
  | link _ => rw [hk] at h; cases h
  | special _ => rw [hk] at h; cases h

theorem remove_leave {a : Cred} {t : Tree} {d i : Nat} {name : Bytes} (h0 : a.user ≠ 0) (hn : t.entry d name = some i)
    (hm : a.mayRemove t d i = true) (e : Bytes → Option Nat) (he : (t.inode d).node = .dir e) : Leave a t d e name := by
  unfold Cred.mayRemove at hm
  simp only [Bool.and_eq_true, Bool.or_eq_true, decide_eq_true_eq] at hm
  obtain ⟨⟨h1, -⟩, h2⟩ := hm
  unfold Tree.entry at hn
  rw [he] at hn
  dsimp only at hn
  refine ⟨h1, ?_⟩
  rcases h2 with ((h2 | h2) | h2) | h2
  · exact .inl h2
  · exact absurd h2 h0
  · exact .inr (.inl h2.symm)
  · refine .inr (.inr fun j hj => ?_)
    rw [hn] at hj; cases hj; exact h2.symm

theorem does_meddles {a : Cred} (h0 : a.user ≠ 0) {s : Scene} (hw : Whole s.tree a) (deed : Deed) : Meddles a s (s.does a deed) := by
  have hrefl := meddles_refl (a := a) hw
  cases deed with
  | read p =>
    unfold Scene.does
    dsimp only
    cases hs : s.tree.stat a p with
    | error e => exact hrefl
    | ok i =>
      dsimp only
      by_cases hm : a.may (s.tree.inode i) 4 = true
      · rw [if_pos hm]
        refine meddles_open hw _ _ (fun j hj => ?_) (fun j hj => .inl hj)
        simp only [Bool.or_eq_true, decide_eq_true_eq] at hj
        rcases hj with rfl | hj
        · exact .inr ⟨stat_lands hw hs, hm⟩
        · exact .inl hj
      · rw [if_neg hm]; exact hrefl
  | write p perm =>
    unfold Scene.does Tree.create
    dsimp only
    have hl := resolve_lands hw p
    cases hr : s.tree.resolve a p with
    | error e => exact hrefl
    | ok sp =>
      cases sp with
      | missing d name =>
        dsimp only
        by_cases hm : a.may (s.tree.inode d) 2 = true
        · rw [if_pos hm]
          dsimp only
          obtain ⟨hd, -, e, hn, he⟩ := hl.2 d name hr
          rw [add_addNode a hd]
          refine meddles_addNode hw hd (fun _ h => by cases h) (fun e1 h1 => ?_) _ (fun j hj => ?_)
          · rw [hn] at h1; cases h1
            exact ⟨hm, .inr (.inr fun i hi => by rw [he] at hi; cases hi)⟩
          · simp only [Bool.or_eq_true, decide_eq_true_eq] at hj
            exact hj.symm
        · rw [if_neg hm]; exact hrefl
      | found i =>
        dsimp only
        have hi := hl.1 i hr
        cases hn : (s.tree.inode i).node with
        | dir e => exact hrefl
        | link x => exact hrefl
        | file x =>
          dsimp only
          by_cases hm : a.may (s.tree.inode i) 2 = true
          · rw [if_pos hm]
            refine meddles_setData hw hn [] (.inr hm) _ (fun j hj => ?_)
            simp only [Bool.or_eq_true, decide_eq_true_eq] at hj
            rcases hj with hj | hj
            · exact .inr ⟨hj, hi, hm⟩
            · exact .inl hj
          · rw [if_neg hm]; exact hrefl
        | special x =>
          dsimp only
          by_cases hm : a.may (s.tree.inode i) 2 = true
          · rw [if_pos hm]
            refine meddles_open hw _ _ (fun j hj => .inl hj) (fun j hj => ?_)
            simp only [Bool.or_eq_true, decide_eq_true_eq] at hj
            rcases hj with rfl | hj
            · exact .inr ⟨hi, hm⟩
            · exact .inl hj
          · rw [if_neg hm]; exact hrefl
  | put i data =>
    unfold Scene.does
    dsimp only
    by_cases hwr : s.writes i = true
    · rw [if_pos hwr]
      cases hn : (s.tree.inode i).node with
      | file x => exact meddles_setData hw hn data (.inl hwr) _ (fun j hj => .inl hj)
      | dir _ => exact hrefl
      | link _ => exact hrefl
      | special _ => exact hrefl
    · rw [if_neg hwr]; exact hrefl
  | symlink target p =>
    unfold Scene.does
    dsimp only
    cases hp : s.tree.parent a p with
    | none => exact hrefl
    | some q =>
      obtain ⟨d, name⟩ := q
      dsimp only
      by_cases hc : s.tree.entry d name = none ∧ a.may (s.tree.inode d) 2 = true ∧ target ≠ []
      · rw [if_pos hc]
        exact meddles_addNode hw (parent_lands hw hp) (fun _ h => by cases h) (entry_leave hc.1 hc.2.1) _ (fun j hj => .inl hj)
      · rw [if_neg hc]; exact hrefl
  | mkdir p perm =>
    unfold Scene.does
    dsimp only
    cases hp : s.tree.parent a p with
    | none => exact hrefl
    | some q =>
      obtain ⟨d, name⟩ := q
      dsimp only
      have hd := parent_lands hw hp
      by_cases hc : s.tree.entry d name = none ∧ a.may (s.tree.inode d) 2 = true
      · rw [if_pos hc]
        refine meddles_addNode hw hd (fun e h n i hi => ?_) (entry_leave hc.1 hc.2) _ (fun j hj => .inl hj)
        cases h
        dsimp only at hi
        split at hi
        · cases hi; exact Nat.lt_succ_self _
        split at hi
        · cases hi; exact Nat.lt_succ_of_lt hd
        · cases hi
      · rw [if_neg hc]; exact hrefl
  | link old new =>
    unfold Scene.does
    dsimp only
    cases hp : s.tree.parent a old with
    | none => exact hrefl
    | some q =>
      cases hp' : s.tree.parent a new with
      | none => exact hrefl
      | some q' =>
        obtain ⟨d, name⟩ := q
        obtain ⟨d', name'⟩ := q'
        dsimp only
        cases he : s.tree.entry d name with
        | none => exact hrefl
        | some i =>
          dsimp only
          split
          · rename_i hc
            refine meddles_setEntry hw (fun j hj => ?_) (entry_leave hc.1 hc.2.1)
            cases hj; exact entry_lt hw (parent_lands hw hp) he
          · exact hrefl
  | unlink p =>
    unfold Scene.does
    dsimp only
    cases hp : s.tree.parent a p with
    | none => exact hrefl
    | some q =>
      obtain ⟨d, name⟩ := q
      dsimp only
      cases he : s.tree.entry d name with
      | none => exact hrefl
      | some i =>
        dsimp only
        split
        · rename_i hc
          exact meddles_setEntry hw (fun j hj => by cases hj) (remove_leave h0 he hc.1)
        · exact hrefl
  | rename old new =>
    unfold Scene.does
    dsimp only
    cases hp : s.tree.parent a old with
    | none => exact hrefl
    | some q =>
      cases hp' : s.tree.parent a new with
      | none => exact hrefl
      | some q' =>
        obtain ⟨d, name⟩ := q
        obtain ⟨d', name'⟩ := q'
        dsimp only
        cases he : s.tree.entry d name with
        | none => exact hrefl
        | some i =>
          have hi := entry_lt hw (parent_lands hw hp) he
          dsimp only
          split
          · rename_i hc
            cases he' : s.tree.entry d' name' with
            | none =>
              exact meddles_move hw (fun j hj => by cases hj) (remove_leave h0 he hc.1) (fun j hj => by cases hj; exact hi)
                (entry_leave he' hc.2.1)
            | some j =>
              dsimp only
              split
              · rename_i hc'
                exact meddles_move hw (fun j hj => by cases hj) (remove_leave h0 he hc.1) (fun j hj => by cases hj; exact hi)
                  (remove_leave h0 he' hc'.2.1)
              · exact hrefl
          · exact hrefl
  | chmod p mode =>
    unfold Scene.does
    dsimp only
    cases hs : s.tree.stat a p with
    | error e => exact hrefl
    | ok i =>
      dsimp only
      split
      · rename_i hc
        refine meddles_chmod hw ?_ mode
        rcases hc with hc | hc
        · exact hc.symm
        · exact absurd hc h0
      · exact hrefl

end Verif.Proofs
