import Verif.Spec.Tree
import Verif.Proofs.CliFiles

/-! Paths, before and after a file is added. -/

namespace Verif.Proofs

open Verif.Model Verif.Model.Cli Verif.Spec

/-- A place where a file can be made -/
def Free (t : Tree) (c : Cred) (d : Nat) (name : Bytes) : Prop :=
  d < t.next ∧ c.may (t.inode d) 1 = true ∧ ∃ entries, (t.inode d).node = .dir entries ∧ entries name = none

def Lands (t : Tree) (c : Cred) (r : Except Errno Spot) : Prop :=
  (∀ i, r = .ok (.found i) → i < t.next) ∧ ∀ d name, r = .ok (.missing d name) → Free t c d name

theorem lands_error (t : Tree) (c : Cred) (e : Errno) : Lands t c (.error e) :=
  ⟨fun _ h => (by cases h), fun _ _ h => by cases h⟩

theorem origin_lt {t : Tree} (hr : t.root < t.next) {d : Nat} (hd : d < t.next) (p : Bytes) : t.origin d p < t.next := by
  unfold Tree.origin
  split <;> assumption

theorem walkWith_lands {t : Tree} {c : Cred} (hs : Whole t c) {follow : Nat → List Bytes → Bool → Except Errno Spot}
    (hf : ∀ d parts slash, d < t.next → Lands t c (follow d parts slash)) :
    ∀ (parts : List Bytes) (d : Nat) (slash : Bool), d < t.next → Lands t c (t.walkWith c follow d parts slash)
  | [], d, slash, hd => by
    rw [Tree.walkWith]
    exact ⟨fun i h => by cases h; exact hd, fun _ _ h => by cases h⟩
  | name :: rest, d, slash, hd => by
    rw [Tree.walkWith]
    cases hn : (t.inode d).node with
    | file _ => exact lands_error t c _
    | link _ => exact lands_error t c _
    | special _ => exact lands_error t c _
    | dir entries =>
      dsimp only
      by_cases hm : c.may (t.inode d) 1 = false
      · rw [if_pos hm]; exact lands_error t c _
      rw [if_neg hm]
      by_cases hl : name.length > 255
      · rw [if_pos hl]; exact lands_error t c _
      rw [if_neg hl]
      cases he : entries name with
      | none =>
        dsimp only
        by_cases hr : rest = [] ∧ slash = false
        · rw [if_pos hr]
          exact ⟨fun _ h => (by cases h), fun _ _ h => by cases h; exact ⟨hd, by simpa using hm, entries, hn, he⟩⟩
        · rw [if_neg hr]; exact lands_error t c _
      | some i =>
        have hi := hs.entries d hd entries hn name i he
        dsimp only
        cases hk : (t.inode i).node with
        | link target =>
          dsimp only
          by_cases ht : target = []
          · rw [if_pos ht]; exact lands_error t c _
          rw [if_neg ht]
          exact hf _ _ _ (origin_lt hs.root hd _)
        | dir _ =>
          dsimp only
          by_cases hr : rest = []
          · rw [if_pos hr]; exact ⟨fun _ h => by cases h; exact hi, fun _ _ h => by cases h⟩
          · rw [if_neg hr]; exact walkWith_lands hs hf rest i slash hi
        | file _ =>
          dsimp only
          by_cases hr : rest = [] ∧ slash = false
          · rw [if_pos hr]; exact ⟨fun _ h => by cases h; exact hi, fun _ _ h => by cases h⟩
          · rw [if_neg hr]; exact lands_error t c _
        | special _ =>
          dsimp only
          by_cases hr : rest = [] ∧ slash = false
          · rw [if_pos hr]; exact ⟨fun _ h => by cases h; exact hi, fun _ _ h => by cases h⟩
          · rw [if_neg hr]; exact lands_error t c _

theorem walk_lands {t : Tree} {c : Cred} (hs : Whole t c) : ∀ (n d : Nat) (parts : List Bytes) (slash : Bool), d < t.next →
    Lands t c (t.walk c n d parts slash)
  | 0, d, parts, slash, hd => walkWith_lands hs (fun _ _ _ _ => lands_error t c _) parts d slash hd
  | n + 1, d, parts, slash, hd =>
    walkWith_lands hs (fun d parts slash hd => walk_lands hs n d parts slash hd) parts d slash hd

theorem resolve_lands {t : Tree} {c : Cred} (hs : Whole t c) (p : Bytes) : Lands t c (t.resolve c p) := by
  unfold Tree.resolve
  split
  · exact lands_error t c _
  split
  · exact lands_error t c _
  split
  · exact lands_error t c _
  exact walk_lands hs _ _ _ _ (origin_lt hs.root hs.cwd _)

/-! ## after a file was added -/

theorem add_oneMore {t : Tree} {c : Cred} {d : Nat} {name : Bytes} (h : Free t c d name) (data : Bytes) :
    OneMore t c d name data (t.add c d name 0o600 data) := by
  obtain ⟨hd, -, entries, hn, he⟩ := h
  have hne : d ≠ t.next := Nat.ne_of_lt hd
  refine ⟨rfl, rfl, ?_, ⟨entries, fun n => if n = name then some t.next else entries n, hn, he, ?_, ?_, ?_, ?_⟩, ?_⟩
  · simp [Tree.add]
  · simp [Tree.add, hne, hn]
  · simp
  · intro n h; simp [h]
  · simp [Tree.add, hne, hn]
  · intro j h1 h2
    simp [Tree.add, h1, h2]

theorem setData_oneMore {t t' : Tree} {c : Cred} {d : Nat} {name data : Bytes} (h : OneMore t c d name data t') (hd : d < t.next)
    (data' : Bytes) : OneMore t c d name data' (t'.setData t.next data') := by
  have hne : d ≠ t.next := Nat.ne_of_lt hd
  obtain ⟨h1, h2, h3, ⟨e, e', h4⟩, h5⟩ := h
  refine ⟨h1, h2, ?_, ⟨e, e', ?_⟩, ?_⟩
  · simpa [Tree.setData] using h3.2
  · simpa [Tree.setData, hne] using h4
  · intro j h6 h7
    rw [← h5 j h6 h7]
    simp [Tree.setData, h7]

theorem run_tree_append (c : Cred) (w : TreeWorld) (as bs : List Act) : w.run c (as ++ bs) = (w.run c as).run c bs :=
  List.foldl_append

theorem run_tree_writes (c : Cred) : ∀ (bs : Bytes) (w : TreeWorld) (i : Nat) (data : Bytes),
    w.handle = some (i, data.length) → (w.tree.inode i).node = .file data →
    (w.run c (bs.map .write)).handle = some (i, (data ++ bs).length) ∧
    (w.run c (bs.map .write)).stdout = w.stdout ∧ (w.run c (bs.map .write)).shown = w.shown ∧
    (bs ≠ [] → (w.run c (bs.map .write)).tree = w.tree.setData i (data ++ bs)) ∧
    (bs = [] → (w.run c (bs.map .write)).tree = w.tree)
  | [], w, i, data, h, _ => by
    rw [List.append_nil]
    exact ⟨h, rfl, rfl, fun h => absurd rfl h, fun _ => rfl⟩
  | b :: bs, w, i, data, h, hn => by
    have hstep : w.step c (.write b) =
        { w with tree := w.tree.setData i (data ++ [b]), handle := some (i, (data ++ [b]).length) } := by
      unfold TreeWorld.step
      dsimp only
      rw [h]
      dsimp only
      rw [hn]
      dsimp only
      rw [writeAt_end, List.length_append, List.length_singleton]
    have hrun : w.run c ((b :: bs).map .write) = (w.step c (.write b)).run c (bs.map .write) := rfl
    rw [hrun, hstep]
    obtain ⟨h1, h2, h3, h4, h5⟩ := run_tree_writes c bs
      { w with tree := w.tree.setData i (data ++ [b]), handle := some (i, (data ++ [b]).length) } i (data ++ [b]) rfl
      (by simp [Tree.setData])
    refine ⟨by rw [h1]; simp, h2, h3, fun _ => ?_, fun h => by cases h⟩
    by_cases hb : bs = []
    · rw [h5 hb, hb]
    · rw [h4 hb]
      have : ∀ x y, (w.tree.setData i x).setData i y = w.tree.setData i y := by
        intro x y
        unfold Tree.setData
        congr 1
        funext j
        dsimp only
        by_cases hj : j = i
        · rw [if_pos hj, if_pos hj, if_pos rfl]
        · rw [if_neg hj, if_neg hj, if_neg hj]
      show (w.tree.setData i (data ++ [b])).setData i (data ++ [b] ++ bs) = _
      rw [this, List.append_assoc]
      rfl

/-- Opening a new file and writing to it -/
theorem run_tree_create {t : Tree} {c : Cred} {p : Bytes} {d : Nat} {name : Bytes} (hs : Whole t c)
    (hr : t.resolve c p = .ok (.missing d name)) (hm : c.may (t.inode d) 2 = true) (w : TreeWorld) (hw : w.tree = t)
    (bs : Bytes) :
    OneMore t c d name bs (w.run c (.openTrunc p 0o600 :: bs.map .write)).tree ∧
    (w.run c (.openTrunc p 0o600 :: bs.map .write)).stdout = w.stdout ∧
    (w.run c (.openTrunc p 0o600 :: bs.map .write)).shown = w.shown := by
  have hf := (resolve_lands hs p).2 d name hr
  have hstep : w.step c (.openTrunc p 0o600) =
      { w with tree := t.add c d name 0o600 [], handle := some (t.next, 0) } := by
    unfold TreeWorld.step Tree.create
    dsimp only
    rw [hw, hr]
    dsimp only
    rw [if_pos hm]
  have hrun : w.run c (.openTrunc p 0o600 :: bs.map .write) =
      (w.step c (.openTrunc p 0o600)).run c (bs.map .write) := rfl
  have ho := add_oneMore hf []
  obtain ⟨-, h2, h3, h4, h5⟩ := run_tree_writes c bs
    { w with tree := t.add c d name 0o600 [], handle := some (t.next, 0) } t.next [] rfl ho.file.1
  rw [hrun, hstep]
  refine ⟨?_, h2, h3⟩
  by_cases hb : bs = []
  · rw [h5 hb, hb]; exact ho
  · rw [h4 hb, List.nil_append]
    exact setData_oneMore ho hf.1 bs

theorem run_tree_stdout (c : Cred) : ∀ (bs : Bytes) (w : TreeWorld),
    w.run c (bs.map .stdout) = { w with stdout := w.stdout ++ bs }
  | [], w => by simp [TreeWorld.run]
  | b :: bs, w => by
    show (w.step c (.stdout b)).run c (bs.map .stdout) = _
    rw [run_tree_stdout c bs]
    simp [TreeWorld.step]

/-! ## where paths lead then -/

/-- How what a path leads to changes when a file appears at a place -/
def Changes (next d : Nat) (name : Bytes) (r r' : Except Errno Spot) : Prop :=
  (r ≠ .ok (.missing d name) ∧ r' = r) ∨ (r = .ok (.missing d name) ∧ r' = .ok (.found next)) ∨
  (r = .error .noent ∧ r' = .error .notdir)

theorem changes_error (next d : Nat) (name : Bytes) (e : Errno) : Changes next d name (.error e) (.error e) :=
  .inl ⟨by simp, rfl⟩

theorem changes_found (next d i : Nat) (name : Bytes) : Changes next d name (.ok (.found i)) (.ok (.found i)) :=
  .inl ⟨by simp, rfl⟩

theorem may_congr (c : Cred) {i i' : Inode} (h1 : i'.owner = i.owner) (h2 : i'.group = i.group) (h3 : i'.mode = i.mode)
    (bit : UInt16) : c.may i' bit = c.may i bit := by
  unfold Cred.may
  rw [h1, h2, h3]

theorem walkWith_changes {t t' : Tree} {c c' : Cred} {d₀ : Nat} {name₀ data : Bytes} (hs : Whole t c')
    (h : OneMore t c d₀ name₀ data t') {follow follow' : Nat → List Bytes → Bool → Except Errno Spot}
    (hf : ∀ d parts slash, d < t.next → Changes t.next d₀ name₀ (follow d parts slash) (follow' d parts slash)) :
    ∀ (parts : List Bytes) (d : Nat) (slash : Bool), d < t.next →
      Changes t.next d₀ name₀ (t.walkWith c' follow d parts slash) (t'.walkWith c' follow' d parts slash)
  | [], d, slash, hd => by
    rw [Tree.walkWith, Tree.walkWith]
    exact changes_found _ _ _ _
  | name :: rest, d, slash, hd => by
    obtain ⟨e₀, e₀', hd0, he0, hd0', he0', hoth, ho, hg, hmode⟩ := h.dir
    have hsame : ∀ j, j < t.next → j ≠ d₀ → t'.inode j = t.inode j := fun j hj hj0 => h.others j hj0 (Nat.ne_of_lt hj)
    -- what follows a name that is in the directory
    have hthere : ∀ i, i < t.next → Changes t.next d₀ name₀
        (match (t.inode i).node with
          | .link target =>
            if target = [] then .error .noent
            else follow (t.origin d target) (components target ++ rest)
              (slash || (rest.isEmpty && endsInSlash target))
          | .dir _ => if rest = [] then .ok (.found i) else t.walkWith c' follow i rest slash
          | _ => if rest = [] ∧ slash = false then .ok (.found i) else .error .notdir)
        (match (t'.inode i).node with
          | .link target =>
            if target = [] then .error .noent
            else follow' (t'.origin d target) (components target ++ rest)
              (slash || (rest.isEmpty && endsInSlash target))
          | .dir _ => if rest = [] then .ok (.found i) else t'.walkWith c' follow' i rest slash
          | _ => if rest = [] ∧ slash = false then .ok (.found i) else .error .notdir) := by
      intro i hi
      have horg : ∀ p, t'.origin d p = t.origin d p := fun p => by unfold Tree.origin; rw [h.root]
      by_cases hi0 : i = d₀
      · subst hi0
        rw [hd0, hd0']
        dsimp only
        by_cases hr : rest = []
        · rw [if_pos hr, if_pos hr]; exact changes_found _ _ _ _
        · rw [if_neg hr, if_neg hr]; exact walkWith_changes hs h hf rest i slash hi
      · rw [hsame i hi hi0]
        cases (t.inode i).node with
        | link target =>
          dsimp only
          by_cases ht : target = []
          · rw [if_pos ht, if_pos ht]; exact changes_error _ _ _ _
          rw [if_neg ht, if_neg ht, horg]
          exact hf _ _ _ (origin_lt hs.root hd _)
        | dir _ =>
          dsimp only
          by_cases hr : rest = []
          · rw [if_pos hr, if_pos hr]; exact changes_found _ _ _ _
          · rw [if_neg hr, if_neg hr]; exact walkWith_changes hs h hf rest i slash hi
        | file _ =>
          dsimp only
          by_cases hr : rest = [] ∧ slash = false
          · rw [if_pos hr]; exact changes_found _ _ _ _
          · rw [if_neg hr]; exact changes_error _ _ _ _
        | special _ =>
          dsimp only
          by_cases hr : rest = [] ∧ slash = false
          · rw [if_pos hr]; exact changes_found _ _ _ _
          · rw [if_neg hr]; exact changes_error _ _ _ _
    rw [Tree.walkWith, Tree.walkWith]
    by_cases hdd : d = d₀
    · subst hdd
      rw [hd0, hd0']
      dsimp only
      rw [may_congr c' ho hg hmode]
      by_cases hm : c'.may (t.inode d) 1 = false
      · rw [if_pos hm, if_pos hm]; exact changes_error _ _ _ _
      rw [if_neg hm, if_neg hm]
      by_cases hl : name.length > 255
      · rw [if_pos hl, if_pos hl]; exact changes_error _ _ _ _
      rw [if_neg hl, if_neg hl]
      by_cases hname : name = name₀
      · subst hname
        rw [he0, he0']
        dsimp only
        rw [h.file.1]
        dsimp only
        by_cases hr : rest = [] ∧ slash = false
        · rw [if_pos hr, if_pos hr]; exact .inr (.inl ⟨rfl, rfl⟩)
        · rw [if_neg hr, if_neg hr]; exact .inr (.inr ⟨rfl, rfl⟩)
      · rw [hoth name hname]
        cases he : e₀ name with
        | none =>
          dsimp only
          by_cases hr : rest = [] ∧ slash = false
          · rw [if_pos hr]; exact .inl ⟨by simp [hname], rfl⟩
          · rw [if_neg hr]; exact changes_error _ _ _ _
        | some i => exact hthere i (hs.entries d hd _ hd0 name i he)
    · rw [hsame d hd hdd]
      cases hn : (t.inode d).node with
      | file _ => exact changes_error _ _ _ _
      | link _ => exact changes_error _ _ _ _
      | special _ => exact changes_error _ _ _ _
      | dir entries =>
        dsimp only
        by_cases hm : c'.may (t.inode d) 1 = false
        · rw [if_pos hm, if_pos hm]; exact changes_error _ _ _ _
        rw [if_neg hm, if_neg hm]
        by_cases hl : name.length > 255
        · rw [if_pos hl, if_pos hl]; exact changes_error _ _ _ _
        rw [if_neg hl, if_neg hl]
        cases he : entries name with
        | none =>
          dsimp only
          by_cases hr : rest = [] ∧ slash = false
          · rw [if_pos hr]; exact .inl ⟨by simp [hdd], rfl⟩
          · rw [if_neg hr]; exact changes_error _ _ _ _
        | some i => exact hthere i (hs.entries d hd _ hn name i he)

theorem walk_changes {t t' : Tree} {c c' : Cred} {d₀ : Nat} {name₀ data : Bytes} (hs : Whole t c')
    (h : OneMore t c d₀ name₀ data t') : ∀ (n d : Nat) (parts : List Bytes) (slash : Bool), d < t.next →
    Changes t.next d₀ name₀ (t.walk c' n d parts slash) (t'.walk c' n d parts slash)
  | 0, d, parts, slash, hd => walkWith_changes hs h (fun _ _ _ _ => changes_error _ _ _ _) parts d slash hd
  | n + 1, d, parts, slash, hd =>
    walkWith_changes hs h (fun d parts slash hd => walk_changes hs h n d parts slash hd) parts d slash hd

theorem resolve_changes {t t' : Tree} {c c' : Cred} {d₀ : Nat} {name₀ data : Bytes} (hs : Whole t c')
    (h : OneMore t c d₀ name₀ data t') (p : Bytes) : Changes t.next d₀ name₀ (t.resolve c' p) (t'.resolve c' p) := by
  unfold Tree.resolve
  split
  · exact changes_error _ _ _ _
  split
  · exact changes_error _ _ _ _
  split
  · exact changes_error _ _ _ _
  have : t'.origin c'.cwd p = t.origin c'.cwd p := by unfold Tree.origin; rw [h.root]
  rw [this]
  exact walk_changes hs h _ _ _ _ (origin_lt hs.root hs.cwd _)

/-- Whether the owner may read or write a file with these permissions -/
theorem owner_bit (u : UInt16) : ((((0o600 &&& ~~~u) >>> 6) &&& 4 : UInt16) = 4) ↔ u &&& 0o400 = 0 := by
  rw [← UInt16.toBitVec_inj, ← UInt16.toBitVec_inj]
  show ((0o600#16 &&& ~~~u.toBitVec) >>> 6 &&& 4#16 = 4#16) ↔ u.toBitVec &&& 0o400#16 = 0#16
  generalize u.toBitVec = b
  constructor
  · intro h
    have h2 := congrArg (·.getLsbD 2) h
    simp at h2
    apply BitVec.eq_of_getLsbD_eq
    intro i hi
    rcases (by omega : i = 8 ∨ i < 8 ∨ 8 < i) with rfl | h | h
    · simpa using h2
    · have : (0o400#16).getLsbD i = false := by revert hi; revert h; revert i; decide
      simp [this]
    · have : (0o400#16).getLsbD i = false := by revert h; revert hi; revert i; decide
      simp [this]
  · intro h
    have h2 := congrArg (·.getLsbD 8) h
    simp at h2
    apply BitVec.eq_of_getLsbD_eq
    intro i hi
    rcases (by omega : i = 2 ∨ i < 2 ∨ 2 < i) with rfl | h | h
    · simpa using h2
    · have : (4#16).getLsbD i = false := by revert hi; revert h; revert i; decide
      simp [this]
    · have : (4#16).getLsbD i = false := by revert h; revert hi; revert i; decide
      simp [this]

/-- Nobody else may -/
theorem others_bits (u : UInt16) : ¬ (((0o600 &&& ~~~u) >>> 3) &&& 4 : UInt16) = 4 ∧ ¬ (((0o600 &&& ~~~u) >>> 3) &&& 2 : UInt16) = 2 ∧
    ¬ ((0o600 &&& ~~~u) &&& 4 : UInt16) = 4 ∧ ¬ ((0o600 &&& ~~~u) &&& 2 : UInt16) = 2 := by
  refine ⟨?_, ?_, ?_, ?_⟩ <;> rw [← UInt16.toBitVec_inj] <;> intro h
  · have h2 := congrArg (·.getLsbD 2) (show (0o600#16 &&& ~~~u.toBitVec) >>> 3 &&& 4#16 = 4#16 from h)
    simp at h2
  · have h2 := congrArg (·.getLsbD 1) (show (0o600#16 &&& ~~~u.toBitVec) >>> 3 &&& 2#16 = 2#16 from h)
    simp at h2
  · have h2 := congrArg (·.getLsbD 2) (show (0o600#16 &&& ~~~u.toBitVec) &&& 4#16 = 4#16 from h)
    simp at h2
  · have h2 := congrArg (·.getLsbD 1) (show (0o600#16 &&& ~~~u.toBitVec) &&& 2#16 = 2#16 from h)
    simp at h2

end Verif.Proofs
