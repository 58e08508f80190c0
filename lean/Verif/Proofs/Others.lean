import Verif.Spec.Others
import Verif.Proofs.Tree

/-! Paths that other users cannot redirect. -/

namespace Verif.Proofs

open Verif.Model Verif.Model.Cli Verif.Spec

theorem no_write_bits (m : UInt16) (h : m &&& 0o022 = 0) : ¬ ((m >>> 3) &&& 2 : UInt16) = 2 ∧ ¬ (m &&& 2 : UInt16) = 2 := by
  rw [← UInt16.toBitVec_inj] at h
  constructor <;> rw [← UInt16.toBitVec_inj] <;> intro h'
  · have h1 := congrArg (·.getLsbD 4) (show m.toBitVec &&& 0o022#16 = 0#16 from h)
    have h2 := congrArg (·.getLsbD 1) (show m.toBitVec >>> 3 &&& 2#16 = 2#16 from h')
    simp at h1 h2
    rw [h1] at h2; cases h2
  · have h1 := congrArg (·.getLsbD 1) (show m.toBitVec &&& 0o022#16 = 0#16 from h)
    have h2 := congrArg (·.getLsbD 1) (show m.toBitVec &&& 2#16 = 2#16 from h')
    simp at h1 h2
    rw [h1] at h2; cases h2

theorem trusted_ne {u owner : Nat} (h : Trusted u owner) {a : Cred} (h0 : a.user ≠ 0) (hu : a.user ≠ u) : owner ≠ a.user := by
  rcases h with h | h <;> rw [h] <;> omega

theorem trusted_no_write {u : Nat} {i : Inode} (h : Trusted u i.owner) (hm : i.mode &&& 0o022 = 0) {a : Cred} (h0 : a.user ≠ 0)
    (hu : a.user ≠ u) : a.may i 2 = false := by
  have hne := trusted_ne h h0 hu
  obtain ⟨h1, h2⟩ := no_write_bits i.mode hm
  unfold Cred.may
  rw [if_neg h0, if_neg (fun h => hne h.symm)]
  split
  · simpa using h1
  · simpa using h2

section
variable {a : Cred} {s s' : Scene} {u : Nat} (h : Meddles a s s') (h0 : a.user ≠ 0) (hu : a.user ≠ u)
include h

theorem dir_back {i : Nat} (hi : i < s.tree.next) {e' : Bytes → Option Nat} (hn : (s'.tree.inode i).node = .dir e') :
    ∃ e, (s.tree.inode i).node = .dir e := by
  cases hk : (s.tree.inode i).node with
  | dir e => exact ⟨e, rfl⟩
  | file x => obtain ⟨x', h1, -⟩ := h.files i hi x hk; rw [h1] at hn; cases hn
  | link x => rw [h.links i hi x hk] at hn; cases hn
  | special x => obtain ⟨x', h1⟩ := h.specials i hi x hk; rw [h1] at hn; cases hn

theorem link_back {i : Nat} (hi : i < s.tree.next) {x : Bytes} (hn : (s'.tree.inode i).node = .link x) :
    (s.tree.inode i).node = .link x := by
  cases hk : (s.tree.inode i).node with
  | dir e => obtain ⟨e', h1, -⟩ := h.entries i hi e hk; rw [h1] at hn; cases hn
  | file x => obtain ⟨x', h1, -⟩ := h.files i hi x hk; rw [h1] at hn; cases hn
  | link y => rw [h.links i hi y hk] at hn; exact hn
  | special x => obtain ⟨x', h1⟩ := h.specials i hi x hk; rw [h1] at hn; cases hn

include h0 hu

theorem firm_entry {d : Nat} {name : Bytes} (hf : Firm s.tree u d name) (hd : d < s.tree.next) {e : Bytes → Option Nat}
    (hn : (s.tree.inode d).node = .dir e) : ∃ e', (s'.tree.inode d).node = .dir e' ∧ e' name = e name ∧
      (s'.tree.inode d).owner = (s.tree.inode d).owner ∧ (s'.tree.inode d).group = (s.tree.inode d).group ∧
      (s'.tree.inode d).mode = (s.tree.inode d).mode := by
  obtain ⟨e', h1, h2⟩ := h.entries d hd e hn
  have hne := trusted_ne hf.1 h0 hu
  obtain ⟨h3, -, h4⟩ := h.mode d hd hne
  refine ⟨e', h1, ?_, h.owner d hd, h3, h4 ⟨e, hn⟩⟩
  rcases h2 name with h2 | ⟨h2, h5⟩
  · exact h2
  · exfalso
    rcases hf.2 with hf | ⟨hf, e1, i, hn1, he1, ht⟩
    · rw [trusted_no_write ‹Firm s.tree u d name›.1 hf h0 hu] at h2; cases h2
    · rw [hn] at hn1; cases hn1
      rcases h5 with h5 | h5 | h5
      · exact hf h5
      · exact hne h5
      · exact trusted_ne ht h0 hu (h5 i he1)

theorem firm_kept {c : Cred} (hw : Whole s.tree c) {d : Nat} {name : Bytes} (hf : Firm s.tree u d name) (hd : d < s.tree.next)
    {e : Bytes → Option Nat} (hn : (s.tree.inode d).node = .dir e) : Firm s'.tree u d name := by
  obtain ⟨e', h1, h2, h3, -, h5⟩ := firm_entry h h0 hu hf hd hn
  refine ⟨by rw [h3]; exact hf.1, ?_⟩
  rw [h5]
  rcases hf.2 with hf | ⟨hf, e1, i, hn1, he1, ht⟩
  · exact .inl hf
  · rw [hn] at hn1; cases hn1
    refine .inr ⟨hf, e', i, h1, by rw [h2, he1], ?_⟩
    rw [h.owner i (hw.entries d hd e hn name i he1)]; exact ht

/-- The same names are looked up as before. -/
theorem onWay_back {c : Cred} (hw : Whole s.tree c) {d x : Nat} {parts : List Bytes} {n : Bytes} (ho : OnWay s'.tree d parts x n) :
    d < s.tree.next → FirmFrom s.tree u d parts → OnWay s.tree d parts x n ∧ x < s.tree.next := by
  induction ho with
  | here d name rest => exact fun hd _ => ⟨.here d name rest, hd⟩
  | @down d i x name n rest e e' hn he hi ho ih =>
    intro hd hf
    obtain ⟨e1, h1⟩ := dir_back h hd hn
    obtain ⟨e2, h2, h3, -⟩ := firm_entry h h0 hu (hf d name (.here d name rest)) hd h1
    rw [hn] at h2; cases h2
    rw [he] at h3
    have hlt := hw.entries d hd e1 h1 name i h3.symm
    obtain ⟨e3, h4⟩ := dir_back h hlt hi
    obtain ⟨h5, h6⟩ := ih hlt fun x n ho => hf x n (.down h1 h3.symm h4 ho)
    exact ⟨.down h1 h3.symm h4 h5, h6⟩
  | @link d i x name n target rest e hn he hi ho ih =>
    intro hd hf
    obtain ⟨e1, h1⟩ := dir_back h hd hn
    obtain ⟨e2, h2, h3, -⟩ := firm_entry h h0 hu (hf d name (.here d name rest)) hd h1
    rw [hn] at h2; cases h2
    rw [he] at h3
    have hlt := hw.entries d hd e1 h1 name i h3.symm
    have h4 := link_back h hlt hi
    have hor : s'.tree.origin d target = s.tree.origin d target := by unfold Tree.origin; rw [h.root]
    rw [hor] at ih
    obtain ⟨h5, h6⟩ := ih (origin_lt hw.root hd _) fun x n ho => hf x n (.link h1 h3.symm h4 ho)
    exact ⟨.link h1 h3.symm h4 h5, h6⟩

theorem firmFrom_kept {c : Cred} (hw : Whole s.tree c) {d : Nat} {parts : List Bytes} (hd : d < s.tree.next)
    (hf : FirmFrom s.tree u d parts) : FirmFrom s'.tree u d parts := by
  intro x n ho
  obtain ⟨h1, h2⟩ := onWay_back h h0 hu hw ho hd hf
  cases hk : (s.tree.inode x).node with
  | dir e => exact firm_kept h h0 hu hw (hf x n h1) h2 hk
  | file y =>
    have hf1 := hf x n h1
    obtain ⟨-, h4, -⟩ := h.mode x h2 (trusted_ne hf1.1 h0 hu)
    refine ⟨by rw [h.owner x h2]; exact hf1.1, .inl ?_⟩
    rcases hf1.2 with h5 | ⟨-, e, i, h5, -⟩
    · have : ∀ m : UInt16, m &&& 0o022 = (m &&& 0o777) &&& 0o022 := fun m => by
        rw [UInt16.and_assoc]; rfl
      rw [this, h4, ← this]; exact h5
    · rw [hk] at h5; cases h5
  | link y =>
    have hf1 := hf x n h1
    obtain ⟨-, h4, -⟩ := h.mode x h2 (trusted_ne hf1.1 h0 hu)
    refine ⟨by rw [h.owner x h2]; exact hf1.1, .inl ?_⟩
    rcases hf1.2 with h5 | ⟨-, e, i, h5, -⟩
    · have : ∀ m : UInt16, m &&& 0o022 = (m &&& 0o777) &&& 0o022 := fun m => by
        rw [UInt16.and_assoc]; rfl
      rw [this, h4, ← this]; exact h5
    · rw [hk] at h5; cases h5
  | special y =>
    have hf1 := hf x n h1
    obtain ⟨-, h4, -⟩ := h.mode x h2 (trusted_ne hf1.1 h0 hu)
    refine ⟨by rw [h.owner x h2]; exact hf1.1, .inl ?_⟩
    rcases hf1.2 with h5 | ⟨-, e, i, h5, -⟩
    · have : ∀ m : UInt16, m &&& 0o022 = (m &&& 0o777) &&& 0o022 := fun m => by
        rw [UInt16.and_assoc]; rfl
      rw [this, h4, ← this]; exact h5
    · rw [hk] at h5; cases h5

theorem walkWith_same {c : Cred} (hw : Whole s.tree c) {follow follow' : Nat → List Bytes → Bool → Except Errno Spot}
    (hf : ∀ d parts slash, d < s.tree.next → FirmFrom s.tree u d parts → follow' d parts slash = follow d parts slash) :
    ∀ (parts : List Bytes) (d : Nat) (slash : Bool), d < s.tree.next → FirmFrom s.tree u d parts →
      s'.tree.walkWith c follow' d parts slash = s.tree.walkWith c follow d parts slash
  | [], d, slash, _, _ => by rw [Tree.walkWith, Tree.walkWith]
  | name :: rest, d, slash, hd, hff => by
    have hfirm := hff d name (.here d name rest)
    have hor : ∀ p, s'.tree.origin d p = s.tree.origin d p := fun p => by unfold Tree.origin; rw [h.root]
    rw [Tree.walkWith, Tree.walkWith]
    cases hn : (s.tree.inode d).node with
    | file x => obtain ⟨x', h1, -⟩ := h.files d hd x hn; rw [h1]
    | link x => rw [h.links d hd x hn]
    | special x => obtain ⟨x', h1⟩ := h.specials d hd x hn; rw [h1]
    | dir e =>
      obtain ⟨e', h1, h2, h3, h4, h5⟩ := firm_entry h h0 hu hfirm hd hn
      rw [h1]
      dsimp only
      rw [may_congr c h3 h4 h5, h2]
      cases he : e name with
      | none => rfl
      | some i =>
        have hi := hw.entries d hd e hn name i he
        dsimp only
        cases hk : (s.tree.inode i).node with
        | link target =>
          rw [h.links i hi target hk]
          dsimp only
          rw [hor, hf _ _ _ (origin_lt hw.root hd _) fun x n ho => hff x n (.link hn he hk ho)]
        | dir e1 =>
          obtain ⟨e2, h6, -⟩ := h.entries i hi e1 hk
          rw [h6]
          dsimp only
          rw [walkWith_same hw hf rest i slash hi fun x n ho => hff x n (.down hn he hk ho)]
        | file x => obtain ⟨x', h6, -⟩ := h.files i hi x hk; rw [h6]
        | special x => obtain ⟨x', h6⟩ := h.specials i hi x hk; rw [h6]

theorem walk_same {c : Cred} (hw : Whole s.tree c) : ∀ (n d : Nat) (parts : List Bytes) (slash : Bool), d < s.tree.next →
    FirmFrom s.tree u d parts → s'.tree.walk c n d parts slash = s.tree.walk c n d parts slash
  | 0, d, parts, slash, hd, hf => walkWith_same h h0 hu hw (fun _ _ _ _ _ => rfl) parts d slash hd hf
  | n + 1, d, parts, slash, hd, hf =>
    walkWith_same h h0 hu hw (fun d parts slash hd hf => walk_same hw n d parts slash hd hf) parts d slash hd hf

end

section
variable {a : Cred} {s s' : Scene} {c : Cred} (h : Meddles a s s') (h0 : a.user ≠ 0) (hu : a.user ≠ c.user)
include h

theorem whole_kept (hw : Whole s.tree c) : Whole s'.tree c :=
  ⟨by rw [h.root]; exact Nat.lt_of_lt_of_le hw.root h.next, Nat.lt_of_lt_of_le hw.cwd h.next, h.named⟩

theorem openThere_kept (ho : OpenThere s) : OpenThere s' := by
  intro i hi
  rcases hi with hi | hi
  · rcases h.reads i hi with h1 | h1 | h1
    · exact Nat.lt_of_lt_of_le (ho i (.inl h1)) h.next
    · exact h1.2
    · exact Nat.lt_of_lt_of_le h1.1 h.next
  · rcases h.writes i hi with h1 | h1 | h1
    · exact Nat.lt_of_lt_of_le (ho i (.inr h1)) h.next
    · exact h1.2
    · exact Nat.lt_of_lt_of_le h1.1 h.next

theorem origin_kept (d : Nat) (p : Bytes) : s'.tree.origin d p = s.tree.origin d p := by
  unfold Tree.origin; rw [h.root]

include h0 hu

theorem resolve_same (hw : Whole s.tree c) {p : Bytes} (hf : FirmPath s.tree c p) :
    s'.tree.resolve c p = s.tree.resolve c p := by
  unfold Tree.resolve
  rw [origin_kept h, walk_same h h0 hu hw _ _ _ _ (origin_lt hw.root hw.cwd _) hf]

theorem firmPath_kept (hw : Whole s.tree c) {p : Bytes} (hf : FirmPath s.tree c p) : FirmPath s'.tree c p := by
  unfold FirmPath
  rw [origin_kept h]
  exact firmFrom_kept h h0 hu hw (origin_lt hw.root hw.cwd _) hf

end

/-! ## looking up names one by one -/

def Tree.goOn (t : Tree) (c : Cred) (w : Way) : Except Errno Spot := t.walk c w.links w.dir w.parts w.slash

theorem walk_look (t : Tree) (c : Cred) (w : Way) : Tree.goOn t c w =
    match t.look c w with
    | .ends r => r
    | .on w' => Tree.goOn t c w' := by
  obtain ⟨links, d, parts, slash⟩ := w
  unfold Tree.goOn Tree.look
  dsimp only
  cases parts with
  | nil => cases links <;> simp only [Tree.walk, Tree.walkWith]
  | cons name rest =>
    have key : ∀ follow : Nat → List Bytes → Bool → Except Errno Spot,
        t.walk c links = t.walkWith c follow →
        (∀ x y z, follow x y z = match links with | 0 => .error .loop | n + 1 => t.walk c n x y z) →
        t.walk c links d (name :: rest) slash = match (match (t.inode d).node with
    | .dir entries =>
      if c.may (t.inode d) 1 = false then .ends (.error .acces)
      else if name.length > 255 then .ends (.error .nametoolong)
      else
        match entries name with
        | none => .ends (if rest = [] ∧ slash = false then .ok (.missing d name) else .error .noent)
        | some i =>
          match (t.inode i).node with
          | .link target =>
            if target = [] then .ends (.error .noent)
            else
              match links with
              | 0 => .ends (.error .loop)
              | n + 1 => .on ⟨n, t.origin d target, components target ++ rest,
                  slash || (rest.isEmpty && endsInSlash target)⟩
          | .dir _ => if rest = [] then .ends (.ok (.found i)) else .on ⟨links, i, rest, slash⟩
          | _ => .ends (if rest = [] ∧ slash = false then .ok (.found i) else .error .notdir)
    | _ => .ends (.error .notdir) : Looking) with
    | .ends r => r
    | .on w' => Tree.goOn t c w' := by
      intro follow hwalk hfol
      rw [hwalk, Tree.walkWith]
      cases (t.inode d).node with
      | file _ => rfl
      | link _ => rfl
      | special _ => rfl
      | dir e =>
        dsimp only
        by_cases hm : c.may (t.inode d) 1 = false
        · rw [if_pos hm, if_pos hm]
        rw [if_neg hm, if_neg hm]
        by_cases hl : name.length > 255
        · rw [if_pos hl, if_pos hl]
        rw [if_neg hl, if_neg hl]
        cases e name with
        | none => rfl
        | some i =>
          dsimp only
          cases (t.inode i).node with
          | file _ => rfl
          | special _ => rfl
          | link target =>
            dsimp only
            by_cases ht : target = []
            · rw [if_pos ht, if_pos ht]
            rw [if_neg ht, if_neg ht, hfol]
            cases links <;> rfl
          | dir _ =>
            dsimp only
            by_cases hr : rest = []
            · rw [if_pos hr, if_pos hr]
            · rw [if_neg hr, if_neg hr]
              show _ = t.walk c links i rest slash
              rw [hwalk]
    cases links with
    | zero => exact key _ rfl fun _ _ _ => rfl
    | succ n => exact key _ rfl fun _ _ _ => rfl

theorem resolve_start (t : Tree) (c : Cred) (p : Bytes) : t.resolve c p =
    match t.start c p with
    | .ends r => r
    | .on w => Tree.goOn t c w := by
  unfold Tree.resolve Tree.start
  split
  · rfl
  split
  · rfl
  split <;> rfl

theorem create_createAt (t : Tree) (c : Cred) (p : Bytes) (perm : UInt16) :
    t.create c p perm = t.createAt c (t.resolve c p) perm := rfl

theorem look_on {t : Tree} {c : Cred} (hw : Whole t c) {u : Nat} {w w' : Way} (hl : t.look c w = .on w') (hd : w.dir < t.next)
    (hf : FirmFrom t u w.dir w.parts) : w'.dir < t.next ∧ FirmFrom t u w'.dir w'.parts := by
  obtain ⟨links, d, parts, slash⟩ := w
  unfold Tree.look at hl
  dsimp only at hl hd hf
  cases parts with
  | nil => cases hl
  | cons name rest =>
    dsimp only at hl
    cases hn : (t.inode d).node with
    | file _ => rw [hn] at hl; cases hl
    | link _ => rw [hn] at hl; cases hl
    | special _ => rw [hn] at hl; cases hl
    | dir e =>
      rw [hn] at hl
      dsimp only at hl
      by_cases hm : c.may (t.inode d) 1 = false
      · rw [if_pos hm] at hl; cases hl
      rw [if_neg hm] at hl
      by_cases hlen : name.length > 255
      · rw [if_pos hlen] at hl; cases hl
      rw [if_neg hlen] at hl
      cases he : e name with
      | none => rw [he] at hl; cases hl
      | some i =>
        rw [he] at hl
        dsimp only at hl
        have hi := hw.entries d hd e hn name i he
        cases hk : (t.inode i).node with
        | file _ => rw [hk] at hl; cases hl
        | special _ => rw [hk] at hl; cases hl
        | link target =>
          rw [hk] at hl
          dsimp only at hl
          by_cases ht : target = []
          · rw [if_pos ht] at hl; cases hl
          rw [if_neg ht] at hl
          cases links with
          | zero => cases hl
          | succ n =>
            cases hl
            exact ⟨origin_lt hw.root hd _, fun x n ho => hf x n (.link hn he hk ho)⟩
        | dir e1 =>
          rw [hk] at hl
          dsimp only at hl
          by_cases hr : rest = []
          · rw [if_pos hr] at hl; cases hl
          · rw [if_neg hr] at hl
            cases hl
            exact ⟨hi, fun x n ho => hf x n (.down hn he hk ho)⟩

theorem start_on {t : Tree} {c : Cred} (hw : Whole t c) {p : Bytes} (hf : FirmPath t c p) {w : Way} (hs : t.start c p = .on w) :
    w.dir < t.next ∧ FirmFrom t c.user w.dir w.parts := by
  unfold Tree.start at hs
  split at hs
  · cases hs
  split at hs
  · cases hs
  split at hs
  · cases hs
  · cases hs
    exact ⟨origin_lt hw.root hw.cwd _, hf⟩

/-- Where a path ends in a directory that lacks the name, the name was looked up there. -/
theorem walkWith_onWay {t : Tree} {c : Cred} {follow : Nat → List Bytes → Bool → Except Errno Spot}
    (hf : ∀ d parts slash x n, follow d parts slash = .ok (.missing x n) → OnWay t d parts x n) :
    ∀ (parts : List Bytes) (d : Nat) (slash : Bool) (x : Nat) (n : Bytes),
      t.walkWith c follow d parts slash = .ok (.missing x n) → OnWay t d parts x n
  | [], d, slash, x, n, h => by rw [Tree.walkWith] at h; cases h
  | name :: rest, d, slash, x, n, h => by
    rw [Tree.walkWith] at h
    cases hn : (t.inode d).node with
    | file _ => rw [hn] at h; cases h
    | link _ => rw [hn] at h; cases h
    | special _ => rw [hn] at h; cases h
    | dir e =>
      rw [hn] at h
      dsimp only at h
      by_cases hm : c.may (t.inode d) 1 = false
      · rw [if_pos hm] at h; cases h
      rw [if_neg hm] at h
      by_cases hlen : name.length > 255
      · rw [if_pos hlen] at h; cases h
      rw [if_neg hlen] at h
      cases he : e name with
      | none =>
        rw [he] at h
        dsimp only at h
        by_cases hr : rest = [] ∧ slash = false
        · rw [if_pos hr] at h; cases h; exact .here d name rest
        · rw [if_neg hr] at h; cases h
      | some i =>
        rw [he] at h
        dsimp only at h
        cases hk : (t.inode i).node with
        | file _ => rw [hk] at h; dsimp only at h; split at h <;> cases h
        | special _ => rw [hk] at h; dsimp only at h; split at h <;> cases h
        | link target =>
          rw [hk] at h
          dsimp only at h
          by_cases ht : target = []
          · rw [if_pos ht] at h; cases h
          rw [if_neg ht] at h
          exact .link hn he hk (hf _ _ _ _ _ h)
        | dir e1 =>
          rw [hk] at h
          dsimp only at h
          by_cases hr : rest = []
          · rw [if_pos hr] at h; cases h
          · rw [if_neg hr] at h
            exact .down hn he hk (walkWith_onWay hf rest i slash x n h)

theorem walk_onWay {t : Tree} {c : Cred} : ∀ (k : Nat) (d : Nat) (parts : List Bytes) (slash : Bool) (x : Nat) (n : Bytes),
    t.walk c k d parts slash = .ok (.missing x n) → OnWay t d parts x n
  | 0, d, parts, slash, x, n, h => walkWith_onWay (fun _ _ _ _ _ h => by cases h) parts d slash x n h
  | k + 1, d, parts, slash, x, n, h => walkWith_onWay (fun d parts slash x n h => walk_onWay k d parts slash x n h) parts d slash x n h

theorem resolve_onWay {t : Tree} {c : Cred} {p : Bytes} {x : Nat} {n : Bytes} (h : t.resolve c p = .ok (.missing x n)) :
    OnWay t (t.origin c.cwd p) (components p) x n := by
  unfold Tree.resolve at h
  split at h
  · cases h
  split at h
  · cases h
  split at h
  · cases h
  exact walk_onWay _ _ _ _ _ _ h

/-- After a file was created where a path leads, the same names are looked up. -/
theorem onWay_oneMore {t t' : Tree} {c c' : Cred} {d₀ : Nat} {name₀ data : Bytes} (hs : Whole t c') (hm : OneMore t c d₀ name₀ data t')
    {d x : Nat} {parts : List Bytes} {n : Bytes} (ho : OnWay t' d parts x n) : d < t.next → OnWay t d parts x n ∧ x < t.next := by
  obtain ⟨e₀, e₀', hd0, he0, hd0', he0', hoth, hown, hgrp, hmode⟩ := hm.dir
  have hback : ∀ {d name i e}, d < t.next → (t'.inode d).node = .dir e → e name = some i → i ≠ t.next →
      ∃ e1, (t.inode d).node = .dir e1 ∧ e1 name = some i ∧ i < t.next := by
    intro d name i e hd hn he hi
    by_cases hdd : d = d₀
    · subst hdd
      rw [hd0'] at hn
      cases hn
      have hne : name ≠ name₀ := by
        rintro rfl; rw [he0'] at he; cases he; exact hi rfl
      rw [hoth name hne] at he
      exact ⟨e₀, hd0, he, hs.entries d hd e₀ hd0 name i he⟩
    · rw [hm.others d hdd (Nat.ne_of_lt hd)] at hn
      exact ⟨e, hn, he, hs.entries d hd e hn name i he⟩
  have hnode : ∀ {i}, i < t.next → (∀ x, (t'.inode i).node = .link x → (t.inode i).node = .link x) ∧
      ∀ e, (t'.inode i).node = .dir e → ∃ e1, (t.inode i).node = .dir e1 := by
    intro i hi
    by_cases hii : i = d₀
    · subst hii
      rw [hd0', hd0]
      exact ⟨fun _ h => (by cases h), fun e _ => ⟨_, rfl⟩⟩
    · rw [hm.others i hii (Nat.ne_of_lt hi)]
      exact ⟨fun _ h => h, fun e h => ⟨e, h⟩⟩
  induction ho with
  | here d name rest => exact fun hd => ⟨.here d name rest, hd⟩
  | @down d i x name n rest e e' hn he hi ho ih =>
    intro hd
    have hne : i ≠ t.next := by rintro rfl; rw [hm.file.1] at hi; cases hi
    obtain ⟨e1, h1, h2, h3⟩ := hback hd hn he hne
    obtain ⟨e2, h4⟩ := (hnode h3).2 _ hi
    obtain ⟨h5, h6⟩ := ih h3
    exact ⟨.down h1 h2 h4 h5, h6⟩
  | @link d i x name n target rest e hn he hi ho ih =>
    intro hd
    have hne : i ≠ t.next := by rintro rfl; rw [hm.file.1] at hi; cases hi
    obtain ⟨e1, h1, h2, h3⟩ := hback hd hn he hne
    have hor : t'.origin d target = t.origin d target := by unfold Tree.origin; rw [hm.root]
    rw [hor] at ih
    obtain ⟨h5, h6⟩ := ih (origin_lt hs.root hd _)
    exact ⟨.link h1 h2 ((hnode h3).1 _ hi) h5, h6⟩

end Verif.Proofs
