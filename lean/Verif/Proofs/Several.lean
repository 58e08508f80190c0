import Verif.Spec.Several
import Verif.Proofs.Saving

/-! Several runs of saveMnemonic at the same time. -/

namespace Verif.Proofs

open Verif.Model Verif.Model.Cli Verif.Spec

/-- A tree changes at one place, which was free, or in one file. -/
structure Beside (t t' : Tree) (d₀ : Nat) (name₀ : Bytes) (i₀ : Nat) : Prop where
  next : t.next ≤ t'.next
  root : t'.root = t.root
  whole : ∀ c, Whole t c → Whole t' c
  firm : ∀ c, Whole t c → ∀ u d parts, d < t.next → FirmFrom t u d parts → FirmFrom t' u d parts
  walk : ∀ c, Whole t c → ∀ n d parts slash sp, d < t.next → t.walk c n d parts slash = .ok sp → sp ≠ .missing d₀ name₀ →
    t'.walk c n d parts slash = .ok sp
  attr : ∀ i < t.next, (t'.inode i).owner = (t.inode i).owner ∧ (t'.inode i).group = (t.inode i).group ∧
    (t'.inode i).mode = (t.inode i).mode
  file : ∀ i < t.next, i ≠ i₀ → ∀ x, (t.inode i).node = .file x → (t'.inode i).node = .file x

theorem oneMore_whole {t t' : Tree} {c c' : Cred} {d : Nat} {name data : Bytes} (hw : Whole t c') (hm : OneMore t c d name data t') :
    Whole t' c' := by
  have hnext := hm.next
  refine ⟨by rw [hm.root, hnext]; exact Nat.lt_succ_of_lt hw.root, by rw [hnext]; exact Nat.lt_succ_of_lt hw.cwd, ?_⟩
  intro x hx e hn n i he
  rw [hnext] at hx ⊢
  by_cases hxn : x = t.next
  · rw [hxn, hm.file.1] at hn; cases hn
  have hx' : x < t.next := by omega
  obtain ⟨e₀, e₀', hd0, he0, hd0', he0', hoth, -⟩ := hm.dir
  by_cases hxd : x = d
  · subst hxd
    rw [hd0'] at hn; cases hn
    by_cases hnn : n = name
    · rw [hnn, he0'] at he; cases he; omega
    · rw [hoth n hnn] at he
      exact Nat.lt_succ_of_lt (hw.entries x hx' _ hd0 n i he)
  · rw [hm.others x hxd hxn] at hn
    exact Nat.lt_succ_of_lt (hw.entries x hx' _ hn n i he)

theorem oneMore_attr {t t' : Tree} {c : Cred} {d : Nat} {name data : Bytes} (hm : OneMore t c d name data t') {j : Nat}
    (hj : j < t.next) : (t'.inode j).owner = (t.inode j).owner ∧ (t'.inode j).group = (t.inode j).group ∧
      (t'.inode j).mode = (t.inode j).mode := by
  obtain ⟨e₀, e₀', hd0, he0, hd0', he0', hoth, hown, hgrp, hmode⟩ := hm.dir
  by_cases hjd : j = d
  · rw [hjd]; exact ⟨hown, hgrp, hmode⟩
  · rw [hm.others j hjd (Nat.ne_of_lt hj)]; exact ⟨rfl, rfl, rfl⟩

theorem beside_add {t : Tree} {c : Cred} {d : Nat} {name : Bytes} (hf : Free t c d name) :
    Beside t (t.add c d name 0o600 []) d name t.next := by
  have hm := add_oneMore hf []
  generalize t.add c d name 0o600 [] = t' at hm
  refine ⟨by rw [hm.next]; exact Nat.le_succ _, hm.root, fun c' hw => oneMore_whole hw hm, ?_, ?_, fun i hi => oneMore_attr hm hi, ?_⟩
  · intro c' hw u x parts hx hfirm y n ho
    obtain ⟨h1, h2⟩ := onWay_oneMore hw hm ho hx
    exact firm_oneMore (c := { c' with user := u }) (c₀ := c) ⟨hw.root, hw.cwd, hw.entries⟩ hm h2 (.inl (hfirm y n h1))
  · intro c' hw n x parts slash sp hx hwalk hsp
    have := walk_changes hw hm n x parts slash hx
    rw [hwalk] at this
    rcases this with h | h | h
    · exact h.2
    · exact absurd (Except.ok.inj h.1) hsp
    · cases h.1
  · intro i hi _ x hx
    obtain ⟨e₀, e₀', hd0, -⟩ := hm.dir
    have : i ≠ d := by rintro rfl; rw [hx] at hd0; cases hd0
    rw [hm.others i this (Nat.ne_of_lt hi)]; exact hx

theorem beside_setData {t : Tree} {i : Nat} {x : Bytes} (hn : (t.inode i).node = .file x) (data : Bytes) (d : Nat) (name : Bytes) :
    Beside t (t.setData i data) d name i := by
  have ha := setData_attr t i data
  refine ⟨le_refl _, rfl, ?_, ?_, ?_, fun j _ => ha j, ?_⟩
  · intro c h
    refine ⟨h.root, h.cwd, ?_⟩
    intro y hy e hk
    by_cases hj : y = i
    · simp [Tree.setData, hj] at hk
    · exact h.entries y hy e (by simpa [Tree.setData, hj] using hk)
  · intro c _ u y parts _ hfirm z n ho
    obtain ⟨h1, h2⟩ := hfirm z n (onWay_setData ho)
    refine ⟨by rw [(ha z).1]; exact h1, ?_⟩
    rw [(ha z).2.2]
    rcases h2 with h2 | ⟨h2, e, j, h3, h4, h5⟩
    · exact .inl h2
    · refine .inr ⟨h2, e, j, ?_, h4, by rw [(ha j).1]; exact h5⟩
      have : z ≠ i := by rintro rfl; rw [hn] at h3; cases h3
      simpa [Tree.setData, this] using h3
  · intro c _ n y parts slash sp _ hw _
    rw [walk_setData hn]; exact hw
  · intro j _ hj y hy
    simpa [Tree.setData, hj] using hy

variable {t' : Tree} {d₀ i₀ : Nat} {name₀ : Bytes} {s : Scene}

theorem beside_resolve {c : Cred} (hb : Beside s.tree t' d₀ name₀ i₀) (hw : Whole s.tree c) {p : Bytes} {sp : Spot}
    (hr : s.tree.resolve c p = .ok sp) (hsp : sp ≠ .missing d₀ name₀) : t'.resolve c p = .ok sp := by
  unfold Tree.resolve at hr ⊢
  by_cases h1 : 0 ∈ p
  · rw [if_pos h1] at hr; cases hr
  rw [if_neg h1] at hr ⊢
  by_cases h2 : p = []
  · rw [if_pos h2] at hr; cases hr
  rw [if_neg h2] at hr ⊢
  by_cases h3 : p.length > 4095
  · rw [if_pos h3] at hr; cases hr
  rw [if_neg h3] at hr ⊢
  have hor : t'.origin c.cwd p = s.tree.origin c.cwd p := by unfold Tree.origin; rw [hb.root]
  rw [hor]
  exact hb.walk c hw _ _ _ _ sp (origin_lt hw.root hw.cwd _) hr hsp

theorem beside_firm {c : Cred} (hb : Beside s.tree t' d₀ name₀ i₀) (hw : Whole s.tree c) {p : Bytes} (hf : FirmPath s.tree c p) :
    FirmPath t' c p := by
  have hor : t'.origin c.cwd p = s.tree.origin c.cwd p := by unfold Tree.origin; rw [hb.root]
  unfold FirmPath
  rw [hor]
  exact hb.firm c hw _ _ _ (origin_lt hw.root hw.cwd _) hf

theorem beside_open (hb : Beside s.tree t' d₀ name₀ i₀) (ho : OpenThere s) : OpenThere { s with tree := t' } :=
  fun i hi => Nat.lt_of_lt_of_le (ho i hi) hb.next

theorem beside_held {c : Cred} {p : Bytes} {i : Nat} {data : Bytes} (hb : Beside s.tree t' d₀ name₀ i₀) (h : Held c p s i data)
    (hi : i ≠ i₀) : Held c p { s with tree := t' } i data := by
  obtain ⟨h1, h2, h3⟩ := hb.attr i h.lt
  exact ⟨hb.whole c h.whole, beside_open hb h.opened, beside_firm hb h.whole h.firm,
    beside_resolve hb h.whole h.leads (by simp), Nat.lt_of_lt_of_le h.lt hb.next, hb.file i h.lt hi _ h.node,
    h1.trans h.owner, by dsimp only; rw [h3]; exact h.mode, h.reads, h.writes⟩

theorem beside_ready {c : Cred} {p : Bytes} {d : Nat} {name : Bytes} (hb : Beside s.tree t' d₀ name₀ i₀) (h : SaveReady c p d name s)
    (hne : (d, name) ≠ (d₀, name₀)) : SaveReady c p d name { s with tree := t' } := by
  obtain ⟨hd, -⟩ := (resolve_lands h.whole p).2 d name h.leads
  obtain ⟨h1, h2, h3⟩ := hb.attr d hd
  exact ⟨hb.whole c h.whole, beside_open hb h.opened, beside_firm hb h.whole h.firm,
    beside_resolve hb h.whole h.leads (by simpa using hne), by dsimp only; rw [may_congr c h1 h2 h3]; exact h.may⟩

theorem beside_looks {c : Cred} {d : Nat} {name : Bytes} (hb : Beside s.tree t' d₀ name₀ i₀) (hw : Whole s.tree c) {l : Looking}
    (h : LooksFor c s (.ok (.missing d name)) l) (hne : (d, name) ≠ (d₀, name₀)) :
    LooksFor c { s with tree := t' } (.ok (.missing d name)) l := by
  cases l with
  | ends _ => exact h
  | on w =>
    obtain ⟨h1, h2, h3⟩ := h
    exact ⟨Nat.lt_of_lt_of_le h1 hb.next, hb.firm c hw _ _ _ h1 h2, hb.walk c hw _ _ _ _ _ h1 h3 (by simpa using hne)⟩

theorem saveInv_beside {c : Cred} {env : SaveEnv} {words : List Bytes} {p : Bytes} {d : Nat} {name : Bytes} {m : Saving}
    (h : SaveInv c env words p d name s m) (hb : Beside s.tree t' d₀ name₀ i₀) (hne : (d, name) ≠ (d₀, name₀))
    (hi : ∀ i, s.tree.resolve c p = .ok (.found i) → i ≠ i₀) : SaveInv c env words p d name { s with tree := t' } m := by
  cases m with
  | stat l => exact ⟨beside_ready hb h.1 hne, beside_looks hb h.1.whole h.2 hne⟩
  | opening l => exact ⟨beside_ready hb h.1 hne, beside_looks hb h.1.whole h.2.1 hne, h.2.2⟩
  | writing i k rest =>
    obtain ⟨h1, h5, data, h2, h3, h4⟩ := h
    exact ⟨h1, h5, data, h2, h3, beside_held hb h4 (hi i h4.leads)⟩
  | done r =>
    rcases h with ⟨h1, i, h2⟩ | ⟨h1, ⟨h2, h3⟩ | ⟨i, n, h2, h3⟩⟩
    · exact .inl ⟨h1, i, beside_held hb h2 (hi i h2.leads)⟩
    · exact .inr ⟨h1, .inl ⟨h2, beside_ready hb h3 hne⟩⟩
    · exact .inr ⟨h1, .inr ⟨i, n, h2, beside_held hb h3 (hi i h3.leads)⟩⟩

/-- Where the path leads meanwhile -/
theorem saveInv_leads {c : Cred} {env : SaveEnv} {words : List Bytes} {p : Bytes} {d : Nat} {name : Bytes} {m : Saving}
    (h : SaveInv c env words p d name s m) : Whole s.tree c ∧ FirmPath s.tree c p ∧
      (s.tree.resolve c p = .ok (.missing d name) ∨ ∃ i < s.tree.next, s.tree.resolve c p = .ok (.found i)) := by
  have h1 : SaveReady c p d name s → _ := fun h : SaveReady c p d name s =>
    (⟨h.whole, h.firm, .inl h.leads⟩ : Whole s.tree c ∧ FirmPath s.tree c p ∧
      (s.tree.resolve c p = .ok (.missing d name) ∨ ∃ i < s.tree.next, s.tree.resolve c p = .ok (.found i)))
  have h2 : ∀ {i data}, Held c p s i data → _ := fun {i data} (h : Held c p s i data) =>
    (⟨h.whole, h.firm, .inr ⟨i, h.lt, h.leads⟩⟩ : Whole s.tree c ∧ FirmPath s.tree c p ∧
      (s.tree.resolve c p = .ok (.missing d name) ∨ ∃ i < s.tree.next, s.tree.resolve c p = .ok (.found i)))
  cases m with
  | stat l => exact h1 h.1
  | opening l => exact h1 h.1
  | writing i k rest =>
    obtain ⟨-, -, data, -, -, h4⟩ := h
    exact h2 h4
  | done r =>
    rcases h with ⟨-, i, h3⟩ | ⟨-, ⟨-, h3⟩ | ⟨i, n, -, h3⟩⟩
    · exact h2 h3
    · exact h1 h3
    · exact h2 h3

/-- What one step of a run does to the tree -/
theorem step_beside {c : Cred} {env : SaveEnv} {words : List Bytes} {p : Bytes} {d : Nat} {name : Bytes} {m : Saving}
    (h : SaveInv c env words p d name s m) : (m.step c env words p s.tree).1 = s.tree ∨
      ∃ i, Beside s.tree (m.step c env words p s.tree).1 d name i ∧
        (i = s.tree.next ∧ (m.step c env words p s.tree).1.resolve c p = .ok (.found i) ∨
          s.tree.resolve c p = .ok (.found i) ∧ (m.step c env words p s.tree).1.resolve c p = .ok (.found i)) := by
  cases m with
  | stat l =>
    left
    match l with
    | .on w => rfl
    | .ends (.ok (.found _)) => rfl
    | .ends (.ok (.missing _ _)) => rfl
    | .ends (.error e) =>
      unfold Saving.step
      dsimp only
      split <;> rfl
  | done r => exact .inl rfl
  | opening l =>
    obtain ⟨h1, h2, w, rfl⟩ := h
    have hl := looksFor_look h1.whole h2
    unfold Saving.step
    dsimp only
    cases hs : s.tree.look c w with
    | on w' => exact .inl rfl
    | ends r =>
      rw [hs] at hl
      cases (show r = .ok (.missing d name) from hl)
      dsimp only
      cases ho : env.openFails with
      | true => rw [if_pos rfl]; exact .inl rfl
      | false =>
        rw [if_neg (by decide)]
        unfold Tree.createAt
        dsimp only
        rw [if_pos h1.may]
        refine .inr ⟨s.tree.next, beside_add ((resolve_lands h1.whole p).2 d name h1.leads), .inl ⟨rfl, ?_⟩⟩
        exact (created_held h1.whole h1.opened (fun x n hx => .inl (h1.firm x n hx)) h1.leads).leads
  | writing i k rest =>
    obtain ⟨-, -, data, -, -, h4⟩ := h
    unfold Saving.step
    dsimp only
    by_cases hf : env.writeFails = some k
    · rw [if_pos hf]; exact .inl rfl
    · rw [if_neg hf]
      cases rest with
      | nil => exact .inl rfl
      | cons b rest =>
        dsimp only
        rw [h4.node]
        exact .inr ⟨i, beside_setData h4.node _ _ _, .inr ⟨h4.leads, (held_write h4 _).leads⟩⟩

/-! ## all of them -/

/-- Every run does well, and no two lead to one file. -/
structure AllInv {ι : Type} (runs : ι → SaveRun) (place : ι → Nat × Bytes) (s : Scene) (m : ι → Saving) : Prop where
  each : ∀ k, SaveInv (runs k).cred (runs k).env (runs k).words (runs k).path (place k).1 (place k).2 s (m k)
  apart : ∀ k l, k ≠ l → ∀ i, s.tree.resolve (runs k).cred (runs k).path = .ok (.found i) →
    s.tree.resolve (runs l).cred (runs l).path ≠ .ok (.found i)

theorem allInv_later {ι : Type} [DecidableEq ι] {runs : ι → SaveRun} {place : ι → Nat × Bytes}
    (hp : ∀ k l, k ≠ l → place k ≠ place l) {x y : Scene × (ι → Saving)} (hl : AllLater runs x y)
    (h : AllInv runs place x.1 x.2) : AllInv runs place y.1 y.2 := by
  induction hl with
  | refl => exact h
  | step _ hg ih =>
    cases hg with
    | @other s s' m a h0 hu hm =>
      refine ⟨fun k => saveInv_other (ih.each k) h0 (hu k) hm, ?_⟩
      intro k l hkl i
      obtain ⟨hwk, hfk, -⟩ := saveInv_leads (ih.each k)
      obtain ⟨hwl, hfl, -⟩ := saveInv_leads (ih.each l)
      dsimp only
      rw [resolve_same hm h0 (hu k) hwk hfk, resolve_same hm h0 (hu l) hwl hfl]
      exact ih.apart k l hkl i
    | save s m j =>
      dsimp only at ih ⊢
      have hj := saveInv_step (ih.each j)
      rcases step_beside (ih.each j) with hsame | ⟨i₀, hb, hi₀⟩
      · have hsame : ((runs j).step s.tree (m j)).1 = s.tree := hsame
        have hscene : ({ s with tree := ((runs j).step s.tree (m j)).1 } : Scene) = s := by rw [hsame]
        rw [hscene]
        refine ⟨fun k => ?_, ih.apart⟩
        by_cases hk : k = j
        · subst hk
          rw [if_pos rfl]
          have := hj
          rw [show ({ s with tree := ((m k).step (runs k).cred (runs k).env (runs k).words (runs k).path s.tree).1 } : Scene) = s
            from hscene] at this
          exact this
        · rw [if_neg hk]; exact ih.each k
      · have hother : ∀ k, k ≠ j → ∀ i, s.tree.resolve (runs k).cred (runs k).path = .ok (.found i) → i ≠ i₀ := by
          intro k hk i hr
          rcases hi₀ with ⟨h1, -⟩ | ⟨h1, -⟩
          · obtain ⟨hw, -, -⟩ := saveInv_leads (ih.each k)
            have := (resolve_lands hw _).1 i hr
            omega
          · rintro rfl
            exact ih.apart k j hk i hr h1
        have hlead : ∀ k, k ≠ j → ∀ i, ((runs j).step s.tree (m j)).1.resolve (runs k).cred (runs k).path = .ok (.found i) →
            s.tree.resolve (runs k).cred (runs k).path = .ok (.found i) := by
          intro k hk i hr
          obtain ⟨hw, -, h1 | ⟨i', -, h1⟩⟩ := saveInv_leads (ih.each k)
          · have := beside_resolve hb hw h1 (by
              intro he
              exact hp k j hk (Prod.ext (Spot.missing.inj he).1 (Spot.missing.inj he).2))
            rw [show ((runs j).step s.tree (m j)).1 = _ from rfl] at hr
            exact absurd (this.symm.trans hr) (by simp)
          · have := beside_resolve hb hw h1 (by simp)
            have : Except.ok (Spot.found i') = Except.ok (Spot.found i) := this.symm.trans hr
            rw [h1, this]
        have hlast : ((runs j).step s.tree (m j)).1.resolve (runs j).cred (runs j).path = .ok (.found i₀) := by
          rcases hi₀ with ⟨-, h⟩ | ⟨-, h⟩ <;> exact h
        refine ⟨fun k => ?_, ?_⟩
        · by_cases hk : k = j
          · subst hk
            rw [if_pos rfl]
            exact hj
          · rw [if_neg hk]
            exact saveInv_beside (ih.each k) hb (hp k j hk) (hother k hk)
        · intro k l hkl i hr hr'
          dsimp only at hr hr'
          by_cases hk : k = j
          · have hl : l ≠ j := fun h => hkl (hk.trans h.symm)
            rw [hk, hlast] at hr
            cases hr
            exact hother l hl i₀ (hlead l hl i₀ hr') rfl
          · by_cases hl : l = j
            · rw [hl, hlast] at hr'
              cases hr'
              exact hother k hk i₀ (hlead k hk i₀ hr) rfl
            · exact ih.apart k l hkl i (hlead k hk i hr) (hlead l hl i hr')

end Verif.Proofs
