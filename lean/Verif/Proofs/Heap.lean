import Verif.Spec.Heap

/-!
# The heap functions compute what the value functions compute, and change nothing else
-/

namespace Verif.Proofs.Heap

open Verif.Model Verif.Model.Heap Verif.Spec.Heap

/-- `h'` extends `h`, and the old cells outside `W` are as before. -/
def Step (h h' : Cells) (W : Nat → Prop) : Prop :=
  h.length ≤ h'.length ∧ ∀ i, i < h.length → ¬ W i → val h' i = val h i

theorem Step.refl (h : Cells) (W : Nat → Prop) : Step h h W := ⟨le_rfl, fun _ _ _ => rfl⟩

theorem Step.trans {h h1 h2 : Cells} {W W1 W2 : Nat → Prop} (s1 : Step h h1 W1) (s2 : Step h1 h2 W2)
    (m1 : ∀ i, i < h.length → W1 i → W i) (m2 : ∀ i, i < h.length → W2 i → W i) : Step h h2 W :=
  ⟨le_trans s1.1 s2.1, fun i hi hw => by
    rw [s2.2 i (lt_of_lt_of_le hi s1.1) (fun h => hw (m2 i hi h)), s1.2 i hi (fun h => hw (m1 i hi h))]⟩

/-- From `h`, `m` has the outcome of `r`, with results related by `R`, and changes at most the cells `W`. -/
def Runs {α β : Type} (m : HM α) (h : Cells) (W : Nat → Prop) (r : Res β) (R : α → Cells → β → Prop) :
    Prop :=
  Step h (m h).2 W ∧ Agree (m h).1 r (fun a b => R a (m h).2 b)

def none' : Nat → Prop := fun _ => False

theorem Runs.weaken {α β : Type} {m : HM α} {h : Cells} {W W' : Nat → Prop} {r : Res β}
    {R R' : α → Cells → β → Prop} (x : Runs m h W r R) (hw : ∀ i, i < h.length → W i → W' i)
    (hr : ∀ a h1 b, Step h h1 W → R a h1 b → R' a h1 b) : Runs m h W' r R' := by
  obtain ⟨s, g⟩ := x
  refine ⟨⟨s.1, fun i hi hn => s.2 i hi (fun h => hn (hw i hi h))⟩, ?_⟩
  unfold Agree at g ⊢
  split <;> simp_all

theorem Runs.bind {α β γ δ : Type} {m : HM α} {f : α → HM γ} {h : Cells} {W1 W : Nat → Prop}
    {r : Res β} {g : β → Res δ} {R : α → Cells → β → Prop} {Q : γ → Cells → δ → Prop}
    (x : Runs m h W1 r R) (hw : ∀ i, i < h.length → W1 i → W i)
    (k : ∀ a h1 b, r = .ok b → Step h h1 W1 → R a h1 b →
      Runs (f a) h1 (fun i => W i ∨ h.length ≤ i) (g b) Q) :
    Runs (m >>= f) h W (r >>= g) Q := by
  obtain ⟨s, ag⟩ := x
  change Runs (HM.bind m f) h W (Res.bind r g) Q
  unfold Runs HM.bind
  generalize hm : m h = mh at *
  obtain ⟨o, h1⟩ := mh
  unfold Agree at ag
  cases o with
  | ok a => cases r with
    | ok b =>
      obtain ⟨s2, g2⟩ := k a h1 b rfl s ag
      exact ⟨s.trans s2 hw (fun i hi hh => hh.elim id (fun hh => absurd hi (by omega))), g2⟩
    | err e => exact ag.elim
    | panic e => exact ag.elim
  | err e => cases r with
    | ok b => exact ag.elim
    | err e => exact ⟨s.trans (Step.refl _ none') hw (fun _ _ hh => hh.elim), ag⟩
    | panic e => exact ag.elim
  | panic e => cases r with
    | ok b => exact ag.elim
    | err e => exact ag.elim
    | panic e => exact ⟨s.trans (Step.refl _ none') hw (fun _ _ hh => hh.elim), ag⟩

theorem Runs.pure {α β : Type} {a : α} {b : β} {h : Cells} {W : Nat → Prop} {R : α → Cells → β → Prop}
    (hr : R a h b) : Runs (pure a : HM α) h W (.ok b) R := ⟨Step.refl _ _, hr⟩

theorem runs_pureRes {α : Type} (r : Res α) (h : Cells) :
    Runs (pureRes r) h none' r (fun a h' b => a = b ∧ h' = h) := by
  refine ⟨Step.refl _ _, ?_⟩
  unfold pureRes Agree
  cases r <;> simp

theorem read_run {α : Type} (p : Nat) (f : Int → HM α) (h : Cells) :
    (read p >>= f) h = f (val h p) h := rfl

theorem newInt_run {α : Type} (v : Int) (f : Nat → HM α) (h : Cells) :
    (newInt v >>= f) h = f h.length (h ++ [v]) := rfl

theorem write_run {α : Type} (p : Nat) (v : Int) (f : Unit → HM α) (h : Cells) :
    (write p v >>= f) h = f () (h.set p v) := rfl

theorem setTo_run {α : Type} (z x : Nat) (f : Unit → HM α) (h : Cells) :
    (setTo z x >>= f) h = f () (h.set z (val h x)) := rfl
theorem lshTo_run {α : Type} (z x : Nat) (n : Nat) (f : Unit → HM α) (h : Cells) :
    (lshTo z x n >>= f) h = f () (h.set z (lsh (val h x) n)) := rfl
theorem rshTo_run {α : Type} (z x : Nat) (n : Nat) (f : Unit → HM α) (h : Cells) :
    (rshTo z x n >>= f) h = f () (h.set z (rsh (val h x) n)) := rfl
theorem subTo_run {α : Type} (z x y : Nat) (f : Unit → HM α) (h : Cells) :
    (subTo z x y >>= f) h = f () (h.set z (val h x - val h y)) := rfl
theorem andTo_run {α : Type} (z x y : Nat) (f : Unit → HM α) (h : Cells) :
    (andTo z x y >>= f) h = f () (h.set z (Int.land (val h x) (val h y))) := rfl
theorem orTo_run {α : Type} (z x y : Nat) (f : Unit → HM α) (h : Cells) :
    (orTo z x y >>= f) h = f () (h.set z (Int.lor (val h x) (val h y))) := rfl
theorem xorTo_run {α : Type} (z x y : Nat) (f : Unit → HM α) (h : Cells) :
    (xorTo z x y >>= f) h = f () (h.set z (Int.xor (val h x) (val h y))) := rfl

theorem val_old {h l : Cells} {p : Nat} (hp : p < h.length) : val (h ++ l) p = val h p := by
  simp [val, List.getD_eq_getElem?_getD, List.getElem?_append_left hp]

theorem val_new (h : Cells) (v : Int) : val (h ++ [v]) h.length = v := by
  simp [val, List.getD_eq_getElem?_getD]

theorem val_same {h : Cells} {p : Nat} (hp : p < h.length) (v : Int) : val (h.set p v) p = v := by
  simp [val, List.getD_eq_getElem?_getD, hp]

theorem val_other {h : Cells} {p q : Nat} (hq : p ≠ q) (v : Int) : val (h.set p v) q = val h q := by
  simp [val, List.getD_eq_getElem?_getD, List.getElem?_set_ne hq]

/-- The integers held by the packages are as at the start. -/
def Globals (h : Cells) : Prop := 2 ≤ h.length ∧ val h 0 = 1 ∧ val h 1 = wordMask

def IsBuf (h : Cells) (a : Buf) (b : BitBuffer) : Prop :=
  2 ≤ a.value ∧ a.value < h.length ∧ val h a.value = b.value ∧ a.nBits = b.nBits

theorem step_newInt (h : Cells) (v : Int) : Step h (h ++ [v]) none' :=
  ⟨by simp, fun i hi _ => val_old hi⟩

theorem step_write (h : Cells) (p : Nat) (v : Int) : Step h (h.set p v) (· = p) :=
  ⟨by simp, fun i _ hn => val_other (fun e => hn e.symm) v⟩

/-- Forward rules for single operations -/
theorem Runs.newInt {α β : Type} {v : Int} {f : Nat → HM α} {h : Cells} {W : Nat → Prop} {r : Res β}
    {R : α → Cells → β → Prop}
    (k : ∀ h1 : Cells, h1.length = h.length + 1 → val h1 h.length = v →
      (∀ q, q < h.length → val h1 q = val h q) →
      Runs (f h.length) h1 (fun i => W i ∨ h.length ≤ i) r R) : Runs (newInt v >>= f) h W r R := by
  have k := k (h ++ [v]) (by simp) (val_new h v) (fun q hq => val_old hq)
  unfold Runs
  rw [newInt_run]
  exact ⟨(step_newInt h v).trans k.1 (fun _ _ hh => hh.elim)
    (fun i hi hh => hh.elim id (fun hh => absurd hi (by omega))), k.2⟩

theorem Runs.read {α β : Type} {p : Nat} {f : Int → HM α} {h : Cells} {W : Nat → Prop} {r : Res β}
    {R : α → Cells → β → Prop}
    (k : Runs (f (val h p)) h W r R) : Runs (read p >>= f) h W r R := k

theorem Runs.write {α β : Type} {p : Nat} {v : Int} {f : Unit → HM α} {h : Cells} {W : Nat → Prop}
    {r : Res β} {R : α → Cells → β → Prop} (hp : p < h.length) (hw : W p)
    (k : ∀ h1 : Cells, h1.length = h.length → val h1 p = v → (∀ q, q ≠ p → val h1 q = val h q) →
      Runs (f ()) h1 W r R) : Runs (write p v >>= f) h W r R := by
  have k := k (h.set p v) (by simp) (val_same hp v) (fun q hq => val_other (fun e => hq e.symm) v)
  unfold Runs
  rw [write_run]
  exact ⟨(step_write h p v).trans k.1 (fun i _ hh => by subst hh; exact hw) (fun _ _ hh => hh), k.2⟩

section ops
variable {α β : Type} {x y z : Nat} {n : Nat} {f : Unit → HM α} {h : Cells} {W : Nat → Prop}
  {r : Res β} {R : α → Cells → β → Prop}

theorem Runs.setTo (hp : z < h.length) (hw : W z)
    (k : ∀ h1 : Cells, h1.length = h.length → val h1 z = val h x →
      (∀ q, q ≠ z → val h1 q = val h q) → Runs (f ()) h1 W r R) : Runs (setTo z x >>= f) h W r R :=
  Runs.write (v := val h x) hp hw k
theorem Runs.lshTo (hp : z < h.length) (hw : W z)
    (k : ∀ h1 : Cells, h1.length = h.length → val h1 z = lsh (val h x) n →
      (∀ q, q ≠ z → val h1 q = val h q) → Runs (f ()) h1 W r R) : Runs (lshTo z x n >>= f) h W r R :=
  Runs.write (v := lsh (val h x) n) hp hw k
theorem Runs.rshTo (hp : z < h.length) (hw : W z)
    (k : ∀ h1 : Cells, h1.length = h.length → val h1 z = rsh (val h x) n →
      (∀ q, q ≠ z → val h1 q = val h q) → Runs (f ()) h1 W r R) : Runs (rshTo z x n >>= f) h W r R :=
  Runs.write (v := rsh (val h x) n) hp hw k
theorem Runs.subTo (hp : z < h.length) (hw : W z)
    (k : ∀ h1 : Cells, h1.length = h.length → val h1 z = val h x - val h y →
      (∀ q, q ≠ z → val h1 q = val h q) → Runs (f ()) h1 W r R) : Runs (subTo z x y >>= f) h W r R :=
  Runs.write (v := val h x - val h y) hp hw k
theorem Runs.andTo (hp : z < h.length) (hw : W z)
    (k : ∀ h1 : Cells, h1.length = h.length → val h1 z = Int.land (val h x) (val h y) →
      (∀ q, q ≠ z → val h1 q = val h q) → Runs (f ()) h1 W r R) : Runs (andTo z x y >>= f) h W r R :=
  Runs.write (v := Int.land (val h x) (val h y)) hp hw k
theorem Runs.orTo (hp : z < h.length) (hw : W z)
    (k : ∀ h1 : Cells, h1.length = h.length → val h1 z = Int.lor (val h x) (val h y) →
      (∀ q, q ≠ z → val h1 q = val h q) → Runs (f ()) h1 W r R) : Runs (orTo z x y >>= f) h W r R :=
  Runs.write (v := Int.lor (val h x) (val h y)) hp hw k
theorem Runs.xorTo (hp : z < h.length) (hw : W z)
    (k : ∀ h1 : Cells, h1.length = h.length → val h1 z = Int.xor (val h x) (val h y) →
      (∀ q, q ≠ z → val h1 q = val h q) → Runs (f ()) h1 W r R) : Runs (xorTo z x y >>= f) h W r R :=
  Runs.write (v := Int.xor (val h x) (val h y)) hp hw k

end ops

/-! ## Bit buffers -/

theorem newBitBuffer_runs {h : Cells} (hg : 2 ≤ h.length) {p : Nat} (hp : p < h.length) (n : Nat) :
    Runs (newBitBuffer p n) h none' (BitBuffer.new (val h p) n)
      (fun a h' b => IsBuf h' a b ∧ h.length ≤ a.value) := by
  unfold newBitBuffer BitBuffer.new
  apply Runs.read
  by_cases hb : bitLen (val h p) > n
  · rw [if_pos hb, if_pos hb]
    exact ⟨Step.refl _ _, rfl⟩
  · rw [if_neg hb, if_neg hb]
    apply Runs.newInt
    intro h1 l1 v1 o1
    apply Runs.setTo (by omega) (.inr le_rfl)
    intro h2 l2 v2 o2
    exact Runs.pure ⟨⟨hg, by dsimp only; omega, by dsimp only; rw [v2, o1 p hp], rfl⟩, le_rfl⟩

theorem popTrailing_runs {h : Cells} (hg : Globals h) {a : Buf} {b : BitBuffer} (hb : IsBuf h a b)
    (n : Nat) :
    Runs (popTrailingBits a n) h (· = a.value) (b.popTrailingBits n)
      (fun x h' y => IsBuf h' x.2 y.2 ∧ x.2.value = a.value ∧ x.1 < h'.length ∧ h.length ≤ x.1 ∧
        val h' x.1 = y.1) := by
  obtain ⟨h2, hlt, hv, hn⟩ := hb
  obtain ⟨g1, g2, -⟩ := hg
  unfold popTrailingBits BitBuffer.popTrailingBits
  rw [hn]
  by_cases hc : n > b.nBits
  · rw [if_pos hc, if_pos hc]
    exact ⟨Step.refl _ _, rfl⟩
  · rw [if_neg hc, if_neg hc]
    apply Runs.newInt
    intro h1 l1 v1 o1
    apply Runs.lshTo (by omega) (.inr le_rfl)
    intro h2 l2 v2 o2
    apply Runs.subTo (by omega) (.inr le_rfl)
    intro h3 l3 v3 o3
    apply Runs.newInt
    intro h4 l4 v4 o4
    apply Runs.andTo (by omega) (.inr le_rfl)
    intro h5 l5 v5 o5
    apply Runs.rshTo (by omega) (.inl (.inl rfl))
    intro h6 l6 v6 o6
    apply Runs.pure
    have e0 : val h1 bigOne = 1 := by rw [o1 _ (by unfold bigOne; omega)]; exact g2
    have e1 : val h2 bigOne = 1 := by rw [o2 _ (by unfold bigOne; omega)]; exact e0
    have m4 : val h4 h.length = lsh 1 n - 1 := by
      rw [o4 _ (by omega), v3, v2, e0, e1]
    have b4 : val h4 a.value = b.value := by
      rw [o4 _ (by omega), o3 _ (by omega), o2 _ (by omega), o1 _ (by omega), hv]
    have b5 : val h5 a.value = b.value := by rw [o5 _ (by omega), b4]
    refine ⟨⟨by assumption, by dsimp only; omega, by dsimp only; rw [v6, b5], by dsimp only⟩, rfl, by dsimp only; omega,
      by dsimp only; omega, ?_⟩
    dsimp only
    rw [o6 _ (by omega), v5, m4, b4]

theorem popLeading_runs {h : Cells} (hg : Globals h) {a : Buf} {b : BitBuffer} (hb : IsBuf h a b)
    (n : Nat) :
    Runs (popLeadingBits a n) h (· = a.value) (b.popLeadingBits n)
      (fun x h' y => IsBuf h' x.2 y.2 ∧ x.2.value = a.value ∧ x.1 < h'.length ∧ h.length ≤ x.1 ∧
        val h' x.1 = y.1) := by
  obtain ⟨h2, hlt, hv, hn⟩ := hb
  obtain ⟨g1, g2, -⟩ := hg
  unfold popLeadingBits BitBuffer.popLeadingBits
  rw [hn]
  by_cases hc : n > b.nBits
  · rw [if_pos hc, if_pos hc]
    exact ⟨Step.refl _ _, rfl⟩
  · rw [if_neg hc, if_neg hc]
    apply Runs.newInt
    intro h1 l1 v1 o1
    apply Runs.lshTo (by omega) (.inr le_rfl)
    intro h2 l2 v2 o2
    apply Runs.subTo (by omega) (.inr le_rfl)
    intro h3 l3 v3 o3
    apply Runs.newInt
    intro h4 l4 v4 o4
    apply Runs.rshTo (by omega) (.inr le_rfl)
    intro h5 l5 v5 o5
    apply Runs.andTo (by omega) (.inr le_rfl)
    intro h6 l6 v6 o6
    apply Runs.lshTo (by omega) (.inl (.inr le_rfl))
    intro h7 l7 v7 o7
    apply Runs.xorTo (by omega) (.inl (.inl rfl))
    intro h8 l8 v8 o8
    apply Runs.pure
    have e0 : val h1 bigOne = 1 := by rw [o1 _ (by unfold bigOne; omega)]; exact g2
    have e1 : val h2 bigOne = 1 := by rw [o2 _ (by unfold bigOne; omega)]; exact e0
    have m4 : val h4 h.length = lsh 1 n - 1 := by
      rw [o4 _ (by omega), v3, v2, e0, e1]
    have b4 : val h4 a.value = b.value := by
      rw [o4 _ (by omega), o3 _ (by omega), o2 _ (by omega), o1 _ (by omega), hv]
    have m5 : val h5 h.length = lsh 1 n - 1 := by rw [o5 _ (by omega), m4]
    have b7 : val h7 a.value = b.value := by
      rw [o7 _ (by omega), o6 _ (by omega), o5 _ (by omega), b4]
    have x6 : val h6 h3.length = Int.land (lsh 1 n - 1) (rsh b.value (b.nBits - n)) := by
      rw [v6, m5, v5, b4]
    refine ⟨⟨by assumption, by dsimp only; omega, by dsimp only; rw [v8, b7, v7, x6], by dsimp only⟩, rfl,
      by dsimp only; omega, by dsimp only; omega, ?_⟩
    dsimp only
    rw [o8 _ (by omega), o7 _ (by omega), x6]

theorem append_runs {h : Cells} {a : Buf} {b : BitBuffer} (hb : IsBuf h a b) {v : Nat}
    (hne : v ≠ a.value) (n : Nat) :
    Runs (appendTrailingBits a v n) h (· = a.value) (b.appendTrailingBits (val h v) n)
      (fun x h' y => IsBuf h' x y ∧ x.value = a.value) := by
  obtain ⟨h2, hlt, hv, hn⟩ := hb
  unfold appendTrailingBits BitBuffer.appendTrailingBits
  apply Runs.read
  by_cases hc : bitLen (val h v) > n
  · rw [if_pos hc, if_pos hc]
    exact ⟨Step.refl _ _, rfl⟩
  · rw [if_neg hc, if_neg hc]
    refine Runs.lshTo hlt (by rfl) ?_
    intro h1 l1 v1 o1
    refine Runs.orTo (by omega) (by rfl) ?_
    intro h3 l3 v3 o3
    exact Runs.pure ⟨⟨by assumption, by dsimp only; omega, by dsimp only; rw [v3, v1, hv, o1 _ hne],
      by dsimp only; rw [hn]⟩, rfl⟩

theorem bufBytes_runs {h : Cells} {a : Buf} {b : BitBuffer} (hb : IsBuf h a b) :
    Runs (bufBytes a) h none' b.bytes (fun x h' y => x = y ∧ h' = h) := by
  obtain ⟨h2, hlt, hv, hn⟩ := hb
  unfold bufBytes BitBuffer.bytes
  apply Runs.read
  rw [hv, hn]
  exact runs_pureRes _ _

/-! ## Whole functions -/

/-- A call that always succeeds, at a place where the value model has no step -/
theorem Runs.call {α β γ δ : Type} {m : HM α} {f : α → HM γ} {h : Cells} {W1 W : Nat → Prop}
    {b : β} {r : Res δ} {R : α → Cells → β → Prop} {Q : γ → Cells → δ → Prop}
    (x : Runs m h W1 (.ok b) R) (hw : ∀ i, i < h.length → W1 i → W i)
    (k : ∀ a h1, Step h h1 W1 → R a h1 b →
      Runs (f a) h1 (fun i => W i ∨ h.length ≤ i) r Q) :
    Runs (m >>= f) h W r Q :=
  Runs.bind (g := fun _ => r) x hw (fun a h1 _ e s hr => by cases e; exact k a h1 s hr)

theorem globals_step {h h' : Cells} {W : Nat → Prop} (hg : Globals h) (s : Step h h' W) (h0 : ¬ W 0)
    (h1 : ¬ W 1) : Globals h' := by
  obtain ⟨g1, g2, g3⟩ := hg
  exact ⟨le_trans g1 s.1, by rw [s.2 0 (by omega) h0, g2], by rw [s.2 1 (by omega) h1, g3]⟩

theorem globals_none {h h' : Cells} (hg : Globals h) (s : Step h h' none') : Globals h' :=
  globals_step hg s id id

theorem isBuf_step {h h' : Cells} {W : Nat → Prop} {a : Buf} {b : BitBuffer} (hb : IsBuf h a b)
    (s : Step h h' W) (hw : ¬ W a.value) : IsBuf h' a b := by
  obtain ⟨h1, h2, h3, h4⟩ := hb
  exact ⟨h1, lt_of_lt_of_le h2 s.1, by rw [s.2 _ h2 hw, h3], h4⟩

/-- A new cell holding the value -/
def Fresh (h : Cells) (p : Nat) (h' : Cells) (v : Int) : Prop :=
  h.length ≤ p ∧ p < h'.length ∧ val h' p = v

theorem newInt_runs (h : Cells) (v : Int) :
    Runs (newInt v) h none' (.ok v) (fun p h' v => Fresh h p h' v) :=
  ⟨step_newInt h v, le_rfl, by simp [newInt], val_new h v⟩

theorem copy_runs {h : Cells} {p : Nat} (hp : p < h.length) :
    Runs (do let q ← newInt 0
             setTo q p
             pure q : HM Nat) h none' (.ok (val h p)) (fun q h' v => Fresh h q h' v) := by
  apply Runs.newInt
  intro h1 l1 v1 o1
  apply Runs.setTo (by omega) (.inr le_rfl)
  intro h2 l2 v2 o2
  exact Runs.pure ⟨le_rfl, by omega, by rw [v2, o1 p hp]⟩

theorem encodeLoop_runs (n : Nat) : ∀ {h : Cells} (_ : Globals h) {p : Nat} (_ : 2 ≤ p) (_ : p < h.length)
    (acc : List Nat),
    Runs (encodeLoop n p acc) h (· = p) (Model.encodeLoop n (val h p) acc)
      (fun x h' y => x = y ∧ val h' p = 0) := by
  have hz : ∀ v : Int, ¬ bitLen v > 0 → v = 0 := by
    intro v hv
    unfold bitLen at hv
    have : v.natAbs.size = 0 := by omega
    rw [Nat.size_eq_zero] at this
    omega
  induction n with
  | zero =>
    intro h hg p h2 hp acc
    unfold Heap.encodeLoop Model.encodeLoop
    apply Runs.read
    by_cases hb : bitLen (val h p) > 0
    · rw [if_pos hb, if_pos hb]; exact ⟨Step.refl _ _, rfl⟩
    · rw [if_neg hb, if_neg hb]; exact Runs.pure ⟨rfl, hz _ hb⟩
  | succ n ih =>
    intro h hg p h2 hp acc
    unfold Heap.encodeLoop Model.encodeLoop
    apply Runs.read
    by_cases hb : bitLen (val h p) > 0
    · rw [if_pos hb, if_pos hb]
      apply Runs.newInt
      intro h1 l1 v1 o1
      refine Runs.andTo (by omega) (.inr le_rfl) ?_
      intro h2' l2 v2 o2
      apply Runs.read
      refine Runs.rshTo (by omega) (.inl rfl) ?_
      intro h3 l3 v3 o3
      obtain ⟨g1, g2, g3⟩ := hg
      have g : Globals h3 := ⟨by omega, by rw [o3 _ (by omega), o2 _ (by omega), o1 _ (by omega), g2],
        by rw [o3 _ (by omega), o2 _ (by omega), o1 _ (by omega), g3]⟩
      have e1 : val h2' h.length = Int.land (val h p) wordMask := by
        rw [v2, o1 _ hp, show wordMaskPtr = 1 from rfl, o1 _ (by omega), g3]
      have e2 : val h3 p = rsh (val h p) bitsPerWord := by
        rw [v3, o2 _ (by omega), o1 _ hp]
      rw [e1, ← e2]
      exact (ih g h2 (by omega) _).weaken (fun i _ hh => .inl hh) (fun _ _ _ _ hh => hh)
    · rw [if_neg hb, if_neg hb]; exact Runs.pure ⟨rfl, hz _ hb⟩

theorem encodeToIndices_runs {h : Cells} (hg : Globals h) {p : Nat} (h2 : 2 ≤ p) (hp : p < h.length)
    (n : Nat) :
    Runs (encodeToIndices p n) h (· = p) (Model.encodeToIndices (val h p) n)
      (fun x h' y => x = y ∧ val h' p = 0) := by
  unfold Heap.encodeToIndices Model.encodeToIndices
  apply Runs.read
  by_cases hb : bitLen (val h p) > n
  · rw [if_pos hb, if_pos hb]; exact ⟨Step.refl _ _, rfl⟩
  · rw [if_neg hb, if_neg hb]
    exact encodeLoop_runs _ hg h2 hp _

theorem decodeLoop_runs (is : List Nat) : ∀ {h : Cells} {p : Nat} (_ : p < h.length),
    Runs (decodeLoop p is) h (· = p) (Model.decodeLoop (val h p) is)
      (fun x h' y => x = p ∧ val h' p = y) := by
  induction is with
  | nil => intro h p hp; exact Runs.pure ⟨rfl, rfl⟩
  | cons i is ih =>
    intro h p hp
    unfold Heap.decodeLoop Model.decodeLoop
    by_cases hb : i.size > bitsPerWord
    · rw [if_pos hb, if_pos hb]; exact ⟨Step.refl _ _, rfl⟩
    · rw [if_neg hb, if_neg hb]
      refine Runs.lshTo hp (by rfl) ?_
      intro h1 l1 v1 o1
      apply Runs.newInt
      intro h2 l2 v2 o2
      refine Runs.orTo (by omega) (.inl (by rfl)) ?_
      intro h3 l3 v3 o3
      have e : val h3 p = Int.lor (lsh (val h p) bitsPerWord) (i : Int) := by
        rw [v3, v2, o2 _ (by omega), v1]
      rw [← e]
      exact (ih (by omega)).weaken (fun i _ hh => .inl hh) (fun _ _ _ _ hh => hh)

theorem decodeIndices_runs (h : Cells) (is : List Nat) :
    Runs (decodeIndices is) h none' (Model.decodeIndices is) (fun x h' y => Fresh h x h' y) := by
  unfold Heap.decodeIndices Model.decodeIndices
  apply Runs.newInt
  intro h1 l1 v1 o1
  have := decodeLoop_runs is (h := h1) (p := h.length) (by omega)
  rw [v1] at this
  exact this.weaken (fun i _ hh => .inr (by omega)) (fun x h' y s ⟨e1, e2⟩ => by
    subst e1
    exact ⟨le_rfl, by have := s.1; omega, e2⟩)

theorem newSeed_runs {h : Cells} {p : Nat} (hp : p < h.length) (era : Int) :
    Runs (newSeed era p) h none' (Model.newSeed era (val h p))
      (fun x h' y => x.era = y.era ∧ x.value = p ∧ y.value = val h p ∧ h' = h) := by
  unfold Heap.newSeed Model.newSeed
  refine (runs_pureRes _ _).bind (fun _ _ hh => hh) ?_
  rintro _ h1 _ _ _ ⟨-, rfl⟩
  apply Runs.read
  by_cases hb : bitLen (val h1 p) > entropyBitCount
  · rw [if_pos hb, if_pos hb]; exact ⟨Step.refl _ _, rfl⟩
  · rw [if_neg hb, if_neg hb]
    exact Runs.pure ⟨rfl, rfl, rfl, rfl⟩

theorem encodeMnemonic_runs (L : WordList) (v : Nat) {h : Cells} (hg : Globals h) {a : Buf}
    {b : BitBuffer} (hb : IsBuf h a b) :
    Runs (encodeMnemonic L v a) h (· = a.value) (Model.encodeMnemonic L v b)
      (fun x _ y => x = y) := by
  have ha := hb.1
  unfold Heap.encodeMnemonic Model.encodeMnemonic
  refine (bufBytes_runs hb).bind (fun _ _ hh => hh.elim) ?_
  rintro bs h1 _ _ _ ⟨rfl, rfl⟩
  refine (newInt_runs h1 _).call (fun _ _ hh => hh.elim) ?_
  rintro p h2 s2 ⟨f1, f2, f3⟩
  have hb2 := isBuf_step hb s2 id
  rw [← f3]
  refine (append_runs hb2 (v := p) (by have := hb.2.1; omega) _).bind (fun _ _ hh => .inl (.inl hh)) ?_
  rintro a3 h3 b3 - s3 ⟨hb3, hv3⟩
  have hn := hb3.2.2.2
  rw [hn, BitBuffer.bitLength]
  by_cases hc : b3.nBits ≠ payloadBitCount v
  · rw [if_pos hc, if_pos hc]; exact ⟨Step.refl _ _, rfl⟩
  · rw [if_neg hc, if_neg hc]
    have hg2 := globals_none hg s2
    have hg3 := globals_step hg2 s3 (by omega) (by omega)
    refine (copy_runs hb3.2.1).call (fun _ _ hh => hh.elim) ?_
    rintro q h4 s4 ⟨q1, q2, q3⟩
    have hg4 := globals_none hg3 s4
    have e : val h4 q = b3.int := by rw [q3, hb3.2.2.1]; rfl
    rw [← e]
    have := hg3.1
    refine (encodeToIndices_runs hg4 (by omega) q2 _).bind (fun i hi hh => .inr (by omega)) ?_
    rintro x h5 _ - s5 ⟨rfl, -⟩
    exact (runs_pureRes _ _).weaken (fun _ _ hh => hh.elim) (fun _ _ _ _ hh => hh.1)

theorem plaintext_runs (L : WordList) {h : Cells} (hg : Globals h) (s : SeedRef)
    (hs : s.value < h.length) (off : Nat) :
    Runs (encodeMnemonicPlaintext L s off) h none' (Model.encodeMnemonicPlaintext L (seedAt h s) off)
      (fun x _ y => x = y) := by
  unfold Heap.encodeMnemonicPlaintext Model.encodeMnemonicPlaintext
  refine (runs_pureRes _ _).bind (fun _ _ hh => hh) ?_
  rintro _ h1 _ - - ⟨-, rfl⟩
  refine (newInt_runs h1 0).call (fun _ _ hh => hh.elim) ?_
  rintro p h2 s2 ⟨f1, f2, f3⟩
  have hg2 := globals_none hg s2
  have e2 := s2.1
  have nb := newBitBuffer_runs hg2.1 f2 mnemonicVersionBitCount
  rw [f3] at nb
  refine nb.bind (fun _ _ hh => hh.elim) ?_
  rintro a h3 b - s3 ⟨hb, hv⟩
  have hg3 := globals_none hg2 s3
  have e3 := s3.1
  have hs3 : s.value < h3.length := by omega
  have v3 : val h3 s.value = val h1 s.value := by rw [s3.2 _ (by omega) id, s2.2 _ hs id]
  refine (copy_runs hs3).call (fun _ _ hh => hh.elim) ?_
  rintro q h4 s4 ⟨q1, q2, q3⟩
  have hg4 := globals_none hg3 s4
  have hb4 := isBuf_step hb s4 id
  have ap := append_runs hb4 (v := q) (by have := hb.2.1; omega) entropyBitCount
  rw [q3, v3] at ap
  refine ap.bind (fun i _ hh => by
    have : h2.length ≤ i := by omega
    simp only [or_assoc]; right; omega) ?_
  rintro a5 h5 b5 - s5 ⟨hb5, hv5⟩
  have ha := hb.1
  have hg5 := globals_step hg4 s5 (by omega) (by omega)
  refine (newInt_runs h5 _).call (fun _ _ hh => hh.elim) ?_
  rintro o h6 s6 ⟨o1, o2, o3⟩
  have hg6 := globals_none hg5 s6
  have hb6 := isBuf_step hb5 s6 id
  have ap6 := append_runs hb6 (v := o) (by have := hb5.2.1; omega) creationOffsetBitCount
  rw [o3] at ap6
  refine ap6.bind (fun i _ hh => by
    have : h2.length ≤ i := by omega
    simp only [or_assoc]; right; omega) ?_
  rintro a7 h7 b7 - s7 ⟨hb7, hv7⟩
  have hg7 := globals_step hg6 s7 (by omega) (by omega)
  exact (encodeMnemonic_runs L 0 hg7 hb7).weaken (fun i _ hh => by
    have : h2.length ≤ i := by omega
    simp only [or_assoc]; right; omega)
    (fun _ _ _ _ hh => hh)

theorem encSeedKey_runs (C : PhraseCrypto) (pw : Bytes) {h : Cells} (hg : Globals h) {p : Nat}
    (hp : p < h.length) (off : Nat) :
    Runs (encSeedKey C pw p off) h none' (Model.encSeedKey C pw (val h p) off)
      (fun x _ y => x = y) := by
  unfold Heap.encSeedKey Model.encSeedKey
  refine (newBitBuffer_runs hg.1 hp _).bind (fun _ _ hh => hh.elim) ?_
  rintro a h1 b - s1 ⟨hb, hv⟩
  refine (newInt_runs h1 _).call (fun _ _ hh => hh.elim) ?_
  rintro o h2 s2 ⟨o1, o2, o3⟩
  have hb2 := isBuf_step hb s2 id
  have ap := append_runs hb2 (v := o) (by have := hb.2.1; omega) creationOffsetBitCount
  rw [o3] at ap
  refine ap.bind (fun _ _ hh => .inl (.inr (by omega))) ?_
  rintro a3 h3 b3 - s3 ⟨hb3, hv3⟩
  refine (bufBytes_runs hb3).bind (fun _ _ hh => hh.elim) ?_
  rintro bs h4 _ - s4 ⟨rfl, rfl⟩
  exact Runs.pure rfl

theorem seedBytes_runs (h : Cells) (s : SeedRef) :
    Runs (seedBytes s) h none' (seedAt h s).bytes (fun x h' y => x = y ∧ h' = h) := by
  unfold Heap.seedBytes Seed.bytes seedAt
  apply Runs.read
  exact runs_pureRes _ _

theorem encrypted_runs (L : WordList) (C : PhraseCrypto) {h : Cells} (hg : Globals h) (s : SeedRef)
    (hs : s.value < h.length) (off : Nat) (pw rnd : Bytes) :
    Runs (encodeMnemonicEncrypted L C s off pw rnd) h none'
      (Model.encodeMnemonicEncrypted L C (seedAt h s) off pw rnd) (fun x _ y => x = y) := by
  unfold Heap.encodeMnemonicEncrypted Model.encodeMnemonicEncrypted
  refine (runs_pureRes _ _).bind (fun _ _ hh => hh) ?_
  rintro _ h1 _ - - ⟨-, rfl⟩
  by_cases hp : pw.length = 0
  · rw [if_pos hp, if_pos hp]; exact ⟨Step.refl _ _, rfl⟩
  rw [if_neg hp, if_neg hp]
  refine (newInt_runs h1 1).call (fun _ _ hh => hh.elim) ?_
  rintro p h2 s2 ⟨f1, f2, f3⟩
  have hg2 := globals_none hg s2
  have e2 := s2.1
  have nb := newBitBuffer_runs hg2.1 f2 mnemonicVersionBitCount
  rw [f3] at nb
  refine nb.bind (fun _ _ hh => hh.elim) ?_
  rintro a h3 b - s3 ⟨hb, hv⟩
  have hg3 := globals_none hg2 s3
  have e3 := s3.1
  have ha := hb.1
  have hlt := hb.2.1
  refine (runs_pureRes _ _).bind (fun _ _ hh => hh.elim) ?_
  rintro ⟨n, rest⟩ _ _ - - ⟨rfl, rfl⟩
  dsimp only
  refine (newInt_runs _ (n : Int)).call (fun _ _ hh => hh.elim) ?_
  rintro q h4 s4 ⟨q1, q2, q3⟩
  have hg4 := globals_none hg3 s4
  have hb4 := isBuf_step hb s4 id
  have ek := encSeedKey_runs C pw hg4 q2 off
  rw [q3] at ek
  refine ek.bind (fun _ _ hh => hh.elim) ?_
  rintro key h5 _ - s5 rfl
  have hg5 := globals_none hg4 s5
  have hb5 := isBuf_step hb4 s5 id
  have e4 := s4.1
  have e5 := s5.1
  have v5 : val h5 s.value = val h1 s.value := by
    rw [s5.2 _ (by omega) id, s4.2 _ (by omega) id, s3.2 _ (by omega) id, s2.2 _ hs id]
  have vq5 : val h5 q = n := by rw [s5.2 _ q2 id, q3]
  have sb : Runs (Heap.seedBytes s) h5 none' (seedAt h1 s).bytes (fun x h' y => x = y ∧ h' = h5) := by
    unfold Heap.seedBytes Seed.bytes seedAt
    apply Runs.read
    rw [v5]
    exact runs_pureRes _ _
  refine sb.bind (fun _ _ hh => hh.elim) ?_
  rintro sbs _ _ - - ⟨rfl, rfl⟩
  refine (runs_pureRes _ _).bind (fun _ _ hh => hh.elim) ?_
  rintro vf _ _ - - ⟨rfl, rfl⟩
  refine (newInt_runs _ (vf.toNat : Int)).call (fun _ _ hh => hh.elim) ?_
  rintro w h6 s6 ⟨w1, w2, w3⟩
  have hg6 := globals_none hg5 s6
  have hb6 := isBuf_step hb5 s6 id
  have e6 := s6.1
  refine (newInt_runs _ _).call (fun _ _ hh => hh.elim) ?_
  rintro x h7 s7 ⟨x1, x2, x3⟩
  have hg7 := globals_none hg6 s7
  have hb7 := isBuf_step hb6 s7 id
  have e7 := s7.1
  have vq7 : val h7 q = n := by rw [s7.2 _ (by omega) id, s6.2 _ (by omega) id, vq5]
  have vw7 : val h7 w = vf.toNat := by rw [s7.2 _ w2 id, w3]
  have hW : ∀ i, i = a.value → h2.length ≤ i := by omega
  have ap := append_runs hb7 (v := x) (by omega) entropyBitCount
  rw [x3] at ap
  refine ap.bind (fun i _ hh => by have := hW i hh; simp only [or_assoc]; right; omega) ?_
  rintro a8 h8 b8 - s8 ⟨hb8, hv8⟩
  have hg8 := globals_step hg7 s8 (by omega) (by omega)
  have e8 := s8.1
  have ap := append_runs hb8 (v := q) (by omega) saltBitCount
  rw [s8.2 _ (by omega) (by omega), vq7] at ap
  refine ap.bind (fun i _ hh => by have := hW i (by omega); simp only [or_assoc]; right; omega) ?_
  rintro a9 h9 b9 - s9 ⟨hb9, hv9⟩
  have hg9 := globals_step hg8 s9 (by omega) (by omega)
  have e9 := s9.1
  have ap := append_runs hb9 (v := w) (by omega) encSeedVerifyBitCount
  rw [s9.2 _ (by omega) (by omega), s8.2 _ (by omega) (by omega), vw7] at ap
  refine ap.bind (fun i _ hh => by have := hW i (by omega); simp only [or_assoc]; right; omega) ?_
  rintro a10 h10 b10 - s10 ⟨hb10, hv10⟩
  have hg10 := globals_step hg9 s10 (by omega) (by omega)
  have e10 := s10.1
  refine (newInt_runs h10 _).call (fun _ _ hh => hh.elim) ?_
  rintro o h11 s11 ⟨o1, o2, o3⟩
  have hg11 := globals_none hg10 s11
  have hb11 := isBuf_step hb10 s11 id
  have ap := append_runs hb11 (v := o) (by have := hb10.2.1; omega) creationOffsetBitCount
  rw [o3] at ap
  refine ap.bind (fun i _ hh => by have := hW i (by omega); simp only [or_assoc]; right; omega) ?_
  rintro a12 h12 b12 - s12 ⟨hb12, hv12⟩
  have hg12 := globals_step hg11 s12 (by omega) (by omega)
  refine (encodeMnemonic_runs L 1 hg12 hb12).bind
    (fun i _ hh => by have := hW i (by omega); simp only [or_assoc]; right; omega) ?_
  rintro ws h13 _ - - rfl
  exact Runs.pure rfl

/-- All its integers are there. -/
def Held (h : Cells) (d : DecodedRef) : Prop :=
  d.entropy < h.length ∧ ∀ p, d.salt = some p → p < h.length

theorem decodedSeed_runs {h : Cells} (d : DecodedRef) (hd : d.entropy < h.length) :
    Runs (decodedSeed d) h none' (decodedAt h d).seed
      (fun x h' y => x.era = y.era ∧ x.value = d.entropy ∧ y.value = val h d.entropy ∧ h' = h) := by
  unfold Heap.decodedSeed DecodedMnemonic.seed DecodedMnemonic.encrypted decodedAt
  dsimp only
  by_cases hc : versionEncrypted d.version = true
  · rw [if_pos hc, if_pos hc]; exact ⟨Step.refl _ _, rfl⟩
  · rw [if_neg hc, if_neg hc]
    exact newSeed_runs hd _

theorem decryptSeed_runs (C : PhraseCrypto) {h : Cells} (hg : Globals h) (d : DecodedRef) (hd : Held h d)
    (pw : Bytes) :
    Runs (decryptSeed C d pw) h none' ((decodedAt h d).decryptSeed C pw)
      (fun x h' y => x.era = y.era ∧ x.value < h'.length ∧ y.value = val h' x.value ∧
        (x.value = d.entropy ∨ h.length ≤ x.value)) := by
  unfold Heap.decryptSeed DecodedMnemonic.decryptSeed DecodedMnemonic.encrypted
  rw [show (decodedAt h d).version = d.version from rfl]
  by_cases hc : (!versionEncrypted d.version) = true
  · rw [if_pos hc, if_pos hc]
    refine (decodedSeed_runs d hd.1).weaken (fun _ _ hh => hh) ?_
    rintro x h1 y - ⟨r1, r2, r3, rfl⟩
    exact ⟨r1, by rw [r2]; exact hd.1, by rw [r3, r2], .inl r2⟩
  · rw [if_neg hc, if_neg hc]
    have hs : (decodedAt h d).salt = d.salt.map (val h) := rfl
    cases hsalt : d.salt with
    | none =>
      rw [hs, hsalt]
      exact ⟨Step.refl _ _, rfl⟩
    | some p =>
      rw [hs, hsalt]
      dsimp only [Option.map_some]
      refine (encSeedKey_runs C pw hg (hd.2 p hsalt) _).bind (fun _ _ hh => hh.elim) ?_
      rintro key h1 _ - s1 rfl
      refine (runs_pureRes _ _).bind (fun _ _ hh => hh.elim) ?_
      rintro vf _ _ - - ⟨rfl, rfl⟩
      rw [show (decodedAt h d).encSeedVerify = d.encSeedVerify from rfl]
      by_cases hv : vf ≠ d.encSeedVerify
      · rw [if_pos hv, if_pos hv]; exact ⟨Step.refl _ _, rfl⟩
      · rw [if_neg hv, if_neg hv]
        apply Runs.read
        rw [show (decodedAt h d).entropy = val h d.entropy from rfl, s1.2 _ hd.1 id]
        refine (runs_pureRes _ _).bind (fun _ _ hh => hh.elim) ?_
        rintro es _ _ - - ⟨rfl, rfl⟩
        refine (newInt_runs _ _).call (fun _ _ hh => hh.elim) ?_
        rintro q h2 s2 ⟨q1, q2, q3⟩
        have ns := newSeed_runs q2 (versionEra d.version)
        rw [q3] at ns
        refine ns.weaken (fun _ _ hh => hh.elim) ?_
        rintro x h3 y - ⟨r1, r2, r3, rfl⟩
        have := s1.1
        exact ⟨r1, by omega, by rw [r3, r2, q3], .inr (by omega)⟩

theorem pop_old {h h' : Cells} {a : Buf} {q : Nat} {v : Int} (s : Step h h' (· = a.value))
    (hq : q < h.length) (hne : q ≠ a.value) (hv : val h q = v) : val h' q = v := by
  rw [s.2 q hq hne, hv]

theorem popSecret_runs (version : Nat) {h : Cells} (hg : Globals h) {a : Buf} {b : BitBuffer}
    (hb : IsBuf h a b) :
    Runs (popSecret version a) h (· = a.value)
      (if version = 1 then do
            let (salt, buf) ← b.popLeadingBits saltBitCount
            let (v, buf) ← buf.popLeadingBits encSeedVerifyBitCount
            .ok (some salt, UInt8.ofNat (uint64 v), buf)
          else .ok (none, 0, b) : Res (Option Int × Byte × BitBuffer))
      (fun x h' y => IsBuf h' x.2.2 y.2.2 ∧ x.2.2.value = a.value ∧ x.2.1 = y.2.1 ∧
        y.1 = x.1.map (val h') ∧ ∀ p, x.1 = some p → h.length ≤ p ∧ p < h'.length) := by
  unfold popSecret
  have ha := hb.1
  have hlt := hb.2.1
  by_cases hv : version = 1
  · rw [if_pos hv, if_pos hv]
    refine (popLeading_runs hg hb _).bind (fun _ _ hh => hh) ?_
    rintro ⟨p, a1⟩ h1 ⟨sv, b1⟩ - s1 ⟨hb1, hv1, p1, p2, p3⟩
    dsimp only at hb1 hv1 p1 p2 p3 ⊢
    have hg1 := globals_step hg s1 (by omega) (by omega)
    refine (popLeading_runs hg1 hb1 _).bind (fun i _ hh => .inl (by omega)) ?_
    rintro ⟨q, a2⟩ h2 ⟨vv, b2⟩ - s2 ⟨hb2, hv2, q1, q2, q3⟩
    dsimp only at hb2 hv2 q1 q2 q3 ⊢
    apply Runs.read
    rw [q3]
    refine Runs.pure ⟨hb2, by dsimp only; omega, rfl, ?_, ?_⟩
    · dsimp only [Option.map_some]
      rw [pop_old s2 p1 (by omega) p3]
    · rintro r e
      have := s2.1
      simp only [Option.some.injEq] at e
      omega
  · rw [if_neg hv, if_neg hv]
    exact Runs.pure ⟨hb, rfl, rfl, rfl, by simp⟩

theorem decodeMnemonic_runs (L : WordList) {h : Cells} (hg : Globals h) (words : List Bytes) :
    Runs (decodeMnemonic L words) h none' (Model.decodeMnemonic L words)
      (fun d h' dm => dm = decodedAt h' d ∧ Held h' d ∧ h.length ≤ d.entropy ∧
        ∀ p, d.salt = some p → h.length ≤ p) := by
  unfold Heap.decodeMnemonic Model.decodeMnemonic
  cases words with
  | nil => exact ⟨Step.refl _ _, rfl⟩
  | cons w ws =>
    dsimp only
    refine (runs_pureRes _ _).bind (fun _ _ hh => hh) ?_
    rintro version _ _ - - ⟨rfl, rfl⟩
    refine (runs_pureRes _ _).bind (fun _ _ hh => hh.elim) ?_
    rintro _ h0 _ - - ⟨-, rfl⟩
    by_cases hl : (w :: ws).length ≠ mnemonicSize version
    · rw [if_pos hl, if_pos hl]; exact ⟨Step.refl _ _, rfl⟩
    rw [if_neg hl, if_neg hl]
    refine (runs_pureRes _ _).bind (fun _ _ hh => hh.elim) ?_
    rintro indices h0 _ - - ⟨rfl, rfl⟩
    refine (decodeIndices_runs _ _).bind (fun _ _ hh => hh.elim) ?_
    rintro p h1 pv - s1 ⟨p1, p2, p3⟩
    have hg1 := globals_none hg s1
    have e1 := s1.1
    have nb := newBitBuffer_runs hg1.1 p2 ((w :: ws).length * bitsPerWord)
    rw [p3] at nb
    refine nb.bind (fun _ _ hh => hh.elim) ?_
    rintro a h2 b - s2 ⟨hb, hv⟩
    have hg2 := globals_none hg1 s2
    have e2 := s2.1
    have ha := hb.1
    have hW : ∀ i, i = a.value → h0.length ≤ i := by omega
    refine (popTrailing_runs hg2 hb _).bind
      (fun i _ hh => by have := hW i (by omega); simp only [or_assoc]; right; omega) ?_
    rintro ⟨q, a3⟩ h3 ⟨ck, b3⟩ - s3 ⟨hb3, hv3, q1, q2, q3⟩
    dsimp only at hb3 hv3 q1 q2 q3 ⊢
    have hg3 := globals_step hg2 s3 (by omega) (by omega)
    have e3 := s3.1
    apply Runs.read
    rw [q3]
    refine (bufBytes_runs hb3).bind (fun _ _ hh => hh.elim) ?_
    rintro bs _ _ - - ⟨rfl, rfl⟩
    by_cases hck : checksum5 bs ≠ uint64 ck % 2 ^ 32
    · rw [if_pos hck, if_pos hck]; exact ⟨Step.refl _ _, rfl⟩
    rw [if_neg hck, if_neg hck]
    refine (popLeading_runs hg3 hb3 _).bind
      (fun i _ hh => by have := hW i (by omega); simp only [or_assoc]; right; omega) ?_
    rintro ⟨d4, a4⟩ h4 ⟨dv4, b4⟩ - s4 ⟨hb4, hv4, -, -, -⟩
    dsimp only at hb4 hv4 ⊢
    have hg4 := globals_step hg3 s4 (by omega) (by omega)
    have e4 := s4.1
    refine (popLeading_runs hg4 hb4 _).bind
      (fun i _ hh => by have := hW i (by omega); simp only [or_assoc]; right; omega) ?_
    rintro ⟨t, a5⟩ h5 ⟨tv, b5⟩ - s5 ⟨hb5, hv5, t1, t2, t3⟩
    dsimp only at hb5 hv5 t1 t2 t3 ⊢
    have hg5 := globals_step hg4 s5 (by omega) (by omega)
    have e5 := s5.1
    have hlt4 := hb4.2.1
    refine (popSecret_runs version hg5 hb5).bind
      (fun i _ hh => by have := hW i (by omega); simp only [or_assoc]; right; omega) ?_
    rintro ⟨so, vf, a6⟩ h6 ⟨sv, vf', b6⟩ - s6 ⟨hb6, hv6, rfl, hsv, hso⟩
    dsimp only at hb6 hv6 hsv hso ⊢
    have hg6 := globals_step hg5 s6 (by omega) (by omega)
    have e6 := s6.1
    have ht6 := pop_old s6 t1 (by omega) t3
    refine (popLeading_runs hg6 hb6 _).bind
      (fun i _ hh => by have := hW i (by omega); simp only [or_assoc]; right; omega) ?_
    rintro ⟨o, a7⟩ h7 ⟨ov, b7⟩ - s7 ⟨hb7, hv7, o1, o2, o3⟩
    dsimp only at hb7 hv7 o1 o2 o3 ⊢
    have e7 := s7.1
    have ht7 := pop_old s7 (by omega) (by omega) ht6
    apply Runs.read
    rw [o3, hb7.2.2.2, BitBuffer.bitLength]
    by_cases hx : b7.nBits ≠ 0
    · rw [if_pos hx, if_pos hx]; exact ⟨Step.refl _ _, rfl⟩
    rw [if_neg hx, if_neg hx]
    have hlt5 := hb5.2.1
    refine Runs.pure ⟨?_, ⟨by dsimp only; omega, ?_⟩, by dsimp only; omega, ?_⟩
    · unfold decodedAt
      dsimp only
      rw [ht7, hsv]
      cases so with
      | none => rfl
      | some p =>
        obtain ⟨u1, u2⟩ := hso p rfl
        dsimp only [Option.map_some]
        rw [s7.2 p u2 (by omega)]
    · rintro r hr
      have := hso r hr
      omega
    · rintro r hr
      have := hso r hr
      omega

theorem generateSeed_runs {h : Cells} (hg : Globals h) (rnd : Bytes) :
    Runs (generateSeed rnd) h none' (Model.generateSeed rnd)
      (fun x h' y => x.1.era = y.1.era ∧ Fresh h x.1.value h' y.1.value ∧ x.2 = y.2) := by
  unfold Heap.generateSeed Model.generateSeed
  obtain ⟨g1, g2, -⟩ := hg
  apply Runs.newInt
  intro h1 l1 v1 o1
  refine Runs.lshTo (by omega) (.inr le_rfl) ?_
  intro h2 l2 v2 o2
  apply Runs.read
  have e : (val h2 h.length).toNat = 2 ^ entropyBitCount := by
    rw [v2, o1 _ (by unfold bigOne; omega), show val h bigOne = 1 from g2]
    decide
  rw [e]
  refine (runs_pureRes _ _).bind (fun _ _ hh => hh.elim) ?_
  rintro ⟨n, rest⟩ _ _ - - ⟨rfl, rfl⟩
  dsimp only
  refine (newInt_runs _ (n : Int)).call (fun _ _ hh => hh.elim) ?_
  rintro q h3 s3 ⟨q1, q2, q3⟩
  have ns := newSeed_runs q2 eraLatest
  rw [q3] at ns
  refine ns.bind (fun _ _ hh => hh.elim) ?_
  rintro x h4 y - - ⟨r1, r2, r3, rfl⟩
  exact Runs.pure ⟨r1, ⟨by dsimp only; omega, by dsimp only; omega, by dsimp only; rw [r2, q3, r3]⟩, rfl⟩

/-! ## Histories -/

/-- Cells that belong to seeds and decoded phrases -/
def Protected (c : Client) (p : Nat) : Prop :=
  (∃ x ∈ c.seeds, x.value = p) ∨ (∃ d ∈ c.decoded, d.entropy = p ∨ d.salt = some p)

structure Inv (s : State) : Prop where
  globals : Globals s.heap
  ints : ∀ p ∈ s.client.ints, 2 ≤ p ∧ p < s.heap.length
  prot : ∀ p, Protected s.client p → 2 ≤ p ∧ p < s.heap.length ∧
    (p ∈ s.client.ints → p ∈ s.client.given)

theorem inv_start : Inv start where
  globals := ⟨by decide, rfl, rfl⟩
  ints := by simp [start]
  prot := by simp [start, Protected]

theorem Inv.held {s : State} (i : Inv s) {d : DecodedRef} (hd : d ∈ s.client.decoded) :
    Held s.heap d :=
  ⟨(i.prot _ (.inr ⟨d, hd, .inl rfl⟩)).2.1, fun _ hp => (i.prot _ (.inr ⟨d, hd, .inr hp⟩)).2.1⟩

theorem Inv.seed {s : State} (i : Inv s) {x : SeedRef} (hx : x ∈ s.client.seeds) :
    x.value < s.heap.length := (i.prot _ (.inl ⟨x, hx, rfl⟩)).2.1

/-- The cell that a call is told to overwrite -/
def Touched (c : Client) : Call → Nat → Prop
  | .assign i _, p => c.ints[i]? = some p
  | .encodeToIndices i _, p => c.ints[i]? = some p
  | _, _ => False

/-- What one step keeps, when told to overwrite the cells `W` -/
structure Kept (s t : State) (W : Nat → Prop) : Prop where
  inv : Inv t
  cells : ∀ p, Protected s.client p → ¬ W p → val t.heap p = val s.heap p
  seeds : ∀ x ∈ s.client.seeds, x ∈ t.client.seeds
  decoded : ∀ d ∈ s.client.decoded, d ∈ t.client.decoded

theorem Kept.refl {s : State} {W : Nat → Prop} (i : Inv s) : Kept s s W := ⟨i, fun _ _ _ => rfl, fun _ h => h, fun _ h => h⟩

/-- A call that changes at most those cells -/
theorem call_kept {α β : Type} {s : State} (i : Inv s) {m : HM α} {keep : α → Client → Client}
    {W W' : Nat → Prop} {r : Res β} {R : α → Cells → β → Prop} (x : Runs m s.heap W r R)
    (hW : ∀ p, W p → 2 ≤ p ∧ W' p)
    (k : ∀ a h1 b, s.heap.length ≤ h1.length → R a h1 b →
      (∀ p ∈ (keep a s.client).ints, p ∈ s.client.ints ∨ s.heap.length ≤ p ∧ p < h1.length) ∧
      (∀ p, Protected (keep a s.client) p → Protected s.client p ∧
          (p ∈ (keep a s.client).ints → p ∈ s.client.ints) ∨
        2 ≤ p ∧ p < h1.length ∧ (p ∈ (keep a s.client).ints → p ∈ (keep a s.client).given)) ∧
      (∀ p ∈ s.client.given, p ∈ (keep a s.client).given) ∧
      (∀ y ∈ s.client.seeds, y ∈ (keep a s.client).seeds) ∧
      (∀ d ∈ s.client.decoded, d ∈ (keep a s.client).decoded)) :
    Kept s (s.call m keep) W' := by
  obtain ⟨st, ag⟩ := x
  unfold State.call
  generalize hm : m s.heap = mh at *
  obtain ⟨o, h1⟩ := mh
  dsimp only at st ag ⊢
  have hg : Globals h1 := globals_step i.globals st (fun h => absurd (hW _ h).1 (by omega))
    (fun h => absurd (hW _ h).1 (by omega))
  have hlen := st.1
  have hcells : ∀ p, Protected s.client p → ¬ W' p → val h1 p = val s.heap p := fun p hp hn =>
    st.2 p (i.prot p hp).2.1 (fun h => hn (hW p h).2)
  have hfail : Kept s ⟨s.client, h1⟩ W' :=
    ⟨⟨hg, fun p hp => ⟨(i.ints p hp).1, lt_of_lt_of_le (i.ints p hp).2 hlen⟩,
      fun p hp => ⟨(i.prot p hp).1, lt_of_lt_of_le (i.prot p hp).2.1 hlen, (i.prot p hp).2.2⟩⟩,
      hcells, fun _ h => h, fun _ h => h⟩
  cases o with
  | err e => exact hfail
  | panic e => exact hfail
  | ok a =>
    unfold Agree at ag
    cases r with
    | err e => exact ag.elim
    | panic e => exact ag.elim
    | ok b =>
      obtain ⟨k1, k2, k3, k4, k5⟩ := k a h1 b hlen ag
      refine ⟨⟨hg, ?_, ?_⟩, hcells, k4, k5⟩
      · intro p hp
        have := i.globals.1
        rcases k1 p hp with h | h
        · exact ⟨(i.ints p h).1, lt_of_lt_of_le (i.ints p h).2 hlen⟩
        · exact ⟨by omega, h.2⟩
      · intro p hp
        rcases k2 p hp with ⟨h, h'⟩ | h
        · obtain ⟨a1, a2, a3⟩ := i.prot p h
          exact ⟨a1, lt_of_lt_of_le a2 hlen, fun hh => k3 p (a3 (h' hh))⟩
        · exact h

theorem keep_id {s : State} {h1 : Cells} :
    (∀ p ∈ s.client.ints, p ∈ s.client.ints ∨ s.heap.length ≤ p ∧ p < h1.length) ∧
      (∀ p, Protected s.client p → Protected s.client p ∧
          (p ∈ s.client.ints → p ∈ s.client.ints) ∨
        2 ≤ p ∧ p < h1.length ∧ (p ∈ s.client.ints → p ∈ s.client.given)) ∧
      (∀ p ∈ s.client.given, p ∈ s.client.given) ∧
      (∀ y ∈ s.client.seeds, y ∈ s.client.seeds) ∧
      (∀ d ∈ s.client.decoded, d ∈ s.client.decoded) :=
  ⟨fun _ h => .inl h, fun _ h => .inl ⟨h, id⟩, fun _ h => h, fun _ h => h, fun _ h => h⟩

theorem keep_int {s : State} (i : Inv s) {h1 : Cells} {q : Nat} (h : s.heap.length ≤ q)
    (h' : q < h1.length) :
    (∀ p ∈ s.client.ints ++ [q], p ∈ s.client.ints ∨ s.heap.length ≤ p ∧ p < h1.length) ∧
      (∀ p, Protected { s.client with ints := s.client.ints ++ [q] } p → Protected s.client p ∧
          (p ∈ s.client.ints ++ [q] → p ∈ s.client.ints) ∨
        2 ≤ p ∧ p < h1.length ∧ (p ∈ s.client.ints ++ [q] → p ∈ s.client.given)) ∧
      (∀ p ∈ s.client.given, p ∈ s.client.given) ∧
      (∀ y ∈ s.client.seeds, y ∈ s.client.seeds) ∧
      (∀ d ∈ s.client.decoded, d ∈ s.client.decoded) := by
  refine ⟨fun p hp => ?_, fun p hp => .inl ⟨hp, fun hh => ?_⟩, fun _ h => h, fun _ h => h, fun _ h => h⟩
  · rcases List.mem_append.mp hp with h | h
    · exact .inl h
    · simp only [List.mem_singleton] at h
      exact .inr (by omega)
  · rcases List.mem_append.mp hh with h | h
    · exact h
    · simp only [List.mem_singleton] at h
      have := (i.prot p hp).2.1
      omega

theorem keep_seed {s : State} (i : Inv s) {h1 : Cells} {x : SeedRef}
    (h : Protected s.client x.value ∨ s.heap.length ≤ x.value ∧ x.value < h1.length) :
    (∀ p ∈ s.client.ints, p ∈ s.client.ints ∨ s.heap.length ≤ p ∧ p < h1.length) ∧
      (∀ p, Protected { s.client with seeds := s.client.seeds ++ [x] } p → Protected s.client p ∧
          (p ∈ s.client.ints → p ∈ s.client.ints) ∨
        2 ≤ p ∧ p < h1.length ∧ (p ∈ s.client.ints → p ∈ s.client.given)) ∧
      (∀ p ∈ s.client.given, p ∈ s.client.given) ∧
      (∀ y ∈ s.client.seeds, y ∈ s.client.seeds ++ [x]) ∧
      (∀ d ∈ s.client.decoded, d ∈ s.client.decoded) := by
  refine ⟨fun _ h => .inl h, fun p hp => ?_, fun _ h => h, fun y h => by simp [h], fun _ h => h⟩
  rcases hp with ⟨y, hy, rfl⟩ | hp
  · rcases List.mem_append.mp hy with hy | hy
    · exact .inl ⟨.inl ⟨y, hy, rfl⟩, id⟩
    · simp only [List.mem_singleton] at hy
      subst hy
      rcases h with h | h
      · exact .inl ⟨h, id⟩
      · have := i.globals.1
        exact .inr ⟨by omega, h.2, fun hh => absurd (i.ints _ hh).2 (by omega)⟩
  · exact .inl ⟨.inr hp, id⟩

theorem step_kept (L : WordList) (C : PhraseCrypto) {s : State} (i : Inv s) (c : Call) :
    Kept s (s.step L C c) (Touched s.client c) := by
  have hn : ∀ {W' : Nat → Prop} p, none' p → 2 ≤ p ∧ W' p := fun _ h => h.elim
  have hint : ∀ {k : Nat} {p : Nat}, s.client.ints[k]? = some p →
      ∀ q, q = p → 2 ≤ q ∧ s.client.ints[k]? = some q := by
    rintro k p hk q rfl
    exact ⟨(i.ints _ (List.mem_of_getElem? hk)).1, hk⟩
  cases c with
  | int v =>
    unfold State.step
    dsimp only
    refine call_kept i (newInt_runs s.heap v) hn ?_
    exact fun a h1 b _ r => keep_int i r.1 r.2.1
  | assign k v =>
    unfold State.step
    dsimp only
    cases hk : s.client.ints[k]? with
    | none => exact Kept.refl i
    | some p =>
      have hw : Runs (Heap.write p v) s.heap (· = p) (.ok ()) (fun _ _ _ => True) :=
        ⟨step_write _ _ _, trivial⟩
      refine call_kept i hw (hint hk) ?_
      exact fun _ _ _ _ _ => keep_id
  | newSeed era k =>
    unfold State.step
    dsimp only
    cases hk : s.client.ints[k]? with
    | none => exact Kept.refl i
    | some p =>
      have hm := List.mem_of_getElem? hk
      refine call_kept i (newSeed_runs (i.ints p hm).2 era) hn ?_
      rintro x h1 y hlen ⟨r1, r2, r3, rfl⟩
      refine ⟨fun _ h => .inl h, fun q hq => ?_, fun q h => List.mem_cons_of_mem _ h,
        fun y h => List.mem_append_left _ h, fun _ h => h⟩
      rcases hq with ⟨y, hy, rfl⟩ | hq
      · rcases List.mem_append.mp hy with hy | hy
        · exact .inl ⟨.inl ⟨y, hy, rfl⟩, id⟩
        · simp only [List.mem_singleton] at hy
          subst hy
          rw [r2]
          exact .inr ⟨(i.ints p hm).1, (i.ints p hm).2, fun _ => List.mem_cons_self⟩
      · exact .inl ⟨.inr hq, id⟩
  | generateSeed rnd =>
    unfold State.step
    dsimp only
    refine call_kept i (generateSeed_runs i.globals rnd) hn ?_
    exact fun a h1 b _ r => keep_seed i (.inr ⟨r.2.1.1, r.2.1.2.1⟩)
  | seedInt k =>
    unfold State.step
    dsimp only
    cases hk : s.client.seeds[k]? with
    | none => exact Kept.refl i
    | some x =>
      refine call_kept i (copy_runs (i.seed (List.mem_of_getElem? hk))) hn ?_
      exact fun a h1 b _ r => keep_int i r.1 r.2.1
  | seedBytes k =>
    unfold State.step
    dsimp only
    cases hk : s.client.seeds[k]? with
    | none => exact Kept.refl i
    | some x =>
      refine call_kept i (seedBytes_runs s.heap x)
        hn ?_
      exact fun _ _ _ _ _ => keep_id
  | encodePlaintext k off =>
    unfold State.step
    dsimp only
    cases hk : s.client.seeds[k]? with
    | none => exact Kept.refl i
    | some x =>
      refine call_kept i (plaintext_runs L i.globals x (i.seed (List.mem_of_getElem? hk)) off) hn ?_
      exact fun _ _ _ _ _ => keep_id
  | encodeEncrypted k off pw rnd =>
    unfold State.step
    dsimp only
    cases hk : s.client.seeds[k]? with
    | none => exact Kept.refl i
    | some x =>
      refine call_kept i (encrypted_runs L C i.globals x (i.seed (List.mem_of_getElem? hk)) off pw rnd) hn ?_
      exact fun _ _ _ _ _ => keep_id
  | decode words =>
    unfold State.step
    dsimp only
    refine call_kept i (decodeMnemonic_runs L i.globals words) hn ?_
    rintro d h1 dm hlen ⟨-, ⟨d1, d2⟩, d3, d4⟩
    refine ⟨fun _ h => .inl h, fun q hq => ?_, fun q h => h, fun y h => h,
      fun y h => List.mem_append_left _ h⟩
    have hg := i.globals.1
    rcases hq with hq | ⟨e, he, hq⟩
    · exact .inl ⟨.inl hq, id⟩
    · rcases List.mem_append.mp he with he | he
      · exact .inl ⟨.inr ⟨e, he, hq⟩, id⟩
      · simp only [List.mem_singleton] at he
        subst he
        have hq' : s.heap.length ≤ q ∧ q < h1.length := by
          rcases hq with rfl | hq
          · exact ⟨d3, d1⟩
          · exact ⟨d4 q hq, d2 q hq⟩
        exact .inr ⟨by omega, hq'.2, fun hh => absurd (i.ints _ hh).2 (by omega)⟩
  | decodedSeed j =>
    unfold State.step
    dsimp only
    cases hk : s.client.decoded[j]? with
    | none => exact Kept.refl i
    | some d =>
      have hm := List.mem_of_getElem? hk
      refine call_kept i (decodedSeed_runs d (i.held hm).1) hn ?_
      exact fun a h1 b _ r => keep_seed i (.inl (.inr ⟨d, hm, .inl r.2.1.symm⟩))
  | decryptSeed j pw =>
    unfold State.step
    dsimp only
    cases hk : s.client.decoded[j]? with
    | none => exact Kept.refl i
    | some d =>
      have hm := List.mem_of_getElem? hk
      refine call_kept i (decryptSeed_runs C i.globals d (i.held hm) pw) hn ?_
      rintro x h1 y _ ⟨-, r2, -, r4⟩
      refine keep_seed i ?_
      rcases r4 with r4 | r4
      · exact .inl (.inr ⟨d, hm, .inl r4.symm⟩)
      · exact .inr ⟨r4, r2⟩
  | encodeToIndices k n =>
    unfold State.step
    dsimp only
    cases hk : s.client.ints[k]? with
    | none => exact Kept.refl i
    | some p =>
      have hm := List.mem_of_getElem? hk
      refine call_kept i (encodeToIndices_runs i.globals (i.ints p hm).1 (i.ints p hm).2 n) (hint hk) ?_
      exact fun _ _ _ _ _ => keep_id
  | decodeIndices is =>
    unfold State.step
    dsimp only
    refine call_kept i (decodeIndices_runs s.heap is) hn ?_
    exact fun a h1 b _ r => keep_int i r.1 r.2.1

theorem untouched {s : State} (i : Inv s) {c : Call} (hc : ¬ c.touchesGiven s.client) {p : Nat}
    (hp : Protected s.client p) : ¬ Touched s.client c p := by
  intro ht
  cases c <;> first
    | exact ht
    | exact hc ⟨p, ht, (i.prot p hp).2.2 (List.mem_of_getElem? ht)⟩

theorem inv_run (L : WordList) (C : PhraseCrypto) (cs : List Call) :
    ∀ {s : State}, Inv s → Inv (run L C s cs) := by
  induction cs with
  | nil => intro s i; exact i
  | cons c cs ih => intro s i; exact ih (step_kept L C i c).inv

theorem run_kept (L : WordList) (C : PhraseCrypto) (cs : List Call) :
    ∀ {s : State}, Inv s → Careful L C s cs → Kept s (run L C s cs) none' := by
  induction cs with
  | nil => intro s i _; exact Kept.refl i
  | cons c cs ih =>
    intro s i ⟨h1, h2⟩
    have k1 := step_kept L C i c
    have k2 := ih k1.inv h2
    refine ⟨k2.inv, fun p hp _ => ?_, fun x hx => k2.seeds x (k1.seeds x hx),
      fun d hd => k2.decoded d (k1.decoded d hd)⟩
    have hp' : Protected (s.step L C c).client p := by
      rcases hp with ⟨x, hx, e⟩ | ⟨d, hd, e⟩
      · exact .inl ⟨x, k1.seeds x hx, e⟩
      · exact .inr ⟨d, k1.decoded d hd, e⟩
    have e2 := k2.cells p hp' id
    rw [k1.cells p hp (untouched i h1 hp)] at e2
    exact e2

theorem outcome_eq {α : Type} {m : HM α} {h : Cells} {W : Nat → Prop} {r : Res α}
    {R : α → Cells → α → Prop} (x : Runs m h W r R) (hr : ∀ a h b, R a h b → a = b) : (m h).1 = r := by
  obtain ⟨-, ag⟩ := x
  unfold Agree at ag
  split at ag <;> simp_all
  exact hr _ _ _ ag

end Verif.Proofs.Heap
