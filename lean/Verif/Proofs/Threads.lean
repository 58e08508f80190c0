import Verif.Model.Threads
import Verif.Proofs.Heap
import Verif.Spec.Threads
import Mathlib.Data.List.Forall2

/-!
# Interleaved functions on `*big.Int`: run alone, and renaming of cells
-/

namespace Verif.Proofs.Threads

open Verif.Model Verif.Model.Threads
open Verif.Model.Heap (Cells HM SeedRef DecodedRef Buf Client Call State bigOne wordMaskPtr)

/-! ## Alone, they do what Heap.lean says -/

theorem run_bind {α β : Type} (f : α → Thr β) : ∀ x : Thr α, (x >>= f).run = (x.run >>= fun a => (f a).run : HM β)
  | .ret r => by
    funext h
    cases r <;> rfl
  | .get p k => by
    funext h
    exact congrFun (run_bind f (k (h.getD p 0))) h
  | .new v k => by
    funext h
    exact congrFun (run_bind f (k h.length)) (h ++ [v])
  | .put p v k => by
    funext h
    exact congrFun (run_bind f k) (h.set p v)

theorem run_pure {α : Type} (a : α) : (pure a : Thr α).run = (pure a : HM α) := rfl
theorem run_pureRes {α : Type} (r : Res α) : (pureRes r).run = Heap.pureRes r := rfl
theorem run_read (p : Nat) : (read p).run = Heap.read p := rfl
theorem run_newInt (v : Int) : (newInt v).run = Heap.newInt v := rfl
theorem run_write (p : Nat) (v : Int) : (write p v).run = Heap.write p v := rfl

theorem run_ite {α : Type} (c : Prop) [Decidable c] (x y : Thr α) : (if c then x else y).run = if c then x.run else y.run := by
  split <;> rfl

macro "run_simp" : tactic => `(tactic| simp only [run_bind, run_pure, run_pureRes, run_read, run_newInt, run_write, run_ite])

theorem run_setTo (z x : Nat) : (setTo z x).run = Heap.setTo z x := by unfold setTo Heap.setTo; run_simp
theorem run_lshTo (z x n : Nat) : (lshTo z x n).run = Heap.lshTo z x n := by unfold lshTo Heap.lshTo; run_simp
theorem run_rshTo (z x n : Nat) : (rshTo z x n).run = Heap.rshTo z x n := by unfold rshTo Heap.rshTo; run_simp
theorem run_subTo (z x y : Nat) : (subTo z x y).run = Heap.subTo z x y := by unfold subTo Heap.subTo; run_simp
theorem run_andTo (z x y : Nat) : (andTo z x y).run = Heap.andTo z x y := by unfold andTo Heap.andTo; run_simp
theorem run_orTo (z x y : Nat) : (orTo z x y).run = Heap.orTo z x y := by unfold orTo Heap.orTo; run_simp
theorem run_xorTo (z x y : Nat) : (xorTo z x y).run = Heap.xorTo z x y := by unfold xorTo Heap.xorTo; run_simp

macro "run_ops" : tactic => `(tactic| simp only [run_bind, run_pure, run_pureRes, run_read, run_newInt, run_write, run_ite,
  run_setTo, run_lshTo, run_rshTo, run_subTo, run_andTo, run_orTo, run_xorTo])

theorem run_newBitBuffer (v n : Nat) : (newBitBuffer v n).run = Heap.newBitBuffer v n := by
  unfold newBitBuffer Heap.newBitBuffer; run_ops
theorem run_popTrailingBits (bb : Buf) (n : Nat) : (popTrailingBits bb n).run = Heap.popTrailingBits bb n := by
  unfold popTrailingBits Heap.popTrailingBits; run_ops
theorem run_popLeadingBits (bb : Buf) (n : Nat) : (popLeadingBits bb n).run = Heap.popLeadingBits bb n := by
  unfold popLeadingBits Heap.popLeadingBits; run_ops
theorem run_appendTrailingBits (bb : Buf) (v n : Nat) : (appendTrailingBits bb v n).run = Heap.appendTrailingBits bb v n := by
  unfold appendTrailingBits Heap.appendTrailingBits; run_ops
theorem run_bufBytes (bb : Buf) : (bufBytes bb).run = Heap.bufBytes bb := by unfold bufBytes Heap.bufBytes; run_ops
theorem run_bufInt (bb : Buf) : (bufInt bb).run = Heap.bufInt bb := by unfold bufInt Heap.bufInt; run_ops
theorem run_newSeed (era : Int) (p : Nat) : (Threads.newSeed era p).run = Heap.newSeed era p := by
  unfold Threads.newSeed Heap.newSeed; run_ops
theorem run_seedInt (s : SeedRef) : (seedInt s).run = Heap.seedInt s := by unfold seedInt Heap.seedInt; run_ops
theorem run_seedBytes (s : SeedRef) : (seedBytes s).run = Heap.seedBytes s := by unfold seedBytes Heap.seedBytes; run_ops
theorem run_generateSeed (rnd : Bytes) : (Threads.generateSeed rnd).run = Heap.generateSeed rnd := by
  unfold Threads.generateSeed Heap.generateSeed
  simp only [run_bind, run_pure, run_pureRes, run_read, run_newInt, run_lshTo, run_newSeed]

theorem run_encodeLoop : ∀ (i p : Nat) (acc : List Nat), (Threads.encodeLoop i p acc).run = Heap.encodeLoop i p acc
  | 0, p, acc => by unfold Threads.encodeLoop Heap.encodeLoop; run_ops
  | i + 1, p, acc => by
    unfold Threads.encodeLoop Heap.encodeLoop
    simp only [run_bind, run_pure, run_read, run_newInt, run_ite, run_rshTo, run_andTo, run_encodeLoop i]

theorem run_encodeToIndices (p n : Nat) : (Threads.encodeToIndices p n).run = Heap.encodeToIndices p n := by
  unfold Threads.encodeToIndices Heap.encodeToIndices
  simp only [run_bind, run_pureRes, run_read, run_ite, run_encodeLoop]

theorem run_decodeLoop : ∀ (is : List Nat) (p : Nat), (Threads.decodeLoop p is).run = Heap.decodeLoop p is
  | [], p => rfl
  | i :: is, p => by
    unfold Threads.decodeLoop Heap.decodeLoop
    simp only [run_bind, run_pureRes, run_newInt, run_ite, run_lshTo, run_orTo, run_decodeLoop is]

theorem run_decodeIndices (is : List Nat) : (Threads.decodeIndices is).run = Heap.decodeIndices is := by
  unfold Threads.decodeIndices Heap.decodeIndices
  simp only [run_bind, run_newInt, run_decodeLoop]

theorem run_encodeMnemonic (L : WordList) (v : Nat) (b : Buf) : (Threads.encodeMnemonic L v b).run = Heap.encodeMnemonic L v b := by
  unfold Threads.encodeMnemonic Heap.encodeMnemonic
  simp only [run_bind, run_pureRes, run_newInt, run_ite, run_bufBytes, run_bufInt, run_appendTrailingBits, run_encodeToIndices]

theorem run_encodeMnemonicPlaintext (L : WordList) (s : SeedRef) (off : Nat) :
    (Threads.encodeMnemonicPlaintext L s off).run = Heap.encodeMnemonicPlaintext L s off := by
  unfold Threads.encodeMnemonicPlaintext Heap.encodeMnemonicPlaintext
  simp only [run_bind, run_pureRes, run_newInt, run_seedInt, run_newBitBuffer, run_appendTrailingBits, run_encodeMnemonic]

theorem run_encSeedKey (C : PhraseCrypto) (pw : Bytes) (salt off : Nat) :
    (Threads.encSeedKey C pw salt off).run = Heap.encSeedKey C pw salt off := by
  unfold Threads.encSeedKey Heap.encSeedKey
  simp only [run_bind, run_pure, run_newInt, run_newBitBuffer, run_appendTrailingBits, run_bufBytes]

theorem run_encodeMnemonicEncrypted (L : WordList) (C : PhraseCrypto) (s : SeedRef) (off : Nat) (pw rnd : Bytes) :
    (Threads.encodeMnemonicEncrypted L C s off pw rnd).run = Heap.encodeMnemonicEncrypted L C s off pw rnd := by
  unfold Threads.encodeMnemonicEncrypted Heap.encodeMnemonicEncrypted
  simp only [run_bind, run_pure, run_pureRes, run_newInt, run_ite, run_seedBytes, run_newBitBuffer, run_appendTrailingBits,
    run_encSeedKey, run_encodeMnemonic]

theorem run_decodedSeed (d : DecodedRef) : (decodedSeed d).run = Heap.decodedSeed d := by
  unfold decodedSeed Heap.decodedSeed
  simp only [run_pureRes, run_ite, run_newSeed]

theorem run_decryptSeed (C : PhraseCrypto) (d : DecodedRef) (pw : Bytes) : (decryptSeed C d pw).run = Heap.decryptSeed C d pw := by
  unfold decryptSeed Heap.decryptSeed
  rw [run_ite, run_decodedSeed]
  cases d.salt with
  | none => simp only [run_pureRes]
  | some salt => simp only [run_bind, run_pureRes, run_read, run_newInt, run_ite, run_newSeed, run_encSeedKey]

theorem run_popSecret (v : Nat) (b : Buf) : (popSecret v b).run = Heap.popSecret v b := by
  unfold popSecret Heap.popSecret
  simp only [run_bind, run_pure, run_read, run_ite, run_popLeadingBits]

theorem run_decodeMnemonic (L : WordList) (ws : List Bytes) : (Threads.decodeMnemonic L ws).run = Heap.decodeMnemonic L ws := by
  cases ws with
  | nil => rfl
  | cons w ws =>
    unfold Threads.decodeMnemonic Heap.decodeMnemonic
    simp only [run_bind, run_pure, run_pureRes, run_read, run_ite, run_popLeadingBits, run_popTrailingBits, run_newBitBuffer,
      run_decodeIndices, run_bufBytes, run_popSecret]

/-! ## The numbers of cells do not matter -/

abbrev Pairs := List (Nat × Nat)

/-- Two numbers of the same cell: one that was there from the beginning, or a pair -/
def Same (n : Nat) (ρ : Pairs) (a b : Nat) : Prop := (a = b ∧ a < n) ∨ (a, b) ∈ ρ

theorem Same.mono {n : Nat} {ρ ρ' : Pairs} {a b : Nat} (s : ρ ⊆ ρ') (h : Same n ρ a b) : Same n ρ' a b :=
  h.imp id (s ·)

/-- The same computation with other numbers of cells, that writes only to cells in pairs -/
inductive Rel {α : Type} (n : Nat) (Q : Pairs → α → α → Prop) : Pairs → Thr α → Thr α → Prop where
  | ok {ρ : Pairs} {a b : α} : Q ρ a b → Rel n Q ρ (.ret (.ok a)) (.ret (.ok b))
  | err {ρ : Pairs} {e : Err} : Rel n Q ρ (.ret (.err e)) (.ret (.err e))
  | panic {ρ : Pairs} {e : Panic} : Rel n Q ρ (.ret (.panic e)) (.ret (.panic e))
  | get {ρ : Pairs} {a b : Nat} {k k' : Int → Thr α} : Same n ρ a b → (∀ v, Rel n Q ρ (k v) (k' v)) →
    Rel n Q ρ (.get a k) (.get b k')
  | new {ρ : Pairs} {v : Int} {k k' : Nat → Thr α} : (∀ a b, Rel n Q ((a, b) :: ρ) (k a) (k' b)) →
    Rel n Q ρ (.new v k) (.new v k')
  | put {ρ : Pairs} {a b : Nat} {v : Int} {k k' : Thr α} : (a, b) ∈ ρ → Rel n Q ρ k k' → Rel n Q ρ (.put a v k) (.put b v k')

variable {n : Nat} {ρ : Pairs}

theorem Rel.bind {α β : Type} {Q : Pairs → α → α → Prop} {Q' : Pairs → β → β → Prop} {x y : Thr α} {f g : α → Thr β}
    (h : Rel n Q ρ x y) (hf : ∀ ρ' a b, ρ ⊆ ρ' → Q ρ' a b → Rel n Q' ρ' (f a) (g b)) : Rel n Q' ρ (x >>= f) (y >>= g) := by
  induction h with
  | ok h => exact hf _ _ _ (List.Subset.refl _) h
  | err => exact .err
  | panic => exact .panic
  | get h1 _ ih => exact .get h1 fun v => ih v hf
  | new _ ih => exact .new fun a b => ih a b fun ρ' c d s => hf ρ' c d ((List.subset_cons_self _ _).trans s)
  | put h1 _ ih => exact .put h1 (ih hf)

theorem Rel.weaken {α : Type} {Q Q' : Pairs → α → α → Prop} {x y : Thr α} (h : Rel n Q ρ x y)
    (hq : ∀ ρ' a b, Q ρ' a b → Q' ρ' a b) : Rel n Q' ρ x y := by
  induction h with
  | ok h => exact .ok (hq _ _ _ h)
  | err => exact .err
  | panic => exact .panic
  | get h1 _ ih => exact .get h1 ih
  | new _ ih => exact .new ih
  | put h1 _ ih => exact .put h1 ih

/-- Results that correspond -/
inductive ResRel {α : Type} (R : α → α → Prop) : Res α → Res α → Prop where
  | ok {a b : α} : R a b → ResRel R (.ok a) (.ok b)
  | err {e : Err} : ResRel R (.err e) (.err e)
  | panic {e : Panic} : ResRel R (.panic e) (.panic e)

theorem Rel.attempt {α : Type} {Q : Pairs → α → α → Prop} {x y : Thr α} (h : Rel n Q ρ x y) :
    Rel n (fun ρ => ResRel (Q ρ)) ρ x.attempt y.attempt := by
  induction h with
  | ok h => exact .ok (.ok h)
  | err => exact .ok .err
  | panic => exact .ok .panic
  | get h1 _ ih => exact .get h1 ih
  | new _ ih => exact .new ih
  | put h1 _ ih => exact .put h1 ih

abbrev Equal {α : Type} : Pairs → α → α → Prop := fun _ a b => a = b
abbrev Paired : Pairs → Nat → Nat → Prop := fun ρ a b => (a, b) ∈ ρ
def BufR : Pairs → Buf → Buf → Prop := fun ρ a b => (a.value, b.value) ∈ ρ ∧ a.nBits = b.nBits
def SeedR (n : Nat) : Pairs → SeedRef → SeedRef → Prop := fun ρ a b => a.era = b.era ∧ Same n ρ a.value b.value
def DecodedR (n : Nat) : Pairs → DecodedRef → DecodedRef → Prop := fun ρ a b =>
  a.version = b.version ∧ Same n ρ a.entropy b.entropy ∧ Option.Rel (Same n ρ) a.salt b.salt ∧
    a.encSeedVerify = b.encSeedVerify ∧ a.creationOffset = b.creationOffset

theorem BufR.mono {ρ' : Pairs} {a b : Buf} (s : ρ ⊆ ρ') (h : BufR ρ a b) : BufR ρ' a b := ⟨s h.1, h.2⟩
theorem SeedR.mono {ρ' : Pairs} {a b : SeedRef} (s : ρ ⊆ ρ') (h : SeedR n ρ a b) : SeedR n ρ' a b := ⟨h.1, h.2.mono s⟩

theorem rel_pure {α : Type} {Q : Pairs → α → α → Prop} {a b : α} (h : Q ρ a b) : Rel n Q ρ (pure a : Thr α) (pure b) := .ok h
theorem rel_pureRes {α : Type} (r : Res α) : Rel n Equal ρ (pureRes r) (pureRes r) := by
  cases r with
  | ok a => exact .ok rfl
  | err e => exact .err
  | panic p => exact .panic
theorem rel_read {a b : Nat} (h : Same n ρ a b) : Rel n Equal ρ (read a) (read b) := .get h fun _ => .ok rfl
theorem rel_newInt (v : Int) : Rel n Paired ρ (newInt v) (newInt v) := .new fun _ _ => .ok List.mem_cons_self
theorem rel_write {a b : Nat} (h : (a, b) ∈ ρ) (v : Int) : Rel n Equal ρ (write a v) (write b v) := .put h (.ok rfl)

section
variable {z z' x x' y y' : Nat}
theorem rel_setTo (hz : (z, z') ∈ ρ) (hx : Same n ρ x x') : Rel n Equal ρ (setTo z x) (setTo z' x') :=
  .get hx fun _ => .put hz (.ok rfl)
theorem rel_lshTo (k : Nat) (hz : (z, z') ∈ ρ) (hx : Same n ρ x x') : Rel n Equal ρ (lshTo z x k) (lshTo z' x' k) :=
  .get hx fun _ => .put hz (.ok rfl)
theorem rel_rshTo (k : Nat) (hz : (z, z') ∈ ρ) (hx : Same n ρ x x') : Rel n Equal ρ (rshTo z x k) (rshTo z' x' k) :=
  .get hx fun _ => .put hz (.ok rfl)
theorem rel_subTo (hz : (z, z') ∈ ρ) (hx : Same n ρ x x') (hy : Same n ρ y y') : Rel n Equal ρ (subTo z x y) (subTo z' x' y') :=
  .get hx fun _ => .get hy fun _ => .put hz (.ok rfl)
theorem rel_andTo (hz : (z, z') ∈ ρ) (hx : Same n ρ x x') (hy : Same n ρ y y') : Rel n Equal ρ (andTo z x y) (andTo z' x' y') :=
  .get hx fun _ => .get hy fun _ => .put hz (.ok rfl)
theorem rel_orTo (hz : (z, z') ∈ ρ) (hx : Same n ρ x x') (hy : Same n ρ y y') : Rel n Equal ρ (orTo z x y) (orTo z' x' y') :=
  .get hx fun _ => .get hy fun _ => .put hz (.ok rfl)
theorem rel_xorTo (hz : (z, z') ∈ ρ) (hx : Same n ρ x x') (hy : Same n ρ y y') : Rel n Equal ρ (xorTo z x y) (xorTo z' x' y') :=
  .get hx fun _ => .get hy fun _ => .put hz (.ok rfl)
end

theorem same_one (hn : 2 ≤ n) : Same n ρ bigOne bigOne := .inl ⟨rfl, by unfold bigOne; omega⟩
theorem same_mask (hn : 2 ≤ n) : Same n ρ wordMaskPtr wordMaskPtr := .inl ⟨rfl, by unfold wordMaskPtr; omega⟩

theorem rel_newBitBuffer {p p' : Nat} (k : Nat) (h : Same n ρ p p') : Rel n BufR ρ (newBitBuffer p k) (newBitBuffer p' k) := by
  refine Rel.bind (rel_read h) ?_
  rintro ρ1 v _ s1 rfl
  split
  · exact .panic
  refine Rel.bind (rel_newInt 0) fun ρ2 q q' s2 hq => ?_
  refine Rel.bind (rel_setTo hq (h.mono (s1.trans s2))) fun ρ3 _ _ s3 _ => ?_
  exact .ok ⟨s3 hq, rfl⟩

/-- What pops off a buffer, and the buffer -/
def PopR : Pairs → Nat × Buf → Nat × Buf → Prop := fun ρ a b => (a.1, b.1) ∈ ρ ∧ BufR ρ a.2 b.2

theorem rel_popTrailingBits (hn : 2 ≤ n) {b b' : Buf} (k : Nat) (h : BufR ρ b b') :
    Rel n PopR ρ (popTrailingBits b k) (popTrailingBits b' k) := by
  unfold popTrailingBits
  rw [h.2]
  split
  · exact .panic
  refine Rel.bind (rel_newInt 0) fun ρ1 m m' s1 hm => ?_
  refine Rel.bind (rel_lshTo k hm (same_one hn)) fun ρ2 _ _ s2 _ => ?_
  refine Rel.bind (rel_subTo (s2 hm) (.inr (s2 hm)) (same_one hn)) fun ρ3 _ _ s3 _ => ?_
  refine Rel.bind (rel_newInt 0) fun ρ4 q q' s4 hq => ?_
  have hb := h.1
  have t4 := ((s1.trans s2).trans s3).trans s4
  refine Rel.bind (rel_andTo hq (.inr (s4 (s3 (s2 hm)))) (.inr (t4 hb))) fun ρ5 _ _ s5 _ => ?_
  refine Rel.bind (rel_rshTo k (s5 (t4 hb)) (.inr (s5 (t4 hb)))) fun ρ6 _ _ s6 _ => ?_
  exact .ok ⟨s6 (s5 hq), s6 (s5 (t4 hb)), rfl⟩

theorem rel_popLeadingBits (hn : 2 ≤ n) {b b' : Buf} (k : Nat) (h : BufR ρ b b') :
    Rel n PopR ρ (popLeadingBits b k) (popLeadingBits b' k) := by
  unfold popLeadingBits
  rw [h.2]
  split
  · exact .panic
  refine Rel.bind (rel_newInt 0) fun ρ1 m m' s1 hm => ?_
  refine Rel.bind (rel_lshTo k hm (same_one hn)) fun ρ2 _ _ s2 _ => ?_
  refine Rel.bind (rel_subTo (s2 hm) (.inr (s2 hm)) (same_one hn)) fun ρ3 _ _ s3 _ => ?_
  refine Rel.bind (rel_newInt 0) fun ρ4 q q' s4 hq => ?_
  have hb := h.1
  have t4 := ((s1.trans s2).trans s3).trans s4
  have hm4 := s4 (s3 (s2 hm))
  refine Rel.bind (rel_rshTo _ hq (.inr (t4 hb))) fun ρ5 _ _ s5 _ => ?_
  refine Rel.bind (rel_andTo (s5 hq) (.inr (s5 hm4)) (.inr (s5 hq))) fun ρ6 _ _ s6 _ => ?_
  have s46 := s5.trans s6
  refine Rel.bind (rel_lshTo _ (s46 hm4) (.inr (s46 hq))) fun ρ7 _ _ s7 _ => ?_
  have s47 := s46.trans s7
  refine Rel.bind (rel_xorTo (s47 (t4 hb)) (.inr (s47 (t4 hb))) (.inr (s47 hm4))) fun ρ8 _ _ s8 _ => ?_
  exact .ok ⟨s8 (s47 hq), s8 (s47 (t4 hb)), rfl⟩

theorem rel_appendTrailingBits {b b' : Buf} {p p' : Nat} (k : Nat) (h : BufR ρ b b') (hp : Same n ρ p p') :
    Rel n BufR ρ (appendTrailingBits b p k) (appendTrailingBits b' p' k) := by
  refine Rel.bind (rel_read hp) ?_
  rintro ρ1 v _ s1 rfl
  split
  · exact .panic
  refine Rel.bind (rel_lshTo k (s1 h.1) (.inr (s1 h.1))) fun ρ2 _ _ s2 _ => ?_
  have s12 := s1.trans s2
  refine Rel.bind (rel_orTo (s12 h.1) (.inr (s12 h.1)) (hp.mono s12)) fun ρ3 _ _ s3 _ => ?_
  exact .ok ⟨s3 (s12 h.1), by show b.nBits + k = b'.nBits + k; rw [h.2]⟩

theorem rel_bufBytes {b b' : Buf} (h : BufR ρ b b') : Rel n Equal ρ (bufBytes b) (bufBytes b') := by
  refine Rel.bind (rel_read (.inr h.1)) ?_
  rintro ρ1 v _ s1 rfl
  rw [h.2]
  exact rel_pureRes _

theorem rel_copy {p p' : Nat} (h : Same n ρ p p') : Rel n Paired ρ (do let q ← newInt 0; setTo q p; pure q)
    (do let q ← newInt 0; setTo q p'; pure q) := by
  refine Rel.bind (rel_newInt 0) fun ρ1 q q' s1 hq => ?_
  refine Rel.bind (rel_setTo hq (h.mono s1)) fun ρ2 _ _ s2 _ => ?_
  exact .ok (s2 hq)

theorem rel_newSeed (era : Int) {p p' : Nat} (h : Same n ρ p p') :
    Rel n (SeedR n) ρ (Threads.newSeed era p) (Threads.newSeed era p') := by
  refine Rel.bind (rel_pureRes _) fun ρ1 _ _ s1 _ => ?_
  refine Rel.bind (rel_read (h.mono s1)) ?_
  rintro ρ2 v _ s2 rfl
  split
  · exact .err
  · exact .ok ⟨rfl, (h.mono s1).mono s2⟩

theorem rel_seedBytes {x x' : SeedRef} (h : SeedR n ρ x x') : Rel n Equal ρ (seedBytes x) (seedBytes x') := by
  refine Rel.bind (rel_read h.2) ?_
  rintro ρ1 v _ s1 rfl
  exact rel_pureRes _

theorem rel_generateSeed (hn : 2 ≤ n) (rnd : Bytes) :
    Rel n (fun ρ a b => SeedR n ρ a.1 b.1 ∧ a.2 = b.2) ρ (Threads.generateSeed rnd) (Threads.generateSeed rnd) := by
  refine Rel.bind (rel_newInt 0) fun ρ1 m m' s1 hm => ?_
  refine Rel.bind (rel_lshTo _ hm (same_one hn)) fun ρ2 _ _ s2 _ => ?_
  refine Rel.bind (rel_read (.inr (s2 hm))) ?_
  rintro ρ3 v _ s3 rfl
  refine Rel.bind (rel_pureRes _) ?_
  rintro ρ4 ⟨k, rest⟩ _ s4 rfl
  refine Rel.bind (rel_newInt _) fun ρ5 p p' s5 hp => ?_
  refine Rel.bind (rel_newSeed _ (.inr hp)) fun ρ6 x x' s6 hx => ?_
  exact .ok ⟨hx, rfl⟩

theorem rel_encodeLoop (hn : 2 ≤ n) : ∀ (i : Nat) {ρ : Pairs} {p p' : Nat} (acc : List Nat) (_ : (p, p') ∈ ρ),
    Rel n Equal ρ (Threads.encodeLoop i p acc) (Threads.encodeLoop i p' acc)
  | 0, ρ, p, p', acc, h => by
    refine Rel.bind (rel_read (.inr h)) ?_
    rintro ρ1 v _ s1 rfl
    split
    · exact .panic
    · exact .ok rfl
  | i + 1, ρ, p, p', acc, h => by
    refine Rel.bind (rel_read (.inr h)) ?_
    rintro ρ1 v _ s1 rfl
    split
    · refine Rel.bind (rel_newInt 0) fun ρ2 w w' s2 hw => ?_
      have s12 := s1.trans s2
      refine Rel.bind (rel_andTo hw (.inr (s12 h)) (same_mask hn)) fun ρ3 _ _ s3 _ => ?_
      refine Rel.bind (rel_read (.inr (s3 hw))) ?_
      rintro ρ4 x _ s4 rfl
      have s14 := (s12.trans s3).trans s4
      refine Rel.bind (rel_rshTo _ (s14 h) (.inr (s14 h))) fun ρ5 _ _ s5 _ => ?_
      exact rel_encodeLoop hn i _ (s5 (s14 h))
    · exact .ok rfl

theorem rel_encodeToIndices (hn : 2 ≤ n) {p p' : Nat} (k : Nat) (h : (p, p') ∈ ρ) :
    Rel n Equal ρ (Threads.encodeToIndices p k) (Threads.encodeToIndices p' k) := by
  refine Rel.bind (rel_read (.inr h)) ?_
  rintro ρ1 v _ s1 rfl
  split
  · exact .err
  · exact rel_encodeLoop hn _ _ (s1 h)

theorem rel_decodeLoop : ∀ (is : List Nat) {ρ : Pairs} {p p' : Nat} (_ : (p, p') ∈ ρ),
    Rel n Paired ρ (Threads.decodeLoop p is) (Threads.decodeLoop p' is)
  | [], ρ, p, p', h => .ok h
  | i :: is, ρ, p, p', h => by
    unfold Threads.decodeLoop
    split
    · exact .err
    · refine Rel.bind (rel_lshTo _ h (.inr h)) fun ρ1 _ _ s1 _ => ?_
      refine Rel.bind (rel_newInt _) fun ρ2 q q' s2 hq => ?_
      have s12 := s1.trans s2
      refine Rel.bind (rel_orTo (s12 h) (.inr (s12 h)) (.inr hq)) fun ρ3 _ _ s3 _ => ?_
      exact rel_decodeLoop is (s3 (s12 h))

theorem rel_decodeIndices (is : List Nat) : Rel n Paired ρ (Threads.decodeIndices is) (Threads.decodeIndices is) :=
  Rel.bind (rel_newInt 0) fun _ _ _ _ h => rel_decodeLoop is h

theorem rel_encodeMnemonic (hn : 2 ≤ n) (L : WordList) (v : Nat) {b b' : Buf} (h : BufR ρ b b') :
    Rel n Equal ρ (Threads.encodeMnemonic L v b) (Threads.encodeMnemonic L v b') := by
  refine Rel.bind (rel_bufBytes h) ?_
  rintro ρ1 bs _ s1 rfl
  refine Rel.bind (rel_newInt _) fun ρ2 ck ck' s2 hck => ?_
  refine Rel.bind (rel_appendTrailingBits _ (h.mono (s1.trans s2)) (.inr hck)) fun ρ3 c c' s3 hc => ?_
  rw [hc.2]
  split
  · exact .err
  refine Rel.bind (rel_copy (.inr hc.1)) fun ρ4 p p' s4 hp => ?_
  refine Rel.bind (rel_encodeToIndices hn _ hp) ?_
  rintro ρ5 is _ s5 rfl
  exact rel_pureRes _

theorem rel_encodeMnemonicPlaintext (hn : 2 ≤ n) (L : WordList) {x x' : SeedRef} (off : Nat) (h : SeedR n ρ x x') :
    Rel n Equal ρ (Threads.encodeMnemonicPlaintext L x off) (Threads.encodeMnemonicPlaintext L x' off) := by
  unfold Threads.encodeMnemonicPlaintext
  rw [h.1]
  refine Rel.bind (rel_pureRes _) fun ρ1 _ _ s1 _ => ?_
  refine Rel.bind (rel_newInt 0) fun ρ2 v v' s2 hv => ?_
  refine Rel.bind (rel_newBitBuffer _ (.inr hv)) fun ρ3 b b' s3 hb => ?_
  refine Rel.bind (rel_copy (h.2.mono ((s1.trans s2).trans s3))) fun ρ4 p p' s4 hp => ?_
  refine Rel.bind (rel_appendTrailingBits _ (hb.mono s4) (.inr hp)) fun ρ5 c c' s5 hc => ?_
  refine Rel.bind (rel_newInt _) fun ρ6 q q' s6 hq => ?_
  refine Rel.bind (rel_appendTrailingBits _ (hc.mono s6) (.inr hq)) fun ρ7 d d' s7 hd => ?_
  exact rel_encodeMnemonic hn L 0 hd

theorem rel_encSeedKey (C : PhraseCrypto) (pw : Bytes) {p p' : Nat} (off : Nat) (h : Same n ρ p p') :
    Rel n Equal ρ (Threads.encSeedKey C pw p off) (Threads.encSeedKey C pw p' off) := by
  refine Rel.bind (rel_newBitBuffer _ h) fun ρ1 b b' s1 hb => ?_
  refine Rel.bind (rel_newInt _) fun ρ2 q q' s2 hq => ?_
  refine Rel.bind (rel_appendTrailingBits _ (hb.mono s2) (.inr hq)) fun ρ3 c c' s3 hc => ?_
  refine Rel.bind (rel_bufBytes hc) ?_
  rintro ρ4 bs _ s4 rfl
  exact .ok rfl

theorem rel_encodeMnemonicEncrypted (hn : 2 ≤ n) (L : WordList) (C : PhraseCrypto) {x x' : SeedRef} (off : Nat) (pw rnd : Bytes)
    (h : SeedR n ρ x x') :
    Rel n Equal ρ (Threads.encodeMnemonicEncrypted L C x off pw rnd) (Threads.encodeMnemonicEncrypted L C x' off pw rnd) := by
  unfold Threads.encodeMnemonicEncrypted
  rw [h.1]
  refine Rel.bind (rel_pureRes _) fun ρ1 _ _ s1 _ => ?_
  dsimp only
  split
  · exact .err
  refine Rel.bind (rel_newInt _) fun ρ2 v v' s2 hv => ?_
  refine Rel.bind (rel_newBitBuffer _ (.inr hv)) fun ρ3 b b' s3 hb => ?_
  refine Rel.bind (rel_pureRes _) ?_
  rintro ρ4 ⟨k, rest⟩ _ s4 rfl
  refine Rel.bind (rel_newInt _) fun ρ5 salt salt' s5 hsalt => ?_
  refine Rel.bind (rel_encSeedKey C pw off (.inr hsalt)) ?_
  rintro ρ6 key _ s6 rfl
  have s16 := ((((s1.trans s2).trans s3).trans s4).trans s5).trans s6
  refine Rel.bind (rel_seedBytes (h.mono s16)) ?_
  rintro ρ7 sb _ s7 rfl
  refine Rel.bind (rel_pureRes _) ?_
  rintro ρ8 vb _ s8 rfl
  refine Rel.bind (rel_newInt _) fun ρ9 vi vi' s9 hvi => ?_
  refine Rel.bind (rel_newInt _) fun ρ10 en en' s10 hen => ?_
  have s310 := ((((((s4.trans s5).trans s6).trans s7).trans s8).trans s9).trans s10)
  have s510 := ((((s6.trans s7).trans s8).trans s9).trans s10)
  refine Rel.bind (rel_appendTrailingBits _ (hb.mono s310) (.inr hen)) fun ρ11 c c' s11 hc => ?_
  refine Rel.bind (rel_appendTrailingBits _ hc (.inr (s11 (s510 hsalt)))) fun ρ12 d d' s12 hd => ?_
  refine Rel.bind (rel_appendTrailingBits _ hd (.inr (s12 (s11 (s10 hvi))))) fun ρ13 e e' s13 he => ?_
  refine Rel.bind (rel_newInt _) fun ρ14 q q' s14 hq => ?_
  refine Rel.bind (rel_appendTrailingBits _ (he.mono s14) (.inr hq)) fun ρ15 f f' s15 hf => ?_
  refine Rel.bind (rel_encodeMnemonic hn L 1 hf) ?_
  rintro ρ16 ws _ s16 rfl
  exact .ok rfl

theorem rel_decodedSeed {d d' : DecodedRef} (h : DecodedR n ρ d d') : Rel n (SeedR n) ρ (decodedSeed d) (decodedSeed d') := by
  unfold decodedSeed
  rw [h.1]
  split
  · exact .err
  · exact rel_newSeed _ h.2.1

theorem rel_decryptSeed (C : PhraseCrypto) {d d' : DecodedRef} (pw : Bytes) (h : DecodedR n ρ d d') :
    Rel n (SeedR n) ρ (decryptSeed C d pw) (decryptSeed C d' pw) := by
  unfold decryptSeed
  have hd := rel_decodedSeed h
  obtain ⟨h1, h2, h3, h4, h5⟩ := h
  rw [h1, h4, h5]
  split
  · exact hd
  · generalize d.salt = t, d'.salt = t' at h3
    cases h3 with
    | none => exact .panic
    | some hs =>
      refine Rel.bind (rel_encSeedKey C pw _ hs) ?_
      rintro ρ1 key _ s1 rfl
      refine Rel.bind (rel_pureRes _) ?_
      rintro ρ2 v _ s2 rfl
      split
      · exact .err
      refine Rel.bind (rel_read (h2.mono (s1.trans s2))) ?_
      rintro ρ3 e _ s3 rfl
      refine Rel.bind (rel_pureRes _) ?_
      rintro ρ4 bs _ s4 rfl
      refine Rel.bind (rel_newInt _) fun ρ5 p p' s5 hp => ?_
      exact rel_newSeed _ (.inr hp)

theorem rel_popSecret (hn : 2 ≤ n) (v : Nat) {b b' : Buf} (h : BufR ρ b b') :
    Rel n (fun ρ x y => Option.Rel (Same n ρ) x.1 y.1 ∧ x.2.1 = y.2.1 ∧ BufR ρ x.2.2 y.2.2) ρ (popSecret v b) (popSecret v b') := by
  unfold popSecret
  split
  · refine Rel.bind (rel_popLeadingBits hn _ h) ?_
    rintro ρ1 ⟨a, c⟩ ⟨a', c'⟩ s1 ⟨ha, hc⟩
    refine Rel.bind (rel_popLeadingBits hn _ hc) ?_
    rintro ρ2 ⟨e, f⟩ ⟨e', f'⟩ s2 ⟨he, hf⟩
    refine Rel.bind (rel_read (.inr he)) ?_
    rintro ρ3 x _ s3 rfl
    exact .ok ⟨.some (.inr (s3 (s2 ha))), rfl, hf.mono s3⟩
  · exact .ok ⟨.none, rfl, h⟩

theorem option_mono {ρ' : Pairs} {a b : Option Nat} (s : ρ ⊆ ρ') (h : Option.Rel (Same n ρ) a b) : Option.Rel (Same n ρ') a b := by
  cases h with
  | none => exact .none
  | some h => exact .some (h.mono s)

theorem rel_decodeMnemonic (hn : 2 ≤ n) (L : WordList) (ws : List Bytes) :
    Rel n (DecodedR n) ρ (Threads.decodeMnemonic L ws) (Threads.decodeMnemonic L ws) := by
  cases ws with
  | nil => exact .err
  | cons w ws =>
    unfold Threads.decodeMnemonic
    refine Rel.bind (rel_pureRes _) ?_
    rintro ρ1 v _ s1 rfl
    refine Rel.bind (rel_pureRes _) fun ρ2 _ _ s2 _ => ?_
    dsimp only
    split
    · exact .err
    refine Rel.bind (rel_pureRes _) ?_
    rintro ρ3 is _ s3 rfl
    refine Rel.bind (rel_decodeIndices is) fun ρ4 p p' s4 hp => ?_
    refine Rel.bind (rel_newBitBuffer _ (.inr hp)) fun ρ5 b b' s5 hb => ?_
    refine Rel.bind (rel_popTrailingBits hn _ hb) ?_
    rintro ρ6 ⟨ck, c⟩ ⟨ck', c'⟩ s6 ⟨hck, hc⟩
    refine Rel.bind (rel_read (.inr hck)) ?_
    rintro ρ7 x _ s7 rfl
    refine Rel.bind (rel_bufBytes (hc.mono s7)) ?_
    rintro ρ8 bs _ s8 rfl
    dsimp only
    split
    · exact .err
    refine Rel.bind (rel_popLeadingBits hn _ (hc.mono (s7.trans s8))) ?_
    rintro ρ9 ⟨vv, d⟩ ⟨vv', d'⟩ s9 ⟨_, hd⟩
    refine Rel.bind (rel_popLeadingBits hn _ hd) ?_
    rintro ρ10 ⟨en, e⟩ ⟨en', e'⟩ s10 ⟨hen, he⟩
    refine Rel.bind (rel_popSecret hn v he) ?_
    rintro ρ11 ⟨sa, ve, f⟩ ⟨sa', ve', f'⟩ s11 ⟨hsa, hve, hf⟩
    obtain rfl : ve = ve' := hve
    refine Rel.bind (rel_popLeadingBits hn _ hf) ?_
    rintro ρ12 ⟨of, g⟩ ⟨of', g'⟩ s12 ⟨hof, hg⟩
    refine Rel.bind (rel_read (.inr hof)) ?_
    rintro ρ13 o _ s13 rfl
    have hgn : g.nBits = g'.nBits := hg.2
    dsimp only
    rw [hgn]
    split
    · exact .err
    · have s1013 := (s11.trans s12).trans s13
      exact .ok ⟨rfl, .inr (s1013 hen), option_mono (s12.trans s13) hsa, rfl, rfl⟩

/-! ## Goroutines under renaming -/

theorem DecodedR.mono {ρ' : Pairs} {a b : DecodedRef} (s : ρ ⊆ ρ') (h : DecodedR n ρ a b) : DecodedR n ρ' a b :=
  ⟨h.1, h.2.1.mono s, option_mono s h.2.2.1, h.2.2.2⟩

theorem forall2_get {α β : Type} {R : α → β → Prop} {l : List α} {l' : List β} (h : List.Forall₂ R l l') (i : Nat) :
    (l[i]? = none ∧ l'[i]? = none) ∨ ∃ a b, l[i]? = some a ∧ l'[i]? = some b ∧ R a b := by
  induction h generalizing i with
  | nil => exact .inl ⟨rfl, rfl⟩
  | cons h1 _ ih => cases i with
    | zero => exact .inr ⟨_, _, rfl, rfl, h1⟩
    | succ i => simpa using ih i

/-- The integers held, of which the first `k` are shared -/
def IntsR (n k : Nat) (ρ : Pairs) (l l' : List Nat) : Prop :=
  List.Forall₂ (Same n ρ) l l' ∧ ∀ i, k ≤ i → ∀ p p', l[i]? = some p → l'[i]? = some p' → (p, p') ∈ ρ

/-- What a goroutine holds -/
structure ClientR (n k : Nat) (ρ : Pairs) (c c' : Client) : Prop where
  ints : IntsR n k ρ c.ints c'.ints
  seeds : List.Forall₂ (SeedR n ρ) c.seeds c'.seeds
  decoded : List.Forall₂ (DecodedR n ρ) c.decoded c'.decoded

theorem ClientR.mono {k : Nat} {ρ' : Pairs} {c c' : Client} (s : ρ ⊆ ρ') (h : ClientR n k ρ c c') : ClientR n k ρ' c c' :=
  ⟨⟨h.ints.1.imp fun _ _ x => x.mono s, fun i hi p p' h1 h2 => s (h.ints.2 i hi p p' h1 h2)⟩,
    h.seeds.imp fun _ _ x => x.mono s, h.decoded.imp fun _ _ x => x.mono s⟩

theorem forall2_snoc {α β : Type} {R : α → β → Prop} {l : List α} {l' : List β} (h : List.Forall₂ R l l') {a : α} {b : β}
    (hr : R a b) : List.Forall₂ R (l ++ [a]) (l' ++ [b]) := by
  induction h with
  | nil => exact .cons hr .nil
  | cons h1 _ ih => exact .cons h1 ih

theorem ClientR.int {k : Nat} {c c' : Client} {p p' : Nat} (h : ClientR n k ρ c c') (hp : (p, p') ∈ ρ) :
    ClientR n k ρ { c with ints := c.ints ++ [p] } { c' with ints := c'.ints ++ [p'] } := by
  refine ⟨⟨forall2_snoc h.ints.1 (.inr hp), fun i hi q q' h1 h2 => ?_⟩, h.seeds, h.decoded⟩
  have hl := h.ints.1.length_eq
  by_cases hlt : i < c.ints.length
  · refine h.ints.2 i hi q q' ?_ ?_
    · rw [← h1]; exact (List.getElem?_append_left hlt).symm
    · rw [← h2]; exact (List.getElem?_append_left (hl ▸ hlt)).symm
  · have e1 : (c.ints ++ [p])[i]? = some q := h1
    have e2 : (c'.ints ++ [p'])[i]? = some q' := h2
    rw [List.getElem?_append_right (by omega)] at e1 e2
    rw [← hl] at e2
    cases hj : i - c.ints.length with
    | zero =>
      rw [hj] at e1 e2
      obtain rfl : p = q := by simpa using e1
      obtain rfl : p' = q' := by simpa using e2
      exact hp
    | succ j => rw [hj] at e1; simp at e1

theorem ClientR.seed {k : Nat} {c c' : Client} {x x' : SeedRef} (h : ClientR n k ρ c c') (hx : SeedR n ρ x x') (g g' : List Nat) :
    ClientR n k ρ ⟨c.ints, g, c.seeds ++ [x], c.decoded⟩ ⟨c'.ints, g', c'.seeds ++ [x'], c'.decoded⟩ :=
  ⟨h.ints, forall2_snoc h.seeds hx, h.decoded⟩

theorem rel_lookAtSeed {x x' : SeedRef} (h : SeedR n ρ x x') : Rel n Equal ρ (lookAtSeed x) (lookAtSeed x') := by
  refine Rel.bind (rel_read h.2) ?_
  rintro ρ1 v _ s1 rfl
  rw [h.1]
  exact .ok rfl

theorem rel_lookAtDecoded {d d' : DecodedRef} (h : DecodedR n ρ d d') : Rel n Equal ρ (lookAtDecoded d) (lookAtDecoded d') := by
  refine Rel.bind (rel_read h.2.1) ?_
  rintro ρ1 v _ s1 rfl
  obtain ⟨h1, h2, h3, h4, h5⟩ := h.mono s1
  rw [h1, h4, h5]
  generalize d.salt = t, d'.salt = t' at h3
  cases h3 with
  | none => exact .ok rfl
  | some hs => exact .get hs fun _ => .ok rfl

theorem rel_calling {α β : Type} {k : Nat} {Q : Pairs → α → α → Prop} {m m' : Thr α} {keep keep' : α → Client → Client}
    {look look' : α → Thr β} {obs : Res β → Obs} {c c' : Client} (hc : ClientR n k ρ c c') (hm : Rel n Q ρ m m')
    (hk : ∀ ρ' a b, ρ ⊆ ρ' → Q ρ' a b → ClientR n k ρ' (keep a c) (keep' b c'))
    (hl : ∀ ρ' a b, ρ ⊆ ρ' → Q ρ' a b → Rel n Equal ρ' (look a) (look' b)) :
    Rel n (fun ρ x y => ClientR n k ρ x.1 y.1 ∧ x.2 = y.2) ρ (calling m keep look obs c) (calling m' keep' look' obs c') := by
  refine Rel.bind hm.attempt ?_
  rintro ρ1 r r' s1 h
  cases h with
  | ok h =>
    refine Rel.bind (hl _ _ _ s1 h) ?_
    rintro ρ2 x _ s2 rfl
    exact .ok ⟨(hk _ _ _ s1 h).mono s2, rfl⟩
  | err => exact .ok ⟨hc.mono s1, rfl⟩
  | panic => exact .ok ⟨hc.mono s1, rfl⟩

/-- The call leaves the first `k` integers alone. -/
def Leaves (k : Nat) : Call → Prop
  | .assign i _ => k ≤ i
  | .encodeToIndices i _ => k ≤ i
  | _ => True

theorem rel_callOf (hn : 2 ≤ n) (L : WordList) (C : PhraseCrypto) {k : Nat} {c c' : Client} (hc : ClientR n k ρ c c') (call : Call)
    (hl : Leaves k call) :
    Rel n (fun ρ x y => ClientR n k ρ x.1 y.1 ∧ x.2 = y.2) ρ (callOf L C c call) (callOf L C c' call) := by
  have same : ∀ {α : Type} ρ' (a b : α), ρ ⊆ ρ' → Equal ρ' a b → ClientR n k ρ' c c' := fun _ _ _ s _ => hc.mono s
  have look : ∀ {α : Type} (ρ' : Pairs) (a b : α), ρ ⊆ ρ' → Equal ρ' a b → Rel n Equal ρ' (pure a) (pure b) := fun _ _ _ _ e => .ok e
  have int : ∀ ρ' (a b : Nat), ρ ⊆ ρ' → Paired ρ' a b →
      ClientR n k ρ' { c with ints := c.ints ++ [a] } { c' with ints := c'.ints ++ [b] } := fun _ _ _ s h => (hc.mono s).int h
  cases call with
  | int v =>
    unfold callOf
    dsimp only
    exact rel_calling hc (rel_newInt v) int fun _ _ _ _ h => rel_read (.inr h)
  | assign i v =>
    have h2 := hc.ints.2 i hl
    unfold callOf
    dsimp only
    rcases forall2_get hc.ints.1 i with ⟨e, e'⟩ | ⟨p, p', e, e', -⟩
    · rw [e, e']; exact .ok ⟨hc, rfl⟩
    · rw [e, e']
      have hp := h2 p p' e e'
      exact rel_calling hc (rel_write hp v) same fun _ _ _ s _ => rel_read (.inr (s hp))
  | newSeed era i =>
    unfold callOf
    dsimp only
    rcases forall2_get hc.ints.1 i with ⟨e, e'⟩ | ⟨p, p', e, e', hp⟩
    · rw [e, e']; exact .ok ⟨hc, rfl⟩
    · rw [e, e']
      exact rel_calling hc (rel_newSeed era hp) (fun _ _ _ s h => (hc.mono s).seed h _ _) fun _ _ _ s h => rel_lookAtSeed h
  | generateSeed rnd =>
    unfold callOf
    dsimp only
    refine rel_calling hc (rel_generateSeed hn rnd) (fun _ _ _ s h => (hc.mono s).seed h.1 _ _) fun _ a b s h => ?_
    refine Rel.bind (rel_lookAtSeed h.1) ?_
    rintro ρ1 x _ s1 rfl
    exact .ok (by show (x, a.2) = (x, b.2); rw [h.2])
  | seedInt j =>
    unfold callOf
    dsimp only
    rcases forall2_get hc.seeds j with ⟨e, e'⟩ | ⟨x, x', e, e', hx⟩
    · rw [e, e']; exact .ok ⟨hc, rfl⟩
    · rw [e, e']
      exact rel_calling hc (rel_copy hx.2) int fun _ _ _ _ h => rel_read (.inr h)
  | seedBytes j =>
    unfold callOf
    dsimp only
    rcases forall2_get hc.seeds j with ⟨e, e'⟩ | ⟨x, x', e, e', hx⟩
    · rw [e, e']; exact .ok ⟨hc, rfl⟩
    · rw [e, e']
      exact rel_calling hc (rel_seedBytes hx) same look
  | encodePlaintext j off =>
    unfold callOf
    dsimp only
    rcases forall2_get hc.seeds j with ⟨e, e'⟩ | ⟨x, x', e, e', hx⟩
    · rw [e, e']; exact .ok ⟨hc, rfl⟩
    · rw [e, e']
      exact rel_calling hc (rel_encodeMnemonicPlaintext hn L off hx) same look
  | encodeEncrypted j off pw rnd =>
    unfold callOf
    dsimp only
    rcases forall2_get hc.seeds j with ⟨e, e'⟩ | ⟨x, x', e, e', hx⟩
    · rw [e, e']; exact .ok ⟨hc, rfl⟩
    · rw [e, e']
      exact rel_calling hc (rel_encodeMnemonicEncrypted hn L C off pw rnd hx) same look
  | decode words =>
    unfold callOf
    dsimp only
    exact rel_calling hc (rel_decodeMnemonic hn L words)
      (fun _ _ _ s h => ⟨(hc.mono s).ints, (hc.mono s).seeds, forall2_snoc (hc.mono s).decoded h⟩)
      fun _ _ _ _ h => rel_lookAtDecoded h
  | decodedSeed j =>
    unfold callOf
    dsimp only
    rcases forall2_get hc.decoded j with ⟨e, e'⟩ | ⟨x, x', e, e', hx⟩
    · rw [e, e']; exact .ok ⟨hc, rfl⟩
    · rw [e, e']
      exact rel_calling hc (rel_decodedSeed hx) (fun _ _ _ s h => (hc.mono s).seed h _ _) fun _ _ _ s h => rel_lookAtSeed h
  | decryptSeed j pw =>
    unfold callOf
    dsimp only
    rcases forall2_get hc.decoded j with ⟨e, e'⟩ | ⟨x, x', e, e', hx⟩
    · rw [e, e']; exact .ok ⟨hc, rfl⟩
    · rw [e, e']
      exact rel_calling hc (rel_decryptSeed C pw hx) (fun _ _ _ s h => (hc.mono s).seed h _ _) fun _ _ _ s h => rel_lookAtSeed h
  | encodeToIndices i m =>
    have h2 := hc.ints.2 i hl
    unfold callOf
    dsimp only
    rcases forall2_get hc.ints.1 i with ⟨e, e'⟩ | ⟨p, p', e, e', -⟩
    · rw [e, e']; exact .ok ⟨hc, rfl⟩
    · rw [e, e']
      exact rel_calling hc (rel_encodeToIndices hn m (h2 p p' e e')) same look
  | decodeIndices is =>
    unfold callOf
    dsimp only
    exact rel_calling hc (rel_decodeIndices is) int fun _ _ _ _ h => rel_read (.inr h)

theorem rel_goroutine (hn : 2 ≤ n) (L : WordList) (C : PhraseCrypto) {k : Nat} : ∀ (calls : List Call) {ρ : Pairs} {c c' : Client}
    (_ : ClientR n k ρ c c') (_ : ∀ call ∈ calls, Leaves k call),
    Rel n Equal ρ (goroutine L C c calls) (goroutine L C c' calls)
  | [], _, _, _, _, _ => .ok rfl
  | call :: calls, ρ, c, c', hc, hl => by
    refine Rel.bind (rel_callOf hn L C hc call (hl _ List.mem_cons_self)) ?_
    rintro ρ1 ⟨d, o⟩ ⟨d', o'⟩ s1 ⟨hd, ho⟩
    obtain rfl : o = o' := ho
    refine Rel.bind (rel_goroutine hn L C calls hd fun x hx => hl x (List.mem_cons_of_mem _ hx)) ?_
    rintro ρ2 os _ s2 rfl
    exact .ok rfl

/-! ## What a goroutine sees alone -/

open Verif.Proofs.Heap Verif.Spec.Heap Verif.Spec.Threads

theorem run_attempt {α : Type} : ∀ (x : Thr α) (h : Cells), x.attempt.run h = (.ok (x.run h).1, (x.run h).2)
  | .ret _, _ => rfl
  | .get p k, h => run_attempt (k (h.getD p 0)) h
  | .new v k, h => run_attempt (k h.length) (h ++ [v])
  | .put p v k, h => run_attempt k (h.set p v)

theorem run_bind_ok {α β : Type} {x : Thr α} {f : α → Thr β} {h h1 : Cells} {a : α} (e : x.run h = (.ok a, h1)) :
    (x >>= f).run h = (f a).run h1 := by
  rw [run_bind]
  change HM.bind x.run (fun a => (f a).run) h = _
  unfold HM.bind
  rw [e]

theorem run_calling {α β : Type} {m : Thr α} {m' : HM α} {keep : α → Client → Client} {look : α → Thr β} {obs : Res β → Obs} {s : State}
    {W : Nat → Prop} {r : Res β} {R : α → Cells → β → Prop} (e : m.run = m') (hm : Runs m' s.heap W r R)
    (hl : ∀ a h b, R a h b → (look a).run h = (.ok b, h)) :
    (calling m keep look obs s.client).run s.heap = (.ok ((s.call m' keep).client, obs r), (s.call m' keep).heap) := by
  subst e
  obtain ⟨-, ag⟩ := hm
  unfold calling
  rw [run_bind_ok (run_attempt m s.heap)]
  unfold State.call
  generalize m.run s.heap = y at *
  obtain ⟨o, h1⟩ := y
  unfold Agree at ag
  cases o with
  | ok a => cases r with
    | ok b => exact run_bind_ok (hl a h1 b ag)
    | err e => exact ag.elim
    | panic e => exact ag.elim
  | err e => cases r with
    | ok b => exact ag.elim
    | err e' => subst ag; rfl
    | panic e => exact ag.elim
  | panic e => cases r with
    | ok b => exact ag.elim
    | err e => exact ag.elim
    | panic e' => subst ag; rfl

theorem run_lookAtSeed {x : SeedRef} {y : Seed} {h : Cells} (h1 : x.era = y.era) (h2 : val h x.value = y.value) :
    (lookAtSeed x).run h = (.ok y, h) := by
  obtain ⟨e, v⟩ := y
  change (Res.ok (⟨x.era, val h x.value⟩ : Seed), h) = _
  rw [h1, h2]

theorem run_lookAtDecoded (d : DecodedRef) (h : Cells) : (lookAtDecoded d).run h = (.ok (decodedAt h d), h) := by
  obtain ⟨v, e, s, ve, o⟩ := d
  cases s <;> rfl

theorem run_callOf (L : WordList) (C : PhraseCrypto) {s : State} (i : Inv s) (call : Call) :
    (callOf L C s.client call).run s.heap = (.ok ((s.step L C call).client, gives L C s call), (s.step L C call).heap) := by
  have read' : ∀ (a : Nat) (h : Cells) (b : Int), val h a = b → (read a).run h = (.ok b, h) := by
    rintro a h _ rfl
    rfl
  have pure' : ∀ {α : Type} (a : α) (h : Cells) (b : α), a = b → (pure a : Thr α).run h = (.ok b, h) := by
    rintro α a h _ rfl
    rfl
  cases call with
  | int v =>
    unfold callOf State.step gives
    dsimp only
    exact run_calling (run_newInt v) (newInt_runs s.heap v) fun a h b r => read' a h b r.2.2
  | assign k v =>
    unfold callOf State.step gives
    dsimp only
    cases hk : s.client.ints[k]? with
    | none => rfl
    | some p =>
      have hp := (i.ints p (List.mem_of_getElem? hk)).2
      have hw : Runs (Heap.write p v) s.heap (· = p) (.ok v) (fun _ h b => val h p = b) :=
        ⟨step_write _ _ _, val_same hp v⟩
      exact run_calling (run_write p v) hw fun a h b r => read' p h b r
  | newSeed era k =>
    unfold callOf State.step gives
    dsimp only
    cases hk : s.client.ints[k]? with
    | none => rfl
    | some p =>
      exact run_calling (run_newSeed era p) (newSeed_runs (i.ints p (List.mem_of_getElem? hk)).2 era) fun a h b r =>
        run_lookAtSeed r.1 (by rw [r.2.1, r.2.2.1, r.2.2.2])
  | generateSeed rnd =>
    unfold callOf State.step gives
    dsimp only
    refine run_calling (run_generateSeed rnd) (generateSeed_runs i.globals rnd) ?_
    rintro ⟨x, l⟩ h ⟨y, l'⟩ ⟨r1, r2, r3⟩
    obtain rfl : l = l' := r3
    exact run_bind_ok (run_lookAtSeed r1 r2.2.2)
  | seedInt k =>
    unfold callOf State.step gives
    dsimp only
    cases hk : s.client.seeds[k]? with
    | none => rfl
    | some x =>
      exact run_calling (run_seedInt x) (copy_runs (i.seed (List.mem_of_getElem? hk))) fun a h b r => read' a h b r.2.2
  | seedBytes k =>
    unfold callOf State.step gives
    dsimp only
    cases hk : s.client.seeds[k]? with
    | none => rfl
    | some x => exact run_calling (run_seedBytes x) (seedBytes_runs s.heap x) fun a h b r => pure' a h b r.1
  | encodePlaintext k off =>
    unfold callOf State.step gives
    dsimp only
    cases hk : s.client.seeds[k]? with
    | none => rfl
    | some x =>
      exact run_calling (run_encodeMnemonicPlaintext L x off)
        (plaintext_runs L i.globals x (i.seed (List.mem_of_getElem? hk)) off) fun a h b r => pure' a h b r
  | encodeEncrypted k off pw rnd =>
    unfold callOf State.step gives
    dsimp only
    cases hk : s.client.seeds[k]? with
    | none => rfl
    | some x =>
      exact run_calling (run_encodeMnemonicEncrypted L C x off pw rnd)
        (encrypted_runs L C i.globals x (i.seed (List.mem_of_getElem? hk)) off pw rnd) fun a h b r => pure' a h b r
  | decode words =>
    unfold callOf State.step gives
    dsimp only
    refine run_calling (run_decodeMnemonic L words) (decodeMnemonic_runs L i.globals words) ?_
    rintro d h dm ⟨r, -⟩
    rw [r]
    exact run_lookAtDecoded d h
  | decodedSeed j =>
    unfold callOf State.step gives
    dsimp only
    cases hk : s.client.decoded[j]? with
    | none => rfl
    | some d =>
      exact run_calling (run_decodedSeed d) (decodedSeed_runs d (i.held (List.mem_of_getElem? hk)).1) fun a h b r =>
        run_lookAtSeed r.1 (by rw [r.2.1, r.2.2.1, r.2.2.2])
  | decryptSeed j pw =>
    unfold callOf State.step gives
    dsimp only
    cases hk : s.client.decoded[j]? with
    | none => rfl
    | some d =>
      exact run_calling (run_decryptSeed C d pw) (decryptSeed_runs C i.globals d (i.held (List.mem_of_getElem? hk)) pw) fun a h b r =>
        run_lookAtSeed r.1 r.2.2.1.symm
  | encodeToIndices k m =>
    unfold callOf State.step gives
    dsimp only
    cases hk : s.client.ints[k]? with
    | none => rfl
    | some p =>
      have hm := List.mem_of_getElem? hk
      exact run_calling (run_encodeToIndices p m) (encodeToIndices_runs i.globals (i.ints p hm).1 (i.ints p hm).2 m)
        fun a h b r => pure' a h b r.1
  | decodeIndices is =>
    unfold callOf State.step gives
    dsimp only
    exact run_calling (run_decodeIndices is) (decodeIndices_runs s.heap is) fun a h b r => read' a h b r.2.2

theorem run_goroutine (L : WordList) (C : PhraseCrypto) : ∀ (calls : List Call) {s : State}, Inv s →
    (goroutine L C s.client calls).run s.heap = (.ok (expected L C s calls), (Spec.Heap.run L C s calls).heap)
  | [], _, _ => rfl
  | call :: calls, s, i => by
    unfold goroutine
    rw [run_bind_ok (run_callOf L C i call)]
    have ih := run_goroutine L C calls (step_kept L C i call).inv
    exact run_bind_ok ih

/-! ## Any order of accesses -/

def steps {α : Type} (j : Nat) (p : Thr α) (h : Cells) : Thr α × Cells := (fun x : Thr α × Cells => x.1.step x.2)^[j] (p, h)

theorem steps_zero {α : Type} (p : Thr α) (h : Cells) : steps 0 p h = (p, h) := rfl
theorem steps_succ {α : Type} (j : Nat) (p : Thr α) (h : Cells) :
    steps (j + 1) p h = (steps j p h).1.step (steps j p h).2 := Function.iterate_succ_apply' _ _ _
theorem steps_first {α : Type} (j : Nat) (p : Thr α) (h : Cells) :
    steps (j + 1) p h = steps j (p.step h).1 (p.step h).2 := Function.iterate_succ_apply _ _ _

theorem step_run {α : Type} (p : Thr α) (h : Cells) : (p.step h).1.run (p.step h).2 = p.run h := by
  cases p <;> rfl

theorem steps_run {α : Type} (p : Thr α) (h : Cells) (j : Nat) : (steps j p h).1.run (steps j p h).2 = p.run h := by
  induction j with
  | zero => rfl
  | succ j ih => rw [steps_succ, step_run, ih]

theorem steps_ret {α : Type} (r : Res α) (h : Cells) (j : Nat) : steps j (.ret r) h = (.ret r, h) := by
  induction j with
  | zero => rfl
  | succ j ih => rw [steps_succ, ih]; rfl

theorem steps_finish {α : Type} : ∀ (p : Thr α) (h : Cells), ∃ m, ∀ j, m ≤ j → (steps j p h).1 = .ret (p.run h).1
  | .ret r, h => ⟨0, fun j _ => by rw [steps_ret]; rfl⟩
  | .get a k, h => by
    obtain ⟨m, hm⟩ := steps_finish (k (h.getD a 0)) h
    refine ⟨m + 1, fun j hj => ?_⟩
    obtain ⟨j, rfl⟩ : ∃ i, j = i + 1 := ⟨j - 1, by omega⟩
    rw [steps_first]
    exact hm j (by omega)
  | .new v k, h => by
    obtain ⟨m, hm⟩ := steps_finish (k h.length) (h ++ [v])
    refine ⟨m + 1, fun j hj => ?_⟩
    obtain ⟨j, rfl⟩ : ∃ i, j = i + 1 := ⟨j - 1, by omega⟩
    rw [steps_first]
    exact hm j (by omega)
  | .put a v k, h => by
    obtain ⟨m, hm⟩ := steps_finish k (h.set a v)
    refine ⟨m + 1, fun j hj => ?_⟩
    obtain ⟨j, rfl⟩ : ∃ i, j = i + 1 := ⟨j - 1, by omega⟩
    rw [steps_first]
    exact hm j (by omega)

/-- The cells `h` of everybody and the cells `g` of a goroutine that is alone, after a beginning with the cells `h0` -/
structure HR (n : Nat) (h0 h g : Cells) (ρ : Pairs) : Prop where
  len : n ≤ h.length ∧ n ≤ g.length
  shared : ∀ a, a < n → val h a = val h0 a ∧ val g a = val h0 a
  own : ∀ a b, (a, b) ∈ ρ → n ≤ a ∧ a < h.length ∧ n ≤ b ∧ b < g.length ∧ val h a = val g b
  inj : ∀ a b a' b', (a, b) ∈ ρ → (a', b') ∈ ρ → (a = a' ↔ b = b')

/-- What one access does to the cells of others -/
structure Effect {α : Type} (p : Thr α) (h : Cells) (ρ ρ' : Pairs) : Prop where
  sub : ρ ⊆ ρ'
  more : ∀ a b, (a, b) ∈ ρ' → (a, b) ∈ ρ ∨ a = h.length
  len : h.length ≤ (p.step h).2.length
  cells : ∀ a, a < h.length → (∀ b, (a, b) ∉ ρ) → val (p.step h).2 a = val h a
  made : ∀ v k, p = .new v k → ∃ b, (h.length, b) ∈ ρ'

theorem rel_step {α : Type} {Q : Pairs → α → α → Prop} {h0 h g : Cells} {p q : Thr α} (hr : Rel n Q ρ p q) (hh : HR n h0 h g ρ) :
    ∃ ρ', Rel n Q ρ' (p.step h).1 (q.step g).1 ∧ HR n h0 (p.step h).2 (q.step g).2 ρ' ∧ Effect p h ρ ρ' := by
  cases hr with
  | ok hq => exact ⟨ρ, .ok hq, hh, fun _ x => x, fun _ _ x => .inl x, le_rfl, fun _ _ _ => rfl, fun _ _ e => by cases e⟩
  | err => exact ⟨ρ, .err, hh, fun _ x => x, fun _ _ x => .inl x, le_rfl, fun _ _ _ => rfl, fun _ _ e => by cases e⟩
  | panic => exact ⟨ρ, .panic, hh, fun _ x => x, fun _ _ x => .inl x, le_rfl, fun _ _ _ => rfl, fun _ _ e => by cases e⟩
  | @get _ a b k k' hs hk =>
    refine ⟨ρ, ?_, hh, fun _ x => x, fun _ _ x => .inl x, le_rfl, fun _ _ _ => rfl, fun _ _ e => by cases e⟩
    have e : val h a = val g b := by
      rcases hs with ⟨rfl, hl⟩ | hs
      · rw [(hh.shared a hl).1, (hh.shared a hl).2]
      · exact (hh.own a b hs).2.2.2.2
    show Rel n Q ρ (k (val h a)) (k' (val g b))
    rw [e]
    exact hk _
  | @new _ v k k' hk =>
    refine ⟨(h.length, g.length) :: ρ, hk _ _, ?_, ?_⟩
    · refine ⟨?_, fun a ha => ?_, fun a b hab => ?_, fun a b a' b' hab hab' => ?_⟩
      · have := hh.len
        show n ≤ (h ++ [v]).length ∧ n ≤ (g ++ [v]).length
        rw [List.length_append, List.length_append]
        omega
      · have := hh.len
        show val (h ++ [v]) a = _ ∧ val (g ++ [v]) a = _
        rw [val_old (by omega), val_old (by omega)]
        exact hh.shared a ha
      · show n ≤ a ∧ a < (h ++ [v]).length ∧ n ≤ b ∧ b < (g ++ [v]).length ∧ val (h ++ [v]) a = val (g ++ [v]) b
        rw [List.length_append, List.length_append, List.length_singleton]
        rcases List.mem_cons.mp hab with e | hab
        · have := hh.len
          cases e
          rw [val_new, val_new]
          exact ⟨this.1, by omega, this.2, by omega, rfl⟩
        · obtain ⟨o1, o2, o3, o4, o5⟩ := hh.own a b hab
          rw [val_old o2, val_old o4]
          exact ⟨o1, by omega, o3, by omega, o5⟩
      · rcases List.mem_cons.mp hab with e | hab <;> rcases List.mem_cons.mp hab' with e' | hab'
        · cases e; cases e'; simp
        · cases e
          have := hh.own a' b' hab'
          omega
        · cases e'
          have := hh.own a b hab
          omega
        · exact hh.inj a b a' b' hab hab'
    · refine ⟨List.subset_cons_self _ _, fun a b hab => ?_, ?_, fun a ha _ => ?_, fun _ _ _ => ⟨_, List.mem_cons_self⟩⟩
      · rcases List.mem_cons.mp hab with e | hab
        · cases e; exact .inr rfl
        · exact .inl hab
      · show h.length ≤ (h ++ [v]).length
        rw [List.length_append]; omega
      · exact val_old ha
  | @put _ a b v k k' hab hk =>
    obtain ⟨o1, o2, o3, o4, o5⟩ := hh.own a b hab
    refine ⟨ρ, hk, ?_, fun _ x => x, fun _ _ x => .inl x, ?_, fun c _ hc => ?_, fun _ _ e => by cases e⟩
    · refine ⟨?_, fun c hc => ?_, fun c d hcd => ?_, hh.inj⟩
      · show n ≤ (h.set a v).length ∧ n ≤ (g.set b v).length
        rw [List.length_set, List.length_set]
        exact hh.len
      · show val (h.set a v) c = _ ∧ val (g.set b v) c = _
        rw [val_other (by omega), val_other (by omega)]
        exact hh.shared c hc
      · show n ≤ c ∧ c < (h.set a v).length ∧ n ≤ d ∧ d < (g.set b v).length ∧ val (h.set a v) c = val (g.set b v) d
        rw [List.length_set, List.length_set]
        obtain ⟨c1, c2, c3, c4, c5⟩ := hh.own c d hcd
        refine ⟨c1, c2, c3, c4, ?_⟩
        have hi := hh.inj a b c d hab hcd
        by_cases e : a = c
        · obtain rfl := e
          obtain rfl := hi.mp rfl
          rw [val_same o2, val_same o4]
        · rw [val_other e, val_other fun x => e (hi.mpr x)]
          exact c5
    · show h.length ≤ (h.set a v).length
      rw [List.length_set]
    · exact val_other (fun (e : a = c) => hc b (e ▸ hab)) v

/-- The cells of a goroutine that waits -/
theorem HR.others {h0 h h' g : Cells} (x : HR n h0 h g ρ) (hl : h.length ≤ h'.length) (hs : ∀ a, a < n → val h' a = val h a)
    (ho : ∀ a b, (a, b) ∈ ρ → val h' a = val h a) : HR n h0 h' g ρ :=
  ⟨⟨x.len.1.trans hl, x.len.2⟩, fun a ha => ⟨(hs a ha).trans (x.shared a ha).1, (x.shared a ha).2⟩, fun a b hab => by
    obtain ⟨o1, o2, o3, o4, o5⟩ := x.own a b hab
    exact ⟨o1, by omega, o3, o4, (ho a b hab).trans o5⟩, x.inj⟩

/-- Goroutines that began as `ps` with the cells `h0`; `t` has made `j t` accesses, and its cells are `ρ t`. -/
structure WI (n : Nat) (h0 : Cells) (ps : List (Thr (List Obs))) (ρ : Nat → Pairs) (j : Nat → Nat) (w : World) : Prop where
  none : ∀ t, ps[t]? = .none → w.threads[t]? = .none ∧ ρ t = []
  some : ∀ t p, ps[t]? = .some p → ∃ r, w.threads[t]? = .some r ∧ Rel n Equal (ρ t) r (steps (j t) p h0).1 ∧
    HR n h0 w.heap (steps (j t) p h0).2 (ρ t)
  disjoint : ∀ t u a b b', (a, b) ∈ ρ t → (a, b') ∈ ρ u → t = u

theorem WI.own {h0 : Cells} {ps : List (Thr (List Obs))} {ρ : Nat → Pairs} {j : Nat → Nat} {w : World} (x : WI n h0 ps ρ j w)
    {t a b : Nat} (h : (a, b) ∈ ρ t) : n ≤ a ∧ a < w.heap.length := by
  cases hp : ps[t]? with
  | none => rw [(x.none t hp).2] at h; cases h
  | some p =>
    obtain ⟨r, -, -, hh⟩ := x.some t p hp
    exact ⟨(hh.own a b h).1, (hh.own a b h).2.1⟩

theorem wi_step {h0 : Cells} {ps : List (Thr (List Obs))} {ρ : Nat → Pairs} {j : Nat → Nat} {w : World} (x : WI n h0 ps ρ j w)
    (t : Nat) : ∃ ρ', (∀ u, ρ u ⊆ ρ' u) ∧ WI n h0 ps ρ' (Function.update j t (j t + 1)) (w.step t) ∧
      ∀ a, Makes w t a → ∃ b, (a, b) ∈ ρ' t := by
  cases hp : ps[t]? with
  | none =>
    have hw := (x.none t hp).1
    have e : w.step t = w := by unfold World.step; rw [hw]
    refine ⟨ρ, fun _ _ h => h, ⟨by rw [e]; exact x.none, fun u p hu => ?_, x.disjoint⟩, ?_⟩
    · have hne : u ≠ t := by rintro rfl; rw [hp] at hu; cases hu
      rw [e, Function.update_of_ne hne]
      exact x.some u p hu
    · rintro a ⟨⟨v, k, h⟩, -⟩
      rw [hw] at h; cases h
  | some p =>
    obtain ⟨r, hr, rel, hh⟩ := x.some t p hp
    obtain ⟨ρ', rel', hh', ef⟩ := rel_step rel hh
    have e : w.step t = ⟨(r.step w.heap).2, w.threads.set t (r.step w.heap).1⟩ := by unfold World.step; rw [hr]
    rw [e]
    have ht : t < w.threads.length := (List.getElem?_eq_some_iff.mp hr).1
    refine ⟨Function.update ρ t ρ', fun u => ?_, ⟨fun u hu => ?_, fun u q hu => ?_, fun u v a b b' h1 h2 => ?_⟩, ?_⟩
    · by_cases hut : u = t
      · subst hut; rw [Function.update_self]; exact ef.sub
      · rw [Function.update_of_ne hut]; exact fun _ h => h
    · have hut : u ≠ t := by rintro rfl; rw [hp] at hu; cases hu
      rw [Function.update_of_ne hut, List.getElem?_set_ne (Ne.symm hut)]
      exact x.none u hu
    · by_cases hut : u = t
      · subst hut
        obtain rfl : p = q := by rw [hp] at hu; exact Option.some.inj hu
        rw [Function.update_self, Function.update_self, List.getElem?_set_self ht, steps_succ]
        exact ⟨_, rfl, rel', hh'⟩
      · rw [Function.update_of_ne hut, Function.update_of_ne hut, List.getElem?_set_ne (Ne.symm hut)]
        obtain ⟨r2, hr2, rel2, hh2⟩ := x.some u q hu
        refine ⟨r2, hr2, rel2, hh2.others ef.len (fun a ha => ?_) fun a b hab => ?_⟩
        · exact ef.cells a (lt_of_lt_of_le ha hh.len.1) fun b hb => absurd (hh.own a b hb).1 (by omega)
        · exact ef.cells a (hh2.own a b hab).2.1 fun b' hb => hut (x.disjoint u t a b b' hab hb)
    · have key : ∀ {u v : Nat} {a b b' : Nat}, (a, b) ∈ Function.update ρ t ρ' u → u = t → v ≠ t → (a, b') ∈ ρ v → u = v := by
        rintro u v a b b' h1 rfl hv h2
        rw [Function.update_self] at h1
        rcases ef.more a b h1 with h1 | rfl
        · exact x.disjoint _ _ a b b' h1 h2
        · exact absurd (x.own h2).2 (by omega)
      by_cases hu : u = t <;> by_cases hv : v = t
      · rw [hu, hv]
      · rw [Function.update_of_ne hv] at h2
        exact key h1 hu hv h2
      · rw [Function.update_of_ne hu] at h1
        exact (key h2 hv hu h1).symm
      · rw [Function.update_of_ne hu] at h1
        rw [Function.update_of_ne hv] at h2
        exact x.disjoint u v a b b' h1 h2
    · rintro a ⟨⟨v, k, h⟩, rfl⟩
      rw [Function.update_self]
      rw [hr] at h
      exact ef.made v k (Option.some.inj h)

theorem wi_run {h0 : Cells} {ps : List (Thr (List Obs))} : ∀ (σ : List Nat) {ρ : Nat → Pairs} {j : Nat → Nat} {w : World}
    (_ : WI n h0 ps ρ j w), ∃ ρ', (∀ u, ρ u ⊆ ρ' u) ∧ WI n h0 ps ρ' (fun t => j t + σ.count t) (w.run σ)
  | [], ρ, j, w, x => ⟨ρ, fun _ _ h => h, x⟩
  | t :: σ, ρ, j, w, x => by
    obtain ⟨ρ1, s1, x1, -⟩ := wi_step x t
    obtain ⟨ρ2, s2, x2⟩ := wi_run σ x1
    refine ⟨ρ2, fun u => (s1 u).trans (s2 u), ?_⟩
    have e : (fun u => Function.update j t (j t + 1) u + σ.count u) = fun u => j u + (t :: σ).count u := by
      funext u
      by_cases hu : u = t
      · subst hu; rw [Function.update_self, List.count_cons_self]; omega
      · rw [Function.update_of_ne hu, List.count_cons_of_ne (Ne.symm hu)]
    rw [e] at x2
    exact x2

theorem wi_spawn (L : WordList) (C : PhraseCrypto) {s : State} (i : Inv s) (calls : List (List Call))
    (hl : ∀ cs ∈ calls, LeavesAlone s.client.ints.length cs) :
    WI s.heap.length s.heap (spawn L C s calls).threads (fun _ => []) (fun _ => 0) (spawn L C s calls) := by
  have hc : ClientR s.heap.length s.client.ints.length [] s.client s.client := by
    refine ⟨⟨List.forall₂_same.mpr fun p hp => .inl ⟨rfl, (i.ints p hp).2⟩, fun k hk p p' h1 _ => ?_⟩,
      List.forall₂_same.mpr fun x hx => ⟨rfl, .inl ⟨rfl, i.seed hx⟩⟩, List.forall₂_same.mpr fun d hd => ?_⟩
    · have := (List.getElem?_eq_some_iff.mp h1).1
      omega
    · have hh := i.held hd
      refine ⟨rfl, .inl ⟨rfl, hh.1⟩, ?_, rfl, rfl⟩
      have h2 := hh.2
      generalize d.salt = t at h2
      cases t with
      | none => exact .none
      | some p => exact .some (.inl ⟨rfl, h2 p rfl⟩)
  refine ⟨fun t ht => ⟨ht, rfl⟩, fun t p hp => ?_, fun _ _ _ _ _ h => by cases h⟩
  refine ⟨p, hp, ?_, ⟨le_rfl, le_rfl⟩, fun a _ => ⟨rfl, rfl⟩, (fun _ _ h => by cases h), (fun _ _ _ _ h => by cases h)⟩
  obtain ⟨cs, hcs, rfl⟩ := List.mem_map.mp (List.mem_of_getElem? hp)
  refine rel_goroutine i.globals.1 L C cs hc fun call hcall => ?_
  have := hl cs hcs call hcall
  cases call <;> exact this

/-! ## What was there at the beginning, through the calls of one goroutine -/

/-- From the state `s` to the state `t` -/
structure Since (s t : State) : Prop where
  inv : Inv t
  len : s.heap.length ≤ t.heap.length
  cells : ∀ a, a < s.heap.length → val t.heap a = val s.heap a
  ints : s.client.ints <+: t.client.ints
  fresh : ∀ i p, s.client.ints.length ≤ i → t.client.ints[i]? = some p → s.heap.length ≤ p
  seeds : s.client.seeds <+: t.client.seeds
  decoded : s.client.decoded <+: t.client.decoded

theorem Since.refl {s : State} (i : Inv s) : Since s s :=
  ⟨i, le_rfl, fun _ _ => rfl, List.prefix_rfl, fun j p hj h => by
    have := (List.getElem?_eq_some_iff.mp h).1
    omega, List.prefix_rfl, List.prefix_rfl⟩

/-- What a call may do to what the client holds -/
structure KeepR (h : Cells) (c c' : Client) : Prop where
  ints : c'.ints = c.ints ∨ ∃ q, c'.ints = c.ints ++ [q] ∧ h.length ≤ q
  seeds : c.seeds <+: c'.seeds
  decoded : c.decoded <+: c'.decoded

theorem KeepR.refl (h : Cells) (c : Client) : KeepR h c c := ⟨.inl rfl, List.prefix_rfl, List.prefix_rfl⟩

theorem call_since {α β : Type} {t : State} {m : HM α} {keep : α → Client → Client} {W : Nat → Prop} {r : Res β}
    {R : α → Cells → β → Prop} (hm : Runs m t.heap W r R) (hk : ∀ a h1 b, R a h1 b → KeepR t.heap t.client (keep a t.client)) :
    Step t.heap (t.call m keep).heap W ∧ KeepR t.heap t.client (t.call m keep).client := by
  obtain ⟨st, ag⟩ := hm
  unfold State.call
  generalize m t.heap = y at *
  obtain ⟨o, h1⟩ := y
  unfold Agree at ag
  cases o with
  | ok a => cases r with
    | ok b => exact ⟨st, hk a h1 b ag⟩
    | err e => exact ag.elim
    | panic e => exact ag.elim
  | err e => exact ⟨st, KeepR.refl _ _⟩
  | panic e => exact ⟨st, KeepR.refl _ _⟩

theorem step_since (L : WordList) (C : PhraseCrypto) {t : State} (i : Inv t) (call : Call) :
    Step t.heap (t.step L C call).heap (Touched t.client call) ∧ KeepR t.heap t.client (t.step L C call).client := by
  have st : ∀ {h h' : Cells} {W' : Nat → Prop}, Step h h' none' → Step h h' W' := fun x => ⟨x.1, fun a ha _ => x.2 a ha id⟩
  have none : Step t.heap t.heap (Touched t.client call) ∧ KeepR t.heap t.client t.client := ⟨Step.refl _ _, KeepR.refl _ _⟩
  have same : KeepR t.heap t.client t.client := KeepR.refl _ _
  have seed : ∀ (g : List Nat) (x : SeedRef), KeepR t.heap t.client ⟨t.client.ints, g, t.client.seeds ++ [x], t.client.decoded⟩ :=
    fun g x => ⟨.inl rfl, List.prefix_append _ _, List.prefix_rfl⟩
  have int : ∀ (q : Nat), t.heap.length ≤ q → KeepR t.heap t.client { t.client with ints := t.client.ints ++ [q] } :=
    fun q hq => ⟨.inr ⟨q, rfl, hq⟩, List.prefix_rfl, List.prefix_rfl⟩
  cases call with
  | int v =>
    have := call_since (keep := fun p c => { c with ints := c.ints ++ [p] }) (newInt_runs t.heap v) fun a h1 b r => int a r.1
    exact ⟨st this.1, this.2⟩
  | assign k v =>
    unfold State.step
    dsimp only
    cases hk : t.client.ints[k]? with
    | none => exact none
    | some p =>
      have hw : Runs (Heap.write p v) t.heap (· = p) (.ok ()) (fun _ _ _ => True) := ⟨step_write _ _ _, trivial⟩
      have := call_since (keep := fun _ c => c) hw fun _ _ _ _ => same
      exact ⟨⟨this.1.1, fun a ha hn => this.1.2 a ha fun e => hn (e ▸ hk)⟩, this.2⟩
  | newSeed era k =>
    unfold State.step
    dsimp only
    cases hk : t.client.ints[k]? with
    | none => exact none
    | some p =>
      have := call_since (keep := fun x c => { c with given := p :: c.given, seeds := c.seeds ++ [x] })
        (newSeed_runs (i.ints p (List.mem_of_getElem? hk)).2 era) fun x _ _ _ => seed _ x
      exact ⟨st this.1, this.2⟩
  | generateSeed rnd =>
    have := call_since (keep := fun x c => { c with seeds := c.seeds ++ [x.1] }) (generateSeed_runs i.globals rnd)
      fun x _ _ _ => seed _ x.1
    exact ⟨st this.1, this.2⟩
  | seedInt k =>
    unfold State.step
    dsimp only
    cases hk : t.client.seeds[k]? with
    | none => exact none
    | some x =>
      have := call_since (keep := fun p c => { c with ints := c.ints ++ [p] }) (copy_runs (i.seed (List.mem_of_getElem? hk)))
        fun a _ _ r => int a r.1
      exact ⟨st this.1, this.2⟩
  | seedBytes k =>
    unfold State.step
    dsimp only
    cases hk : t.client.seeds[k]? with
    | none => exact none
    | some x =>
      have := call_since (keep := fun _ c => c) (seedBytes_runs t.heap x) fun _ _ _ _ => same
      exact ⟨st this.1, this.2⟩
  | encodePlaintext k off =>
    unfold State.step
    dsimp only
    cases hk : t.client.seeds[k]? with
    | none => exact none
    | some x =>
      have := call_since (keep := fun _ c => c) (plaintext_runs L i.globals x (i.seed (List.mem_of_getElem? hk)) off)
        fun _ _ _ _ => same
      exact ⟨st this.1, this.2⟩
  | encodeEncrypted k off pw rnd =>
    unfold State.step
    dsimp only
    cases hk : t.client.seeds[k]? with
    | none => exact none
    | some x =>
      have := call_since (keep := fun _ c => c) (encrypted_runs L C i.globals x (i.seed (List.mem_of_getElem? hk)) off pw rnd)
        fun _ _ _ _ => same
      exact ⟨st this.1, this.2⟩
  | decode words =>
    have := call_since (keep := fun d c => { c with decoded := c.decoded ++ [d] }) (decodeMnemonic_runs L i.globals words)
      fun d _ _ _ => ⟨.inl rfl, List.prefix_rfl, List.prefix_append _ _⟩
    exact ⟨st this.1, this.2⟩
  | decodedSeed j =>
    unfold State.step
    dsimp only
    cases hk : t.client.decoded[j]? with
    | none => exact none
    | some d =>
      have := call_since (keep := fun x c => { c with seeds := c.seeds ++ [x] })
        (decodedSeed_runs d (i.held (List.mem_of_getElem? hk)).1) fun x _ _ _ => seed _ x
      exact ⟨st this.1, this.2⟩
  | decryptSeed j pw =>
    unfold State.step
    dsimp only
    cases hk : t.client.decoded[j]? with
    | none => exact none
    | some d =>
      have := call_since (keep := fun x c => { c with seeds := c.seeds ++ [x] })
        (decryptSeed_runs C i.globals d (i.held (List.mem_of_getElem? hk)) pw) fun x _ _ _ => seed _ x
      exact ⟨st this.1, this.2⟩
  | encodeToIndices k m =>
    unfold State.step
    dsimp only
    cases hk : t.client.ints[k]? with
    | none => exact none
    | some p =>
      have hm := List.mem_of_getElem? hk
      have := call_since (keep := fun _ c => c) (encodeToIndices_runs i.globals (i.ints p hm).1 (i.ints p hm).2 m)
        fun _ _ _ _ => same
      exact ⟨⟨this.1.1, fun a ha hn => this.1.2 a ha fun e => hn (e ▸ hk)⟩, this.2⟩
  | decodeIndices is =>
    have := call_since (keep := fun p c => { c with ints := c.ints ++ [p] }) (decodeIndices_runs t.heap is)
      fun a h1 b r => int a r.1
    exact ⟨st this.1, this.2⟩

theorem Since.step (L : WordList) (C : PhraseCrypto) {s t : State} (x : Since s t) {call : Call}
    (hl : Leaves s.client.ints.length call) : Since s (t.step L C call) := by
  obtain ⟨st, k⟩ := step_since L C x.inv call
  refine ⟨(step_kept L C x.inv call).inv, x.len.trans st.1, fun a ha => ?_, ?_, fun i p hi hp => ?_, x.seeds.trans k.seeds,
    x.decoded.trans k.decoded⟩
  · have hlen := x.len
    rw [st.2 a (by omega) ?_, x.cells a ha]
    intro ht
    cases call <;> first
      | exact ht.elim
      | exact absurd (x.fresh _ _ hl ht) (by omega)
  · rcases k.ints with e | ⟨q, e, -⟩
    · rw [e]; exact x.ints
    · rw [e]; exact x.ints.trans (List.prefix_append _ _)
  · rcases k.ints with e | ⟨q, e, hq⟩
    · rw [e] at hp; exact x.fresh i p hi hp
    · rw [e] at hp
      by_cases hlt : i < t.client.ints.length
      · rw [List.getElem?_append_left hlt] at hp
        exact x.fresh i p hi hp
      · rw [List.getElem?_append_right (by omega)] at hp
        have hm := List.mem_of_getElem? hp
        rw [List.mem_singleton] at hm
        rw [hm]
        exact x.len.trans hq

theorem prefix_get {α : Type} {l l' : List α} (h : l <+: l') {i : Nat} (hi : i < l.length) : l'[i]? = l[i]? := by
  obtain ⟨m, rfl⟩ := h
  exact List.getElem?_append_left hi

/-- A call about what was there gives what it would have given at the beginning. -/
theorem gives_since (L : WordList) (C : PhraseCrypto) {s t : State} (i : Inv s) (x : Since s t) {call : Call}
    (ha : AboutShared s.client call) : gives L C t call = gives L C s call := by
  have seed : ∀ {k : Nat} {y : SeedRef}, s.client.seeds[k]? = some y → seedAt t.heap y = seedAt s.heap y := fun h => by
    unfold seedAt
    rw [x.cells _ (i.seed (List.mem_of_getElem? h))]
  have dec : ∀ {k : Nat} {d : DecodedRef}, s.client.decoded[k]? = some d → decodedAt t.heap d = decodedAt s.heap d := by
    intro k d h
    have hh := i.held (List.mem_of_getElem? h)
    unfold decodedAt
    rw [x.cells _ hh.1]
    have h2 := hh.2
    cases hs : d.salt with
    | none => rfl
    | some p =>
      have := x.cells p (h2 p hs)
      simp only [Option.map_some, this]
  cases call with
  | newSeed era k =>
    unfold gives
    dsimp only
    rw [prefix_get x.ints ha]
    cases hk : s.client.ints[k]? with
    | none => rfl
    | some p =>
      dsimp only
      rw [x.cells p (i.ints p (List.mem_of_getElem? hk)).2]
  | seedInt k =>
    unfold gives
    dsimp only
    rw [prefix_get x.seeds ha]
    cases hk : s.client.seeds[k]? with
    | none => rfl
    | some y => dsimp only; rw [seed hk]
  | seedBytes k =>
    unfold gives
    dsimp only
    rw [prefix_get x.seeds ha]
    cases hk : s.client.seeds[k]? with
    | none => rfl
    | some y => dsimp only; rw [seed hk]
  | encodePlaintext k off =>
    unfold gives
    dsimp only
    rw [prefix_get x.seeds ha]
    cases hk : s.client.seeds[k]? with
    | none => rfl
    | some y => dsimp only; rw [seed hk]
  | encodeEncrypted k off pw rnd =>
    unfold gives
    dsimp only
    rw [prefix_get x.seeds ha]
    cases hk : s.client.seeds[k]? with
    | none => rfl
    | some y => dsimp only; rw [seed hk]
  | decodedSeed k =>
    unfold gives
    dsimp only
    rw [prefix_get x.decoded ha]
    cases hk : s.client.decoded[k]? with
    | none => rfl
    | some y => dsimp only; rw [dec hk]
  | decryptSeed k pw =>
    unfold gives
    dsimp only
    rw [prefix_get x.decoded ha]
    cases hk : s.client.decoded[k]? with
    | none => rfl
    | some y => dsimp only; rw [dec hk]
  | assign k v => exact ha.elim
  | encodeToIndices k m => exact ha.elim
  | int v => rfl
  | generateSeed rnd => rfl
  | decode words => rfl
  | decodeIndices is => rfl

theorem expected_shared (L : WordList) (C : PhraseCrypto) {s : State} (i : Inv s) : ∀ (cs : List Call) {t : State} (_ : Since s t)
    (_ : ∀ call ∈ cs, Leaves s.client.ints.length call) (m : Nat) {call : Call} (_ : cs[m]? = some call)
    (_ : AboutShared s.client call), (expected L C t cs)[m]? = some (gives L C s call)
  | [], t, x, hl, m, call, hm, ha => by simp at hm
  | c :: cs, t, x, hl, 0, call, hm, ha => by
    obtain rfl : c = call := by simpa using hm
    show some (gives L C t c) = _
    rw [gives_since L C i x ha]
  | c :: cs, t, x, hl, m + 1, call, hm, ha =>
    expected_shared L C i cs (x.step L C (hl c List.mem_cons_self)) (fun y hy => hl y (List.mem_cons_of_mem _ hy)) m
      (by simpa using hm) ha

end Verif.Proofs.Threads
