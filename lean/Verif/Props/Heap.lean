import Verif.Proofs.Heap
import Verif.Proofs.Mnemonic
import Verif.Instances

/-!
# Shared big.Int storage: C19
-/

namespace Verif.Props

open Verif.Model Verif.Model.Heap Verif.Spec.Heap Verif.Proofs.Heap Verif.Instances

/-- After any history of calls, no further calls change a seed or a decoded phrase, as long as the caller
does not itself overwrite (by an assignment or through EncodeToIndices) an integer it had passed to
NewSeed. It may overwrite all its other integers, also those returned by Seed.Int. -/
theorem c19_unchanged (L : WordList) (C : PhraseCrypto) (before after : List Call)
    (h : Careful L C (run L C start before) after) :
    let s := run L C start before
    let t := run L C s after
    (∀ x ∈ s.client.seeds, x ∈ t.client.seeds ∧ seedAt t.heap x = seedAt s.heap x) ∧
    (∀ d ∈ s.client.decoded, d ∈ t.client.decoded ∧ decodedAt t.heap d = decodedAt s.heap d) := by
  have k := run_kept L C after (inv_run L C before inv_start) h
  refine ⟨fun x hx => ⟨k.seeds x hx, ?_⟩, fun d hd => ⟨k.decoded d hd, ?_⟩⟩
  · unfold seedAt
    rw [k.cells _ (.inl ⟨x, hx, rfl⟩) id]
  · unfold decodedAt
    rw [k.cells _ (.inr ⟨d, hd, .inl rfl⟩) id]
    cases hs : d.salt with
    | none => rfl
    | some p =>
      have := k.cells _ (.inr ⟨d, hd, .inr hs⟩) id
      simp only [Option.map_some, this]

/-- The two integers that the packages themselves hold never change, whatever the caller does. -/
theorem c19_globals (L : WordList) (C : PhraseCrypto) (cs : List Call) :
    val (run L C start cs).heap bigOne = 1 ∧ val (run L C start cs).heap wordMaskPtr = wordMask :=
  (inv_run L C cs inv_start).globals.2

/-- After any history each call gives what the value model says about the integers held then; so
nothing of the value model is lost by ignoring storage. -/
theorem c19_refines (L : WordList) (C : PhraseCrypto) (cs : List Call) :
    let s := run L C start cs
    let h := s.heap
    (∀ x ∈ s.client.seeds,
      (seedBytes x h).1 = (seedAt h x).bytes ∧
      (∃ p, (seedInt x h).1 = .ok p ∧ val (seedInt x h).2 p = (seedAt h x).int ∧ h.length ≤ p) ∧
      (∀ off, (encodeMnemonicPlaintext L x off h).1 = Model.encodeMnemonicPlaintext L (seedAt h x) off) ∧
      (∀ off pw rnd, (encodeMnemonicEncrypted L C x off pw rnd h).1 =
        Model.encodeMnemonicEncrypted L C (seedAt h x) off pw rnd)) ∧
    (∀ words, Agree (decodeMnemonic L words h).1 (Model.decodeMnemonic L words)
      (fun d dm => decodedAt (decodeMnemonic L words h).2 d = dm)) ∧
    (∀ d ∈ s.client.decoded,
      Agree (decodedSeed d h).1 (decodedAt h d).seed (fun x y => seedAt (decodedSeed d h).2 x = y) ∧
      ∀ pw, Agree (decryptSeed C d pw h).1 ((decodedAt h d).decryptSeed C pw)
        (fun x y => seedAt (decryptSeed C d pw h).2 x = y)) ∧
    (∀ rnd, Agree (generateSeed rnd h).1 (Model.generateSeed rnd)
      (fun x y => (seedAt (generateSeed rnd h).2 x.1, x.2) = y)) := by
  intro s h
  have i : Inv s := inv_run L C cs inv_start
  have agree : ∀ {α β : Type} {m : HM α} {r : Res β} {W : Nat → Prop} {R : α → Cells → β → Prop}
      {Q : α → β → Prop}, Runs m h W r R → (∀ a b, R a (m h).2 b → Q a b) → Agree (m h).1 r Q := by
    intro α β m r W R Q x hq
    obtain ⟨-, ag⟩ := x
    unfold Agree at ag ⊢
    split at ag <;> simp_all
  have hseed : ∀ (x : SeedRef) (y : Seed) (h' : Cells), x.era = y.era → val h' x.value = y.value →
      seedAt h' x = y := by
    rintro x ⟨e, v⟩ h' h1 h2
    simp only [seedAt, h1, h2]
  refine ⟨fun x hx => ⟨?_, ?_, fun off => ?_, fun off pw rnd => ?_⟩, fun words => ?_,
    fun d hd => ⟨?_, fun pw => ?_⟩, fun rnd => ?_⟩
  · exact outcome_eq (seedBytes_runs h x) (fun _ _ _ r => r.1)
  · have ag : Fresh h h.length (seedInt x h).2 (val h x.value) := (copy_runs (i.seed hx)).2
    exact ⟨h.length, rfl, ag.2.2, le_rfl⟩
  · exact outcome_eq (plaintext_runs L i.globals x (i.seed hx) off) (fun _ _ _ r => r)
  · exact outcome_eq (encrypted_runs L C i.globals x (i.seed hx) off pw rnd) (fun _ _ _ r => r)
  · exact agree (decodeMnemonic_runs L i.globals words) (fun a b r => r.1.symm)
  · exact agree (decodedSeed_runs d (i.held hd).1) (fun a b r => hseed _ _ _ r.1 (by
      rw [r.2.1, r.2.2.1, r.2.2.2]))
  · exact agree (decryptSeed_runs C i.globals d (i.held hd) pw) (fun a b r => hseed _ _ _ r.1
      r.2.2.1.symm)
  · refine agree (generateSeed_runs i.globals rnd) ?_
    rintro ⟨x, l⟩ ⟨y, l'⟩ ⟨r1, r2, r3⟩
    dsimp only at r1 r2 r3 ⊢
    rw [hseed _ _ _ r1 r2.2.2, r3]

theorem encodeLoop_no_err (n : Nat) : ∀ (v : Int) (acc : List Nat) (e : Err),
    Model.encodeLoop n v acc ≠ .err e := by
  induction n with
  | zero => intro v acc e h; unfold Model.encodeLoop at h; split at h <;> cases h
  | succ n ih =>
    intro v acc e h
    unfold Model.encodeLoop at h
    split at h
    · exact ih _ _ _ h
    · cases h

/-- EncodeToIndices overwrites its argument: when it returns indices the caller's integer is zero. A refused
integer is left alone. -/
theorem c19_encodeToIndices (L : WordList) (C : PhraseCrypto) (cs : List Call) (p : Nat)
    (hp : p ∈ (run L C start cs).client.ints) (bitSize : Nat) :
    let h := (run L C start cs).heap
    (encodeToIndices p bitSize h).1 = Model.encodeToIndices (val h p) bitSize ∧
    (∀ is, (encodeToIndices p bitSize h).1 = .ok is → val (encodeToIndices p bitSize h).2 p = 0) ∧
    (∀ e, (encodeToIndices p bitSize h).1 = .err e → (encodeToIndices p bitSize h).2 = h) ∧
    (∀ q, q ≠ p → q < h.length → val (encodeToIndices p bitSize h).2 q = val h q) := by
  intro h
  have i : Inv (run L C start cs) := inv_run L C cs inv_start
  have r := encodeToIndices_runs i.globals (i.ints p hp).1 (i.ints p hp).2 bitSize
  refine ⟨outcome_eq r (fun _ _ _ r => r.1), fun is his => ?_, fun e he => ?_,
    fun q hq hl => r.1.2 q hl hq⟩
  · obtain ⟨-, ag⟩ := r
    have e := outcome_eq (encodeToIndices_runs i.globals (i.ints p hp).1 (i.ints p hp).2 bitSize)
      (fun _ _ _ r => r.1)
    have his' : (encodeToIndices p bitSize (run L C start cs).heap).1 = .ok is := his
    rw [his'] at e ag
    rw [← e] at ag
    exact ag.2
  · have he' := he
    unfold Heap.encodeToIndices at he ⊢
    rw [read_run] at he ⊢
    by_cases hb : bitLen (val h p) > bitSize
    · rw [if_pos hb]; rfl
    · rw [if_neg hb] at he
      have e2 := outcome_eq (encodeLoop_runs ((bitSize + bitsPerWord - 1) / bitsPerWord) i.globals
        (i.ints p hp).1 (i.ints p hp).2 []) (fun _ _ _ r => r.1)
      have he2 : (Heap.encodeLoop ((bitSize + bitsPerWord - 1) / bitsPerWord) p []
        (run L C start cs).heap).1 = .err e := he
      rw [he2] at e2
      exact absurd e2.symm (encodeLoop_no_err _ _ _ _)

/-- The caution is needed: NewSeed keeps the caller's integer, so assigning to it later replaces the
seed, even by a value that NewSeed would refuse; and EncodeToIndices on it leaves a seed of zero. -/
theorem c19_aliased (L : WordList) (C : PhraseCrypto) (v w : Int) (hv : bitLen v ≤ 128) :
    let s := run L C start [.int v, .newSeed 0 0]
    ∃ x ∈ s.client.seeds, seedAt s.heap x = ⟨0, v⟩ ∧
      seedAt (s.step L C (.assign 0 w)).heap x = ⟨0, w⟩ ∧
      (0 ≤ v → seedAt (s.step L C (.encodeToIndices 0 128)).heap x = ⟨0, 0⟩) := by
  have hs : run L C start [.int v, .newSeed 0 0] = ⟨⟨[2], [2], [⟨0, 2⟩], []⟩, [1, wordMask, v]⟩ := by
    have e : Heap.newSeed 0 2 [1, wordMask, v] = (.ok ⟨0, 2⟩, [1, wordMask, v]) := by
      unfold Heap.newSeed
      change (if bitLen v > entropyBitCount then pureRes (.err .entropyTooLarge) else
        (pure ⟨0, 2⟩ : HM SeedRef)) [1, wordMask, v] = _
      rw [if_neg (by unfold entropyBitCount; omega)]
      rfl
    have h1 : start.step L C (.int v) = ⟨⟨[2], [], [], []⟩, [1, wordMask, v]⟩ := rfl
    unfold run
    rw [List.foldl_cons, h1, List.foldl_cons, List.foldl_nil]
    unfold State.step
    dsimp only [List.getElem?_cons_zero]
    unfold State.call
    dsimp only
    rw [e]
    rfl
  obtain ⟨r, -, -, -⟩ := c19_encodeToIndices L C [.int v, .newSeed 0 0] 2 (by rw [hs]; simp) 128
  have hz := (c19_encodeToIndices L C [.int v, .newSeed 0 0] 2 (by rw [hs]; simp) 128).2.1
  rw [hs] at r hz ⊢
  refine ⟨⟨0, 2⟩, List.mem_singleton.mpr rfl, rfl, rfl, fun h0 => ?_⟩
  obtain ⟨n, rfl⟩ := Int.eq_ofNat_of_zero_le h0
  have hn : n < 2 ^ 128 := by
    have : n.size ≤ 128 := hv
    exact Nat.size_le.mp this
  dsimp only at r hz
  rw [show val [1, wordMask, (n : Int)] 2 = (n : Int) from rfl, encodeToIndices_nat, if_pos hn] at r
  have hz := hz _ r
  unfold State.step
  dsimp only [List.getElem?_cons_zero]
  unfold State.call
  rw [← Prod.mk.eta (p := Heap.encodeToIndices 2 128 _), r]
  unfold seedAt
  dsimp only
  rw [hz]

/-- The plaintext phrase of seed 77 and offset 9 -/
def sampleHeapWords : List Bytes :=
  match Model.encodeMnemonicPlaintext toyWordList ⟨0, 77⟩ 9 with
  | .ok ws => ws
  | _ => []

/-- A history of every kind of call: a seed from the caller's integer, its phrase decoded, the decoded
seed copied out and the copy overwritten. It is careful, and the three integers involved are distinct cells. -/
def sampleBefore : List Call :=
  [.int 77, .newSeed 0 0, .decode sampleHeapWords, .decodedSeed 0, .seedInt 1]

def sampleAfter : List Call :=
  [.assign 1 5, .encodeToIndices 1 128, .encodePlaintext 1 3, .encodeEncrypted 0 3 [1] [1, 2, 3],
    .decryptSeed 0 [], .seedBytes 2]

/-- The position asked for holds a given integer: decidable. -/
theorem touches_iff (c : Client) (i : Nat) :
    (∃ p, c.ints[i]? = some p ∧ p ∈ c.given) ↔ (c.ints[i]?.any (decide <| · ∈ c.given)) = true := by
  cases c.ints[i]? <;> simp

instance (c : Client) : (k : Call) → Decidable (k.touchesGiven c)
  | .assign i _ => decidable_of_iff _ (touches_iff c i).symm
  | .encodeToIndices i _ => decidable_of_iff _ (touches_iff c i).symm
  | .int _ | .newSeed _ _ | .generateSeed _ | .seedInt _ | .seedBytes _ | .encodePlaintext _ _
  | .encodeEncrypted _ _ _ _ | .decode _ | .decodedSeed _ | .decryptSeed _ _ | .decodeIndices _ =>
    .isFalse id

instance instDecidableCareful (L : WordList) (C : PhraseCrypto) : (s : State) → (cs : List Call) → Decidable (Careful L C s cs)
  | _, [] => .isTrue trivial
  | s, c :: cs =>
    have := instDecidableCareful L C (s.step L C c) cs
    inferInstanceAs (Decidable (_ ∧ _))

example :
    let s := run toyWordList toyPhraseCrypto start sampleBefore
    Careful toyWordList toyPhraseCrypto s sampleAfter ∧
    s.client.seeds = [⟨0, 2⟩, ⟨0, 24⟩] ∧ s.client.ints = [2, 27] ∧ s.client.given = [2] ∧
    s.client.decoded.map (decodedAt s.heap) = [⟨0, 77, none, 0, 9⟩] ∧
    (run toyWordList toyPhraseCrypto s sampleAfter).client.seeds.map
      (seedAt (run toyWordList toyPhraseCrypto s sampleAfter).heap) = [⟨0, 77⟩, ⟨0, 77⟩, ⟨0, 77⟩] ∧
    ¬ Careful toyWordList toyPhraseCrypto s [.assign 0 5] := by
  decide +kernel

example : bitLen (2 ^ 100) ≤ 128 := by decide +kernel

end Verif.Props
