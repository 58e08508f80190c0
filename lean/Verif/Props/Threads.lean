import Verif.Proofs.Threads
import Verif.Props.Heap

/-!
# Several goroutines and the same seeds: C111

A caller with any history starts goroutines. Each has what the caller held, and makes calls of its own. Accesses to the
storage of integers are interleaved in any way.
-/

namespace Verif.Props

open Verif.Model Verif.Model.Threads Verif.Spec.Threads Verif.Proofs.Threads Verif.Instances
open Verif.Model.Heap (Cells Client Call State start)
open Verif.Spec.Heap (seedAt)
open Verif.Proofs.Heap (inv_run inv_start)

/-- A goroutine that has finished has seen what it would have seen alone, whatever the others do: the results of the
model without storage, one after the other. -/
theorem c111_sees (L : WordList) (C : PhraseCrypto) (before : List Call) (calls : List (List Call)) :
    let s := Spec.Heap.run L C start before
    (∀ cs ∈ calls, LeavesAlone s.client.ints.length cs) →
    ∀ (schedule : List Nat) (t : Nat) (cs : List Call) (r : Res (List Obs)), calls[t]? = some cs →
      ((spawn L C s calls).run schedule).threads[t]? = some (.ret r) →
      r = .ok (expected L C s cs) := by
  intro s hl σ t cs r ht hr
  have i := inv_run L C before inv_start
  obtain ⟨ρ, -, x⟩ := wi_run σ (wi_spawn L C i calls hl)
  have hp : (spawn L C s calls).threads[t]? = some (goroutine L C s.client cs) := by
    unfold spawn
    rw [List.getElem?_map, ht]
    rfl
  obtain ⟨q, hq, rel, -⟩ := x.some t _ hp
  have hq' : q = .ret r := by
    rw [hq] at hr
    exact Option.some.inj hr
  have run := steps_run (goroutine L C s.client cs) s.heap (0 + σ.count t)
  rw [run_goroutine L C cs i] at run
  rw [hq'] at rel
  generalize (steps (0 + σ.count t) (goroutine L C s.client cs) s.heap) = y at rel run
  obtain ⟨p, g⟩ := y
  cases rel with
  | ok e => cases e; exact (Prod.mk.inj run).1
  | err => cases (Prod.mk.inj run).1
  | panic => cases (Prod.mk.inj run).1

/-- It finishes after a number of accesses that only depends on its own calls and on what was there at the beginning. -/
theorem c111_finishes (L : WordList) (C : PhraseCrypto) (before : List Call) (cs : List Call) :
    let s := Spec.Heap.run L C start before
    ∃ m, ∀ (calls : List (List Call)) (t : Nat), (∀ cs ∈ calls, LeavesAlone s.client.ints.length cs) → calls[t]? = some cs →
      ∀ schedule : List Nat, m ≤ schedule.count t →
        ((spawn L C s calls).run schedule).threads[t]? = some (.ret (.ok (expected L C s cs))) := by
  intro s
  have i := inv_run L C before inv_start
  obtain ⟨m, hm⟩ := steps_finish (goroutine L C s.client cs) s.heap
  refine ⟨m, fun calls t hl ht σ hσ => ?_⟩
  obtain ⟨ρ, -, x⟩ := wi_run σ (wi_spawn L C i calls hl)
  have hp : (spawn L C s calls).threads[t]? = some (goroutine L C s.client cs) := by
    unfold spawn
    rw [List.getElem?_map, ht]
    rfl
  obtain ⟨q, hq, rel, -⟩ := x.some t _ hp
  rw [hm (0 + σ.count t) (by omega), run_goroutine L C cs i] at rel
  rw [hq]
  cases rel with
  | ok e => cases e; rfl

/-- Calls about seeds, decoded phrases and integers that the caller held give each goroutine what they would have given
the caller at the moment it started them, at whatever place they come. -/
theorem c111_shared (L : WordList) (C : PhraseCrypto) (before : List Call) (calls : List (List Call)) :
    let s := Spec.Heap.run L C start before
    (∀ cs ∈ calls, LeavesAlone s.client.ints.length cs) →
    ∀ (schedule : List Nat) (t : Nat) (cs : List Call) (m : Nat) (call : Call) (seen : List Obs), calls[t]? = some cs → cs[m]? = some call → AboutShared s.client call →
      ((spawn L C s calls).run schedule).threads[t]? = some (.ret (.ok seen)) → seen[m]? = some (gives L C s call) := by
  intro s hl σ t cs m call seen ht hm ha hr
  have i := inv_run L C before inv_start
  have e := c111_sees L C before calls hl σ t cs (.ok seen) ht hr
  cases e
  refine expected_shared L C i cs (Since.refl i) (fun c hc => ?_) m hm ha
  have := hl cs (List.mem_of_getElem? ht) c hc
  cases c <;> exact this

/-- There is no data race: a cell that one goroutine ever writes no other ever reads or writes, before or after; and a
cell that one makes no other reads or writes later. So it does not matter that a method of big.Int is more than one access,
and nothing has to be locked. -/
theorem c111_no_race (L : WordList) (C : PhraseCrypto) (before : List Call) (calls : List (List Call)) :
    let s := Spec.Heap.run L C start before
    (∀ cs ∈ calls, LeavesAlone s.client.ints.length cs) →
    ∀ (first later : List Nat) (t u a : Nat),
      let w := (spawn L C s calls).run first
      let w' := w.run later
      (Writes w t a → Reads w' u a ∨ Writes w' u a → t = u) ∧
      (Reads w u a ∨ Writes w u a → Writes w' t a → t = u) ∧
      (Makes w t a → Reads ((w.step t).run later) u a ∨ Writes ((w.step t).run later) u a → t = u) := by
  intro s hl σ τ t u a w w'
  have i := inv_run L C before inv_start
  obtain ⟨ρ, -, x⟩ := wi_run σ (wi_spawn L C i calls hl)
  obtain ⟨ρ', sub, x'⟩ := wi_run τ x
  have hget : ∀ {ρ : Nat → Pairs} {j : Nat → Nat} {w : World} {t : Nat} {q : Thr (List Obs)},
      WI s.heap.length s.heap (spawn L C s calls).threads ρ j w → w.threads[t]? = some q →
      ∃ q', Rel s.heap.length Equal (ρ t) q q' := by
    intro ρ j w t q x h
    cases hp : (spawn L C s calls).threads[t]? with
    | none => rw [(x.none t hp).1] at h; cases h
    | some p =>
      obtain ⟨r, hr, rel, -⟩ := x.some t p hp
      rw [hr] at h
      exact ⟨_, Option.some.inj h ▸ rel⟩
  have hput : ∀ {ρ : Nat → Pairs} {j : Nat → Nat} {w : World} {t a : Nat},
      WI s.heap.length s.heap (spawn L C s calls).threads ρ j w → Writes w t a → ∃ b, (a, b) ∈ ρ t := by
    rintro ρ j w t a x ⟨v, k, h⟩
    obtain ⟨q', rel⟩ := hget x h
    cases rel with
    | put hab _ => exact ⟨_, hab⟩
  have hread : ∀ {ρ : Nat → Pairs} {j : Nat → Nat} {w : World} {t a : Nat},
      WI s.heap.length s.heap (spawn L C s calls).threads ρ j w → Reads w t a ∨ Writes w t a →
        a < s.heap.length ∨ ∃ b, (a, b) ∈ ρ t := by
    rintro ρ j w t a x (⟨k, h⟩ | h)
    · obtain ⟨q', rel⟩ := hget x h
      cases rel with
      | get hs _ =>
        rcases hs with ⟨-, hs⟩ | hs
        · exact .inl hs
        · exact .inr ⟨_, hs⟩
    · exact .inr (hput x h)
  have key : ∀ {ρ : Nat → Pairs} {j : Nat → Nat} {w : World} {t u a b : Nat},
      WI s.heap.length s.heap (spawn L C s calls).threads ρ j w → (a, b) ∈ ρ t → (a < s.heap.length ∨ ∃ b, (a, b) ∈ ρ u) →
        t = u := by
    rintro ρ j w t u a b x h1 (h2 | ⟨b', h2⟩)
    · have := (x.own h1).1
      omega
    · exact x.disjoint t u a b b' h1 h2
  refine ⟨fun h1 h2 => ?_, fun h1 h2 => ?_, fun h1 h2 => ?_⟩
  · obtain ⟨b, hb⟩ := hput x h1
    exact key x' (sub t hb) (hread x' h2)
  · obtain ⟨b, hb⟩ := hput x' h2
    exact key x' hb ((hread x h1).imp id fun ⟨b, hb⟩ => ⟨b, sub u hb⟩)
  · obtain ⟨ρ1, -, x1, made⟩ := wi_step x t
    obtain ⟨ρ2, sub2, x2⟩ := wi_run τ x1
    obtain ⟨b, hb⟩ := made a h1
    exact key x2 (sub2 t hb) (hread x2 h2)

/-- What a goroutine has seen, if it has finished -/
def finished (w : World) (t : Nat) : Option (List Obs) :=
  match w.threads[t]? with
  | some (.ret (.ok seen)) => some seen
  | _ => none

/-- One order of the accesses of two goroutines -/
def sampleRace : List Nat := [1] ++ List.replicate 9 0 ++ List.replicate 30 1 ++ List.replicate 30 0

/-- The condition is needed. Two goroutines call EncodeToIndices on one integer of the caller; each gets half of the
indices, and neither gets those of the integer, nor those of the zero that the other leaves. -/
theorem c111_interfere :
    let s := Spec.Heap.run toyWordList toyPhraseCrypto start [.int (5 + 7 * 4096)]
    let w := (spawn toyWordList toyPhraseCrypto s [[.encodeToIndices 0 24], [.encodeToIndices 0 24]]).run sampleRace
    expected toyWordList toyPhraseCrypto s [.encodeToIndices 0 24, .encodeToIndices 0 24] =
      [.indices (.ok [7, 5]), .indices (.ok [0, 0])] ∧
    finished w 0 = some [.indices (.ok [0, 5])] ∧ finished w 1 = some [.indices (.ok [0, 7])] := by
  decide +kernel

/-- Nor may one goroutine assign to an integer that was passed to NewSeed: the other's phrase of that seed panics. -/
theorem c111_assigned :
    let s := Spec.Heap.run toyWordList toyPhraseCrypto start [.int 77, .newSeed 0 0]
    let w := (spawn toyWordList toyPhraseCrypto s [[.assign 0 (2 ^ 128)], [.encodePlaintext 0 9]]).run
      (List.replicate 5 0 ++ List.replicate 200 1)
    finished w 1 = some [.words (.panic .bitBufferWidth)] := by
  decide +kernel

instance (k : Nat) (cs : List Call) : Decidable (LeavesAlone k cs) :=
  have (call : Call) : Decidable (match call with
      | .assign i _ => k ≤ i
      | .encodeToIndices i _ => k ≤ i
      | _ => True : Prop) := by
    cases call <;> dsimp only <;> infer_instance
  inferInstanceAs (Decidable (∀ call ∈ cs, _))

/-- Two goroutines with a shared seed and a shared decoded phrase; each also copies the seed and uses up the copy. -/
def sampleCalls : List (List Call) :=
  [[.encodePlaintext 0 9, .seedInt 0, .encodeToIndices 1 128, .seedBytes 0, .decode sampleHeapWords],
    [.seedInt 0, .assign 1 5, .decodedSeed 0, .newSeed 0 1, .seedBytes 1, .seedBytes 2]]

/-- Turns of random looking length -/
def sampleTurns : List Nat :=
  List.replicate 7 0 ++ List.replicate 5 1 ++ List.replicate 31 0 ++ List.replicate 2 1 ++ List.replicate 400 0 ++ List.replicate 400 1

example :
    let s := Spec.Heap.run toyWordList toyPhraseCrypto start [.int 77, .newSeed 0 0, .decode sampleHeapWords]
    (∀ cs ∈ sampleCalls, LeavesAlone s.client.ints.length cs) ∧
    finished ((spawn toyWordList toyPhraseCrypto s sampleCalls).run sampleTurns) 0 =
      some [.words (.ok sampleHeapWords), .int (.ok 77), .indices (.ok [0, 0, 0, 0, 0, 0, 0, 0, 0, 0, 77]),
        .bytes (.ok [0, 0, 0, 0, 0, 0, 0, 0, 0, 0, 0, 0, 0, 0, 0, 77]), .decoded (.ok ⟨0, 77, none, 0, 9⟩)] ∧
    finished ((spawn toyWordList toyPhraseCrypto s sampleCalls).run sampleTurns) 1 =
      some [.int (.ok 77), .int (.ok 5), .seed (.ok ⟨0, 77⟩), .seed (.ok ⟨0, 5⟩),
        .bytes (.ok [0, 0, 0, 0, 0, 0, 0, 0, 0, 0, 0, 0, 0, 0, 0, 77]),
        .bytes (.ok [0, 0, 0, 0, 0, 0, 0, 0, 0, 0, 0, 0, 0, 0, 0, 5])] := by
  decide +kernel

end Verif.Props
