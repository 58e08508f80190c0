import Verif.Model.Threads
import Verif.Spec.Heap

/-!
# What goroutines that share seeds are to see
-/

namespace Verif.Spec.Threads

open Verif.Model Verif.Model.Threads Verif.Spec.Heap
open Verif.Model.Heap (Cells Client Call State)

/-- What a call made in state `s` gives, according to the model without storage -/
def gives (L : WordList) (C : PhraseCrypto) (s : State) : Call → Obs
  | .int v => .int (.ok v)
  | .assign i v => match s.client.ints[i]? with
    | none => .nothing
    | some _ => .int (.ok v)
  | .newSeed era i => match s.client.ints[i]? with
    | none => .nothing
    | some p => .seed (Model.newSeed era (val s.heap p))
  | .generateSeed rnd => .drawn (Model.generateSeed rnd)
  | .seedInt k => match s.client.seeds[k]? with
    | none => .nothing
    | some x => .int (.ok (seedAt s.heap x).int)
  | .seedBytes k => match s.client.seeds[k]? with
    | none => .nothing
    | some x => .bytes (seedAt s.heap x).bytes
  | .encodePlaintext k off => match s.client.seeds[k]? with
    | none => .nothing
    | some x => .words (Model.encodeMnemonicPlaintext L (seedAt s.heap x) off)
  | .encodeEncrypted k off pw rnd => match s.client.seeds[k]? with
    | none => .nothing
    | some x => .drawnWords (Model.encodeMnemonicEncrypted L C (seedAt s.heap x) off pw rnd)
  | .decode words => .decoded (Model.decodeMnemonic L words)
  | .decodedSeed j => match s.client.decoded[j]? with
    | none => .nothing
    | some d => .seed (decodedAt s.heap d).seed
  | .decryptSeed j pw => match s.client.decoded[j]? with
    | none => .nothing
    | some d => .seed ((decodedAt s.heap d).decryptSeed C pw)
  | .encodeToIndices i n => match s.client.ints[i]? with
    | none => .nothing
    | some p => .indices (Model.encodeToIndices (val s.heap p) n)
  | .decodeIndices is => .int (Model.decodeIndices is)

/-- What calls give, one after the other, with nobody else about -/
def expected (L : WordList) (C : PhraseCrypto) : State → List Call → List Obs
  | _, [] => []
  | s, call :: calls => gives L C s call :: expected L C (s.step L C call) calls

/-- The calls overwrite, by an assignment or through EncodeToIndices, none of the first `k` integers. -/
def LeavesAlone (k : Nat) (calls : List Call) : Prop :=
  ∀ call ∈ calls, match call with
    | .assign i _ => k ≤ i
    | .encodeToIndices i _ => k ≤ i
    | _ => True

/-- Goroutines started in state `s`: each holds all that the caller held, and makes calls of its own. -/
def spawn (L : WordList) (C : PhraseCrypto) (s : State) (calls : List (List Call)) : World :=
  ⟨s.heap, calls.map (goroutine L C s.client)⟩

/-- Goroutine `t` is about to write to cell `a`. -/
def Writes (w : World) (t a : Nat) : Prop := ∃ v k, w.threads[t]? = some (.put a v k)

/-- Goroutine `t` is about to read cell `a`. -/
def Reads (w : World) (t a : Nat) : Prop := ∃ k, w.threads[t]? = some (.get a k)

/-- Goroutine `t` is about to make cell `a`. -/
def Makes (w : World) (t a : Nat) : Prop := (∃ v k, w.threads[t]? = some (.new v k)) ∧ a = w.heap.length

/-- The call overwrites nothing, and is about things that the caller `c` held already. -/
def AboutShared (c : Client) : Call → Prop
  | .newSeed _ i => i < c.ints.length
  | .seedInt k | .seedBytes k | .encodePlaintext k _ | .encodeEncrypted k _ _ _ => k < c.seeds.length
  | .decodedSeed j | .decryptSeed j _ => j < c.decoded.length
  | .assign _ _ | .encodeToIndices _ _ => False
  | .int _ | .generateSeed _ | .decode _ | .decodeIndices _ => True

end Verif.Spec.Threads
