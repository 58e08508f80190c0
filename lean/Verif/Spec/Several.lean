import Verif.Spec.Others

/-! Several runs that save phrases at the same time. -/

namespace Verif.Spec

open Verif.Model Verif.Model.Cli

/-- One run: the process, what fails for it, the words and the path -/
structure SaveRun where
  cred : Cred
  env : SaveEnv
  words : List Bytes
  path : Bytes

def SaveRun.step (r : SaveRun) (t : Tree) (m : Saving) : Tree × Saving := m.step r.cred r.env r.words r.path t

/-- One of the runs goes on, or a process of a user who has none of the runs acts. -/
inductive AllGo {ι : Type} [DecidableEq ι] (runs : ι → SaveRun) : Scene × (ι → Saving) → Scene × (ι → Saving) → Prop
  | save (s : Scene) (m : ι → Saving) (k : ι) : AllGo runs (s, m)
      ({ s with tree := ((runs k).step s.tree (m k)).1 }, fun l => if l = k then ((runs k).step s.tree (m k)).2 else m l)
  | other {s s' : Scene} (m : ι → Saving) (a : Cred) : a.user ≠ 0 → (∀ k, a.user ≠ (runs k).cred.user) → Meddles a s s' →
      AllGo runs (s, m) (s', m)

/-- At any time later -/
inductive AllLater {ι : Type} [DecidableEq ι] (runs : ι → SaveRun) : Scene × (ι → Saving) → Scene × (ι → Saving) → Prop
  | refl (x : Scene × (ι → Saving)) : AllLater runs x x
  | step {x y z : Scene × (ι → Saving)} : AllLater runs x y → AllGo runs y z → AllLater runs x z

/-- All at the beginning -/
def beginAll {ι : Type} (runs : ι → SaveRun) (t : Tree) (k : ι) : Saving := .begin t (runs k).cred (runs k).path

end Verif.Spec
