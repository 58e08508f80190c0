import Verif.Model.Cli.Saving
import Verif.Spec.Tree

/-! What other users can do to files, and which paths they cannot redirect. -/

namespace Verif.Spec

open Verif.Model Verif.Model.Cli

/-- The second scene can come out of the first by what a process does that has no privileges: whatever else it does, it cannot
give away what it does not own, change permissions of others, directories and files without permission, or entries of nodes of
others in sticky directories, and what it makes belongs to its user. -/
structure Meddles (a : Cred) (s s' : Scene) : Prop where
  root : s'.tree.root = s.tree.root
  next : s.tree.next ≤ s'.tree.next
  owner : ∀ i < s.tree.next, (s'.tree.inode i).owner = (s.tree.inode i).owner
  /-- a file may lose its set-ID bits when it is written to -/
  mode : ∀ i < s.tree.next, (s.tree.inode i).owner ≠ a.user → (s'.tree.inode i).group = (s.tree.inode i).group ∧
    (s'.tree.inode i).mode &&& 0o777 = (s.tree.inode i).mode &&& 0o777 ∧
    ((∃ e, (s.tree.inode i).node = .dir e) → (s'.tree.inode i).mode = (s.tree.inode i).mode)
  entries : ∀ d < s.tree.next, ∀ e, (s.tree.inode d).node = .dir e → ∃ e', (s'.tree.inode d).node = .dir e' ∧
    ∀ name, e' name = e name ∨ a.may (s.tree.inode d) 2 = true ∧
      ((s.tree.inode d).mode &&& 0o1000 = 0 ∨ (s.tree.inode d).owner = a.user ∨
        ∀ i, e name = some i → (s.tree.inode i).owner = a.user)
  links : ∀ i < s.tree.next, ∀ x, (s.tree.inode i).node = .link x → (s'.tree.inode i).node = .link x
  files : ∀ i < s.tree.next, ∀ x, (s.tree.inode i).node = .file x → ∃ x', (s'.tree.inode i).node = .file x' ∧
    (x' = x ∨ s.writes i = true ∨ a.may (s.tree.inode i) 2 = true)
  specials : ∀ i < s.tree.next, ∀ x, (s.tree.inode i).node = .special x → ∃ x', (s'.tree.inode i).node = .special x'
  created : ∀ i, s.tree.next ≤ i → i < s'.tree.next → (s'.tree.inode i).owner = a.user
  named : ∀ d < s'.tree.next, ∀ e, (s'.tree.inode d).node = .dir e → ∀ name i, e name = some i → i < s'.tree.next
  reads : ∀ i, s'.reads i = true → s.reads i = true ∨ s.tree.next ≤ i ∧ i < s'.tree.next ∨
    i < s.tree.next ∧ a.may (s.tree.inode i) 4 = true
  writes : ∀ i, s'.writes i = true → s.writes i = true ∨ s.tree.next ≤ i ∧ i < s'.tree.next ∨
    i < s.tree.next ∧ a.may (s.tree.inode i) 2 = true

/-- These names are looked up in these directories on the way of a path. -/
inductive OnWay (t : Tree) : Nat → List Bytes → Nat → Bytes → Prop
  | here (d : Nat) (name : Bytes) (rest : List Bytes) : OnWay t d (name :: rest) d name
  | down {d i x : Nat} {name n : Bytes} {rest : List Bytes} {e e' : Bytes → Option Nat} : (t.inode d).node = .dir e →
      e name = some i → (t.inode i).node = .dir e' → OnWay t i rest x n → OnWay t d (name :: rest) x n
  | link {d i x : Nat} {name n target : Bytes} {rest : List Bytes} {e : Bytes → Option Nat} : (t.inode d).node = .dir e →
      e name = some i → (t.inode i).node = .link target → OnWay t (t.origin d target) (components target ++ rest) x n →
      OnWay t d (name :: rest) x n

/-- The user and root are trusted. -/
def Trusted (u owner : Nat) : Prop := owner = u ∨ owner = 0

/-- Nobody else can change what this name leads to in this directory: the directory belongs to the user or to root, and only
its owner may write in it, or it is sticky and the name leads to a node of the user or root. -/
def Firm (t : Tree) (u d : Nat) (name : Bytes) : Prop :=
  Trusted u (t.inode d).owner ∧ ((t.inode d).mode &&& 0o022 = 0 ∨
    (t.inode d).mode &&& 0o1000 ≠ 0 ∧ ∃ e i, (t.inode d).node = .dir e ∧ e name = some i ∧ Trusted u (t.inode i).owner)

def FirmFrom (t : Tree) (u d : Nat) (parts : List Bytes) : Prop := ∀ x n, OnWay t d parts x n → Firm t u x n

/-- Nobody else can change what the path leads to. -/
def FirmPath (t : Tree) (c : Cred) (p : Bytes) : Prop := FirmFrom t c.user (t.origin c.cwd p) (components p)

/-- saveMnemonic and processes of other users act in any order. -/
inductive Goes (c : Cred) (env : SaveEnv) (words : List Bytes) (p : Bytes) : Scene × Saving → Scene × Saving → Prop
  | save (s : Scene) (m : Saving) : Goes c env words p (s, m)
      ({ s with tree := (m.step c env words p s.tree).1 }, (m.step c env words p s.tree).2)
  | other {s s' : Scene} (m : Saving) (a : Cred) : a.user ≠ 0 → a.user ≠ c.user → Meddles a s s' → Goes c env words p (s, m) (s', m)

/-- At any time later -/
inductive Later (c : Cred) (env : SaveEnv) (words : List Bytes) (p : Bytes) : Scene × Saving → Scene × Saving → Prop
  | refl (x : Scene × Saving) : Later c env words p x x
  | step {x y z : Scene × Saving} : Later c env words p x y → Goes c env words p y z → Later c env words p x z

/-- Nothing is open that is not there. -/
def OpenThere (s : Scene) : Prop := ∀ i, s.reads i = true ∨ s.writes i = true → i < s.tree.next

/-- The phrase, or so much of it, is in the file of this path, which belongs to the user; nobody else has it open or may open
it. -/
structure Kept (c : Cred) (p data : Bytes) (s : Scene) : Prop where
  there : ∃ i < s.tree.next, s.tree.stat c p = .ok i ∧ (s.tree.inode i).node = .file data ∧
    (s.tree.inode i).owner = c.user ∧ (s.tree.inode i).mode &&& 0o777 = 0o600 &&& ~~~c.umask &&& 0o777 ∧
    s.reads i = false ∧ s.writes i = false ∧
    ∀ a : Cred, a.user ≠ 0 → a.user ≠ c.user → a.may (s.tree.inode i) 4 = false ∧ a.may (s.tree.inode i) 2 = false

end Verif.Spec
