import Verif.Model.Cli.Tree

/-! What is said about a file system with directories, links and permissions. -/

namespace Verif.Spec

open Verif.Model Verif.Model.Cli

/-- The nodes that directories and the process name have been created. -/
structure Whole (t : Tree) (c : Cred) : Prop where
  root : t.root < t.next
  cwd : c.cwd < t.next
  entries : ∀ d < t.next, ∀ entries, (t.inode d).node = .dir entries → ∀ name i, entries name = some i → i < t.next

/-- The second tree is the first one with one more file: it has this name in this directory, which did not have the name, and
belongs to the user of the process; of its permissions none is for others. -/
structure OneMore (t : Tree) (c : Cred) (d : Nat) (name data : Bytes) (t' : Tree) : Prop where
  next : t'.next = t.next + 1
  root : t'.root = t.root
  file : (t'.inode t.next).node = .file data ∧ (t'.inode t.next).owner = c.user ∧
    (t'.inode t.next).group = (if (t.inode d).mode &&& 0o2000 = 0 then c.group else (t.inode d).group) ∧
    (t'.inode t.next).mode = 0o600 &&& ~~~c.umask
  dir : ∃ entries entries', (t.inode d).node = .dir entries ∧ entries name = none ∧
    (t'.inode d).node = .dir entries' ∧ entries' name = some t.next ∧ (∀ n, n ≠ name → entries' n = entries n) ∧
    (t'.inode d).owner = (t.inode d).owner ∧ (t'.inode d).group = (t.inode d).group ∧
    (t'.inode d).mode = (t.inode d).mode
  others : ∀ j, j ≠ d → j ≠ t.next → t'.inode j = t.inode j

/-- The files a process sees, as a map from paths: a path is there if it can be opened for reading; of the paths in `only`,
which are not read, it is enough that they are there. -/
def seenFiles (t : Tree) (c : Cred) (only : Bytes → Bool) : FS where
  dir q :=
    match t.stat c q with
    | .ok i => if only q || c.may (t.inode i) 4 then some i else none
    | .error _ => none
  data i := (t.inode i).node.content
  next := t.next
  mode i := (t.inode i).mode
  umask := c.umask

/-- What the operating system refuses when this file is to be written. -/
def refused (t : Tree) (c : Cred) (env : SaveEnv) (out : Bytes) : SaveEnv where
  statFails :=
    match t.stat c out with
    | .error .noent => false
    | .error _ => true
    | .ok _ => false
  openFails :=
    match t.stat c out, t.create c out 0o600 with
    | .error .noent, .ok _ => env.openFails
    | _, _ => true
  writeFails := env.writeFails

/-- The environment in which a command finds itself -/
def seenBy (t : Tree) (c : Cred) (env : Env) (settings : List (Bytes × FlagValue)) : Cmd → Env
  | .generate =>
    let opts := generateOptions settings
    { env with
      fs := seenFiles t c fun q => q = opts.outputWordFile && (q ≠ opts.unsafeEntropy || q = str "-")
      save := refused t c env.save opts.outputWordFile }
  | .convert =>
    { env with
      fs := seenFiles t c fun _ => false
      save := refused t c env.save (convertOptions settings).input.inputWordFile }
  | _ => { env with fs := seenFiles t c fun _ => false }

end Verif.Spec
