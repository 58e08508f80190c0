import Verif.Model.Cli.Tree

/-!
# Saving a phrase while others are at work

saveMnemonic in small steps: every name of the path is looked up by itself, twice over (os.Stat, then os.WriteFile), and bytes are
written one by one, so that other processes can act in between. The last lookup of open(2) and the creation of the file are one
step, as the kernel does both under the lock of the directory. Then the calls by which other processes can act on the files
(open(2), symlink(2), link(2), mkdir(2), unlink(2), rename(2), chmod(2), write(2)); paths are looked up at one moment in
these, as it does not matter which way others come to know a node.
-/

namespace Verif.Model.Cli

open Verif.Model

/-- A path being looked up: the directory reached, the names that follow, whether the path ends in a slash, and how many links
may still be followed -/
structure Way where
  links : Nat
  dir : Nat
  parts : List Bytes
  slash : Bool

inductive Looking where
  | on (w : Way)
  | ends (r : Except Errno Spot)

/-- The beginning of path_resolution(7). Go refuses paths with a zero byte. -/
def Tree.start (t : Tree) (c : Cred) (p : Bytes) : Looking :=
  if 0 ∈ p then .ends (.error .inval)
  else if p = [] then .ends (.error .noent)
  else if p.length > 4095 then .ends (.error .nametoolong)
  else .on ⟨40, t.origin c.cwd p, components p, endsInSlash p⟩

/-- One name looked up -/
def Tree.look (t : Tree) (c : Cred) (w : Way) : Looking :=
  match w.parts with
  | [] => .ends (.ok (.found w.dir))
  | name :: rest =>
    match (t.inode w.dir).node with
    | .dir entries =>
      if c.may (t.inode w.dir) 1 = false then .ends (.error .acces)
      else if name.length > 255 then .ends (.error .nametoolong)
      else
        match entries name with
        | none => .ends (if rest = [] ∧ w.slash = false then .ok (.missing w.dir name) else .error .noent)
        | some i =>
          match (t.inode i).node with
          | .link target =>
            if target = [] then .ends (.error .noent)
            else
              match w.links with
              | 0 => .ends (.error .loop)
              | n + 1 => .on ⟨n, t.origin w.dir target, components target ++ rest,
                  w.slash || (rest.isEmpty && endsInSlash target)⟩
          | .dir _ => if rest = [] then .ends (.ok (.found i)) else .on ⟨w.links, i, rest, w.slash⟩
          | _ => .ends (if rest = [] ∧ w.slash = false then .ok (.found i) else .error .notdir)
    | _ => .ends (.error .notdir)

/-- The end of open(2) with O_WRONLY, O_CREATE and O_TRUNC, where the path led to this -/
def Tree.createAt (t : Tree) (c : Cred) (r : Except Errno Spot) (perm : UInt16) : Except Errno (Tree × Nat) :=
  match r with
  | .error e => .error e
  | .ok (.missing d name) => if c.may (t.inode d) 2 then .ok (t.add c d name perm [], t.next) else .error .acces
  | .ok (.found i) =>
    match (t.inode i).node with
    | .file _ => if c.may (t.inode i) 2 then .ok (t.setData i [], i) else .error .acces
    | .special _ => if c.may (t.inode i) 2 then .ok (t, i) else .error .acces
    | _ => .error .isdir

/-- How far saveMnemonic has come -/
inductive Saving where
  /-- in os.Stat -/
  | stat (l : Looking)
  /-- in os.WriteFile, before the file is open -/
  | opening (l : Looking)
  /-- the file is open: its node, the place reached, what is still to be written -/
  | writing (i k : Nat) (rest : Bytes)
  | done (r : Res Unit)

/-- generate.go:201-213 saveMnemonic, one step: `env` says what else the operating system refuses, opening the file (as for
want of space), or writing after some bytes, closing if there are no more. -/
def Saving.step (c : Cred) (env : SaveEnv) (words : List Bytes) (wordFile : Bytes) (t : Tree) : Saving → Tree × Saving
  | .stat (.on w) => (t, .stat (t.look c w))
  | .stat (.ends (.ok (.found _))) => (t, .done (.err .fileExists))
  | .stat (.ends (.ok (.missing _ _))) => (t, .opening (t.start c wordFile))
  | .stat (.ends (.error e)) =>
    if e = .noent then (t, .opening (t.start c wordFile)) else (t, .done (.err .fileInaccessible))
  | .opening (.on w) =>
    match t.look c w with
    | .on w => (t, .opening (.on w))
    | .ends r =>
      match (if env.openFails then .error .other else t.createAt c r 0o600 : Except Errno (Tree × Nat)) with
      | .error _ => (t, .done (.err .fileWrite))
      | .ok (t', i) => (t', .writing i 0 (wordFileContent words))
  | .opening (.ends _) => (t, .done (.err .fileWrite))
  | .writing i k rest =>
    if env.writeFails = some k then (t, .done (.err .fileWrite))
    else
      match rest with
      | [] => (t, .done (if env.writeFails.isSome then .err .fileWrite else .ok ()))
      | b :: rest =>
        match (t.inode i).node with
        | .file data => (t.setData i (writeAt data k b), .writing i (k + 1) rest)
        | _ => (t, .writing i (k + 1) rest)
  | .done r => (t, .done r)

/-- The beginning of saveMnemonic -/
def Saving.begin (t : Tree) (c : Cred) (wordFile : Bytes) : Saving := .stat (t.start c wordFile)

/-! ## other processes -/

/-- The files, and the nodes that processes of other users have open -/
structure Scene where
  tree : Tree
  reads : Nat → Bool
  writes : Nat → Bool

/-- A call of the operating system by a process -/
inductive Deed where
  /-- open(2) for reading -/
  | read (p : Bytes)
  /-- open(2) for writing; the file may be created -/
  | write (p : Bytes) (perm : UInt16)
  /-- write(2) to a file open for writing: what it contains then -/
  | put (i : Nat) (data : Bytes)
  | symlink (target p : Bytes)
  | link (old new : Bytes)
  | mkdir (p : Bytes) (perm : UInt16)
  | unlink (p : Bytes)
  | rename (old new : Bytes)
  | chmod (p : Bytes) (mode : UInt16)

/-- The node of a path and the place of its last name. Paths that end in a slash or a dot are left out. -/
def Tree.parent (t : Tree) (c : Cred) (p : Bytes) : Option (Nat × Bytes) :=
  match (components p).reverse with
  | [] => none
  | name :: rest =>
    if endsInSlash p ∨ name = str "." ∨ name = str ".." ∨ name.length > 255 ∨ 0 ∈ p ∨ p.length > 4095 then none
    else
      match t.walk c 40 (t.origin c.cwd p) rest.reverse true with
      | .ok (.found d) =>
        match (t.inode d).node with
        | .dir _ => if c.may (t.inode d) 1 then some (d, name) else none
        | _ => none
      | _ => none

def Tree.entry (t : Tree) (d : Nat) (name : Bytes) : Option Nat :=
  match (t.inode d).node with
  | .dir entries => entries name
  | _ => none

def Tree.setEntry (t : Tree) (d : Nat) (name : Bytes) (e : Option Nat) : Tree :=
  { t with inode := fun j =>
      if j = d then
        match (t.inode d).node with
        | .dir entries => { t.inode d with node := .dir fun n => if n = name then e else entries n }
        | _ => t.inode d
      else t.inode j }

/-- A new node under a name -/
def Tree.addNode (t : Tree) (c : Cred) (d : Nat) (name : Bytes) (node : Node) (mode : UInt16) : Tree :=
  let t' : Tree := { t with
    inode := fun j =>
      if j = t.next then ⟨node, c.user, if (t.inode d).mode &&& 0o2000 = 0 then c.group else (t.inode d).group, mode⟩
      else t.inode j
    next := t.next + 1 }
  t'.setEntry d name (some t.next)

/-- Whether the process may take an entry out of a directory or replace it: in a sticky directory only that of a node of its
user, unless the directory is the user's. -/
def Cred.mayRemove (c : Cred) (t : Tree) (d i : Nat) : Bool :=
  c.may (t.inode d) 2 && c.may (t.inode d) 1 &&
    ((t.inode d).mode &&& 0o1000 = 0 || c.user = 0 || c.user = (t.inode d).owner || c.user = (t.inode i).owner)

def isDir : Node → Bool
  | .dir _ => true
  | _ => false

/-- What a call does. Directories are not removed or replaced here (whether they are empty cannot be computed from a function
of names), and keep their parents. -/
def Scene.does (s : Scene) (c : Cred) : Deed → Scene
  | .read p =>
    match s.tree.stat c p with
    | .ok i => if c.may (s.tree.inode i) 4 then { s with reads := fun j => j = i || s.reads j } else s
    | .error _ => s
  | .write p perm =>
    match s.tree.create c p perm with
    | .ok (t, i) => { s with tree := t, writes := fun j => j = i || s.writes j }
    | .error _ => s
  | .put i data =>
    if s.writes i then
      match (s.tree.inode i).node with
      | .file _ => { s with tree := s.tree.setData i data }
      | _ => s
    else s
  | .symlink target p =>
    match s.tree.parent c p with
    | some (d, name) =>
      if s.tree.entry d name = none ∧ c.may (s.tree.inode d) 2 ∧ target ≠ [] then
        { s with tree := s.tree.addNode c d name (.link target) 0o777 }
      else s
    | none => s
  | .link old new =>
    match s.tree.parent c old, s.tree.parent c new with
    | some (d, name), some (d', name') =>
      match s.tree.entry d name with
      | some i =>
        if s.tree.entry d' name' = none ∧ c.may (s.tree.inode d') 2 ∧ isDir (s.tree.inode i).node = false then
          { s with tree := s.tree.setEntry d' name' (some i) }
        else s
      | none => s
    | _, _ => s
  | .mkdir p perm =>
    match s.tree.parent c p with
    | some (d, name) =>
      if s.tree.entry d name = none ∧ c.may (s.tree.inode d) 2 then
        let entries : Bytes → Option Nat := fun n =>
          if n = str "." then some s.tree.next else if n = str ".." then some d else none
        let mode := (perm &&& 0o777 &&& ~~~c.umask) ||| ((s.tree.inode d).mode &&& 0o2000)
        { s with tree := s.tree.addNode c d name (.dir entries) mode }
      else s
    | none => s
  | .unlink p =>
    match s.tree.parent c p with
    | some (d, name) =>
      match s.tree.entry d name with
      | some i =>
        if c.mayRemove s.tree d i ∧ isDir (s.tree.inode i).node = false then
          { s with tree := s.tree.setEntry d name none }
        else s
      | none => s
    | none => s
  | .rename old new =>
    match s.tree.parent c old, s.tree.parent c new with
    | some (d, name), some (d', name') =>
      match s.tree.entry d name with
      | some i =>
        if c.mayRemove s.tree d i ∧ c.may (s.tree.inode d') 2 ∧ (isDir (s.tree.inode i).node = false ∨ d = d') then
          match s.tree.entry d' name' with
          | none => { s with tree := (s.tree.setEntry d' name' (some i)).setEntry d name none }
          | some j =>
            if j ≠ i ∧ c.mayRemove s.tree d' j ∧ isDir (s.tree.inode i).node = false ∧ isDir (s.tree.inode j).node = false then
              { s with tree := (s.tree.setEntry d' name' (some i)).setEntry d name none }
            else s
        else s
      | none => s
    | _, _ => s
  | .chmod p mode =>
    match s.tree.stat c p with
    | .ok i =>
      if c.user = (s.tree.inode i).owner ∨ c.user = 0 then
        { s with tree := { s.tree with
            inode := fun j => if j = i then { s.tree.inode i with mode := mode } else s.tree.inode j } }
      else s
    | .error _ => s

end Verif.Model.Cli
