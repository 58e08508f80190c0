import Verif.Model.Cli.Tree

/-! Reads trees, credentials and paths as run.py writes them and prints where the paths lead. Copied to a scratch file and run by
run.py. -/

open Verif Verif.Model.Cli

def digit (c : Char) : Nat := "0123456789abcdef".toList.idxOf c

def unhex : List Char → Bytes
  | a :: b :: rest => UInt8.ofNat (16 * digit a + digit b) :: unhex rest
  | _ => []

def hexOf (b : Bytes) : String :=
  let d (n : Nat) := String.singleton ("0123456789abcdef".toList.getD n '0')
  String.join (b.map fun b => d (b.toNat / 16) ++ d (b.toNat % 16))

def tell : Errno → String
  | .noent => "ENOENT" | .notdir => "ENOTDIR" | .acces => "EACCES" | .loop => "ELOOP"
  | .nametoolong => "ENAMETOOLONG" | .isdir => "EISDIR" | .inval => "EINVAL" | .other => "other"

def nats (s : String) : List Nat := ((s.splitOn ",").filter (· ≠ "")).map String.toNat!

/-- The first directory and name under which a node stands -/
def place (t : Tree) (i : Nat) (names : List Bytes) : String := Id.run do
  for d in List.range t.next do
    match (t.inode d).node with
    | .dir entries =>
      for n in names do
        if entries n = some i then return s!"{d}/{hexOf n}"
    | _ => pure ()
  return "nowhere"

def main (args : List String) : IO Unit := do
  let mut nodes : Array Inode := #[]
  let mut t : Tree := ⟨fun _ => ⟨.file [], 0, 0, 0⟩, 0, 0⟩
  let mut c : Cred := ⟨0, 0, fun _ => false, 0, 0⟩
  for line in (← IO.FS.lines args.head!) do
    match line.splitOn " " with
    | ["T"] => nodes := #[]
    | ["N", kind, owner, group, mode, payload] =>
      let node : Node := match kind with
        | "f" => .file (unhex payload.toList)
        | "l" => .link (unhex payload.toList)
        | "s" => .special []
        | _ =>
          let es := ((payload.splitOn ",").filter (· ≠ "")).map fun e => match e.splitOn "=" with
            | [n, i] => (unhex n.toList, i.toNat!)
            | _ => ([], 0)
          .dir fun n => es.lookup n
      nodes := nodes.push ⟨node, owner.toNat!, group.toNat!, UInt16.ofNat mode.toNat!⟩
      let done := nodes
      t := ⟨fun i => done.getD i ⟨.file [], 0, 0, 0⟩, done.size, 0⟩
    | ["C", user, group, groups, cwd, umask] =>
      let gs := nats groups
      c := ⟨user.toNat!, group.toNat!, fun g => gs.contains g, cwd.toNat!, UInt16.ofNat umask.toNat!⟩
    | ["Q", path, names] =>
      let p := unhex path.toList
      let names := ((names.splitOn ",").filter (· ≠ "")).map fun n => unhex n.toList
      let stat := match t.stat c p with | .ok i => s!"{i}" | .error e => tell e
      let opened := match t.open c p with | .ok b => "=" ++ hexOf b | .error e => tell e
      let created := match t.create c p 0o600 with
        | .ok (t', i) => if i = t.next then s!"{place t' i names} {(t'.inode i).owner} {(t'.inode i).group} {(t'.inode i).mode}" else s!"{i}"
        | .error _ => "error"
      IO.println s!"{stat}|{opened}|{created}"
    | _ => pure ()
