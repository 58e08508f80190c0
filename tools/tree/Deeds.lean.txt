import Verif.Model.Cli.Saving

/-! Reads trees, credentials and calls as deeds.py writes them and prints the trees afterwards. Copied to a scratch file and run by
deeds.py. -/

open Verif Verif.Model.Cli

def digit (c : Char) : Nat := "0123456789abcdef".toList.idxOf c

def unhex : List Char → Bytes
  | a :: b :: rest => UInt8.ofNat (16 * digit a + digit b) :: unhex rest
  | _ => []

def hexOf (b : Bytes) : String :=
  let d (n : Nat) := String.singleton ("0123456789abcdef".toList.getD n '0')
  String.join (b.map fun b => d (b.toNat / 16) ++ d (b.toNat % 16))

def nats (s : String) : List Nat := ((s.splitOn ",").filter (· ≠ "")).map String.toNat!

partial def dump (t : Tree) (names : List Bytes) (i : Nat) (known : Array Nat) : String × Array Nat := Id.run do
  match known.idxOf? i with
  | some k => return (s!"#{k}", known)
  | none =>
    let mut known := known.push i
    let n := t.inode i
    let head := s!"{n.owner} {n.group} {n.mode}"
    match n.node with
    | .file b => return (s!"[f {head} {hexOf b}]", known)
    | .link b => return (s!"[l {head} {hexOf b}]", known)
    | .special _ => return (s!"[s {head}]", known)
    | .dir e =>
      let mut out := s!"[d {head}"
      for name in names do
        match e name with
        | some j =>
          let (s, known') := dump t names j known
          known := known'
          out := out ++ s!" {hexOf name}={s}"
        | none => pure ()
      return (out ++ "]", known)

def main (args : List String) : IO Unit := do
  let mut nodes : Array Inode := #[]
  let mut s : Scene := ⟨⟨fun _ => ⟨.file [], 0, 0, 0⟩, 0, 0⟩, fun _ => false, fun _ => false⟩
  let mut c : Cred := ⟨0, 0, fun _ => false, 0, 0⟩
  for line in (← IO.FS.lines args.head!) do
    let b (x : String) := unhex x.toList
    let m (x : String) := UInt16.ofNat x.toNat!
    match line.splitOn " " with
    | ["T"] => nodes := #[]
    | ["N", kind, owner, group, mode, payload] =>
      let node : Node := match kind with
        | "f" => .file (b payload)
        | "l" => .link (b payload)
        | "s" => .special []
        | _ =>
          let es := ((payload.splitOn ",").filter (· ≠ "")).map fun e => match e.splitOn "=" with
            | [n, i] => (b n, i.toNat!)
            | _ => ([], 0)
          .dir fun n => es.lookup n
      nodes := nodes.push ⟨node, owner.toNat!, group.toNat!, m mode⟩
      let done := nodes
      s := ⟨⟨fun i => done.getD i ⟨.file [], 0, 0, 0⟩, done.size, 0⟩, fun _ => false, fun _ => false⟩
    | ["C", user, group, groups, cwd, umask] =>
      let gs := nats groups
      c := ⟨user.toNat!, group.toNat!, fun g => gs.contains g, cwd.toNat!, m umask⟩
    | ["write", p, perm] => s := s.does c (.write (b p) (m perm))
    | ["read", p] => s := s.does c (.read (b p))
    | ["put", i, data] => s := s.does c (.put i.toNat! (b data))
    | ["symlink", target, p] => s := s.does c (.symlink (b target) (b p))
    | ["link", old, new] => s := s.does c (.link (b old) (b new))
    | ["mkdir", p, perm] => s := s.does c (.mkdir (b p) (m perm))
    | ["unlink", p] => s := s.does c (.unlink (b p))
    | ["rename", old, new] => s := s.does c (.rename (b old) (b new))
    | ["chmod", p, mode] => s := s.does c (.chmod (b p) (m mode))
    | "D" :: names =>
      let (out, known) := dump s.tree (names.map b) 0 #[]
      let reads := (List.range known.size).filter fun k => s.reads known[k]!
      IO.println s!"{out} {reads}"
    | _ => pure ()
