import Verif.Spec.Keyboard

/-! Reads lines of key presses (c41: character, e: erase, k: kill, n: return, d: control-D) and prints what the driver
writes and what is read. Copied to a scratch file and run by run.py. -/

open Verif Verif.Spec

def hexOf (b : Byte) : String :=
  let d (n : Nat) := String.singleton ("0123456789abcdef".toList.getD n '0')
  d (b.toNat / 16) ++ d (b.toNat % 16)

def digit (c : Char) : Nat := "0123456789abcdef".toList.idxOf c

def parse (s : String) : Pressed :=
  match s.toList with
  | ['c', a, b] => .key (.char (UInt8.ofNat (16 * digit a + digit b)))
  | ['e'] => .key .erase
  | ['k'] => .key .kill
  | ['n'] => .enter
  | _ => .eof

/-- What the driver writes for presses: return is echoed as carriage return and line feed, control-D is not. -/
def echoes (ps : List Pressed) : Bytes :=
  let (out, keys) := ps.foldl (fun (out, keys) p => match p with
    | .key k => (out, keys ++ [k])
    | .enter => (out ++ echoed keys ++ [13, 10], [])
    | .eof => (out ++ echoed keys, [])) (([] : Bytes), ([] : List Stroke))
  out ++ echoed keys

def main (args : List String) : IO Unit := do
  for line in (← IO.FS.lines args.head!) do
    let ps := ((line.splitOn " ").filter (· ≠ "")).map parse
    let read := (deliver ps).map fun | some b => hexOf b | none => "--"
    let pw := match readPasswordLine [] (deliver ps) with
      | .waits => "waits"
      | .password p r => s!"{String.join (p.map hexOf)} {r.length}"
    IO.println s!"{String.join ((echoes ps).map hexOf)}|{String.join read}|{pw}"
