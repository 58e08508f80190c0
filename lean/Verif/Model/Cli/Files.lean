import Verif.Model.Cli.Text
import Verif.Model.Recovery

/-!
# Word files: `/repo/cmd/mnemonikey/generate.go` saveMnemonic, `recover.go` readWordFile

A file system maps paths to files and files to contents, so that a file can be replaced by another one
under the same path. Files have permission bits; whether they forbid an operation, links and
directories are in `Tree.lean`; concurrent closing is not modelled; an operation that the operating system may refuse fails according to `SaveEnv`.

What a process does to the outside world is a list of actions in the order in which they happen; a
crash leaves a prefix of that list done.
-/

namespace Verif.Model.Cli

open Verif.Model

structure FS where
  /-- the file at a path -/
  dir : Bytes → Option Nat
  /-- its contents -/
  data : Nat → Bytes
  /-- number of the next file to be created -/
  next : Nat
  /-- the permission bits of a file -/
  mode : Nat → UInt16 := fun _ => 0o644
  /-- the permissions that files created by the process do not get -/
  umask : UInt16 := 0o022

/-- Files in the directory have been created. -/
def FS.Wf (fs : FS) : Prop := ∀ p i, fs.dir p = some i → i < fs.next

/-- `os.ReadFile`-like view: contents of the file at a path -/
def FS.read (fs : FS) (p : Bytes) : Option Bytes := (fs.dir p).map fs.data

inductive Act where
  /-- open(2) with O_WRONLY, O_CREATE, O_TRUNC, and the permissions wanted for a new file -/
  | openTrunc (path : Bytes) (perm : UInt16)
  /-- one more byte written to the open file, at the place reached -/
  | write (b : Byte)
  /-- one more byte written to standard output -/
  | stdout (b : Byte)
  /-- the words of a phrase shown on the terminal (standard error) -/
  | showPhrase (words : List Bytes)
  deriving DecidableEq, Repr

structure World where
  fs : FS
  /-- the open file and the place reached in it -/
  handle : Option (Nat × Nat)
  stdout : Bytes
  shown : List (List Bytes)

/-- write(2) of one byte at a place, filling a hole with zero bytes -/
def writeAt (c : Bytes) (k : Nat) (b : Byte) : Bytes :=
  c.take k ++ List.replicate (k - c.length) 0 ++ b :: c.drop (k + 1)

def FS.setData (fs : FS) (i : Nat) (c : Bytes) : FS :=
  { fs with data := fun j => if j = i then c else fs.data j }

/-- A new empty file at a path -/
def FS.create (fs : FS) (p : Bytes) (mode : UInt16) : FS :=
  { dir := fun q => if q = p then some fs.next else fs.dir q
    data := fun j => if j = fs.next then [] else fs.data j
    next := fs.next + 1
    mode := fun j => if j = fs.next then mode else fs.mode j
    umask := fs.umask }

def World.step (w : World) : Act → World
  | .openTrunc p perm =>
    match w.fs.dir p with
    | some i => { w with fs := w.fs.setData i [], handle := some (i, 0) }
    | none => { w with fs := w.fs.create p (perm &&& ~~~w.fs.umask), handle := some (w.fs.next, 0) }
  | .write b =>
    match w.handle with
    | none => w
    | some (i, k) => { w with fs := w.fs.setData i (writeAt (w.fs.data i) k b), handle := some (i, k + 1) }
  | .stdout b => { w with stdout := w.stdout ++ [b] }
  | .showPhrase words => { w with shown := w.shown ++ [words] }

def World.run (w : World) (acts : List Act) : World := acts.foldl World.step w

/-- What the operating system refuses during one call of saveMnemonic. -/
structure SaveEnv where
  /-- os.Stat fails although nothing says that the file does not exist -/
  statFails : Bool
  openFails : Bool
  /-- writing fails after that many bytes; at the full length it is Close that fails -/
  writeFails : Option Nat

/-- generate.go:208 wordFileContent -/
def wordFileContent (words : List Bytes) : Bytes := join (str " ") words ++ str "\n"

/-- generate.go:201-213 saveMnemonic. `os.WriteFile` opens the file with O_TRUNC, and O_CREATE with the
permissions given, and writes the bytes in order. -/
def saveMnemonic (fs : FS) (env : SaveEnv) (words : List Bytes) (wordFile : Bytes) :
    List Act × Res Unit :=
  if env.statFails then ([], .err .fileInaccessible)
  else if (fs.dir wordFile).isSome then ([], .err .fileExists)
  else if env.openFails then ([], .err .fileWrite)
  else
    let content := wordFileContent words
    match env.writeFails with
    | some n => (.openTrunc wordFile 0o600 :: (content.take n).map .write, .err .fileWrite)
    | none => (.openTrunc wordFile 0o600 :: content.map .write, .ok ())

/-- recover.go:216-226, the loop of readWordFile over the words scanned -/
def readLoop (L : WordList) : List Bytes → List Bytes → Res (List Bytes)
  | words, [] => .ok words
  | words, text :: rest =>
    let word := L.toLower text
    match L.lookup word with
    | none => .err .fileBadWord
    | some _ =>
      let words := words ++ [word]
      if words.length > 100 then .err .fileBadFormat else readLoop L words rest

/-- recover.go:207-239 readWordFile on the contents of the file; `none`: it cannot be opened. The error
of ParseMnemonicVersion is ignored, and so is the scanner's. -/
def readWordFile (L : WordList) (content : Option Bytes) : Res (List Bytes) :=
  match content with
  | none => .err .fileOpen
  | some content => do
    let words ← readLoop L [] (scanWords content)
    match words with
    | [] => .err .fileNoWords
    | first :: _ =>
      let version := (parseMnemonicVersionRaw L first).1
      if words.length ≠ mnemonicSize version then .err .fileWordCount else .ok words

end Verif.Model.Cli
