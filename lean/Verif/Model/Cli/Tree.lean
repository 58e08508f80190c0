import Verif.Model.Cli.Run

/-!
# The program on a file system with directories, links and permissions

The other files know a file system by its paths only (`FS`). Here it is what an operating system like Linux has: numbered
nodes, of which directories give names to others, links that are followed, and permissions by owner, group and others. First
what the calls of the operating system do that the program makes (path_resolution(7), stat(2), open(2); compared with Linux
by `tools/tree/run.py`), then the functions of the program that make them. Not modelled: mounts, access control lists, links
in `/proc`, the protection of links in sticky directories that Linux can be told to apply, directories that have been removed,
and other processes that act in between (`Saving.lean` has them, and `Machine.lean`, without links).
-/

namespace Verif.Model.Cli

open Verif.Model

inductive Node where
  | file (data : Bytes)
  /-- the entries include `.` and `..` -/
  | dir (entries : Bytes → Option Nat)
  | link (target : Bytes)
  /-- a device or pipe; what reading it gives -/
  | special (data : Bytes)

structure Inode where
  node : Node
  owner : Nat
  group : Nat
  mode : UInt16

structure Tree where
  inode : Nat → Inode
  /-- number of the next node to be created -/
  next : Nat
  root : Nat

/-- What the operating system knows about the process. -/
structure Cred where
  user : Nat
  group : Nat
  /-- whether the process is in a group -/
  groups : Nat → Bool
  /-- the working directory -/
  cwd : Nat
  umask : UInt16

inductive Errno where
  | noent | notdir | acces | loop | nametoolong | isdir | inval
  /-- no space, a read-only file system, and the like -/
  | other
  deriving DecidableEq, Repr

/-- Whether the process has a permission: 4 to read, 2 to write, 1 to search. -/
def Cred.may (c : Cred) (i : Inode) (bit : UInt16) : Bool :=
  if c.user = 0 then true
  else if c.user = i.owner then (i.mode >>> 6) &&& bit = bit
  else if i.group = c.group ∨ c.groups i.group then (i.mode >>> 3) &&& bit = bit
  else i.mode &&& bit = bit

/-- Where a path leads: to a node, or to a name that a directory does not have. -/
inductive Spot where
  | found (i : Nat)
  | missing (dir : Nat) (name : Bytes)
  deriving DecidableEq, Repr

/-- The parts of a path between slashes -/
def components (p : Bytes) : List Bytes := (split 0x2F p).filter fun s => s ≠ []

def endsInSlash (p : Bytes) : Bool := p.getLast? = some 0x2F

/-- Where a path starts: at the root, or at the directory given. -/
def Tree.origin (t : Tree) (d : Nat) (p : Bytes) : Nat := if p.head? = some 0x2F then t.root else d

/-- path_resolution(7), from a directory, with a function that goes on after a link. `slash`: the path ends in a slash, so
that it must lead to a directory. -/
def Tree.walkWith (t : Tree) (c : Cred) (follow : Nat → List Bytes → Bool → Except Errno Spot) :
    Nat → List Bytes → Bool → Except Errno Spot
  | d, [], _ => .ok (.found d)
  | d, name :: rest, slash =>
    match (t.inode d).node with
    | .dir entries =>
      if c.may (t.inode d) 1 = false then .error .acces
      else if name.length > 255 then .error .nametoolong
      else
        match entries name with
        | none => if rest = [] ∧ slash = false then .ok (.missing d name) else .error .noent
        | some i =>
          match (t.inode i).node with
          | .link target =>
            if target = [] then .error .noent
            else follow (t.origin d target) (components target ++ rest)
              (slash || (rest.isEmpty && endsInSlash target))
          | .dir _ => if rest = [] then .ok (.found i) else t.walkWith c follow i rest slash
          | _ => if rest = [] ∧ slash = false then .ok (.found i) else .error .notdir
    | _ => .error .notdir

/-- The same, following at most that many links -/
def Tree.walk (t : Tree) (c : Cred) : Nat → Nat → List Bytes → Bool → Except Errno Spot
  | 0 => t.walkWith c fun _ _ _ => .error .loop
  | n + 1 => t.walkWith c (t.walk c n)

/-- Where a path leads for a process. Go refuses paths with a zero byte. -/
def Tree.resolve (t : Tree) (c : Cred) (p : Bytes) : Except Errno Spot :=
  if 0 ∈ p then .error .inval
  else if p = [] then .error .noent
  else if p.length > 4095 then .error .nametoolong
  else t.walk c 40 (t.origin c.cwd p) (components p) (endsInSlash p)

/-- `os.Stat` -/
def Tree.stat (t : Tree) (c : Cred) (p : Bytes) : Except Errno Nat :=
  match t.resolve c p with
  | .ok (.found i) => .ok i
  | .ok (.missing _ _) => .error .noent
  | .error e => .error e

/-- What reading a node gives; a directory can be opened, but reading it fails at once. -/
def Node.content : Node → Bytes
  | .file data => data
  | .special data => data
  | .dir _ => []
  | .link _ => []

/-- `os.Open`, and reading everything -/
def Tree.open (t : Tree) (c : Cred) (p : Bytes) : Except Errno Bytes :=
  match t.stat c p with
  | .ok i => if c.may (t.inode i) 4 then .ok (t.inode i).node.content else .error .acces
  | .error e => .error e

/-- A new file in a directory. It gets the group of the process, or that of the directory if the directory has the
set-group-ID bit. -/
def Tree.add (t : Tree) (c : Cred) (d : Nat) (name : Bytes) (perm : UInt16) (data : Bytes) : Tree :=
  { t with
    inode := fun j =>
      if j = t.next then
        ⟨.file data, c.user, if (t.inode d).mode &&& 0o2000 = 0 then c.group else (t.inode d).group, perm &&& ~~~c.umask⟩
      else if j = d then
        match (t.inode d).node with
        | .dir entries => { t.inode d with node := .dir fun n => if n = name then some t.next else entries n }
        | _ => t.inode d
      else t.inode j
    next := t.next + 1 }

def Tree.setData (t : Tree) (i : Nat) (data : Bytes) : Tree :=
  { t with inode := fun j => if j = i then { t.inode i with node := .file data } else t.inode j }

/-- open(2) with O_WRONLY, O_CREATE and O_TRUNC, as `os.WriteFile` does it: the files after it and the node opened -/
def Tree.create (t : Tree) (c : Cred) (p : Bytes) (perm : UInt16) : Except Errno (Tree × Nat) :=
  match t.resolve c p with
  | .error e => .error e
  | .ok (.missing d name) => if c.may (t.inode d) 2 then .ok (t.add c d name perm [], t.next) else .error .acces
  | .ok (.found i) =>
    match (t.inode i).node with
    | .file _ => if c.may (t.inode i) 2 then .ok (t.setData i [], i) else .error .acces
    | .special _ => if c.may (t.inode i) 2 then .ok (t, i) else .error .acces
    | _ => .error .isdir

/-- generate.go:201-213 saveMnemonic. Of `env` only what else the operating system refuses is used: opening the file (as for
want of space), and writing after some bytes. -/
def saveMnemonicT (t : Tree) (c : Cred) (env : SaveEnv) (words : List Bytes) (wordFile : Bytes) : List Act × Res Unit :=
  match t.stat c wordFile with
  | .ok _ => ([], .err .fileExists)
  | .error e =>
    if e ≠ .noent then ([], .err .fileInaccessible)
    else
      match (if env.openFails then .error .other else t.create c wordFile 0o600 : Except Errno (Tree × Nat)) with
      | .error _ => ([], .err .fileWrite)
      | .ok _ =>
        let content := wordFileContent words
        match env.writeFails with
        | some n => (.openTrunc wordFile 0o600 :: (content.take n).map .write, .err .fileWrite)
        | none => (.openTrunc wordFile 0o600 :: content.map .write, .ok ())

/-- generate.go:155, convert.go:79: a call of saveMnemonic -/
def saveT (t : Tree) (c : Cred) (env : Env) (words : List Bytes) (wordFile : Bytes) : Prog Unit := do
  emit (saveMnemonicT t c env.save words wordFile).1
  lift (saveMnemonicT t c env.save words wordFile).2

/-- generate.go:88-112, the entropy source and the seed read from it -/
def seedOfT (t : Tree) (c : Cred) (env : Env) (unsafeEntropy : Bytes) : Prog Seed :=
  if unsafeEntropy ≠ [] then
    lift (do
      let source ← (if unsafeEntropy = str "-" then .ok env.stdin
        else match t.open c unsafeEntropy with
          | .error _ => .err .noEntropyFile
          | .ok content => .ok content : Res Bytes)
      let (seed, _) ← generateSeed source
      .ok seed)
  else random generateSeed

/-- generate.go:64-175 generateAndPrintKey -/
def generateAndPrintKeyT (L : WordList) (C : Crypto) (t : Tree) (c : Cred) (env : Env) (opts : GenerateOptions) :
    Prog Unit := do
  let ttl ← lift (ttlOf opts.key.ttl)
  let (master, subkeys) ← lift (decodeOnlyKeyTypes opts.key.only)
  let keyOptions : KeyOptions :=
    { name := trimSpace opts.key.name, email := trimSpace opts.key.email, ttl := ttl
      encryptionSubkeyIndex := 0, authenticationSubkeyIndex := 0, signingSubkeyIndex := 0
      subkeys := subkeys }
  let seed ← seedOfT t c env opts.unsafeEntropy
  let mnk ← lift (new C seed env.now (some keyOptions))
  let password ← keyPassword opts.key.encryptKeys
  let key ← exportKey C mnk master true password
  let words ← (if opts.encryptPhrase then do
      let phrasePassword ← userInputPassword true
      random (mnk.encodeMnemonicEncrypted L C phrasePassword)
    else lift (mnk.encodeMnemonicPlaintext L) : Prog (List Bytes))
  if opts.outputWordFile ≠ [] then saveT t c env words opts.outputWordFile
  printKey (env.armor key)
  if opts.outputWordFile = [] then printMnemonic env words

/-- recover.go:86-99, the words of the phrase; recover.go:207-239 readWordFile reads what `os.Open` gives -/
def inputWordsT (L : WordList) (t : Tree) (c : Cred) (env : Env) (opts : InputFlags) : Res (List Bytes) :=
  if opts.inputWordFile ≠ [] then
    readWordFile L (match t.open c opts.inputWordFile with
      | .error _ => none
      | .ok content => some content)
  else if byLine env opts then userInputMnemonicSimple L env.stdin
  else userInputMnemonic L env.stdin

/-- recover.go:82-135 decodeMnemonicFromInput -/
def decodeMnemonicFromInputT (L : WordList) (C : Crypto) (t : Tree) (c : Cred) (env : Env) (opts : InputFlags) :
    Prog (Seed × DecodedMnemonic) := do
  let words ← lift (inputWordsT L t c env opts)
  let dm ← lift (decodeMnemonic L words)
  let seed ← askSeed C dm
  pure (seed, dm)

/-- recover.go:137-205 recoverAndPrintKey -/
def recoverAndPrintKeyT (L : WordList) (C : Crypto) (t : Tree) (c : Cred) (env : Env) (opts : RecoverOptions) :
    Prog Unit := do
  let ttl ← lift (ttlOf opts.key.ttl)
  if opts.encIndex > maxSubkeyIndex ∨ opts.authIndex > maxSubkeyIndex ∨
      opts.sigIndex > maxSubkeyIndex then
    lift (.err .badSubkeyIndex)
  else do
    let (master, subkeys) ← lift (decodeOnlyKeyTypes opts.key.only)
    let keyOptions : KeyOptions :=
      { name := trimSpace opts.key.name, email := trimSpace opts.key.email, ttl := ttl
        encryptionSubkeyIndex := UInt16.ofNat opts.encIndex
        authenticationSubkeyIndex := UInt16.ofNat opts.authIndex
        signingSubkeyIndex := UInt16.ofNat opts.sigIndex
        subkeys := subkeys }
    let (seed, dm) ← decodeMnemonicFromInputT L C t c env opts.input
    let mnk ← lift (new C seed dm.creation (some keyOptions))
    let password ← keyPassword opts.key.encryptKeys
    let key ← exportKey C mnk master opts.selfCert password
    printKey (env.armor key)

/-- convert.go:48-85 decodeAndConvertPhrase -/
def decodeAndConvertPhraseT (L : WordList) (C : Crypto) (t : Tree) (c : Cred) (env : Env) (opts : ConvertOptions) :
    Prog Unit := do
  let (seed, dm) ← decodeMnemonicFromInputT L C t c env opts.input
  let words ← (if opts.encryptPhrase then do
      let phrasePassword ← userInputPassword true
      random (encodeMnemonicEncrypted L C.toPhraseCrypto seed dm.creationOffset phrasePassword)
    else lift (encodeMnemonicPlaintext L seed dm.creationOffset) : Prog (List Bytes))
  if opts.input.inputWordFile = [] then printMnemonic env words
  else saveT t c env words opts.input.inputWordFile

/-- The Execute fields: generate.go:59-61, recover.go:77-79, convert.go:43-45 -/
def programT (L : WordList) (C : Crypto) (t : Tree) (c : Cred) (env : Env) (settings : List (Bytes × FlagValue)) :
    Cmd → Prog Unit
  | .root => pure ()
  | .generate => generateAndPrintKeyT L C t c env (generateOptions settings)
  | .recover => recoverAndPrintKeyT L C t c env (recoverOptions settings)
  | .convert => decodeAndConvertPhraseT L C t c env (convertOptions settings)

/-- A subcommand's Run -/
def runSubT (L : WordList) (C : Crypto) (t : Tree) (c : Cred) (env : Env) (cmd : Cmd) (args : List Bytes) (st : St) : Done :=
  runCommand env.columns cmd
    (fun settings _ st =>
      let r := programT L C t c env settings cmd st
      ⟨[], execEnds r.1, r.2⟩)
    args st

/-- main.go:27-40 RootCommand.Execute -/
def rootExecuteT (L : WordList) (C : Crypto) (t : Tree) (c : Cred) (env : Env) : List Bytes → St → Done
  | [], st => ⟨[], .returns (some .usage), st⟩
  | name :: rest, st =>
    if name = str "help" then ⟨[], .returns (some .graceful), st⟩
    else
      match subcommands name with
      | none => ⟨[], .returns (some .usage), st⟩
      | some cmd => runSubT L C t c env cmd rest st

/-- main.go:43-49 main: usage texts printed, status, and the state with the actions done -/
def mainT (L : WordList) (C : Crypto) (t : Tree) (c : Cred) (env : Env) (args : List Bytes) (st : St) :
    List Cmd × Status × St :=
  let d := runCommand env.columns .root (fun _ rest => rootExecuteT L C t c env rest) args st
  (d.printed,
    match d.ends with
    | .exits code => .exited code
    | .returns none => .exited 0
    | .returns (some .graceful) => .exited 0
    | .returns (some _) => .exited 1
    | .waits => .waits
    | .loops => .loops,
    d.st)

structure TreeWorld where
  tree : Tree
  /-- the open file and the place reached in it -/
  handle : Option (Nat × Nat)
  stdout : Bytes
  shown : List (List Bytes)

/-- What the actions of the program (generate.go:209, 167 and 170) do -/
def TreeWorld.step (c : Cred) (w : TreeWorld) : Act → TreeWorld
  | .openTrunc p perm =>
    match w.tree.create c p perm with
    | .ok (tree, i) => { w with tree := tree, handle := some (i, 0) }
    | .error _ => w
  | .write b =>
    match w.handle with
    | none => w
    | some (i, k) =>
      match (w.tree.inode i).node with
      | .file data => { w with tree := w.tree.setData i (writeAt data k b), handle := some (i, k + 1) }
      | _ => w
  | .stdout b => { w with stdout := w.stdout ++ [b] }
  | .showPhrase words => { w with shown := w.shown ++ [words] }

def TreeWorld.run (c : Cred) (w : TreeWorld) (acts : List Act) : TreeWorld := acts.foldl (TreeWorld.step c) w

end Verif.Model.Cli
