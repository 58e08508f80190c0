import Verif.Model.Cli.Args
import Verif.Model.Cli.Terminal

/-!
# Usage texts: `/repo/cmd/mnemonikey/command.go`

Only the texts that are laid out: laying out can run for ever or panic. `flag.UnquoteUsage` (Go's
standard library) takes the back quotes off a usage text.
-/

namespace Verif.Model.Cli

open Verif.Model

/-- The Description fields: main.go:20, generate.go:30, recover.go:31, convert.go:22 -/
def descriptionOf : Cmd → Bytes
  | .root =>
    str "Deterministically generate and recover OpenPGP keys with mnemonic backup phrases."
  | .generate => str "Generate a new OpenPGP key and its mnemonic recovery phrase."
  | .recover => str "Recover an OpenPGP private key from an existing mnemonic recovery phrase."
  | .convert =>
    str "Add, change, or remove an encryption password on an existing mnemonic recovery phrase."

/-- The usage texts given to package `flag`, without back quotes: common_opts.go:20, 41, 48, 55-57, 64,
71-72, 118-120, 127-128, 143-145; generate.go:48-49, 55-56; recover.go:53-55, 62, 68, 74;
convert.go:39-40. Of `encrypt-phrase` there are two. -/
def usageText (cmd : Cmd) (flag : Bytes) : Bytes :=
  if flag = str "verbose" then
    str "Print extra debugging information to stderr when building keys."
  else if flag = str "name" then str "Display name for the PGP key user identifier."
  else if flag = str "email" then str "Email for the PGP key user identifier."
  else if flag = str "ttl" then
    (str "Set a time-to-live validity period on the exported key. Can be a number denominated in " ++
      str "days (d) weeks (w) months (m) or years (y) relative to the key creation time, such as " ++
      str "\"24d\" or \"2y\" after key creation.")
  else if flag = str "encrypt-keys" then
    str "Encrypt the derived PGP private keys with a password when exporting them."
  else if flag = str "only" then
    (str "Only output a subset key containing the given key types as PGP packets. A comma-delimited " ++
      str "list of the following possible values:  master | encryption | signing | authentication")
  else if flag = str "simple" then
    (str "Revert to a simpler terminal input mechanism for entering the recovery " ++
      str "phrase. Useful if the fancy terminal manipulation used by the default " ++
      str "input mode doesn't work on your system.")
  else if flag = str "in-word-file" then
    (str "Read the words of the mnemonic from this file. Words should be separated by whitespace " ++
      str "and the file should contain the exact words. Useful for debugging.")
  else if flag = str "out-word-file" then
    (str "Write the words of the recovery phrase to this file in PLAIN TEXT. Useful for debugging. " ++
      str "Do not use this if you care about keeping your keys safe. Words will be separated by a " ++
      str "single space. The file will contain the exact words and nothing else.")
  else if flag = str "encrypt-phrase" then
    if cmd = .generate then
      (str "Encrypt the exported recovery phrase with a password. The resulting phrase will " ++
        str "require the same password for later recovery.")
    else
      (str "If true, encrypt the recovery phrase with a new password. The resulting phrase will " ++
        str "require the same password for later recovery. If false, output a plaintext phrase.")
  else if flag = str "unsafe-entropy" then
    bold (str "(UNSAFE)") ++
      str " Generate the key using seed entropy drawn directly from the given file. " ++
      str "Specify '-' to read entropy from standard input. " ++
      bold (str "You probably shouldn't use this flag.")
  else if flag = str "self-cert" then
    str "This flag decides if mnemonikey will output the master key's self-certification signature " ++
      str "or not. Set " ++ magenta (str "-self-cert=false") ++
      str " if you are importing keys into a keyring which " ++
      str "already has the master key, to avoid adding extra signatures to the key."
  else if flag = str "enc-index" then
    str "The index of the encryption subkey which will be recovered."
  else if flag = str "auth-index" then
    str "The index of the authentication subkey which will be recovered."
  else if flag = str "sig-index" then str "The index of the signing subkey which will be recovered."
  else []

/-- What becomes of one text to be laid out. It has at most 100 words, so 100 rounds decide whether the
loop ends (`c57_layout`, `c57_diverges`). -/
def layoutOutcome : Option (Res Bytes) → Outcome Unit
  | none => .loops
  | some (.ok _) => .ok ()
  | some (.err e) => .err e
  | some (.panic p) => .panic p

def Outcome.andThen : Outcome Unit → Outcome Unit → Outcome Unit
  | .ok (), o => o
  | o, _ => o

/-- command.go:35-74, the Usage function of a command on a terminal with so many columns. The options are
visited in the order of their names; here they are in the order of registration, which makes no
difference, since laying these texts out never panics (`c65_usage`). -/
def usage (columns : Nat) (cmd : Cmd) : Outcome Unit :=
  ((flagsOf cmd).map fun f =>
      layoutOutcome (justifyOptionDescription 100 columns (faint (usageText cmd f.1)))).foldl
    Outcome.andThen (layoutOutcome (justifyTerminalWidth 100 columns 2 (descriptionOf cmd)))

end Verif.Model.Cli
