import Verif.Basic

/-! # `/repo/cmd/mnemonikey/terminal.go`: control sequences -/

namespace Verif.Model.Cli

/-- terminal.go:18 escapeCode -/
def escapeCode : Bytes := [0x1B]

/-- terminal.go:24 backspaceCode -/
def backspaceCode : Bytes := [0x08, 0x7F]

/-- terminal.go:27 previousLine -/
def previousLine : Bytes := escapeCode ++ str "[F"

/-- terminal.go:30 eraseLineForward -/
def eraseLineForward : Bytes := escapeCode ++ str "[0K"

/-- terminal.go:33 saveCursor -/
def saveCursor : Bytes := escapeCode ++ str "7" ++ escapeCode ++ str "[s"

/-- terminal.go:34 loadCursor -/
def loadCursor : Bytes := escapeCode ++ str "8" ++ escapeCode ++ str "[u"

/-- terminal.go:49 bold -/
def bold (s : Bytes) : Bytes := escapeCode ++ str "[1m" ++ s ++ escapeCode ++ str "[22m"

/-- terminal.go:50 faint -/
def faint (s : Bytes) : Bytes := escapeCode ++ str "[2m" ++ s ++ escapeCode ++ str "[22m"

/-- terminal.go:54 red, with :45 colorEnd -/
def red (s : Bytes) : Bytes := escapeCode ++ str "[31m" ++ s ++ escapeCode ++ str "[39m"

/-- terminal.go:57 magenta, with :44 magentaStart -/
def magenta (s : Bytes) : Bytes := escapeCode ++ str "[35m" ++ s ++ escapeCode ++ str "[39m"

/-- terminal.go:58 cyan -/
def cyan (s : Bytes) : Bytes := escapeCode ++ str "[36m" ++ s ++ escapeCode ++ str "[39m"

end Verif.Model.Cli
