import Verif.Basic
import Verif.Instances
import Verif.Model.BigInt
import Verif.Model.BitBuffer
import Verif.Model.Cli.Args
import Verif.Model.Cli.Commands
import Verif.Model.Cli.Concurrent
import Verif.Model.Cli.Errors
import Verif.Model.Cli.Files
import Verif.Model.Cli.Flags
import Verif.Model.Cli.Format
import Verif.Model.Cli.Help
import Verif.Model.Cli.Input
import Verif.Model.Cli.Layout
import Verif.Model.Cli.Machine
import Verif.Model.Cli.Output
import Verif.Model.Cli.Password
import Verif.Model.Cli.PasswordScreen
import Verif.Model.Cli.Run
import Verif.Model.Cli.Saving
import Verif.Model.Cli.Scanner
import Verif.Model.Cli.Screen
import Verif.Model.Cli.Session
import Verif.Model.Cli.Sinks
import Verif.Model.Cli.Stderr
import Verif.Model.Cli.Terminal
import Verif.Model.Cli.Text
import Verif.Model.Cli.Tree
import Verif.Model.Cli.Typed
import Verif.Model.Cli.Usage
import Verif.Model.Crc32
import Verif.Model.Crypto
import Verif.Model.DerivedSlices
import Verif.Model.Encoding
import Verif.Model.Heap
import Verif.Model.Lower
import Verif.Model.Mnemonic
import Verif.Model.Mnemonikey
import Verif.Model.Pgp.KeySet
import Verif.Model.Pgp.Keys
import Verif.Model.Pgp.Packet
import Verif.Model.Pgp.S2K
import Verif.Model.Pgp.Signature
import Verif.Model.Pgp.Slices
import Verif.Model.Recovery
import Verif.Model.Seed
import Verif.Model.Threads
import Verif.Model.Time
import Verif.Model.Version
import Verif.Model.Wordlist
import Verif.Proofs.Aliases
import Verif.Proofs.Armor
import Verif.Proofs.BigInt
import Verif.Proofs.BitBuffer
import Verif.Proofs.Bits
import Verif.Proofs.CliArgs
import Verif.Proofs.CliCommands
import Verif.Proofs.CliConcurrent
import Verif.Proofs.CliFiles
import Verif.Proofs.CliFlags
import Verif.Proofs.CliHelp
import Verif.Proofs.CliInput
import Verif.Proofs.CliLayout
import Verif.Proofs.CliPassword
import Verif.Proofs.CliRefused
import Verif.Proofs.CliRequest
import Verif.Proofs.CliSimple
import Verif.Proofs.CliText
import Verif.Proofs.CliTrim
import Verif.Proofs.Collision
import Verif.Proofs.Crc
import Verif.Proofs.Crc24
import Verif.Proofs.CrcLinear
import Verif.Proofs.Cut
import Verif.Proofs.Damage
import Verif.Proofs.Deeds
import Verif.Proofs.Digits
import Verif.Proofs.Errors
import Verif.Proofs.Export
import Verif.Proofs.Exported
import Verif.Proofs.Failure
import Verif.Proofs.Format
import Verif.Proofs.Heap
import Verif.Proofs.KeySet
import Verif.Proofs.Keyboard
import Verif.Proofs.Length
import Verif.Proofs.Liveness
import Verif.Proofs.Loose
import Verif.Proofs.Lower
import Verif.Proofs.Machine
import Verif.Proofs.Messages
import Verif.Proofs.Mnemonic
import Verif.Proofs.Negative
import Verif.Proofs.Obstacle
import Verif.Proofs.ObstacleInput
import Verif.Proofs.Opens
import Verif.Proofs.Others
import Verif.Proofs.Output
import Verif.Proofs.Page
import Verif.Proofs.Parallel
import Verif.Proofs.PasswordRows
import Verif.Proofs.PasswordScreen
import Verif.Proofs.PgpImport
import Verif.Proofs.PgpKeys
import Verif.Proofs.PgpPacket
import Verif.Proofs.PgpSecret
import Verif.Proofs.PgpSign
import Verif.Proofs.Phrase
import Verif.Proofs.PhraseRoundTrip
import Verif.Proofs.PhraseScreen
import Verif.Proofs.PhraseSpec
import Verif.Proofs.PublicKey
import Verif.Proofs.Quoted
import Verif.Proofs.Rand
import Verif.Proofs.Renaming
import Verif.Proofs.Saving
import Verif.Proofs.Scanner
import Verif.Proofs.Screen
import Verif.Proofs.Seed
import Verif.Proofs.Session
import Verif.Proofs.Several
import Verif.Proofs.SimpleScreen
import Verif.Proofs.Sinks
import Verif.Proofs.Slices
import Verif.Proofs.Slip
import Verif.Proofs.Success
import Verif.Proofs.Surroundings
import Verif.Proofs.Swap
import Verif.Proofs.Threads
import Verif.Proofs.Transcript
import Verif.Proofs.Tree
import Verif.Proofs.TreeRun
import Verif.Proofs.Use
import Verif.Proofs.Variants
import Verif.Proofs.Vectors
import Verif.Proofs.Verbose
import Verif.Proofs.Views
import Verif.Proofs.Words
import Verif.Props.Aliases
import Verif.Props.Args
import Verif.Props.Armor
import Verif.Props.Checksum
import Verif.Props.Codec
import Verif.Props.Collision
import Verif.Props.Commands
import Verif.Props.Concurrent
import Verif.Props.Convert
import Verif.Props.Cut
import Verif.Props.Damage
import Verif.Props.ExitStatus
import Verif.Props.Export
import Verif.Props.Failure
import Verif.Props.Files
import Verif.Props.Flags
import Verif.Props.Format
import Verif.Props.Heap
import Verif.Props.Help
import Verif.Props.Keyboard
import Verif.Props.Keyring
import Verif.Props.Keys
import Verif.Props.Layout
import Verif.Props.Length
import Verif.Props.Liveness
import Verif.Props.Machine
import Verif.Props.Messages
import Verif.Props.Obstacle
import Verif.Props.Opened
import Verif.Props.Opens
import Verif.Props.Others
import Verif.Props.Parallel
import Verif.Props.Password
import Verif.Props.PasswordScreen
import Verif.Props.Person
import Verif.Props.Phrase
import Verif.Props.PhraseScreen
import Verif.Props.Places
import Verif.Props.Private
import Verif.Props.Process
import Verif.Props.Prompt
import Verif.Props.Protect
import Verif.Props.PublicKey
import Verif.Props.RandomProcess
import Verif.Props.Randomness
import Verif.Props.Renaming
import Verif.Props.Repair
import Verif.Props.Reproducible
import Verif.Props.Request
import Verif.Props.Scanner
import Verif.Props.Screen
import Verif.Props.Seed
import Verif.Props.Session
import Verif.Props.Several
import Verif.Props.Simple
import Verif.Props.SimpleScreen
import Verif.Props.Sinks
import Verif.Props.Slices
import Verif.Props.Slip
import Verif.Props.Spelling
import Verif.Props.Stderr
import Verif.Props.Success
import Verif.Props.Surroundings
import Verif.Props.Swap
import Verif.Props.Threads
import Verif.Props.Transcript
import Verif.Props.Tree
import Verif.Props.Typing
import Verif.Props.Usage
import Verif.Props.Use
import Verif.Props.Validity
import Verif.Props.Variants
import Verif.Props.Verbose
import Verif.Props.Words
import Verif.Spec.Aliases
import Verif.Spec.Args
import Verif.Spec.Armor
import Verif.Spec.Bits
import Verif.Spec.Calendar
import Verif.Spec.Collision
import Verif.Spec.Crc
import Verif.Spec.Damage
import Verif.Spec.Derive
import Verif.Spec.Export
import Verif.Spec.Failure
import Verif.Spec.Flags
import Verif.Spec.Heap
import Verif.Spec.Help
import Verif.Spec.Keyboard
import Verif.Spec.Keyring
import Verif.Spec.Length
import Verif.Spec.Lines
import Verif.Spec.Liveness
import Verif.Spec.Message
import Verif.Spec.Obstacle
import Verif.Spec.OpenPGP
import Verif.Spec.Opens
import Verif.Spec.Options
import Verif.Spec.Others
import Verif.Spec.Output
import Verif.Spec.Parallel
import Verif.Spec.Password
import Verif.Spec.PasswordScreen
import Verif.Spec.Person
import Verif.Spec.Phrase
import Verif.Spec.PhraseScreen
import Verif.Spec.Prompt
import Verif.Spec.PublicKey
import Verif.Spec.Quoted
import Verif.Spec.Randomness
import Verif.Spec.Renaming
import Verif.Spec.Request
import Verif.Spec.Session
import Verif.Spec.Several
import Verif.Spec.Sinks
import Verif.Spec.Slices
import Verif.Spec.Spelling
import Verif.Spec.Success
import Verif.Spec.Surroundings
import Verif.Spec.Terminal
import Verif.Spec.Threads
import Verif.Spec.Transcript
import Verif.Spec.Tree
import Verif.Spec.Use
import Verif.Spec.Validity
import Verif.Spec.Variants
import Verif.Spec.Verbose
import Verif.Spec.Words
import Verif.ToyCrypto
