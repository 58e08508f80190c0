# Design: formal model of mnemonikey

The Go code in `/repo` is read as text and modelled in Lean 4, function by function.

| directory under `lean/Verif` | contents |
|---|---|
| `Model/` | the Go code; every definition cites file and lines |
| `Spec/` | what should hold, written from the README, RFC 4880/6637/7748, ECMA-48 and the documentation of Go's `flag`; uses none of the model's helpers (exceptions are named in the file headers: parameters, record types and error tags are shared) |
| `Proofs/` | helper lemmas |
| `Props/` | the property theorems `cNN_*`, with a concrete `example` beside each |
| `Instances.lean`, `ToyCrypto.lean` | word list and primitives that satisfy the contracts |

`properties.jsonl` lists the properties, `MANIFEST.json` the theorems for each, `AXIOMS.txt` the
axioms of each theorem. `tools/` has the generators and two audits: `cites.py` prints each citation
next to the cited line; `coverage.py` lists the Go functions with the model files that cite them.

## Trusted base

* The Lean 4.33.0 kernel, and Mathlib as far as it is used.
* Axioms: only `propext`, `Classical.choice`, `Quot.sound`. 397 theorems use all three; 56 use
  `propext` and `Quot.sound`, 10 use `propext` only, one uses none. The list per
  theorem is `AXIOMS.txt` (`tools/axioms.py`). There is no axiom, `sorry`, `native_decide` or
  `bv_decide` in the sources. `decide +kernel` is used on closed terms (whole finite tables, texts).
* That the model definitions say what the cited Go lines do. Simplifications are listed below and in
  the file headers.
* The contracts of external code, listed below.

## How Go is represented

* A call returns `Res α`: `ok a`, `err e` (a Go error, kept as a tag: one for each sentinel and each
  anonymous error site), or `panic p`. Texts of errors are added in `Model/Cli/Errors.lean`.
* `*big.Int` is `Int`; Go's bit operations on big.Int are two's complement, as Mathlib's are. `BitLen`
  is the size of the absolute value. `FillBytes` panics when the absolute value does not fit. Values are
  immutable except in `Model/Heap.lean`, where the same functions work on a heap of integer cells (C19).
* `[]byte` and `string` are `List UInt8`. `nil` and empty slices differ only where the code looks. `Model/Pgp/Slices.lean` and
  `Model/DerivedSlices.lean` have package pgp and derive.go again on a memory of byte arrays, with slices as windows that have
  a capacity; c118_export and c118_derive prove that they refine the former. Arrays inside a `bytes.Buffer` or a hash, and
  those that are read once right after they are made, stay values there.
* Loops are structural recursion. Loops that may run for ever (`justifyWidth`) are functions of a number of
  steps; "never ends" means no number of steps suffices.
* `time.Time` is nanoseconds since 1970 (`Int`), always UTC here; `Unix()` is floor division;
  `time.Duration` is int64 and its multiplication wraps; `Time.Sub` saturates.
* A random source is a finite list of bytes; reading past its end is the read error.
* A subcommand (`Model/Cli/Commands.lean`) is a program over the answers of the password prompts still
  to come, the random bytes and the list of actions done (write file, print byte, show phrase). It ends
  with a result, waits for a prompt, or loops. A crash leaves a prefix of the actions done.
* The operating system is the record `Env`: clock, files, failures of file operations, standard input,
  terminal width, armor. A file system maps paths to file numbers and these to contents.
  `Model/Cli/Tree.lean` has the file operations again on a tree of directories, links and files with owners and modes, for
  any user; `c112_same` proves that a command sees of it what such a map says. `Model/Cli/Saving.lean` has saveMnemonic on it
  in single lookups and writes, and the calls by which others act; `Spec/Others.lean` (`Meddles`) bounds what others can do
  more generally, and `c113_calls` proves that these calls stay within it.
* `Model/Cli/Output.lean` has the same programs again with everything they write to standard error and
  with `-verbose`; `c80_same` proves that they refine the former.
* Goroutines: `Model/Cli/Password.lean` is a transition system of the calls of userInputPassword, each
  with caller, reader and restorer, over the echo flag of the terminal; `Model/Cli/Concurrent.lean` puts
  it together with the main goroutine of a subcommand. Theorems range over all schedules. A write to
  standard output by one goroutine is in one piece (os.File has a write lock). There every write succeeds; in
  `Model/Cli/Sinks.lean` the outputs answer to each byte as they like (C121).
* Goroutines of a caller of the library: `Model/Threads.lean`, for the storage of `big.Int` values, which is the only thing
  that calls share besides package variables that nothing writes to (word lists, prefixes, errors). A sequentially
  consistent memory is enough because no cell is written by one goroutine and accessed by another (c111_no_race).
* Several processes: `Model/Cli/Machine.lean` interleaves the actions of processes over shared files; each looks at the
  files at one moment.
* The screen: `Spec/Terminal.lean` is a character terminal of any size with scrollback, given the bytes
  that the prompts write (`Model/Cli/Screen.lean`). In raw mode there is no echo and a line feed only
  goes down; in cooked mode (simple prompt, phrase, tables) the kernel echoes typed bytes and turns a line
  feed into carriage return and line feed. Saving the cursor may or may not save a pending wrap: both kinds
  of terminals are covered (`restoresWrap`).

## Parameters and their contracts

Code outside `/repo` and Go's standard library is a parameter. What is assumed is a structure of hypotheses,
given to those theorems that need it:

| parameter | contract |
|---|---|
| `wordlist4096` (`WordList.Lawful`) | the map is the inverse of the list of 4096 words (`lookup_iff`); words are non-empty, a-z, shorter than 65536 bytes (`word_ne`, `word_az`, `word_short`); `Search` gives only suffixes that complete the query to a list word, the empty one first for a word of the list (`suffix_word`, `suffix_exact`); `ExactMatch` tells the words of the list (`exact_iff`) |
| `strings.ToLower` | ASCII lower-casing on ASCII strings (`lower_ascii`); nothing on others, except in C101, where it is Go's loop over the characters (Model/Lower.lean) with a table `unicode.ToLower` that has ASCII lower cases for the ASCII capitals, U+212A and U+0130 only (`LowerTable`) |
| Argon2id, HKDF-SHA256 | output has the length asked for |
| AES-128 block | 16 bytes to 16 bytes, decryption inverts encryption |
| AES-256 block | 16 bytes to 16 bytes (CFB needs no inverse) |
| Ed25519 | public key 32 bytes, signature 64 bytes, signatures by a seed's key verify |
| X25519 with base point | 32 bytes; the same for a scalar and the clamped scalar |
| X25519 with any point (C103) | both sides of an exchange get the same (`DhLawful` in Spec/Use.lean) |
| SHA-1/256/384/512 | 20/32/48/64 bytes |
| `math/rand` Shuffle | draws an index at most `i` at step `i` |
| `uint32(d.Seconds())` | below 2^32, exact for whole seconds below 2^32 |
| `armor.Encode` | a function that does not fail; for C87 only: readers get the packets back, and nothing from a text cut off (`Spec/Armor.lean`; met by `goArmor` in `Proofs/Armor.lean`) |
| `fmt` `%q`, RFC 3339 | functions; for C88 only: `%q` puts printable ASCII without `"` and `\` in quotes as it is; for C95 and C96 the functions of Go 1.20 (`Model/Cli/Format.lean`), which meet this (c96_plain) |
| `strconv.IsPrint` (C95, C96) | true of printable ASCII, false of control characters (C0, DEL, C1) |
| `term.ReadPassword` | saves the terminal state, switches echo off, reads a line, restores |
| `signal.NotifyContext` | done at an interrupt or when cancelled |

The contracts are total where Go has a domain (HKDF beyond 8160 bytes fails in Go; the code asks for 32).
No strength of any primitive is assumed: no theorem says that a secret cannot be computed, only where
bytes flow. Each contract has an instance in Lean (`toyWordList_lawful`, `toyCrypto_lawful`), and the
examples use these. Modelled concretely instead of assumed: CRC-32 (checked against a textbook definition,
`Spec/Crc.lean`), big integers, `flag.FlagSet.Parse`, `strconv.ParseBool/ParseUint`, `strings.Split/Join/
TrimSpace`, `bufio.Scanner` with its buffer (C107) and `bufio.ScanWords/ScanLines`, `io.ReadFull`, `flag.UnquoteUsage`, `fmt` verbs `%d`, `%X`, `%s`, and (C95, C96) `%q`, `utf8.DecodeRuneInString`, `Time.Format(RFC3339)`.

## Properties: what is modelled and how it is proved

* C01-C13 (`Props/Phrase`, `Props/Checksum`, `Props/Seed`): `bit_buffer.go`, `encoding.go`,
  `recovery.go`, `mnemonic/*`, `seed.go`, `version.go`. The specification describes a phrase as a string of
  bits cut in groups of 12. The bit buffer is put in arithmetic form (div/mod); the round trip follows from
  positional base 4096 and the AES inverse; acceptance is an equivalence with the specification. C13 is an
  induction over the list of conversions. C07/C08: CRC-32 is affine over GF(2), so the difference of two
  checksums is linear in the difference of the messages; the matrix for each word position is computed
  (whole table), its rank gives the counts.
* C14-C18: bijection and fibre counting for the random sources; an arithmetic shift of a negative number
  never reaches zero.
* C19: heap model, invariant over all histories of calls; the heap functions refine the value functions.
* C20-C29: `mnemonikey.go`, `derive.go`, `key_options.go`, `pgp/user_id.go`; the derivation is written
  once more in `Spec/Derive.lean`; injectivity of the encodings.
* C30-C39: the whole directory `pgp`. `Spec/OpenPGP.lean` is a strict reader for secret keys (packets,
  keys, S2K, CFB, signatures); the theorems run it on the exported bytes.
* C40-C42: refinement to double-ended queues of bits; positional arithmetic.
* C43-C46, C63, C64, C66: flag values, `flag` package and command lines against a grammar
  (`Spec/Args.lean`), both directions and unambiguous.
* C47-C49, C56, C59: word files, crash prefixes, an interfering process.
* C50-C52, C74: prompts for words against `Spec/Prompt.lean`; the legend of the interactive prompt as a
  small specification, equivalence in three parts (returns, aborted, otherwise).
* C53, C54, C61, C68, C69: invariants of the transition systems, over all schedules.
* C55, C60, C62, C67, C70-C73: whole commands, from command line to exported key or phrase; composed from
  the above.
* C57, C58, C65: layout loop, usage texts, exit status.
* C75-C79: screens, by induction over keys or lines with an invariant relating the screen before and after
  each round.
* C80: relation between the runs with and without `-verbose`.
* C81: a program logic for commands (`Run`: error, panic, divergence and success conditions), applied to each
  step; the causes are listed in `Spec/Failure.lean`.
* C82: the checksum as a linear map over bits; solutions counted by recursion over its 12 columns per word.
* C83: progress from the invariants of C68; own moves counted exactly by a weight of the state.
* C84: writes attached to the moves of C53; dialogue as a recursion over the lines; renaming of lines commutes
  with every schedule; rows by induction over the dialogue.
* C85: one step lemma on permission bits under any interleaving; C48 for which file is written to; C68 for the
  schedules of a command.
* C86: the commands with texts erase to the commands of C81; a relation between errors and texts (`Spec/Message.lean`)
  closed under the steps of a program; distinct beginnings for distinct causes.
* C87: a reader of RFC 4880 armor that ignores line feeds around the text; C49, C68, C70, C71 for what is printed.
* C88, C89: help texts against a page (`Spec/Help.lean`), defaults by the last setting of an option; `flag` with
  error texts against a relation between command lines and messages, both directions.
* C90: a reader of transferable public keys (`Spec/PublicKey.lean`); every import of a secret key gives one of its
  public half, packet by packet; C37 for the independence of passwords.
* C91: exports are functions of `Wanted`, seed and second; composed with C63, C70, C71.
* C92: weakest preconditions (`Succ`) for programs, and an exact count of random bytes for exports (`Takes`).
* C93: obstacles in order (`Spec/Obstacle.lean`), each step of a command against one of them, both directions.
* C94: words of a file, of lines and of keys as relations (`Spec/Words.lean`), each proved functional and equal to the
  model; C81, C86, C92 and C93 speak of words through them.
* C95: Go's `absDate` against a calendar that counts the days of years and months (`Spec/Calendar.lean`): days before a
  year in closed form by induction, cycles of 400, 100, 4 and 1 years by linear arithmetic, the days of a year by a
  whole table; digits by induction.
* C96: Go's `appendQuotedWith` and UTF-8 decoder against a grammar of pieces (`Spec/Quoted.lean`), with unique reading;
  then C86 and C89 for the messages.
* C97: a transcript for each part of a command (`Spec/Transcript.lean`), composed by a lemma about sequencing: a failing
  part leaves a beginning of the transcript. That convert opens no file is C56.
* C98: enumeration of the lists that differ at some places, counted place by place from C82: of each list with one
  place open 128 fillings are accepted, whether it was accepted before or not.
* C99: machine of several processes (`Model/Cli/Machine.lean`); invariants over all histories: files that are there have
  smaller numbers than those opened, and a file with one writer is as this writer alone would leave it; then C49, C60.
* C100: base-4096 digits of the layout (C02) split after eleven places; an injective map of a finite set is onto, which
  gives the encrypted case from `aes_inv` alone.
* C101: Go's `strings.Map` equals its second loop alone (a character kept is the character written), and that loop
  writes letters a-z only for the texts that `Spells` describes; induction on the text, by the cases of UTF-8 decoding
  proved for C96.
* C102: the facts that an imported key teaches (`Learned`, `Imported`, `keyring` in Spec/Keyring.lean: imports only
  add, and what is about one primary key comes together) are computed from C70 and C71 at process level; then
  induction on the list of imports. That a program shows the newest of several signatures is not modelled, only what
  it has to choose from.
* C103, C104: what senders and signers do (RFC 6637, RFC 3394, RFC 4880 5.1, 5.2, 5.13) is written out in Spec/Use.lean,
  from the keys as imported (C102) and nothing else. Key wrap is inverted pass by pass, CFB block by block; the point of
  the subkey is the base point times the exported scalar (C38), so both sides derive the same key. Compression, literal
  packets and the choice of the sender's cipher are outside (data is what the two sides agree on); AES-256 stands for it.
* C105: the driver (Spec/Keyboard.lean) edits a line and echoes. A terminal's reaction to a byte does not depend on
  its cells, so terminals that differ in a part of one row keep doing so whatever is written, until the prompt erases
  that row from its start, and then they are equal. `ReadPassword` of x/term is written out byte by byte.
* C106: the events of a process (Model/Cli/Stderr.lean) against the texts of C89 by a relation on ends; C97 for the
  subcommand, C58 for the status.
* C107: `bufio.Scanner` with buffer, shifting and growth (Model/Cli/Scanner.lean), over an input in pieces. A contract on
  split functions (`Splits`) is enough for Scan to give the tokens of the whole text; ScanWords, which decodes runes in
  whatever part of the text is in the buffer, and ScanLines meet it. The commands use the tokens (Model/Cli/Text.lean).
* C108: a command and one standard input (Model/Cli/Session.lean). The command is resumed at each prompt by running it with
  the passwords so far; that further answers do not change what was done before is proved for each command (`Stable`).
  The prompt's loop is related to `Accepted` (C70) and then the claims about commands given their answers apply.
* C109: AES under one key is one-to-one on 16 bytes, so onto (a finite set), so decryption of any phrase is the inverse of an
  encryption; the counts are images of one-to-one maps from triples (salt, time, seed).
* C110: the driver of C105 gives one piece for each return, which C108 takes; a phrase typed in lines is complete with its
  last line since `simpleWanted` does not change when lines are added. Histories are the reflexive and transitive closure
  of one conversion at a terminal. Keys that wait when raw mode ends: tools/tty/ahead.py shows what Linux does.
* C111: the functions of Model/Heap.lean again as trees of single accesses (Model/Threads.lean); run alone they are those.
  A goroutine among others is the same tree as the goroutine alone, but for the numbers of the cells it makes (`Rel`), and
  writes only to cells it made; by induction over the schedule these are disjoint and hold the same integers.
* C112: path resolution by recursion on the components and on the number of links left; one relation (`Changes`) between
  where a path leads before and after a file was added, kept by both recursions.
* C113: rely and guarantee. Where a firm path leads is the same after any action of others (`resolve_same`), and so is that
  it is firm; an invariant over the steps of saveMnemonic says where each lookup will end. Termination: a lexicographic
  order (phase, links left, names left) that the actions of others do not touch.
* C114: a step of one run adds a name in its place or writes to the node there; the invariant of C113 of every other run
  survives that (`Beside`, Proofs/Several.lean), as no two places are the same and no two paths lead to one node.
* C115: the tokens of a beginning of `phraseText` (`cut_text`, `scan_cut`, Proofs/Cut.lean); what a wrong word does to the
  checksum is the linear map of C82, whose kernel at each place is counted.
* C116: backwards from the fingerprint, one injective encoding and one primitive at a time; a collision is one of the inputs the
  two keys themselves lead to (`Collision`, Spec/Collision.lean), as collisions of some inputs always exist.
* C117: HKDF is a parameter of the model, so that a key is not used is said by changing it there (`Patch`) and comparing the
  whole runs; everything after `derivePGPKeySet` reduces to the same term.
* C118: a frame invariant (`Out`, Proofs/Slices.lean): each function leaves the memory it was called with a prefix of the memory
  it returns, and writes only to slices that it `Own`s, i.e. whose arrays are behind that prefix. Arrays count the bytes
  written to them, so that this is about every write and not only about the memory at the end.
* C119: the random source is a list of bytes that each step takes from the front, so a use of a byte is a piece of that list;
  the statement cuts the whole list into what an independent reader (`importKey`, `readPhrase`) finds in the output.
* C120: from what the reader finds (C70, C71, C102); the rules for validity are written from RFC 4880 (Spec/Validity.lean).
* C121: an invariant beside that of C68: what standard output took is a beginning of what was printed. That a failing write
  changes nothing else is how the program is modelled (no caller looks at the result of a write); the theorems say what follows.
* C122: noninterference by a permutation: Argon2id and AES are parameters, so the seeds can be renamed in them (`renamed`,
  Spec/Renaming.lean) and whole runs compared. This says nothing about how hard Argon2id and AES are to invert, only that
  nothing else depends on the seed. Exports encrypt with AES-256 (32-byte keys, `aes256Enc`), which stays as it is. For
  generate only the system's random source is covered, not `-unsafe-entropy`.
* C123: the same for passwords of phrases (`aliased`, Spec/Aliases.lean). For recover the number of answers that belong to the
  phrase is counted in the questions it asked. Two passwords that Argon2id maps to the same 17 bytes are of course not told
  apart by the program either; how likely that is, or how hard guessing is, is not stated.
* C124: surroundings are the fields of `Env`; what the model leaves out of `Env` (environment variables, the terminal's
  type, the process table) is not covered. The width of the terminal is the same in both runs, since every command line can
  print help or an error in it. The program reads the clock once, so one value of `now` stands for a run.
* C125: lengths as the reader of RFC 4880 sees them in the packets. That a signature's integers have varying lengths too
  says nothing about secrets and is not treated. "One in 256" counts integers below 2^256; that HKDF's output is uniform
  is not stated.
* C126: words that commute are powers of one word (Fine and Wilf), for the strings p ‖ salt and q ‖ salt. Opening is
  `openSecret`, the reader of RFC 4880 (Spec/OpenPGP.lean). "Fewer than one in 255" counts salts, all being equally many.
  How hard SHA-256 or AES are to break is not stated; what a break would have to be is.
* C127: about the text `goArmor` (Proofs/Armor.lean), which is what golang.org/x/crypto/openpgp/armor writes; that library is
  not in the repository, elsewhere only the contract `ArmorLawful` is used. Readers that ignore the checksum (RFC 9580
  allows this), or that take another octet for the end of a line, are not the reader meant. `dearmor` is strict about the
  unused bits before the padding; c127_loose and c127_unused are about `looseDearmor` (Spec/Damage.lean), which is not.
* C128, C129: text and reader as for C127, with the same limits. That the reader splits lines at
  line feeds only, and does not look behind the tail line, is why some surplus octets and exchanges do no harm.

## Findings (what the code does not do)

Each is proved with a concrete witness or for all inputs concerned, beside what does hold.

| | finding | theorem |
|---|---|---|
| F1 | `convert` tests and writes `-in-word-file` where `-out-word-file` is meant: with an input file it always fails, without one it never writes | c56_* |
| F2 | the left arrow does not take back a word; each press makes the phrase one word too long. The byte 68 is also the letter D: typing a capital D counts as a left arrow | c52_* |
| F3 | the clean-up goroutine of a password prompt runs after every prompt, and can switch echo on during the next one | c54_race |
| F4 | a TTL below one second is exported as "never expires" (expiry 0 in the subpacket); 2^32 s and more wraps on amd64 | c28_* |
| F5 | `-ttl` wraps modulo 2^64 ns without error (600y means under 16 years) | c44_* |
| F6 | NewSeed accepts negative integers, and the plaintext encoder then panics; the seed shares the caller's big.Int | c17_*, c19_aliased |
| F7 | offsets of 2^31 and above panic | c18_* |
| F8 | EncodeToIndices sets the caller's payload to zero | c19_encodeToIndices |
| F9 | justifyWidth never ends when a word is as long as the width, and divides by zero at width 0 | c57_* |
| F10 | S2K of passwords above 65011704 bytes hashes fewer octets than RFC 4880 prescribes | c36_rfc |
| F11 | the check that a word file does not exist and its creation are two steps | c48_overwrites |
| F12 | some single-bit errors in a phrase are not detected; a wrong password passes with 5 bits, so the repository test of wrong passwords is expected to fail once in 32 runs | c08_*, c10_collision |
| F13 | the error of the scanner is ignored: a word file with a word of 64 KiB after the phrase is accepted | c59_* |
| F14 | `help x` exits 0 and prints nothing; flag errors exit 2 | c58_* |
| F15 | a password prompt puts a line feed on standard output at an unpredictable time; an interrupt can leave echo off | c61_* |
| F16 | options after a positional argument are ignored silently | c64_* |
| F17 | the usage example `mnemonikey convert -encrypt` is not accepted | c66_convert_encrypt |
| F18 | `-enc-index 010` means 8 | c63 (values are Go literals), c46 |
| F19 | usage texts never end on narrow terminals | c65_usage |
| F20 | FingerprintV5 hashes a version 4 key body | c39_v5 |
| F21 | text longer than its line at the interactive prompt stays on the screen | c77_wrapped_stays |
| F22 | messages below the interactive prompt leave the ends of longer ones | c76_remnant |
| F23 | at a fresh interactive prompt nothing is suggested until a key was pressed, although return would submit a word | C75 (c75_shown says "once something was typed") |
| F24 | at the simple prompt a last word ended by the end of input stays on the screen | c78_unended_stays |
| F25 | two exchanged words are not always found: for a given pair of places 1 in 32 differences passes (1 in 16 for six pairs) | c82_exchanged, c82_exchanged_first |
| F26 | after an accepted password only the restorer goroutine ends the row, so the next prompt can stand on the row of the last one | c84_same_row |
| F27 | the comment of userInputPassword promises an error when the two passwords differ; it asks again | c53_typed, c84_dialogue |
| F28 | a file created by another process between check and opening keeps its permissions, so the phrase can end up readable by others although 0600 was asked for | c85_exposed |
| F29 | ErrCreationTooEarly has the text of ErrCreationTooLate: a clock before 2023 is said to exceed a maximum | c86_misleading |
| F30 | of a word file with too many words, or for a version that does not exist, it is said that only so many words were found (0 expected) | c86_misleading |
| F31 | a word file that cannot be written is reported with the same words twice ("failed to write words to file: failed to write words to file: ...") | c86_misleading |
| F32 | a lifetime that ends after 7 February 2106 is encoded as asked, but GnuPG 2.4.4 adds it to the creation time in 32 bits and takes the key as long expired (not about the code alone: observed with `tools/vectors/run.py`) | |
| F33 | if the process is stopped while it prints, RFC 4880 readers refuse the text (C87), but GnuPG 2.4.4 imports the packets before the cut, for example the master key without subkeys, and only then reports an error (not about the code alone) | |
| F34 | arguments of bad syntax, names of unknown options and names of word files are printed as they are, with escape sequences; other input is quoted | c96_raw |
| F35 | two runs of generate with the same word file at the same time can both succeed although only one phrase is saved | c99_lost |
| F36 | words written with the Kelvin sign (U+212A) for k or the capital dotted I (U+0130) for i are taken for words of the list, on all ways of input but the interactive prompt | c101_lookup, c101_file |
| F37 | certifications and bindings made by recover bear the creation time of the key, so after `recover -ttl` a keyring has two of the same age with different lifetimes, and RFC 4880's rule of the most recent self-signature does not decide | c102_same_age |
| F38 | `generate -unsafe-entropy -` on a terminal takes 16 bytes, not a line: what is typed behind them is taken for the password of `-encrypt-keys` or `-encrypt-phrase` without being asked for (the confirmation is still read) | c107_entropy_overrun |
| F39 | CTRL+D does not leave a password prompt, at the start of a line or elsewhere (`unix.Read` reports no error at the end of the input, and x/term reads on); it quits both prompts for words | c105_no_way_out |
| F40 | a password typed before its prompt is there, while the words are still asked for in raw mode, is not entered by its return (a carriage return, which x/term ignores): typed again at the prompt it is read twice, as `pwpw` | c110_typed_ahead |
| F41 | EncodeToIndices uses up its argument, so two goroutines that call it on one integer each get half of the indices; its documentation does not say that it writes to its argument | c111_interfere |
| F42 | `os.Stat` follows links, so a dangling link that another user put under the name of the word file passes for a free name, and the phrase is written where the link leads, e.g. into a directory where that user can remove it (O_EXCL would refuse) | c112_dangling |
| F43 | a directory given as -in-word-file is not refused when opened; the error of the first read is dropped (recover.go does not look at the scanner's error) and the message is that the file has no words | c112_directory |
| F44 | in a directory where others may create files, another user can create a file of their own under the name between os.Stat and os.WriteFile; the phrase is written into it, no error is reported, and they can read it (O_EXCL would refuse; so does Linux in sticky directories if fs.protected_regular is set) | c113_stolen |
| F45 | two runs of generate for one name can both find it free and both succeed; the file then has the phrase of the second and the tail of the first, if that is longer: a key was printed whose phrase nobody has (O_EXCL would refuse) | c114_lost |
| F46 | a word file cut short inside its last word is accepted if the letters left are a word of the list and the checksum fits (which depends on the two words only); recover then prints, without an error, a key with another creation time. Shown with a list made for it; the real list is not in /repo | c115_unnoticed |
| F47 | `stringToKey` appends the password to the salt it is given, so that with a salt in a larger array it writes the password behind the salt and over what stands there. Its only caller gives it an array of exactly 8 bytes, so no export does this (c118_export) | c118_salt |
| F48 | the lifetime of `recover -ttl` counts from the creation of the key (as its help text says), so that for an old phrase the key can have expired when it is printed; there is no error or warning | c120_expired |
| F49 | a write to standard output or standard error that fails is not noticed: with a full disk behind standard output, generate and recover print no key or a part of one, no error, and exit with 0; if standard error takes nothing either and no word file is asked for, the new key and its phrase are nowhere | c121_lost |
| F50 | differences from the README: the certification prefers TripleDES after the three AES ciphers, which README.md:674 and :711 do not list (the comment in pgp/master_key.go:128 says "same as default GPG"); the last creation time is 2091-01-19T03:14:07Z, the README says 2091-01-18; the README's example serializes 1592 as 00 00 06 1C, where `bytes(uint32)` gives 00 00 06 38 | c70_process (`wantedCert`), c20_new |
| F51 | a key printed under a password shows, by the length of the encrypted fields, how many leading zero octets its Ed25519 secrets have (one secret in 256 has any): OpenPGP integers are stored without them, also before encryption | c125_run, c125_told_apart |
| F52 | after CTRL+C at a password prompt, whether `ERROR: aborted` stands behind the prompt or on a row of its own depends on the schedule: only the restorer goroutine ends the row, and nothing waits for it | c84_aborted |
| F53 | a secret that was protected with one password opens with others too: password ‖ salt ‖ password leads to the same AES key (the construction of RFC 4880, kept as it is); for all secrets of a key at once there is no other such password | c126_run, c126_two_salts |

## Validation of the model

`tools/vectors/run.py` runs the model with real primitives (Ed25519, X25519, HKDF, Argon2id written from
their RFCs; hashes and AES from Python and OpenSSL), a test and not a proof:

* the three fingerprints of `/repo/mnemonikey_test.go` and the checksum of `/repo/README.md:835` come out.
  `Proofs/Vectors.lean` checks this at every build, with the values of the primitives in tables;
* GnuPG 2.4.4 imports the packets that the model encodes (all subkeys, some, with lifetime, without master
  key, with password), shows the same fingerprints, user id, times and capabilities, accepts all signatures,
  signs and decrypts with the keys, and refuses the wrong password;
* GnuPG decrypts the messages and verifies the signatures that `Spec/Use.lean` makes for these keys, `Spec/Use.lean`
  decrypts those of GnuPG, and keys imported one after the other come together as C102 says;
* GnuPG reads the armor of `goArmor`, also between line feeds, and reports an error when it is cut off; the reader
  of `Spec/Armor.lean` reads the armor of GnuPG.

`python3 tools/tty/run.py` compares Spec/Keyboard.lean with the terminal driver of the machine: thousands of random
sequences of keys on a pseudo terminal, with what is echoed and what is read. `python3 tools/tree/run.py` (as root) compares
stat, open and create of Model/Cli/Tree.lean with the kernel: random trees, links, owners, modes and paths;
`python3 tools/tree/deeds.py` the calls of Model/Cli/Saving.lean: random sequences of calls by several users.

## Not modelled

* Texts of errors that no command returns.
* Keys of the terminal driver's line editing other than characters, erase, kill and CTRL+D (word erase, reprint,
  literal next), lines that do not fit on their row and characters outside ASCII on the screen (C105 has them in
  what is read).
* Mounts, access control lists, the protection of links and files in sticky directories. In C113 and C114: other programs of the
  same users or of root, directories that are moved while they are in use, and removing them. Failures of the file system
  other than: cannot stat, cannot open, cannot write (with any prefix written). Power failures (`os.WriteFile` does not sync the word file). The trace
  that the Go runtime writes when the program panics.
* `blue` (terminal.go:56), which nothing calls. All other functions of `/repo` outside tests are cited
  (`tools/coverage.py`).
* Conversions between Go `int` and `uint` below 2^63; AES-192; timing, memory hygiene, Go's memory model.

## Wrong programs

`tools/mutate.py` edits one definition at a time in a copy outside `/verif`, rebuilds, and records which
theorems fail: `seeded/LOG.jsonl`. A lemma that fails counts with all property theorems that depend on it.
Survivors were either equivalent programs or made a theorem stronger (field `tightened`).
