{"id": "C01", "title": "Plaintext phrase round trip", "statement": "For a seed accepted by NewSeed with non-negative entropy and an offset below 2^31, EncodeMnemonicPlaintext succeeds and DecodeMnemonic of the result succeeds, reports version 0, not encrypted, the same creation offset, and its Seed() is a seed with the same era and integer value.", "quantifier": "every entropy value in [0, 2^128), every offset in [0, 2^31), every lawful word list", "why_tests_cant": "2^159 inputs; a unit test checks a handful of seeds.", "anchors": ["encoding.go: EncodeMnemonicPlaintext, encodeMnemonic", "recovery.go: DecodeMnemonic, DecodedMnemonic.Seed"]}
{"id": "C02", "title": "Phrase layout matches the published specification", "statement": "The words returned by EncodeMnemonicPlaintext / EncodeMnemonicEncrypted are, in order, the word-list entries of the consecutive 12-bit groups of version(4) || seed(128) [|| salt(19) || verify(5)] || offset(31) || checksum(5), where the checksum is the low five bits of CRC-32/IEEE of the big-endian bytes of everything before it. Plaintext phrases have exactly 14 words and encrypted ones exactly 16.", "quantifier": "every seed, offset, password, salt", "why_tests_cant": "Layout is a statement about all bit positions for all values; tests compare a few phrases produced by the same code.", "anchors": ["encoding.go", "mnemonic/encode.go", "version.go: payloadBitCount, MnemonicSize", "README.md Mnemonic Encoding"]}
{"id": "C03", "title": "Decoding never panics", "statement": "DecodeMnemonic and ParseMnemonicVersion return a value or an error for every list of strings, of any length and content; they never panic, and a successful result always has version 0 or 1, entropy below 2^128, offset below 2^31, and (version 1) salt below 2^19 and verify bits below 32.", "quantifier": "every list of strings", "why_tests_cant": "The input space is infinite; the bit buffer panics on out-of-range reads, so the absence of panics needs an argument over all inputs.", "anchors": ["recovery.go: DecodeMnemonic, ParseMnemonicVersion", "bit_buffer.go"]}
{"id": "C04", "title": "Decoding accepts exactly the valid phrases", "statement": "DecodeMnemonic succeeds exactly when the list is non-empty, every word is (after lower-casing) in the word list, the first word's top four bits are version 0 or 1, the word count is 14 for version 0 and 16 for version 1, and the embedded five checksum bits equal those of the payload. Otherwise it returns the error documented for the first check that fails: word count, invalid word, unsupported version, or checksum.", "quantifier": "every list of strings", "why_tests_cant": "An exact acceptance condition quantifies over both accepted and rejected inputs.", "anchors": ["recovery.go: DecodeMnemonic, ErrInvalidChecksum, ErrInvalidWordCount", "mnemonic/decode.go"]}
{"id": "C05", "title": "A plaintext phrase is the only phrase for its contents", "statement": "If DecodeMnemonic accepts a version-0 phrase, then EncodeMnemonicPlaintext of its seed and creation offset returns exactly the lower-cased words. Hence two accepted plaintext phrases with the same seed and offset are equal up to letter case.", "quantifier": "every accepted 14-word phrase", "why_tests_cant": "Injectivity over the whole phrase space cannot be sampled.", "anchors": ["recovery.go: DecodeMnemonic", "encoding.go: EncodeMnemonicPlaintext"]}
{"id": "C06", "title": "Decoding ignores letter case", "statement": "Replacing any letters of any words by their upper- or lower-case counterparts does not change what DecodeMnemonic or ParseMnemonicVersion returns, error or success.", "quantifier": "every list of ASCII strings and every re-casing of it", "why_tests_cant": "2^(letters) re-casings per phrase.", "anchors": ["mnemonic/decode.go: DecodeWords", "recovery.go: ParseMnemonicVersion"]}
{"id": "C07", "title": "Exact strength of the phrase checksum against one wrong word", "statement": "Take any accepted phrase and any position after the first. Of the 4096 words that could stand there, exactly 128 (the right one and 127 wrong ones) give a phrase that DecodeMnemonic accepts; all others are rejected with ErrInvalidChecksum. At the first position exactly 8 words of the same version are accepted. So the checksum is not a guarantee against one wrong word, and its miss rate is exactly 127/4095.", "quantifier": "every accepted phrase, every position, every replacement word", "why_tests_cant": "Needs the linear algebra of CRC-32 over all 2^163 payloads, not a sample.", "anchors": ["recovery.go: DecodeMnemonic, ErrInvalidChecksum", "encoding.go: encodeMnemonic", "README.md Checksum"]}
{"id": "C08", "title": "Not every single-bit corruption is detected", "statement": "Ten of the 168 bit positions of a plaintext phrase (15 of the 192 of an encrypted one) are invisible to the checksum: flipping one of them in any accepted phrase leaves the checksum correct. Flips in all other positions are always detected by the checksum.", "quantifier": "every accepted phrase, every bit position", "why_tests_cant": "The claim is for every phrase; a test of one phrase could not tell accident from law.", "anchors": ["recovery.go: DecodeMnemonic", "encoding.go: encodeMnemonic"]}
{"id": "C09", "title": "Encrypted phrase round trip", "statement": "If EncodeMnemonicEncrypted(seed, offset, password, random) returns words, then DecodeMnemonic accepts them, reports version 1 and the same offset, and DecryptSeed with the same password returns a seed with the same era and value. The call succeeds for every non-empty password and every random source that can supply three bytes.", "quantifier": "every seed, offset, non-empty password, random source", "why_tests_cant": "Tests use one password and one salt.", "anchors": ["encoding.go: EncodeMnemonicEncrypted", "recovery.go: DecryptSeed"]}
{"id": "C10", "title": "Password check of an encrypted phrase", "statement": "DecryptSeed on an encrypted phrase fails with ErrMnemonicDecryption exactly when the five verify bits derived from (password, salt, offset) differ from those in the phrase; otherwise it returns some era-0 seed below 2^128 and never panics. In particular the right password is never rejected.", "quantifier": "every decoded phrase and every password, including the empty one", "why_tests_cant": "Ranges over all passwords.", "anchors": ["recovery.go: DecryptSeed, ErrMnemonicDecryption"]}
{"id": "C11", "title": "Encrypted phrases reveal metadata only through the documented calls", "statement": "For an accepted encrypted phrase, Encrypted() is true, Creation()/CreationOffset() need no password, Seed() always fails with ErrMnemonicDecryption and RecoverPlaintext always fails with it. For an accepted plaintext phrase DecryptSeed returns the same result as Seed for every password, and RecoverEncrypted equals RecoverPlaintext.", "quantifier": "every accepted phrase, password and option set", "why_tests_cant": "Universal over phrases and passwords.", "anchors": ["recovery.go: Seed, DecryptSeed, RecoverPlaintext, RecoverEncrypted"]}
{"id": "C12", "title": "Empty phrase passwords are refused", "statement": "EncodeMnemonicEncrypted with an empty password returns an error for every seed and random source and never returns words.", "quantifier": "every seed, offset and random source", "why_tests_cant": "Universal claim.", "anchors": ["encoding.go: EncodeMnemonicEncrypted"]}
{"id": "C13", "title": "Converting a phrase keeps the key", "statement": "Any sequence of conversions (decode a phrase with its password, re-encode it as plaintext or under a new non-empty password) ends in a phrase that decodes to the original seed and creation offset, and so recovers the same keys.", "quantifier": "every starting seed and offset and every finite sequence of conversions with arbitrary passwords and salts", "why_tests_cant": "Histories of unbounded length.", "anchors": ["cmd/mnemonikey/convert.go: decodeAndConvertPhrase", "encoding.go", "recovery.go"]}
{"id": "C14", "title": "GenerateSeed is a bijection from random bytes", "statement": "GenerateSeed reads exactly 16 bytes and returns the era-0 seed whose big-endian bytes are those bytes, so uniform input gives a uniform seed; with fewer than 16 bytes available it returns an error. Seed.Bytes is always 16 bytes and determines Seed.Int.", "quantifier": "every random stream", "why_tests_cant": "Uniformity is a statement about all 2^128 outcomes.", "anchors": ["seed.go: GenerateSeed, Seed.Bytes"]}
{"id": "C15", "title": "Salt is unbiased", "statement": "EncodeMnemonicEncrypted reads exactly three bytes of randomness; each of the 2^19 salts is chosen by exactly 32 of the 2^24 byte triples.", "quantifier": "every three-byte input", "why_tests_cant": "Uniformity is a statement about every outcome.", "anchors": ["encoding.go: EncodeMnemonicEncrypted (rand.Int)"]}
{"id": "C16", "title": "NewSeed accepts exactly era 0 and at most 128 bits", "statement": "NewSeed fails with ErrInvalidEraNumber for every era other than 0, fails for every integer whose absolute value needs more than 128 bits, and accepts all others.", "quantifier": "every era and every integer", "why_tests_cant": "Boundary over all integers.", "anchors": ["seed.go: NewSeed", "version.go: Era.check"]}
{"id": "C17", "title": "Negative entropy is accepted but cannot be backed up in plaintext", "statement": "NewSeed accepts negative integers of at most 128 bits. New then derives the keys of the absolute value, but EncodeMnemonicPlaintext on such a seed always panics. (Defect: every seed the API accepts should be encodable.)", "quantifier": "every negative integer of magnitude below 2^128, every offset below 2^31", "why_tests_cant": "Tests never use a negative seed.", "anchors": ["seed.go: NewSeed", "mnemonic/encode.go: EncodeToIndices"]}
{"id": "C18", "title": "Offsets of 2^31 and above panic instead of failing", "statement": "EncodeMnemonicPlaintext and EncodeMnemonicEncrypted panic for every creationOffset of 2^31 or more (their parameter is a uint32) and never panic below it for non-negative seeds. Keys built by New always have an offset below 2^31, so Mnemonikey's own encode methods never panic.", "quantifier": "every uint32 offset, every non-negative seed", "why_tests_cant": "Needs both directions over all offsets.", "anchors": ["encoding.go", "mnemonikey.go: creationOffset"]}
{"id": "C19", "title": "API calls never change a seed", "statement": "No sequence of calls into the package changes the integer held by an existing seed or decoded phrase, at the level of shared big.Int storage, even if the caller overwrites the integers that Seed.Int and DecodeIndices returned; every call returns what the value-level functions say. The one exported operation that overwrites its argument is mnemonic.EncodeToIndices, which leaves the caller's integer at zero. NewSeed keeps its argument, so a caller that later overwrites that integer changes the seed. (The last is a defect.)", "quantifier": "every finite history of calls over shared heap cells", "why_tests_cant": "Aliasing over arbitrary histories.", "anchors": ["seed.go: Int", "bit_buffer.go: newBitBuffer, Int", "mnemonic/encode.go: EncodeToIndices"]}
{"id": "C20", "title": "New accepts exactly the representable creation times and floors them", "statement": "New succeeds exactly when the seed's era is supported, TTL >= 0 and EpochStart <= creation <= MaxCreationTime (nanosecond precision); otherwise it returns the era, TTL, too-late or too-early error, in that order. CreatedAt() is creation rounded down to a whole second, never later than creation and less than one second earlier.", "quantifier": "every creation time (nanosecond resolution), TTL, option set", "why_tests_cant": "Boundaries over the whole time line.", "anchors": ["mnemonikey.go: New, CreatedAt", "parameters.go"]}
{"id": "C21", "title": "Recovery reproduces the key", "statement": "For every key built by New, RecoverPlaintext of its plaintext phrase, and RecoverEncrypted of any of its encrypted phrases with the same password, with the same options, succeed and return a key with equal creation time, expiry, user ID, fingerprints, and byte-identical unencrypted export.", "quantifier": "every seed, creation time, option set, password, salt", "why_tests_cant": "The tests check one seed.", "anchors": ["recovery.go: RecoverPlaintext, RecoverEncrypted", "mnemonikey.go"]}
{"id": "C22", "title": "Recovery of an accepted phrase cannot fail", "statement": "If DecodeMnemonic accepts a plaintext phrase then RecoverPlaintext succeeds for every option set with TTL >= 0 (including nil options), and fails with ErrTTLInvalid for TTL < 0.", "quantifier": "every accepted phrase and every option set", "why_tests_cant": "Universal.", "anchors": ["recovery.go: RecoverPlaintext", "mnemonikey.go: New"]}
{"id": "C23", "title": "Master key depends only on seed and creation second", "statement": "Two keys built from the same seed and creation times in the same second have the same master fingerprint and private key whatever their names, e-mails, TTLs, subkey selections and indices.", "quantifier": "every pair of option sets", "why_tests_cant": "Pairs of inputs.", "anchors": ["derive.go: derivePGPKeySet"]}
{"id": "C24", "title": "Subkeys are independent of everything but seed, time, type and index", "statement": "A subkey's fingerprint is the same across any option sets that enable it with the same index. A subkey is present exactly when Subkeys is nil or lists its type; SubkeyTypes lists exactly the present ones in the order encryption, authentication, signing, and SubkeyFingerprint is non-nil exactly for those.", "quantifier": "every option set, including nil, empty and duplicate subkey lists", "why_tests_cant": "Universal over lists.", "anchors": ["key_options.go: subkeyEnabled", "mnemonikey.go: SubkeyTypes, SubkeyFingerprint", "derive.go"]}
{"id": "C25", "title": "Derivation contexts never collide", "statement": "The HKDF info strings of the master key and of every (subkey type, index) are pairwise different, so no two keys of a set are derived from the same HKDF input, and they equal the strings in the specification.", "quantifier": "all 3 * 65536 subkeys and the master key, pairwise", "why_tests_cant": "About 2*10^10 pairs.", "anchors": ["derive.go: keyExpandInfoSubkey, keyExpandInfoMaster"]}
{"id": "C26", "title": "Root key input is the specified one", "statement": "The root key is Argon2id(16-byte big-endian seed, 4-byte big-endian unix creation second, t=4, m=524288, p=2, 32 bytes); different (seed, creation second) pairs give different Argon2id inputs.", "quantifier": "every pair of seeds and times accepted by New", "why_tests_cant": "Injectivity over pairs.", "anchors": ["derive.go: derivePGPKeySet"]}
{"id": "C27", "title": "Expiry follows the TTL", "statement": "Expiry() is unset when TTL = 0 and otherwise the creation second plus TTL, rounded down to a second. In the export, for a TTL of at least one second and below 2^32 seconds, every certification and binding signature carries exactly floor(TTL) seconds as key expiration; with TTL = 0 none carries one.", "quantifier": "every creation time and TTL", "why_tests_cant": "Range of all durations.", "anchors": ["derive.go", "pgp/master_key.go: SelfCertify, BindSubkey"]}
{"id": "C28", "title": "Over-long and sub-second TTLs are exported wrongly", "statement": "For every TTL of 2^32 seconds or more the exported expiration differs from Expiry() (the 4-byte field cannot hold it; on amd64 it wraps modulo 2^32), and for every TTL strictly between 0 and 1 second the exported expiration is 0, which OpenPGP reads as 'never expires'. (Defect.)", "quantifier": "every TTL outside [1s, 2^32 s)", "why_tests_cant": "Tests do not use such TTLs.", "anchors": ["pgp/master_key.go: SelfCertify, BindSubkey", "derive.go"]}
{"id": "C29", "title": "User ID rules", "statement": "UserID() is name, e-mail, or 'name <email>' according to which are non-empty. Giving the whole user ID as the name with an empty e-mail yields the same user ID and a byte-identical unencrypted export.", "quantifier": "every name and e-mail", "why_tests_cant": "All strings.", "anchors": ["pgp/user_id.go", "mnemonikey.go: UserID", "recovery.go doc comment"]}
{"id": "C30", "title": "Packet framing is unambiguous", "statement": "For every packet with tag below 64 and body shorter than 2^32 bytes, an RFC 4880 new-format reader recovers tag, body and the following bytes; a concatenation of such packets is read back as exactly that list. Of a longer body the reader takes only the first (length modulo 2^32) bytes. (Defect at extreme sizes.)", "quantifier": "every tag, body and list of packets", "why_tests_cant": "All sizes, including both length boundaries.", "anchors": ["pgp/packet.go: EncodePacket, packetLengthEncode"]}
{"id": "C31", "title": "MPI encoding round trip", "statement": "An RFC 4880 MPI reader recovers every non-negative integer below 2^65535 from EncodeMPI, leaving the following bytes; the two-octet checksum is the byte sum modulo 65536.", "quantifier": "every integer of up to 65535 bits", "why_tests_cant": "All integers.", "anchors": ["pgp/mpi.go: EncodeMPI, checksumMPI"]}
{"id": "C32", "title": "The export is a well-formed, correctly signed OpenPGP key", "statement": "A reader written from RFC 4880 parses EncodePGP's output of every key built by New (any options, no password), finds the master key, the user ID, a valid positive certification and for each selected subkey exactly one valid binding signature with the right usage flags, and for the signing subkey a valid embedded cross-certification; it sees the same fingerprints, creation time, user ID and private key material as the Mnemonikey.", "quantifier": "every key built by New with a user ID shorter than 2^32 bytes", "why_tests_cant": "Tests import two keys into gpg.", "anchors": ["pgp/key_set.go: EncodePackets", "pgp/master_key.go", "pgp/sign.go", "pgp/signature.go", "pgp/ecc_key.go"]}
{"id": "C33", "title": "Subkey-only export never contains the master secret", "statement": "EncodeSubkeysPGP's output is read back with the same public master key, user ID and subkeys but a GNU-dummy stub in place of the master secret, with a self-certification exactly when withSelfCert is true. Its bytes depend on the master secret only through the signatures it makes and the subkey order.", "quantifier": "every key, password, random stream", "why_tests_cant": "Non-interference over all secrets.", "anchors": ["pgp/key_set.go: EncodeSubkeyPackets", "pgp/ecc_key.go: encodePrivateDummy"]}
{"id": "C34", "title": "Every selected subkey is exported exactly once, in a deterministic order", "statement": "The subkeys of every export are the selected ones, each exactly once, whatever the shuffling generator returns. Their order depends only on the key: encryption, authentication and signing, shuffled by Fisher-Yates with the generator seeded from the first eight bytes of the SHA-256 of the master private key (secret, then public), read as a sign bit and a 63-bit number.", "quantifier": "every generator and subkey selection", "why_tests_cant": "All generator behaviours.", "anchors": ["pgp/key_set.go: encodeAllSubkeyPackets"]}
{"id": "C35", "title": "Password-protected export decrypts with the password", "statement": "With a non-empty password every secret key packet is S2K usage 254 / AES-256 / iterated-salted SHA-256, and an RFC 4880 reader that runs S2K and AES-CFB with the same password recovers the private integers and a correct SHA-1 check. With an empty password the material is in the clear.", "quantifier": "every key, password and random salt/IV", "why_tests_cant": "All passwords and salts.", "anchors": ["pgp/s2k.go: EncryptS2K, stringToKey, s2kCountDecode", "pgp/ecc_key.go: encodePrivate"]}
{"id": "C36", "title": "S2K hashes the octets RFC 4880 prescribes", "statement": "stringToKey hashes exactly the first 65011712 octets of the endless repetition of salt||password. This equals RFC 4880 for every password of at most 65011704 bytes; for every longer one it hashes a truncated prefix where the RFC prescribes the whole. (Defect at extreme sizes.)", "quantifier": "every salt and password", "why_tests_cant": "All lengths.", "anchors": ["pgp/s2k.go: stringToKey"]}
{"id": "C37", "title": "Exports without a password are deterministic; passwords change only protected fields", "statement": "EncodePGP without a password is a function of the key alone (no randomness consumed). With a password, changing password or randomness leaves every public key, user ID and signature packet unchanged, in exports of the subkeys alone too.", "quantifier": "every key, pair of passwords and pair of random streams", "why_tests_cant": "Pairs of runs.", "anchors": ["pgp/key_set.go", "pgp/ecc_key.go: encodePrivate"]}
{"id": "C38", "title": "Encryption subkey scalar is clamped and matches its public key", "statement": "The exported X25519 private integer always has its low three bits clear, bit 254 set, and bit 255 clear (so always exactly 255 bits), and X25519 of it gives the exported public key.", "quantifier": "every 32-byte derived seed", "why_tests_cant": "All 2^256 seeds.", "anchors": ["pgp/encryption_subkey.go: NewCurve25519Subkey"]}
{"id": "C39", "title": "Fingerprints commit to the whole public key", "statement": "Fingerprint() is 20 bytes, the SHA-1 of 0x99, a two-byte length and the version-4 public key body, and the hashed bytes of two keys are equal only if creation time, algorithm, curve and public point are equal. FingerprintV5() is the SHA-256 of 0x9A, a four-byte length and the version-4 body, which is not the preimage of any version-5 key. (The last is a defect in unused code.)", "quantifier": "every pair of keys", "why_tests_cant": "Pairs of inputs.", "anchors": ["pgp/ecc_key.go: FingerprintV4, FingerprintV5, encodePublic"]}
{"id": "C40", "title": "Bit buffer behaves like a double-ended queue of bits", "statement": "Every sequence of appends and pops at either end gives the same results as on a plain list of bits; an operation panics exactly when it pops more bits than are present or appends a value wider than stated.", "quantifier": "every finite sequence of operations with arbitrary widths and values", "why_tests_cant": "Unbounded histories.", "anchors": ["bit_buffer.go"]}
{"id": "C41", "title": "Index codec is exact", "statement": "For every non-negative payload below 2^bitSize, EncodeToIndices returns ceil(bitSize/12) indices below 4096 that DecodeIndices maps back to the payload; larger payloads give an error; a negative payload panics, or gives the error if its absolute value reaches 2^bitSize; DecodeIndices rejects every list with an index of 4096 or more, and decoding then encoding a list of indices returns it.", "quantifier": "every payload, bit size and index list", "why_tests_cant": "All sizes.", "anchors": ["mnemonic/encode.go: EncodeToIndices", "mnemonic/decode.go: DecodeIndices"]}
{"id": "C42", "title": "Word codec is exact", "statement": "EncodeToWords succeeds exactly on lists of indices below 4096, DecodeWords succeeds exactly on lists of words whose lower-case form is in the list, and they are mutually inverse on those.", "quantifier": "every list of indices / strings", "why_tests_cant": "All lists.", "anchors": ["mnemonic/encode.go: EncodeToWords", "mnemonic/decode.go: DecodeWords"]}
{"id": "C43", "title": "TTL flag parsing", "statement": "parseTTL accepts exactly a decimal unsigned 64-bit number followed by d, w, m or y in either case; whenever number times unit fits in 63 bits of nanoseconds the result is that duration.", "quantifier": "every string", "why_tests_cant": "All strings.", "anchors": ["cmd/mnemonikey/expiry.go: parseTTL"]}
{"id": "C44", "title": "TTL overflow is silent", "statement": "For numbers whose duration exceeds 2^63-1 ns, parseTTL returns the value wrapped modulo 2^64 without error: for example 600y is accepted as a TTL under 16 years, and 300y as a negative one. (Defect.)", "quantifier": "every quantity and unit whose product overflows", "why_tests_cant": "Tests do not cover it.", "anchors": ["cmd/mnemonikey/expiry.go: parseTTL"]}
{"id": "C45", "title": "-only list decoding", "statement": "The -only flag is rejected exactly if some comma-separated element is not one of the four names; otherwise the master key is output iff the flag is empty or lists 'master', and the subkeys selected are exactly those listed (all if the flag is empty).", "quantifier": "every string", "why_tests_cant": "All strings.", "anchors": ["cmd/mnemonikey/common_opts.go: DecodeOnlyKeyTypes"]}
{"id": "C46", "title": "Subkey indices are never silently truncated", "statement": "recover fails with an error and outputs no key whenever any index flag exceeds 65535; otherwise the index used for derivation is the flag's value.", "quantifier": "every triple of unsigned integers", "why_tests_cant": "All values.", "anchors": ["cmd/mnemonikey/recover.go: recoverAndPrintKey"]}
{"id": "C47", "title": "Word file round trip and no overwriting", "statement": "After generate -out-word-file succeeds in writing a phrase, reading the file with -in-word-file yields the same words. saveMnemonic never changes a file that exists when it checks, and at every crash point the target holds nothing, or a prefix of the phrase text. readWordFile accepts exactly the files whose words, lower-cased, are 14 or 16 list words as the first one asks for.", "quantifier": "every phrase, file-system state and crash point", "why_tests_cant": "Crash points and states.", "anchors": ["cmd/mnemonikey/generate.go: saveMnemonic", "cmd/mnemonikey/recover.go: readWordFile"]}
{"id": "C48", "title": "A concurrent writer can defeat the no-overwrite check", "statement": "Because the check and the write are separate steps, there is a schedule in which a file created by another process between them is overwritten; without interference between the two steps no existing file is ever overwritten. (Defect under concurrency.)", "quantifier": "every interleaving of one foreign file operation with the two steps", "why_tests_cant": "Schedules.", "anchors": ["cmd/mnemonikey/generate.go: saveMnemonic"]}
{"id": "C49", "title": "generate never prints a key whose phrase was not saved", "statement": "With -out-word-file, in every run and at every crash point, if the PGP key has been written to standard output then the complete phrase recovering that key was already written to the file; if saving fails no key is printed. Without it the key is printed before the phrase.", "quantifier": "every option set, environment behaviour and crash point", "why_tests_cant": "Crash points.", "anchors": ["cmd/mnemonikey/generate.go: generateAndPrintKey"]}
{"id": "C50", "title": "Simple word entry returns only complete valid phrases", "statement": "For every sequence of input lines, the -simple prompt returns either an end-of-input error or a list of list words, lower-cased and trimmed, whose length is exactly that required by the version of its first word; invalid lines are skipped and never change what is returned. Typing the words of a complete phrase, in any letter case and with blanks around them, returns these words.", "quantifier": "every finite sequence of lines", "why_tests_cant": "All inputs.", "anchors": ["cmd/mnemonikey/word_input.go: userInputMnemonicSimple"]}
{"id": "C51", "title": "Interactive word entry without the left arrow", "statement": "For every keystroke sequence without the left-arrow byte, the prompt aborts, runs out of input, or returns list words whose number is exactly that required by the version of the first. Typing the words of a complete phrase, each followed by return or space, returns exactly these words.", "quantifier": "every finite keystroke sequence", "why_tests_cant": "All inputs.", "anchors": ["cmd/mnemonikey/word_input.go: userInputMnemonic"]}
{"id": "C52", "title": "The left arrow never removes a word", "statement": "Whenever the interactive prompt returns after k left-arrow presses it returns k more words than the phrase needs, so 'revise previous word' cannot work: for k >= 1 the result is rejected by DecodeMnemonic unless k = 2, the first word entered has version 1 and a later one has version 0. (Defect.)", "quantifier": "every finite keystroke sequence", "why_tests_cant": "All inputs.", "anchors": ["cmd/mnemonikey/word_input.go: userInputMnemonic"]}
{"id": "C53", "title": "Password prompt returns only confirmed, non-empty passwords", "statement": "In every interleaving of the reader goroutine, the interrupt and the main goroutine, a returned password is non-empty, is the last one typed, and with confirmation was typed twice identically in a row; a read error or interrupt never yields a password.", "quantifier": "every schedule and every sequence of typed lines", "why_tests_cant": "Schedules.", "anchors": ["cmd/mnemonikey/word_input.go: userInputPassword"]}
{"id": "C54", "title": "Terminal restore can race with a later prompt", "statement": "There is a schedule of two consecutive password prompts in which the first prompt's clean-up restores terminal echo while the second prompt is reading, so the second password is echoed. (Defect.)", "quantifier": "existence of a schedule", "why_tests_cant": "A specific interleaving.", "anchors": ["cmd/mnemonikey/word_input.go: userInputPassword", "cmd/mnemonikey/generate.go"]}
{"id": "C55", "title": "Phrase password retry loop", "statement": "recover and convert keep asking until a password passes the verify bits and return that password's seed; a plaintext phrase never prompts; wrong passwords have no effect on the result.", "quantifier": "every sequence of typed passwords", "why_tests_cant": "Unbounded retries.", "anchors": ["cmd/mnemonikey/recover.go: decodeMnemonicFromInput"]}
{"id": "C56", "title": "convert never writes its output file", "statement": "For every input and option set, convert never creates or changes the file named by -out-word-file; whenever -in-word-file names an existing file convert ends in an error without showing the new phrase. (Defect: the input path is used where the output path is meant.)", "quantifier": "every option set and file-system state", "why_tests_cant": "All option combinations.", "anchors": ["cmd/mnemonikey/convert.go: decodeAndConvertPhrase"]}
{"id": "C57", "title": "Help text layout terminates exactly when every word fits", "statement": "justifyWidth terminates exactly when every space-separated word is shorter than the width; then every line is at most indent+width long and the words appear in order. Otherwise it loops forever, so help output hangs on narrow or zero-width terminals; at indent + width = 0, or when the estimated number of lines is negative, it panics instead. (Defect.)", "quantifier": "every text, indent and width", "why_tests_cant": "Non-termination cannot be tested.", "anchors": ["cmd/mnemonikey/terminal.go: justifyWidth"]}
{"id": "C58", "title": "Exit status of the process", "statement": "Every command line means exactly one thing: print a usage text and exit with a given status, do nothing, or run a subcommand with given settings; malformed flags mean status 2, a missing or unknown subcommand status 1, -h and help status 0. On a terminal of at least 42 columns main does exactly that, and when a subcommand runs, the status is 1 exactly if it fails. At most one usage text is printed. Files, output and random source are untouched unless a subcommand runs. 'help' followed by more arguments exits 0 and prints no usage. (The last is a defect.)", "quantifier": "every command line, environment and subcommand outcome", "why_tests_cant": "All command lines.", "anchors": ["cmd/mnemonikey/main.go", "cmd/mnemonikey/command.go: Run"]}
{"id": "C59", "title": "Word files with an over-long tail are accepted", "statement": "A word file that holds a complete phrase followed by a word of 65536 or more letters, and anything after it, is accepted as if it ended before that word, because the scanner's error is ignored; with a shorter extra word the file is rejected. (Defect: trailing garbage passes the word count check.)", "quantifier": "every complete phrase, every tail", "why_tests_cant": "Needs a file of more than 64 KiB; the rule is a statement about all tails.", "anchors": ["cmd/mnemonikey/recover.go: readWordFile"]}
{"id": "C60", "title": "recover prints the key that generate printed", "statement": "Whenever generate -out-word-file succeeds without -encrypt-keys, running recover -in-word-file on that file with the same name, email, ttl and only flags and the default index and self-cert flags (and, for an encrypted phrase, the same password, after any number of wrong ones that fail the verify bits) succeeds and writes exactly the same bytes to standard output.", "quantifier": "every option set, entropy, time, file system and list of wrong passwords", "why_tests_cant": "End-to-end over all inputs of two commands and the file system between them.", "anchors": ["cmd/mnemonikey/generate.go: generateAndPrintKey", "cmd/mnemonikey/recover.go: recoverAndPrintKey, readWordFile"]}
{"id": "C61", "title": "Password prompts leave clean-up behind", "statement": "Whenever a password is being read, there is a schedule in which an interrupt makes userInputPassword return before terminal echo is restored, so that the process ends with echo off. After a password was returned, the clean-up goroutine prints a newline to standard output at an unpredictable time: there are schedules with and without it. (Defect: standard output carries the exported key.)", "quantifier": "every sequence of lines typed before; existence of schedules", "why_tests_cant": "Specific interleavings.", "anchors": ["cmd/mnemonikey/word_input.go: userInputPassword"]}
{"id": "C62", "title": "convert keeps the key", "statement": "Every phrase that convert shows decodes, holds the seed and the creation time of the phrase that was entered, and is encrypted exactly when -encrypt-phrase was given; then one of the passwords typed decrypts it to that seed.", "quantifier": "every input, option set, list of typed passwords and random source", "why_tests_cant": "All phrases and passwords; a converted phrase with another seed or time would lose the key.", "anchors": ["cmd/mnemonikey/convert.go: decodeAndConvertPhrase"]}
{"id": "C63", "title": "Command lines are read as documented", "statement": "A subcommand accepts a command line exactly when it is a sequence of documented options (-name, --name, =value or next argument, switches without value), in any order and number, with well-formed values, and then positional arguments; it shows its help exactly when -h or -help comes first among what is read; otherwise it refuses. A command line has one meaning only. The last setting of an option counts, and options not set have their documented defaults.", "quantifier": "every list of arguments of every subcommand", "why_tests_cant": "All argument lists; both directions.", "anchors": ["cmd/mnemonikey/command.go: Run", "cmd/mnemonikey/common_opts.go: AddFlags", "cmd/mnemonikey/generate.go: AddFlags", "cmd/mnemonikey/recover.go: AddFlags", "cmd/mnemonikey/convert.go: AddFlags"]}
{"id": "C64", "title": "Options after a positional argument are ignored", "statement": "Once a positional argument has been read, nothing after it makes any difference: 'generate -encrypt-keys false -encrypt-phrase' encrypts the keys and not the phrase. (Defect: the subcommands take no positional arguments but do not reject them.)", "quantifier": "every command line with a positional argument", "why_tests_cant": "All command lines.", "anchors": ["cmd/mnemonikey/command.go: Run", "cmd/mnemonikey/generate.go: Execute"]}
{"id": "C65", "title": "Usage texts need a wide terminal", "statement": "The usage text of the root command, generate, recover and convert is printed exactly on terminals of at least 23, 36, 42 and 28 columns; on narrower ones the program never ends. (Defect.)", "quantifier": "every terminal width", "why_tests_cant": "Non-termination cannot be tested.", "anchors": ["cmd/mnemonikey/command.go: Run", "cmd/mnemonikey/terminal.go: justifyTerminalWidth"]}
{"id": "C66", "title": "The usage examples work", "statement": "Every example printed in a usage text is accepted with all its arguments read and its option values valid, except 'mnemonikey convert -encrypt', which exits with status 2. (The exception is a defect.)", "quantifier": "every example, every environment", "why_tests_cant": "The examples are never run.", "anchors": ["cmd/mnemonikey/generate.go", "cmd/mnemonikey/recover.go", "cmd/mnemonikey/convert.go"]}
{"id": "C67", "title": "Exit status tells whether a key was printed", "statement": "Apart from the line feeds that password prompts leave behind (C61): with exit status 1 standard output is empty; with exit status 0 it holds exactly one armored export and a line feed if the command line asked for generate or recover, and is empty otherwise.", "quantifier": "every command line, environment, typed input and random source", "why_tests_cant": "All executions of the whole program.", "anchors": ["cmd/mnemonikey/main.go", "cmd/mnemonikey/generate.go: generateAndPrintKey", "cmd/mnemonikey/recover.go: recoverAndPrintKey"]}
{"id": "C68", "title": "Every schedule does what the command alone would do", "statement": "However the goroutines of a generate, recover or convert process are scheduled and wherever it is stopped, the files and the phrases shown are those the main goroutine alone would have left after some of its actions, given the passwords returned; standard output is the same too, in one piece, between at most one extra line feed per password prompt. Every run of the main goroutine alone is also a schedule. What a prompt returns is a non-empty password or an error. So a failed command leaves nothing but such line feeds on standard output, and a successful one exactly one armored key.", "quantifier": "every schedule of all goroutines, at every point", "why_tests_cant": "All interleavings with leftover goroutines of earlier prompts.", "anchors": ["cmd/mnemonikey/word_input.go: userInputPassword", "cmd/mnemonikey/generate.go: generateAndPrintKey", "cmd/mnemonikey/recover.go: recoverAndPrintKey", "cmd/mnemonikey/convert.go: decodeAndConvertPhrase"]}
{"id": "C69", "title": "Passwords that encrypt were typed twice", "statement": "In every schedule in which generate or recover succeeds with -encrypt-keys, the key printed is exported under a non-empty password that was typed twice in a row, identically, at one prompt; the same holds of the password that opens the phrase made by generate or convert with -encrypt-phrase. The password that opens an existing phrase is asked for once.", "quantifier": "every schedule of all goroutines, every typed input", "why_tests_cant": "All interleavings; a wrong confirm flag at one call shows only in the text of a prompt.", "anchors": ["cmd/mnemonikey/word_input.go: userInputPassword", "cmd/mnemonikey/generate.go:121,139", "cmd/mnemonikey/recover.go:119,178", "cmd/mnemonikey/convert.go:56"]}
{"id": "C70", "title": "generate makes the key asked for", "statement": "With well-formed options, a clock between 2023 and 2091, enough random bytes, the passwords asked for, a free file name (or a terminal of 17 columns) generate succeeds: an OpenPGP reader who knows the password finds in the key printed exactly the user id, expiration, subkeys and master key asked for, protected exactly when -encrypt-keys was given; and the phrase stored or shown holds the seed taken from the source named and the time, encrypted exactly when -encrypt-phrase was given. The same from the command line, with exit status 0. With a malformed -ttl or -only, generate and recover do nothing but report the error.", "quantifier": "every option set, environment, seed, password and random source", "why_tests_cant": "All inputs of the whole command, judged by a reader of the OpenPGP format.", "anchors": ["cmd/mnemonikey/generate.go: generateAndPrintKey", "cmd/mnemonikey/common_opts.go", "mnemonikey.go: New", "pgp/key_set.go: EncodePackets"]}
{"id": "C71", "title": "recover brings back the key asked for", "statement": "With well-formed options and indices up to 65535, a phrase that holds a seed and time, the right password after any number of wrong ones, recover succeeds, changes no file, shows no phrase, and prints a key in which an OpenPGP reader finds exactly the user id, expiration, subkeys with the indices asked for, and master key or stub of that seed and time. The same from the command line, with exit status 0.", "quantifier": "every option set, phrase, seed, time, password and list of wrong passwords", "why_tests_cant": "All inputs of the whole command, judged by a reader of the OpenPGP format.", "anchors": ["cmd/mnemonikey/recover.go: recoverAndPrintKey, decodeMnemonicFromInput", "mnemonikey.go: New", "pgp/key_set.go: EncodePackets"]}
{"id": "C72", "title": "convert encrypts or decrypts the phrase", "statement": "With a phrase that holds a seed and time, the right password after any number of wrong ones, a non-empty new password if -encrypt-phrase was given, three random bytes and a terminal of 17 columns, convert without -in-word-file succeeds, prints nothing, changes no file, and shows exactly one phrase, which holds the same seed and time under the new password, or under none. The same from the command line, with exit status 0.", "quantifier": "every phrase, seed, time, password and list of wrong passwords", "why_tests_cant": "All inputs of the whole command; a converted phrase that cannot be read again would lose the key.", "anchors": ["cmd/mnemonikey/convert.go: decodeAndConvertPhrase"]}
{"id": "C73", "title": "A phrase written down brings the key back", "statement": "The phrase that generate or convert shows, typed by hand into recover at either prompt (words with return or space, or a word on each line in any case and with blanks, the last line feed missing or not), with its password after any number of wrong ones, gives exactly the key that is then asked for, of the seed and second of the original key.", "quantifier": "every option set of both commands, seed, time, password, way of typing", "why_tests_cant": "End to end over all inputs of two processes and the person between them.", "anchors": ["cmd/mnemonikey/generate.go: generateAndPrintKey", "cmd/mnemonikey/convert.go: decodeAndConvertPhrase", "cmd/mnemonikey/recover.go: recoverAndPrintKey", "cmd/mnemonikey/word_input.go: userInputMnemonic, userInputMnemonicSimple"]}
{"id": "C74", "title": "What the keys do at the interactive prompt", "statement": "Without a left arrow among the keys, the interactive prompt follows its legend exactly: a letter is added to the text, backspace takes the last one away, tab completes the text to the word offered, return or space submits the word offered (the first one only if its version is supported), CTRL+C and CTRL+D abort, and every other key does nothing. The prompt returns a phrase exactly when the keys read so far make that phrase complete, is aborted exactly by CTRL+C or CTRL+D before that, and fails to read exactly when the keys run out before that.", "quantifier": "every sequence of key presses without the byte 68, every lawful word list", "why_tests_cant": "All key sequences of any length.", "anchors": ["cmd/mnemonikey/word_input.go: userInputMnemonic"]}
{"id": "C75", "title": "The screen shows what is typed and what return submits", "statement": "On a terminal of at least 46 columns and 2 rows, as long as the text typed fits on its line, the interactive prompt shows at every wait exactly one line with the number of the word, the text typed and faintly the rest of the word offered, with the cursor after the text; what return or space submits is the word that is seen (once something was typed). Nothing else but the row below changes, not even the scrollback.", "quantifier": "every sequence of keys without the left arrow, terminal size and contents, lawful word list", "why_tests_cant": "All key sequences and all screen contents; the bytes written must be interpreted by a terminal.", "anchors": ["cmd/mnemonikey/word_input.go: userInputMnemonic", "cmd/mnemonikey/terminal.go"]}
{"id": "C76", "title": "The row below the prompt tells what is wrong", "statement": "After each key the row below the interactive prompt is blank if the text can become a word, starts with the no-match message if it cannot or nothing can be submitted, and starts with the version error if the first word has an unsupported version. Messages are written over each other without erasing, so the rest of a longer one stays.", "quantifier": "every sequence of keys without the left arrow, terminal and lawful word list", "why_tests_cant": "All key sequences; a stale or missing message depends on the sequence.", "anchors": ["cmd/mnemonikey/word_input.go:111-160", "version.go: check"]}
{"id": "C77", "title": "The interactive prompt leaves no typed letter on the screen", "statement": "However the interactive prompt ends (phrase complete, CTRL+C, CTRL+D, end of input), if the text always fitted on its line, its row is blank, the row below holds only parts of messages and everything else on the screen and in the scrollback is what the header left, so it does not depend on the keys. Text that does not fit on the line does stay: only its last row is erased.", "quantifier": "every sequence of keys including the left arrow, terminal and lawful word list", "why_tests_cant": "All key sequences and screen states; a secret left in the scrollback is invisible to output tests.", "anchors": ["cmd/mnemonikey/word_input.go: userInputMnemonic", "cmd/mnemonikey/terminal.go"]}
{"id": "C78", "title": "The simple prompt shows no word entered before", "statement": "On a terminal of at least 46 columns and 2 rows, as long as each line typed fits with its prompt on one row, the simple prompt shows at every wait exactly the number of the next word on one row (after the first line), and no word entered before is anywhere on the screen or in the scrollback. The row below tells why the last line was refused (not a word, unsupported version), and is blank after a word that was taken. When all words are entered the row is blank too. If the input ends while the prompt waits, these rows stay as they are and the cursor goes to the start of the row below them, where the error is reported. A last word ended by the end of the input instead of a line feed does stay on the screen, and the row above is erased in its place.", "quantifier": "every list of lines of printable characters that fit, terminal size and contents, lawful word list", "why_tests_cant": "All inputs of any length and all screen contents; what a terminal shows is invisible to output tests.", "anchors": ["cmd/mnemonikey/word_input.go: userInputMnemonicSimple", "cmd/mnemonikey/terminal.go"]}
{"id": "C79", "title": "A phrase can be read off the screen", "statement": "When generate or convert shows a phrase, then on a terminal ready for text, with nothing below the cursor and wide enough for each word behind its five-column number, the words appear one to a row on consecutive rows, each with its number from 1 on and in order, the next row is empty, and nothing that stood above the cursor is changed. Reading the rows from the sixth column on gives exactly the words, and these hold the seed and the creation time of the key that generate has printed (or the phrase that convert was given). Showing the phrase is the last thing the command does.", "quantifier": "every complete phrase, terminal size, contents and cursor position with room, width of at least 17 columns, options, passwords and random bytes of C70/C72", "why_tests_cant": "All phrases on all screens; the escape sequences and padding sent are not what a person reads.", "anchors": ["cmd/mnemonikey/generate.go: printMnemonic", "cmd/mnemonikey/convert.go: decodeAndConvertPhrase", "cmd/mnemonikey/terminal.go"]}
{"id": "C80", "title": "-verbose changes nothing but standard error, where its tables describe the key", "statement": "The -verbose option has no influence on what the commands do: given the same prompts and random bytes they end in the same way and do the same to files and to standard output in the same order, and what is written to standard error is what is written without -verbose with further messages added. The option is on exactly when its last occurrence on the command line says so. What is added describes the phrase and the key: after a successful decoding a table with version 0 or 1, era 0 and whether the phrase needs a password; after generate and recover a table with the fingerprint of the master key in upper-case hexadecimal, the user ID, the creation time of the phrase, the expiry time if one was asked for, and the fingerprint of each subkey asked for, derived from the seed as the key that is exported. On a terminal wide enough the table is readable: each row shows a faint name, a colon and the value in one column, followed by an empty row, and nothing above is disturbed.", "quantifier": "for all word lists, primitives and formatters, seeds, times, options, passwords and wrong passwords before them, random bytes, file contents and terminal states", "why_tests_cant": "The table is a second, separate computation of the fingerprints that a test of the exported key does not look at, and that an option has no effect is a statement about pairs of runs over all inputs, not about any one output.", "anchors": ["cmd/mnemonikey/terminal.go: printKeyDebugInfo, printDebugInfo", "cmd/mnemonikey/generate.go: generateAndPrintKey", "cmd/mnemonikey/recover.go: decodeMnemonicFromInput, recoverAndPrintKey", "cmd/mnemonikey/common_opts.go: AddFlags"]}
{"id": "C81", "title": "Commands never crash, and every failure has its cause", "statement": "Each of generate, recover and convert ends in success, in an error or waiting at a password prompt. It panics or runs for ever only when a phrase is to be shown on a terminal of less than 17 columns (recover never). Each error occurs only for its documented cause: a duration or list of key types of the wrong form, a time to live with bit 64 set, an index above 65535, a clock outside 2023 to 2091, too few random bytes, a file missing, existing or not writable, a prompt aborted or at its end before the phrase is complete, a word not in the list, a wrong number of words, or a checksum that does not match. On a terminal of at least 42 columns the process exits with 0, 1 or 2 or waits, and with 2 exactly if the command line is malformed; a crash would give 2 as well.", "quantifier": "every lawful word list and primitives, options, command line, clock, file system, standard input, random bytes, and sequence of prompt results", "why_tests_cant": "Tests try the errors they think of; that nothing else can go wrong is a statement about all inputs and environments.", "anchors": ["cmd/mnemonikey/generate.go: generateAndPrintKey", "cmd/mnemonikey/recover.go: decodeMnemonicFromInput, recoverAndPrintKey", "cmd/mnemonikey/convert.go: decodeAndConvertPhrase", "cmd/mnemonikey/main.go: main"]}
{"id": "C82", "title": "What a lost word leaves open, and when exchanged words go unnoticed", "statement": "If a word of a phrase other than the first is lost, exactly 128 of the 4096 words make the rest a phrase that is accepted, whatever the other words are; if the first is lost, exactly 8 do. If two words are exchanged, the phrase is still accepted exactly if the exclusive or of the two words' numbers lies in a set that depends only on the number of words and the two places: it has 128 of the 4096 differences (256 for the third and the fifteenth of 16 words), or, when the first word is one of the two and the other has a number of the same version, 8 of 256 (16 for five pairs of places). Otherwise the phrase is refused, with a wrong checksum if the first word is not involved.", "quantifier": "every lawful word list, phrase of 14 or 16 words, and pair of places", "why_tests_cant": "Counts over all 4096 replacements and all phrases; tests sample a few phrases and a few errors.", "anchors": ["recovery.go: DecodeMnemonic, ErrInvalidChecksum", "mnemonic/decode.go: DecodeWords"]}
{"id": "C83", "title": "A command with password prompts neither hangs nor spins", "statement": "However its goroutines are scheduled and however often someone presses ctrl-C: as long as a command has not ended, the main goroutine or the running password prompt can go on by itself, or the prompt is reading the terminal and goes on whatever line is typed and even if reading fails; goroutines left behind by earlier prompts are never waited for. Between lines typed it makes only a bounded number of steps: in any schedule at most eight for each line, seven more, and the actions of the command. Whoever types the same password whenever a prompt asks is asked at most three times more, and the prompt can then return that password. If nobody presses ctrl-C, then whenever no prompt is running the terminal echoes and every reading goroutine has ended.", "quantifier": "every schedule of the main goroutine, readers and restorers, interrupts at any time, command with any options, file system, random bytes and typed lines", "why_tests_cant": "A deadlock or busy loop shows only under particular interleavings; tests run one schedule, and cannot tell a long wait from a hang.", "anchors": ["cmd/mnemonikey/word_input.go: userInputPassword", "cmd/mnemonikey/generate.go: generateAndPrintKey", "cmd/mnemonikey/recover.go: decodeMnemonicFromInput, recoverAndPrintKey", "cmd/mnemonikey/convert.go: decodeAndConvertPhrase"]}
{"id": "C84", "title": "A password prompt tells what happened and nothing about the password", "statement": "However goroutines of any number of prompts are scheduled: while a line is read, the person has been told exactly the dialogue for the lines typed at this prompt so far, ending with the request for this line: the prompt, after an empty line that it cannot be used, after a password that is to be confirmed the request to repeat it, after a different second line that they do not match, and again the prompt. A prompt that returned a password said exactly this and no more; one that could not look at the terminal said nothing; after a failed read the row is ended when the failure is reported; on standard output each prompt writes at most one line feed. What is written depends only on which lines are empty and which are equal. On a terminal of at least 42 columns every message has a row of its own, in order, below what was there, and the cursor stands after the last request. But that the next prompt starts on a row of its own depends on the schedule: with two prompts the second can come on the row of the first one's last request. After CTRL+C at a prompt, too, the error can come on the row of the request or on a row of its own.", "quantifier": "every schedule of any number of prompts, interrupts and read errors, all lines, prompt texts and terminal states", "why_tests_cant": "A leak of a secret through messages is a statement about pairs of runs, and misplaced messages show only under particular schedules and screens.", "anchors": ["cmd/mnemonikey/word_input.go: userInputPassword", "cmd/mnemonikey/terminal.go: faint, red"]}
{"id": "C85", "title": "Only the owner can read a word file that the program creates", "statement": "Every file that a command creates gives no permission to group or others, whatever the umask, from the moment it exists and at every point where the process may be stopped, in every schedule of its goroutines; files that were there keep contents and permissions. This holds also when other processes act in between, as far as the program's own actions go: none of them changes the permissions of a file that is there. If nothing comes between the check that the file does not exist and its creation, and nobody else changes permissions, everything written to disk is written to such a private file. But a file that another process creates in between keeps the permissions it was given: the phrase is then written into a file readable by others, and success is reported.", "quantifier": "every phrase, path, file system, umask, failure of the operating system, crash point, schedule, and sequence of operations of other processes", "why_tests_cant": "Whether a secret is ever exposed is a statement about every moment and umask; a test looks at the mode of a finished file under the umask of the test machine.", "anchors": ["cmd/mnemonikey/generate.go: saveMnemonic, generateAndPrintKey", "cmd/mnemonikey/convert.go: decodeAndConvertPhrase"]}
{"id": "C86", "title": "Every failure is reported with a message that tells its cause", "statement": "The process writes a final message exactly when it ends with status 1: `ERROR: `, the text and a line feed. The text is `incorrect usage: missing subcommand`, `incorrect usage: unknown subcommand` with the name, or that of the command's error. Each error of generate, recover and convert has a text of a fixed list, containing besides literals only the option concerned (for -only the first unknown element), the name of the word file, texts of the operating system, and for a phrase how many words there are and which version the first announces; nothing of seed, phrase or password. Two failures with the same text, of whatever commands, options and inputs, have the same cause; except that a clock too early and a clock too late share one text, and that some texts are those of the operating system alone. Without the texts the commands behave as in the other claims. Some messages are misleading: a clock before 2023 exceeds a maximum; a word file with too many words has only so many.", "quantifier": "every lawful word list and primitives, command line, options, clock, file system, standard input, random bytes, prompt results, operating system texts, and pair of failing runs", "why_tests_cant": "That no message contains a secret, and that no two causes share a message, are statements about all failures and pairs of them; tests compare a few messages.", "anchors": ["cmd/mnemonikey/main.go: main, RootCommand", "cmd/mnemonikey/command.go: Run, ErrPrintUsage", "cmd/mnemonikey/generate.go: generateAndPrintKey, saveMnemonic", "cmd/mnemonikey/recover.go: recoverAndPrintKey, readWordFile", "cmd/mnemonikey/convert.go: decodeAndConvertPhrase", "mnemonikey.go: ErrCreationTooEarly, ErrCreationTooLate, ErrTTLInvalid"]}
{"id": "C87", "title": "A reader of the output gets a whole key or none", "statement": "However the goroutines are scheduled, wherever the process is stopped, and although line feeds may come before and after the key: a reader of standard output who follows RFC 4880 (header line, checksum and tail line) finds either no key or exactly the packets of one export, never a part of one. After generate and recover have succeeded they find the key, and the packets contain exactly what was asked for; after a failure, and after convert, they find none.", "quantifier": "every schedule, stopping point, command with any options, file system, random bytes, typed passwords, and armor encoder that readers read back and whose cut-off texts they refuse", "why_tests_cant": "A cut-off or interleaved output shows only for particular schedules and stopping points; tests read one finished output.", "anchors": ["mnemonikey.go: armorEncode, EncodePGPArmor, EncodeSubkeysPGPArmor", "cmd/mnemonikey/generate.go: generateAndPrintKey", "cmd/mnemonikey/recover.go: recoverAndPrintKey", "cmd/mnemonikey/word_input.go: userInputPassword"]}
{"id": "C88", "title": "The help text lists exactly the options there are, with their true defaults", "statement": "On a terminal with enough columns (exactly the widths of C65) the help text of each command, without colours, is: name, description, the examples of C66, and one entry for each option in alphabetical order: name, placeholder of the value, description, default. Descriptions are only broken into lines at spaces, and no word is lost. The options listed are exactly those the command accepts; there is a placeholder exactly for options that need a value. The defaults shown are true: giving an option the value shown as default, in front of any further arguments (other than the single word help), changes neither what is written nor the exit status nor anything else the process does; if nothing is shown, the default is the empty text.", "quantifier": "every command, terminal width, option, further arguments, environment, file system, random bytes, and `%q` that quotes printable ASCII as it is", "why_tests_cant": "Help texts and option tables drift apart unnoticed; that a default shown is the one in effect is a statement about all command lines and inputs.", "anchors": ["cmd/mnemonikey/command.go: Run", "cmd/mnemonikey/common_opts.go: AddFlags", "cmd/mnemonikey/generate.go: GenerateCommand", "cmd/mnemonikey/recover.go: RecoverCommand", "cmd/mnemonikey/convert.go: ConvertCommand", "cmd/mnemonikey/terminal.go: justifyOptionDescription, justifyTerminalWidth"]}
{"id": "C89", "title": "A malformed command line is refused with a message that tells why", "statement": "A command line that is not of the grammar of C63 gets exactly one message, about the first argument that does not fit: bad syntax (with the argument), no such option (with its name), a boolean that is none, a value missing, a number out of range or not a number (with option and value). `Out of range` is said exactly if the text begins with digits that make 2^64 or more, even if something else follows. Standard error gets, on at least 42 columns: the help text alone if help is asked for; the message and then the help text of the command concerned if the line is malformed; the help text and then an error if the subcommand is missing or unknown, or the value of -ttl or -only is wrong; otherwise only the error of the command, if any. With the texts the process ends with the same status and the same effects as without.", "quantifier": "every list of arguments of any bytes, subcommand, environment, file system, random bytes", "why_tests_cant": "The grammar of arguments is infinite; that each malformed line gets exactly one true reason, and no other line any, is beyond a table of cases.", "anchors": ["cmd/mnemonikey/command.go: Run", "cmd/mnemonikey/main.go: main, RootCommand"]}
{"id": "C90", "title": "The public packets make up the public half of an export", "statement": "For a key built by `New`, replacing every secret key packet of an export by what the package's functions for public packets write for that key, and keeping the other packets, gives a transferable public key by RFC 4880 11.1: it has the same keys, creation times, user ID, certification and subkeys, and all its signatures verify. Its key packets hold the fields of the public keys and not one octet more. The public half of a full export is the same bytes for every password and random stream. An export of the subkeys only has a public half as well.", "quantifier": "every seed, creation time, option set with a lifetime below 2^63 and user ID below 2^32 bytes, password, random stream; any lawful primitives", "why_tests_cant": "No command and no test calls these functions; that public and secret packets agree, and that no secret octet is in the former, is a statement about all keys.", "anchors": ["pgp/master_key.go: EncodePublicPacket", "pgp/ed25519_subkey.go: EncodePublicSubkeyPacket", "pgp/encryption_subkey.go: EncodePublicSubkeyPacket", "pgp/ecc_key.go: encodePublic"]}
{"id": "C91", "title": "The key printed depends on seed, second and what is asked for, and on nothing else", "statement": "For everything that can be asked for (user ID, lifetime, parts, indices, with or without master key and certification), every seed and every creation second there is one sequence of packets. Whenever `recover` without -encrypt-keys is given a phrase that holds that seed and second, it prints exactly these packets in armor: whatever options say it (`2y` or `730d`, parts in another order, other spaces around the name), whether the phrase is plain or encrypted and under which password, over whatever word list, read from a file or typed, at any time, with any file system, random source and terminal. Every successful `generate` for the same prints the same.", "quantifier": "every user ID, lifetime, selection, index, seed, second; every pair of environments, command lines, phrases, passwords, word lists, random sources; any lawful primitives", "why_tests_cant": "It is a statement about pairs of runs in environments of unbounded variety; a test compares a few runs on one machine.", "anchors": ["cmd/mnemonikey/recover.go: recoverAndPrintKey", "cmd/mnemonikey/generate.go: generateAndPrintKey", "mnemonikey.go: New, EncodePGP, EncodeSubkeysPGP", "pgp/key_set.go: EncodePackets, EncodeSubkeyPackets, encodeAllSubkeyPackets"]}
{"id": "C92", "title": "A command succeeds exactly when nothing stands in its way", "statement": "`generate` succeeds if and only if: the clock is in the 2^31 seconds after the epoch of the phrases; -ttl is a duration that is not negative as 64 bits of nanoseconds, and -only names parts; there are 16 bytes of entropy and enough random bytes (24 for each part asked for under -encrypt-keys, 3 under -encrypt-phrase); the passwords asked for are typed; the file for the phrase is new and can be written, or without a file the terminal has 17 columns. `recover` succeeds if and only if the indices are below 65536, the options are right, random bytes suffice, a phrase is entered and the passwords typed unlock it (any number of wrong ones before the right one) and protect the key. `convert` succeeds if and only if no file is named for input, a phrase is entered and unlocked, passwords and random bytes suffice, and the terminal has 17 columns. The process ends with status 0 exactly in these cases.", "quantifier": "every option set, environment, clock, file system, terminal width, stream of random bytes, sequence of prompt results and list of arguments; any lawful word list and primitives", "why_tests_cant": "An equivalence says that there is no further cause of failure and that no cause is overlooked, for all inputs; tests can only try some causes.", "anchors": ["cmd/mnemonikey/generate.go: generateAndPrintKey", "cmd/mnemonikey/recover.go: recoverAndPrintKey", "cmd/mnemonikey/convert.go: decodeAndConvertPhrase", "cmd/mnemonikey/word_input.go: userInputPassword", "cmd/mnemonikey/main.go: main"]}
{"id": "C93", "title": "The first obstacle decides the error and its message", "statement": "How a run of `generate`, `recover` or `convert` ends is exactly this: the obstacles are checked in one fixed order (generate: -ttl, -only, entropy, lifetime and clock, password for the key, random bytes for each part, password for the phrase, random bytes for it, terminal or file; recover: -ttl, indices, -only, words, phrase and its passwords, lifetime, password, random bytes; convert: words, phrase and its passwords, password, random bytes, terminal or file), the first one in the way decides the error and every byte of its message, and if there is none the command succeeds. The message names the first unknown element of -only, the file, the number of words found and expected, and for missing random bytes the part of the key (master key, encryption, authentication or signing subkey) and whether salt or IV is missing. Later obstacles change nothing. The process writes `ERROR: `, the message and a line feed to standard error and ends with status 1.", "quantifier": "every option set, environment, clock, file system, terminal width, stream of random bytes, sequence of prompt results and list of arguments, every `%q` and every text of the operating system; any lawful word list and primitives", "why_tests_cant": "Obstacles combine: which of several is reported, with which text, is a statement about all combinations; a test has one obstacle at a time.", "anchors": ["cmd/mnemonikey/generate.go: generateAndPrintKey", "cmd/mnemonikey/recover.go: recoverAndPrintKey", "cmd/mnemonikey/convert.go: decodeAndConvertPhrase", "cmd/mnemonikey/recover.go: decodeMnemonicFromInput, readWordFile", "cmd/mnemonikey/generate.go: printMnemonic, saveMnemonic", "pgp/key_set.go: EncodePackets, encodeAllSubkeyPackets", "cmd/mnemonikey/main.go: main"]}
{"id": "C94", "title": "Exactly which words a command reads", "statement": "A word file has one list of words: the pieces between Unicode white space (also of several bytes), up to the first word whose end is not among the 65536 bytes from its beginning, where the white space behind it counts; invalid UTF-8 is part of words. At the interactive prompt the keys alone decide: letters are added to the text, backspace takes one off, tab completes it, enter and blank submit the word offered if there is one and, for the first place, if its version is known; left arrow drops the text and goes back a place but takes no word back, also before the first place, where any word is then accepted; other keys do nothing. The prompt returns the words submitted as soon as the place reached is the number of words that the last one submitted for the first place asks for, is aborted by the first CTRL+C or CTRL+D before that, and fails if the input ends before. With -simple, or without raw mode, lines are taken without the white space around them and in lower case; those that are no words are passed over, up to a line of 65536 bytes. `recover` and `convert` go on exactly with these words.", "quantifier": "every file, every sequence of bytes typed, and every environment and option; any lawful word list", "why_tests_cant": "An exact description holds for all byte sequences, including mixes of arrows, completions, invalid UTF-8 and words at the limit of a buffer; tests type a few phrases.", "anchors": ["cmd/mnemonikey/word_input.go: userInputMnemonic, userInputMnemonicSimple", "cmd/mnemonikey/recover.go: decodeMnemonicFromInput, readWordFile"]}
{"id": "C95", "title": "The dates that -verbose shows are the key's own", "statement": "For every second from 1970 to the end of the year 9999 the text Go writes for it (RFC 3339, UTC) denotes exactly this second in the Gregorian calendar: leap years, lengths of months, hours, minutes and seconds are right. A date denotes one second and a second has one date, so two tables with the same dates belong to the same second. With -verbose, `generate` and `recover` show the second in which the key was created and, if it expires, the second in which it does, both exactly those in the packets, and the user ID in quotes such that it can be read back. The seconds a phrase can hold are those from 2023-01-01T00:00:00Z to 2091-01-19T03:14:07Z.", "quantifier": "every second of 8030 years; every run of C80: option set, user ID of any bytes, environment, clock, phrase, passwords, random stream; any lawful word list and primitives", "why_tests_cant": "There are 253402300800 seconds, and whether a date is right depends on rules with exceptions of exceptions; tests look at a few dates.", "anchors": ["cmd/mnemonikey/terminal.go: printKeyDebugInfo", "mnemonikey.go: CreatedAt, Expiry", "derive.go: derivePGPKeySet", "parameters.go: EpochStart, MaxCreationTime"]}
{"id": "C96", "title": "Text in quotes can be read back and does nothing to the terminal", "statement": "Go's `%q`, which the program uses for the user ID, the values of -ttl and -only and an unknown subcommand, gives for every sequence of bytes, valid UTF-8 or not, a text in quotes that stands for exactly this sequence and no other, and that consists of characters of which none is a control character; printable ASCII is left as it is. Therefore no error of a command contains a control character, whatever the options and the files read hold, if the name of the word file and the texts of the operating system contain none. Messages about malformed command lines contain none either, except that an argument of bad syntax and the name of an unknown option are repeated as they are; this, and the name of the word file, is not quoted: an escape sequence in it reaches the terminal.", "quantifier": "every byte sequence, list of arguments, option set, environment, file, phrase and prompt result, every set of printable characters that contains printable ASCII and no control character", "why_tests_cant": "An input that gets a control character through, or two inputs with one text, can be any of infinitely many, including malformed UTF-8; tests quote a few strings.", "anchors": ["cmd/mnemonikey/terminal.go: printKeyDebugInfo", "cmd/mnemonikey/expiry.go: parseTTL", "cmd/mnemonikey/common_opts.go", "cmd/mnemonikey/main.go: main", "cmd/mnemonikey/recover.go: readWordFile", "cmd/mnemonikey/generate.go: saveMnemonic"]}
{"id": "C97", "title": "Nothing secret is seen of a run but where it has to be", "statement": "Apart from the bytes of the key and of the word file, what can be seen of a run without -verbose (messages, requests for words and passwords, files opened) is determined by the options. generate with -out-word-file: one sequence of events that is a function of the options; every run, whatever seed, clock, passwords, word list and failures, shows a beginning of it, and all of it if it succeeds. Without -out-word-file only the phrase follows, after the key; what is written around it (and around the phrase that convert shows) is a function of its words and the width of the terminal. recover and convert: besides the options only why the terminal could not be put into raw mode, whether the phrase has a password and how many wrong ones were typed; two runs of recover that succeed look the same if as many passwords are typed. convert from a word file opens no file. Exactly one password is read for each request.", "quantifier": "all options, word lists, primitives, environments, prompt results and random bytes; every pair of successful runs of recover", "why_tests_cant": "That nothing depends on a secret is a statement about all pairs of secrets; a test compares two.", "anchors": ["cmd/mnemonikey/generate.go: generateAndPrintKey, printMnemonic, saveMnemonic", "cmd/mnemonikey/recover.go: recoverAndPrintKey, decodeMnemonicFromInput", "cmd/mnemonikey/convert.go: decodeAndConvertPhrase", "cmd/mnemonikey/word_input.go: userInputMnemonic"]}
{"id": "C98", "title": "How many phrases there are, and how many with several words lost or wrong", "statement": "Exactly 2^159 lists of fourteen words and exactly 2^183 lists of sixteen words are accepted, and no list of another length (so an arbitrary list of fourteen words is accepted with probability 1 in 512). If any k of the words of a phrase other than the first are lost, exactly 128 * 4096^(k-1) of the 4096^k ways to fill the places are accepted, whatever the other words are. If exactly k words of an accepted phrase, other than the first, are replaced by other words, then of the 4095^k ways exactly (4095^k + 31)/32 are accepted for even k and (4095^k - 31)/32 for odd k: errors in several words go unnoticed nearly as often as a five-bit checksum can do at best, and no choice of places is better or worse than another.", "quantifier": "every lawful word list, every list of words, every set of places other than the first", "why_tests_cant": "The numbers of phrases and of errors are far beyond what can be tried; counts hold for all of them at once.", "anchors": ["recovery.go: DecodeMnemonic, ErrInvalidChecksum", "mnemonic/decode.go: DecodeWords"]}
{"id": "C99", "title": "A word file outlives whatever the program does later", "statement": "Any number of processes of the program, with any command lines, run on one machine at the same time or one after the other, and may be killed at any point. Every file that is there while none is running keeps its contents and permissions for ever. A generate that saves its phrase leaves, prints and shows exactly what it would alone, if every other process that is told to write the same file finds it there already: as soon as any byte of the key is printed the file holds the phrase that brings it back, at every later moment; and once it has succeeded, recover from that file succeeds and prints the same key, whatever ran since. Without this condition it fails: if two runs of generate with the same word file look for it before either has created it, both succeed and print their keys, the file ends up with the second phrase only, and the first is nowhere.", "quantifier": "every file system, every sequence of starts and actions of any number of processes, all arguments, environments, prompt results and random bytes; any lawful word list and primitives", "why_tests_cant": "Histories of several processes interleave in unboundedly many ways; tests run one process at a time in a fresh directory.", "anchors": ["cmd/mnemonikey/generate.go: saveMnemonic, generateAndPrintKey", "cmd/mnemonikey/recover.go: readWordFile", "cmd/mnemonikey/main.go: main"]}
{"id": "C100", "title": "The first eleven words are the seed and the last three the time", "statement": "At any one second, and for encrypted phrases under any one password and salt, the first eleven words of a new phrase correspond one-to-one to the sixteen bytes taken from the random source: the first word is one of 256 (the first 256 of the list for a plaintext phrase, the next 256 for an encrypted one), the ten after it can be any words, each such choice comes from exactly one string of bytes, so no word and no combination of words is more likely than another, and the words of an encrypted phrase that stand there do not restrict what the password can be. Of the words after them a plaintext phrase's depend on the time alone but for the five low bits of the last; an encrypted phrase has first two with the salt and five bits of the password's hash, and then the time again, not encrypted. So who knows eleven words and the second of creation can write down the plaintext phrase; and the twelfth and thirteenth words of two plaintext phrases agree exactly if the keys were created in the same 128 seconds.", "quantifier": "every 16-byte string, second, seed, non-empty password, salt; any lawful word list, Argon2id and AES", "why_tests_cant": "That a map of 2^128 strings is one-to-one and onto is not visible in any number of samples.", "anchors": ["seed.go: GenerateSeed", "encoding.go: EncodeMnemonicPlaintext, EncodeMnemonicEncrypted", "mnemonic/encode.go: EncodeToIndices, EncodeToWords"]}
{"id": "C101", "title": "Which spellings of a word are accepted", "statement": "strings.ToLower is followed character by character on arbitrary bytes, malformed ones too. A text is taken for a word of the list exactly if it spells it letter by letter, each letter in upper or lower case, or with the Kelvin sign (U+212A) for a k or the capital I with a dot above (U+0130) for an i; it spells at most one word. So DecodeMnemonic accepts exactly the lists of texts that spell the words of an encoding and reads them as that encoding, and a word file is accepted exactly if the words in it spell a phrase, and that phrase is used. Nothing else is folded: other characters outside ASCII, accents and malformed bytes never make a word. On ASCII texts the function does what all other claims assume.", "quantifier": "every byte string, list of byte strings and file content; any lawful word list and any table of lower cases in which only U+212A and U+0130 of the characters outside ASCII have ASCII lower cases", "why_tests_cant": "The texts are unbounded and the two characters that are accepted besides ASCII are not ones that a test would try.", "anchors": ["mnemonic/decode.go: DecodeWords", "recovery.go: ParseMnemonicVersion", "cmd/mnemonikey/recover.go: readWordFile", "cmd/mnemonikey/word_input.go: userInputMnemonicSimple"]}
{"id": "C102", "title": "Keys printed by several runs for one phrase come together in a keyring", "statement": "A process that generates a key and any number of processes that recover it from its phrase, with any options, print keys that all have one primary key, so a keyring that imports them holds: that one primary key; its secret if one of the runs was asked for the master key; each user ID asked for, with a certification for each lifetime asked for; each subkey asked for, with its secret and a binding for each lifetime; and nothing else. Neither the order nor the number of imports matters. In particular recover -only signing -sig-index n -self-cert=false adds exactly the signing subkey with index n and its secret to the keyring and changes nothing else. All certifications and bindings bear the creation time of the key, so of two with different lifetimes neither is the more recent.", "quantifier": "every list of runs of generate and recover for one seed and creation time, with any accepted options, passwords, word lists, primitives and random bytes; every order and repetition of imports", "why_tests_cant": "Keyrings grow over histories of runs with any combination of options; a test imports one key.", "anchors": ["README.md: Subkey Lifecycle", "cmd/mnemonikey/recover.go: recoverAndPrintKey", "cmd/mnemonikey/generate.go: generateAndPrintKey", "pgp/key_set.go: EncodePackets, EncodeSubkeyPackets", "pgp/master_key.go: SelfCertify, BindSubkey"]}
{"id": "C103", "title": "What is encrypted to a printed key can be read with the key from the phrase", "statement": "Anybody who has an encryption subkey from the outputs of some runs can encrypt to it as OpenPGP prescribes (X25519 with an ephemeral key, key derivation and AES key wrap of RFC 6637 and RFC 3394 with the parameters and the fingerprint in the key, padding of any allowed length, AES-256 data with a SHA-1 check), and whoever has the secret of that subkey from the outputs of any other runs for the same seed and creation time, with other options, passwords or user IDs, gets the data back from the message. Any two runs that were asked for the encryption subkey with the same index give the one the subkey, marked for encryption, and the other its secret; so messages to a key that generate printed are readable after a recovery from the phrase.", "quantifier": "all lists of runs for one seed and creation time, all ephemeral keys, session keys and paddings of a sender, all data below 2^32 - 41 bytes; any lawful primitives and Diffie-Hellman function", "why_tests_cant": "The test suite has no OpenPGP implementation that encrypts; whether the scalar exported by one run decrypts what was sent to the point exported by another depends on byte order, clamping, fingerprint and KDF parameters for all seeds and messages.", "anchors": ["pgp/encryption_subkey.go: NewCurve25519Subkey", "pgp/constants.go: DefaultKDFParameters", "pgp/ecc_key.go: encodePrivate", "derive.go: derivePGPKeySet", "README.md: Save your PGP identity as a list of English words. Use these words to recover lost keys"]}
{"id": "C104", "title": "What is signed with a recovered key is verified with a key printed before", "statement": "Whoever has the secret of a signing subkey from the outputs of some runs can make signatures of any type, at any time, over any data, and anybody who has that subkey from the outputs of any other runs for the same seed and creation time reads the signature, finds type and creation time as they were put in, and finds it valid. The same holds for the primary key (certifications of other keys, bindings of further subkeys, revocations) and, with bare Ed25519, for challenges answered with an authentication subkey. Any two runs that were asked for the subkey with the same index give the one the subkey, marked for its use, and the other its secret.", "quantifier": "all lists of runs for one seed and creation time, all signature types, times, data and challenges; any lawful primitives", "why_tests_cant": "Signatures made later, by other programs, over data that does not exist yet.", "anchors": ["pgp/ed25519_subkey.go: NewED25519Subkey", "pgp/master_key.go: NewED25519MasterKey", "pgp/ecc_key.go: encodePrivate", "derive.go: derivePGPKeySet"]}
{"id": "C105", "title": "What is corrected while typing leaves no trace", "statement": "Outside of raw mode the terminal's driver lets one take back the last character or the whole line. With -simple (or when raw mode fails), whenever the prompt waits for a line and when it returns, the terminal is, cell by cell and including scrollback and cursor, what it would be if every line had been typed without corrections, so that C78 applies: no character taken back and no word is left. While a line is typed its row shows the number of the word and the line as corrected so far and nothing else (before the first line has been entered, what stood further right may still stand), and no other row changes. The words accepted are those of the corrected lines, and a complete phrase entered with any corrections is returned. A password is read as corrected, also if its characters have several bytes; two different ways to type it agree if the corrected lines do, and nothing typed after it is consumed. CTRL+D within a password makes what was typed before it permanent and does nothing else; as long as return is not pressed, the password prompt waits, however often CTRL+D is. At the start of a line it ends the input of the simple prompt.", "quantifier": "all sequences of keys (characters, erase, kill line, return, CTRL+D) for lines of ASCII that fit on their row (any length and bytes for what is read), any lawful word list, every usable terminal of at least 46 columns with any content", "why_tests_cant": "Corrections can be interleaved with characters in unboundedly many ways, and what remains on a terminal is not visible to unit tests.", "anchors": ["cmd/mnemonikey/word_input.go: userInputMnemonicSimple, userInputPassword", "cmd/mnemonikey/terminal.go: previousLine, eraseLineForward"]}
{"id": "C106", "title": "Two processes with the same command line look the same", "statement": "Everything a process writes to standard error and asks for is, in order: the messages and prompts of its subcommand, if the command line runs one, and then what C89 tells (message about a malformed command line, usage text, error). Status and actions are those of the other claims. If no subcommand runs, all of it depends on the command line and the width of the terminal alone. A process that ends with status 0 writes nothing after the messages of its subcommand, and two processes with the same command line without -verbose, on terminals of the same width, that end with status 0, ask for as many passwords and show the same phrase if they show one, cannot be told apart by what they let be seen besides the bytes of the key and of the word file, whatever seeds, phrases, passwords, keys, clocks, files, word lists and random bytes are.", "quantifier": "all command lines, word lists, primitives, environments, prompt results and random bytes; every pair of processes", "why_tests_cant": "That nothing depends on a secret is a statement about all pairs of secrets and all command lines; tests do not look at standard error at all.", "anchors": ["cmd/mnemonikey/main.go: main, RootCommand", "cmd/mnemonikey/command.go: Run", "cmd/mnemonikey/generate.go: generateAndPrintKey", "cmd/mnemonikey/recover.go: recoverAndPrintKey", "cmd/mnemonikey/convert.go: decodeAndConvertPhrase"]}
{"id": "C107", "title": "Nothing typed or stored is lost between reads and prompts", "statement": "The words that recover and convert find in a file, and the lines that the prompt of -simple finds, are those of the whole input up to its end, wherever the operating system's reads divide it, also inside a character or between a carriage return and its line feed; only what takes more than the buffer's 64 KiB ends them. On a terminal, the prompt of -simple reads no line beyond the one that completes the phrase, and the password prompt that follows gets the next line, whole. `generate -unsafe-entropy -` takes the first 16 bytes as its seed, line feeds included, wherever reads divide them, and fails if there are fewer; it leaves what is behind them, so that on a terminal the rest of a line becomes the password that the following prompt reads.", "quantifier": "all contents and all divisions into pieces, all lines below 64 KiB, all lists of lines before and after the phrase, any lawful word list, all passwords without line feed, carriage return and backspace", "why_tests_cant": "Where reads divide the input depends on the operating system and on timing; a test reads from memory in one piece.", "anchors": ["cmd/mnemonikey/recover.go: readWordFile", "cmd/mnemonikey/word_input.go: userInputMnemonicSimple, userInputPassword", "cmd/mnemonikey/generate.go: generateAndPrintKey", "seed.go: GenerateSeed"]}
{"id": "C108", "title": "Everything typed at one terminal reaches the prompt it is meant for", "statement": "A command takes the words of the phrase (or the entropy) and all its passwords from one standard input, one reader after the other. A password prompt returns exactly if the lines that follow contain an accepted answer, after any number of empty lines and, where the password is to be confirmed, of pairs that differ; it takes those lines and no more. Whatever a command does with what is typed is what it does when each of its prompts is given the answer that stands next in the input; it stops waiting as soon as an answer is there, and what it has not read is left. So whoever enters a phrase (line by line, with any refused words, or key by key, or from a file), then any number of wrong passwords, each entered in any way, then the right one, then a password for the key, gets from recover the key for the seed, creation time and options, under that password; from convert, unless the words came from a file, the phrase under the new password; and from generate, a key and a phrase under the passwords typed, also if the entropy was typed before them. Nothing behind the last line is consumed.", "quantifier": "all inputs in any pieces, all words, passwords, wrong passwords, empty and differing lines in any number; any lawful word list and primitives, all options and random bytes", "why_tests_cant": "Each prompt can be tested on its own; that several readers of one input, with buffers of their own, hand it on without loss is a statement about all ways to divide and to type it.", "anchors": ["cmd/mnemonikey/word_input.go: userInputPassword, userInputMnemonicSimple, userInputMnemonic", "cmd/mnemonikey/recover.go: decodeMnemonicFromInput, recoverAndPrintKey", "cmd/mnemonikey/convert.go: decodeAndConvertPhrase", "cmd/mnemonikey/generate.go: generateAndPrintKey"]}
{"id": "C109", "title": "A password opens a phrase exactly if the phrase can have been made with it", "statement": "DecryptSeed with a non-empty password gives a seed for an accepted encrypted phrase exactly if EncodeMnemonicEncrypted makes these very words of that seed, the creation offset and the password, for some three bytes from the random source; so a wrong password that is accepted cannot be told from the right one by anything in the phrase. Every password opens exactly 2^178 of the 2^183 encrypted phrases, one in 32; exactly 2^19 phrases, one for each salt, hold a given seed and time under a given password. Which passwords open a phrase depends only on the four words behind the seed and the last without its checksum bits; among the phrases that agree there and that a password opens, exactly one holds each of the 2^128 seeds, so the check of the password tells nothing about the seed. What is hashed with a password has seven bytes that are different for different salts or times, and the root key is derived from four.", "quantifier": "every phrase, password, seed, salt and offset; any lawful word list, Argon2id and AES", "why_tests_cant": "The sets have 2^178 elements; a test can show that some wrong password is refused, not what a phrase gives away.", "anchors": ["recovery.go: DecryptSeed, DecodeMnemonic", "encoding.go: EncodeMnemonicEncrypted", "README.md: Encrypted Phrases"]}
{"id": "C110", "title": "From the keys somebody presses to the key of the phrase, through any history", "statement": "Terminal driver, prompts and commands together. Somebody presses keys, with any corrections: words in lines, among lines that are refused, or single keys in raw mode; then passwords, after any number of empty lines, wrong ones and repetitions that differ. If the corrected lines are the words of a phrase and its password, recover prints the key for the seed, creation time and options under the password typed for it, convert shows a phrase of the same seed and time under the new password, and generate prints a key and shows or saves a phrase, under the passwords as corrected; what is typed afterwards is left unread. Every phrase that is shown can be typed this way. A history, where generate shows a phrase, convert is run by hand any number of times, each time on the words shown before and with any change of passwords, and the last words are typed for recover, ends with a key of the seed and the second of creation of the key that generate printed. Keys pressed too early, while the terminal is in raw mode, are not lost, but their return is: a password typed before its prompt is joined with the line typed next.", "quantifier": "all sequences of keys, corrections, refused lines and wrong passwords; all histories of conversions; any lawful word list and primitives, all options, environments and random bytes (passwords of characters other than control characters; lines below 4095 bytes for words; entropy from the system or a file)", "why_tests_cant": "Histories and sequences of keys are unbounded, and no test runs the program at a terminal at all.", "anchors": ["cmd/mnemonikey/word_input.go: userInputMnemonic, userInputMnemonicSimple, userInputPassword", "cmd/mnemonikey/generate.go: generateAndPrintKey", "cmd/mnemonikey/convert.go: decodeAndConvertPhrase", "cmd/mnemonikey/recover.go: recoverAndPrintKey, decodeMnemonicFromInput"]}
{"id": "C111", "title": "Goroutines may use the same seeds at the same time", "statement": "A caller with any history of calls starts any number of goroutines that hold its seeds, decoded phrases and integers and make any further calls, on these and on those they make themselves. Accesses to the storage of integers are interleaved in any order. As long as no goroutine overwrites, by an assignment or through EncodeToIndices, an integer that it did not make itself: every goroutine that ends has seen the same results as if it had run alone, those of the model without storage; calls about what the caller held give what they would have given the caller; a goroutine ends after a number of accesses that does not depend on the others; and there is no data race, since no cell that one of them ever writes is ever read or written by another. Without that condition it is false: two calls of EncodeToIndices on one integer each return half of its indices.", "quantifier": "all histories before, all numbers of goroutines, all lists of calls of each, all schedules; any word list and primitives", "why_tests_cant": "Schedules are unbounded and not under the control of a test; the race detector only reports what happened in one run.", "anchors": ["seed.go: NewSeed, GenerateSeed, Int, Bytes, bigOne", "bit_buffer.go: newBitBuffer, PopLeadingBits, PopTrailingBits, AppendTrailingBits", "mnemonic/encode.go: EncodeToIndices, wordMask", "mnemonic/decode.go: DecodeIndices", "encoding.go: EncodeMnemonicPlaintext, EncodeMnemonicEncrypted", "recovery.go: DecodeMnemonic, DecryptSeed, Seed"]}
{"id": "C112", "title": "A phrase is saved where its path leads, among directories, links and permissions", "statement": "On a file system with directories, links and users (POSIX path resolution and permission checks), a run of any command is a run on the map of those paths that the process can read. With -out-word-file, at every moment of generate either nothing has changed and nothing was printed, or there is exactly one more file: in the directory and under the name where the path leads, owned by the user, with at most read and write permission for them, holding a beginning of the phrase; once anything of the key is printed it holds the whole phrase. Success means that the path was free and leads to this file now. Every other path leads where it led, for every user, and no other process of the program changes any file. No other user but root can read or write the file on any path; the user can read it unless their umask forbids it; recover, from any path on which the file can be read, prints the same key and changes nothing. What does not hold: a free name can be a dangling link that another user made, and then the phrase lands where they chose; and a directory given as a word file is reported as a file without words.", "quantifier": "all trees of files, directories, links and devices with any owners and modes, all users, groups, umasks, working directories and paths, every moment of every run; any lawful word list and primitives, all options, passwords and random bytes (one process at a time)", "why_tests_cant": "Trees, links and permissions are unbounded, and the repository's tests touch no file; that other paths are unaffected is a statement about all of them.", "anchors": ["cmd/mnemonikey/generate.go: saveMnemonic, generateAndPrintKey", "cmd/mnemonikey/recover.go: readWordFile, recoverAndPrintKey, decodeMnemonicFromInput", "cmd/mnemonikey/convert.go: decodeAndConvertPhrase", "cmd/mnemonikey/main.go: main"]}
{"id": "C113", "title": "Other users cannot get at a phrase while it is saved, unless the directory is shared", "statement": "generate -out-word-file while processes of other users create, link, rename, remove, open and write files as far as their permissions go, between any two lookups of a name and any two bytes written. Call a path firm if every directory in which a name of it is looked up, also behind links, belongs to the user or root and can be written to by no one else (or is sticky and has under that name a node of the user or root). On a firm path to a free name, at every moment either no file is there, or one that belongs to the user, holds a beginning of the phrase, and that no other user but root has open or may open; success means that it holds the whole phrase; this stays so whatever others do later, so that recover prints the key then. saveMnemonic returns on a firm path what it would return undisturbed, and if the path is not free it changes nothing. On any path it ends, however others interfere. In a shared directory such as /tmp the same holds from the moment at which it creates the file itself; but it can fail to: another user can put a file of their own in the place between os.Stat and os.WriteFile, the phrase is then written into it without an error, and they can read it.", "quantifier": "all trees, users, modes and paths; all interleavings with any number of processes of other users and all that their permissions allow (a relation that nine system calls are proved to stay within); all words, failures of opening and writing", "why_tests_cant": "Races between processes are not under the control of a test, and what others cannot do is a statement about all they could do.", "anchors": ["cmd/mnemonikey/generate.go: saveMnemonic, generateAndPrintKey", "cmd/mnemonikey/recover.go: readWordFile, recoverAndPrintKey"]}
{"id": "C114", "title": "Several runs can save phrases at the same time, unless they go for one name", "statement": "Any number of runs of generate -out-word-file, by any users, save phrases at the same time, while processes of further users do what their permissions allow; steps of all of them (lookups of single names, bytes written) are interleaved in any order. If the paths are firm (see C113) and lead to free places no two of which are the same, then for every run, at every moment, there is no file in its place, or one of its user that holds a beginning of its own phrase and that no other user but root has open or may open; success means that it holds the whole phrase, and saveMnemonic returns what it would return if the run were alone. Every run that goes on now and then ends, whatever the others do and wherever the paths lead. For one name it is false: two runs of the same user can both find the name free, and both report success although only the second phrase is in the file, with what stands beyond its end in the first; nothing of the first if that is not longer.", "quantifier": "any number of runs, users, words and failures of opening and writing; all trees and paths, all interleavings; for the failure, all pairs of phrases", "why_tests_cant": "Interleavings of processes are not under the control of a test, and their number has no bound.", "anchors": ["cmd/mnemonikey/generate.go: saveMnemonic, generateAndPrintKey"]}
{"id": "C115", "title": "A word file that ends too early", "statement": "Of the text of a phrase only the beginning is left in a file (a write that failed, a copy that broke off, a reader who came too early). recover and convert read it as a phrase exactly if it is the whole text, the text without its line feed, or ends inside the last word with letters that are a word of the list themselves. So with a list in which no word begins another, what is read is the phrase or nothing. Otherwise the checksum decides; whether it notices one wrong word (other than the first) depends only on the place of the word and the exclusive or of the two indices, and for 127 of the 4095 wrong values it does not. If it accepts the word that is left, the seed, the salt and the version are the right ones and the creation time is wrong, within 128 seconds. If recover succeeds on such a file, it was the whole text (line feed or not) or this happened; whoever reads the file at any moment while it is being saved on a firm path (see C113) gets the phrase, or this, and the latter not after saveMnemonic succeeded. It can happen: with a list that has the words al and all there is a phrase whose file, two bytes shorter, is recovered without an error as another key.", "quantifier": "all phrases of any lawful word list, all beginnings of their texts, all moments of saving with any interference of other users, all options, passwords and random bytes of recover", "why_tests_cant": "All phrases of all lists, and a failure that at most one in 32 wrong words shows; the repository's tests write no word files.", "anchors": ["cmd/mnemonikey/recover.go: readWordFile, recoverAndPrintKey, decodeMnemonicFromInput", "cmd/mnemonikey/generate.go: saveMnemonic", "recovery.go: DecodeMnemonic"]}
{"id": "C116", "title": "Different phrases give different keys, unless a primitive collides", "statement": "Two keys that the program derives (master keys or subkeys, of any types, indices, seeds and seconds) have the same fingerprint, or the same public point on the same curve, only if seed, second, type and index are the same, or if Argon2id, HKDF, Ed25519, X25519 or SHA-1 gives the same for two different inputs that are the very inputs it gets for these two keys. So two processes (generate or recover, with any options) that print keys with one fingerprint had one seed and one second, and if their phrases are plain phrases of one list, these are the same words. If keys printed for any number of phrases are imported into one keyring, what it then says about any key of one phrase (primary keys, user IDs, subkeys and who bound them, secrets) is what it would say had it got the keys of this phrase alone. The exception in each case is a collision between this phrase and another one, for which the proof gives the place.", "quantifier": "all pairs of keys, seeds, seconds, types and indices; all pairs of processes, options, phrases, word lists and passwords; all lists of imports; any lawful primitives", "why_tests_cant": "That no two phrases lead to one key is a statement about all pairs of 2^159 phrases.", "anchors": ["derive.go: keyExpandInfoSubkey, hkdfExpand, derivePGPKeySet", "mnemonikey.go: New, Fingerprint", "pgp/ecc_key.go: FingerprintV4", "cmd/mnemonikey/recover.go: recoverAndPrintKey", "cmd/mnemonikey/generate.go: generateAndPrintKey"]}
{"id": "C117", "title": "No key is made from another", "statement": "README: subkeys are derived in parallel from the root key and not from one another, and the master key cannot be used to re-derive subkeys. A process depends on HKDF only at the labels of the keys it is asked for: if another HKDF gives the same there, for any root key, then every text written, every file saved and the exit status are the same, for any arguments, environment, typed passwords and random bytes. convert derives no key; it is the same under any Ed25519, X25519, HKDF, AES-256 and hash functions. So for every key that was not asked for and any 32 bytes there are lawful primitives under which the key is made of just these bytes, while the master key, all other subkeys of the phrase and every run that does not ask for this key stay exactly as they are; one choice of primitives does for all these runs at once. Conversely, if two runs under HKDFs that differ anywhere print the same text, the subkeys asked for have the same secrets (the encryption subkey the same scalar), the master key the same public point, and the same secret if it was asked for.", "quantifier": "all HKDF functions, keys, types and indices; all command lines, environments, word lists, inputs, passwords and random bytes, failing runs included", "why_tests_cant": "That a value does not enter a computation is a statement about all values it could have; a test sees one HKDF.", "anchors": ["derive.go: hkdfExpand, keyExpandInfoSubkey, derivePGPKeySet", "mnemonikey.go: New, EncodeSubkeysPGP", "cmd/mnemonikey/generate.go: generateAndPrintKey", "cmd/mnemonikey/recover.go: recoverAndPrintKey", "cmd/mnemonikey/convert.go: decodeAndConvertPhrase"]}
{"id": "C118", "title": "An export does not change memory that anyone else holds", "statement": "Package pgp and derive.go on a memory of byte arrays, where a slice is a window of an array and append writes into the array when the capacity suffices. Whatever else is in memory, however the slices of the keys, of the password and of others overlap, and whatever capacities the run-time system gives to new arrays: deriving a key set and exporting it (whole, or its subkeys only, with any password, also one that is a piece of a key) give the bytes, or the failure, of the model on values and use as much of the random source; the bytes are in an array that did not exist before; and no array that existed before is written to, not even with the bytes it has: keys, password, package variables, earlier results and all else. So exports at the same time only read what they share, and any number of exports in a row each give what they give alone. This hangs on capacities: stringToKey, given a salt in an array with room behind it, writes the password there, and an append to PrivateSerialized of an Ed25519 key would change the public half of its signing key.", "quantifier": "all memories, key sets, passwords and windows with any overlap, all capacities of new arrays, all random bytes, seeds, times and options; any lawful primitives", "why_tests_cant": "Overlaps and capacities are unbounded, capacities are chosen by the run-time system and differ between Go versions, and a test looks only at the result, not at all other memory.", "anchors": ["pgp/s2k.go: stringToKey, EncryptS2K", "pgp/signature.go: encodeSubpackets, Encode", "pgp/sign.go: Sign", "pgp/ecc_key.go: encodePublic, encodePrivate, encodePrivateDummy, FingerprintV4", "pgp/key_set.go: EncodePackets, EncodeSubkeyPackets", "pgp/master_key.go: NewED25519MasterKey, SelfCertify, BindSubkey", "pgp/encryption_subkey.go: NewCurve25519Subkey, reverse", "derive.go: derivePGPKeySet"]}
{"id": "C119", "title": "Every random byte is used once", "statement": "The random parts of a printed key are the salt and the initialisation vector of each encrypted secret: 24 bytes for the master key, if it is printed, and for each subkey; none without a password. Of the bytes that the system's random source yields, generate uses the first 16 as the seed (none if -unsafe-entropy names another source), the next ones, cut into pieces, are the random parts of the printed key, one piece for each secret; the next three, for an encrypted phrase, give its salt by their last 19 bits; nothing beyond that is touched. The same for recover (only the parts of the key) and convert (only the salt). So no byte serves two purposes, none is skipped, and no salt or vector is used for two secrets or made from anything else. And the random parts determine the bytes: two exports of one key with the same random parts took the same bytes, so uniform bytes give uniform and independent random parts. All this holds of whole processes, from the command line to the text on standard output and the phrase in the file or on standard error: what the process has left of the source is just what lies behind these pieces.", "quantifier": "all random bytes, seeds, times, options, passwords, phrases and prompts that let the commands succeed; any lawful word list and primitives", "why_tests_cant": "A test sees some values of some runs; that two of them never come from one byte is a statement about all values of the source, and the repository's tests use crypto/rand directly.", "anchors": ["pgp/s2k.go: EncryptS2K", "pgp/key_set.go: EncodePackets, EncodeSubkeyPackets", "seed.go: GenerateSeed", "encoding.go: EncodeMnemonicEncrypted", "cmd/mnemonikey/generate.go: generateAndPrintKey", "cmd/mnemonikey/recover.go: recoverAndPrintKey", "cmd/mnemonikey/convert.go: decodeAndConvertPhrase"]}
{"id": "C120", "title": "When a printed key is valid", "statement": "By the rules of RFC 4880 (a lifetime counts from the creation of the key, zero means none, and nothing is valid before it was made), the master key and every subkey that generate or recover prints are valid from the second of creation on, for ever without -ttl and for just the lifetime that -ttl asks for otherwise, whenever the command is run; at the second at which generate makes it a key is valid. In a keyring that has imported the outputs of several runs for one phrase with different lifetimes, where the age of the signatures does not decide between them (see C102): until the shortest lifetime has passed everything is valid and after the longest nothing is, whichever signatures the reader goes by; in between it depends on which. recover -ttl with a lifetime that has passed already succeeds like any other run and prints a key no part of which is valid.", "quantifier": "all seconds; all runs of generate and recover with accepted options, any phrases, passwords, word lists, primitives and random bytes; all lists of imports", "why_tests_cant": "A test looks at one moment, and at keys that it has just made; here moment, lifetime and order of runs are arbitrary.", "anchors": ["cmd/mnemonikey/common_opts.go: AddFlags", "cmd/mnemonikey/recover.go: recoverAndPrintKey", "cmd/mnemonikey/generate.go: generateAndPrintKey", "cmd/mnemonikey/expiry.go: parseTTL", "mnemonikey.go: New", "pgp/master_key.go: SelfCertify, BindSubkey"]}
{"id": "C121", "title": "Outputs that do not take everything are not noticed", "statement": "The program looks at no result of a write to standard output or standard error. If either refuses what is written to it at any point (a full disk, a closed descriptor), every run goes on and ends as it would otherwise, with the same files, messages and exit status; to every run there is one with the same moves in which the outputs take nothing at all, so success does not mean that a key was printed. Standard output has then taken a beginning of the armored key in one piece and at most the line feeds of the password prompts, so that a reader who follows RFC 4880 finds the key that was to be printed or none, never another or a part. With -out-word-file the phrase that brings the key back is in the file once generate has succeeded, and before a reader finds the key, whatever the outputs took. Without it a phrase that standard error has taken brings back the key, but if standard error takes nothing either, generate ends with status 0 and has left key and phrase nowhere. Outputs that take everything have taken what C68 says.", "quantifier": "all commands, options, schedules of the goroutines, answers of the outputs to every byte and every phrase, points at which the process dies; any word list and primitives", "why_tests_cant": "The tests of the repository give the program pipes that take everything; here the outputs answer to every byte as they like.", "anchors": ["cmd/mnemonikey/generate.go: generateAndPrintKey, printMnemonic", "cmd/mnemonikey/recover.go: recoverAndPrintKey", "cmd/mnemonikey/word_input.go: eprint, eprintf, eprintln, userInputPassword"]}
{"id": "C122", "title": "Encrypted phrases and keys show seeds only through Argon2id and AES", "statement": "Give every 16-byte seed another name, by any permutation, and let Argon2id (where it makes the root key) and the AES block of phrases take the new names for the old ones. Then the seed leaves no other trace: generate -encrypt-phrase on the renamed seed and the renamed primitives writes and does byte for byte what it does on the seed itself, with the same exit status, -verbose and failing runs included; so do recover and convert -encrypt-phrase when the plaintext phrase entered at the prompt is that of the renamed seed (apart from the echo of the words at the prompt itself); and every run that is given encrypted phrases only and prints no plaintext one is unchanged by the renaming. So to any two seeds there are lawful primitives under which the second gives, in every run of generate and every run that its phrase is entered in, just what the first gives under the given ones, while all runs of recover and convert on encrypted phrases stay as they are: whoever sees the encrypted phrase, the armored key, the messages and the status, and knows the password but cannot compute Argon2id and AES, learns nothing of the seed. encoding.go claims this for the phrase: it shows version and creation time, but not the keys.", "quantifier": "all permutations of seeds, lawful primitives and word lists, command lines, environments, prompts (also interrupted ones), random bytes and typed keys; for generate the seeds that the system's random source gives", "why_tests_cant": "That a value does not show in an output is a statement about all values and all primitives; a test sees one seed and one Argon2id.", "anchors": ["encoding.go: EncodeMnemonicEncrypted", "recovery.go: DecryptSeed", "derive.go: derivePGPKeySet", "mnemonikey.go: New", "cmd/mnemonikey/generate.go: generateAndPrintKey, printMnemonic", "cmd/mnemonikey/recover.go: recoverAndPrintKey", "cmd/mnemonikey/convert.go: decodeAndConvertPhrase"]}
{"id": "C123", "title": "A phrase's password shows only through Argon2id", "statement": "Give every password an alias, by any permutation of the byte strings that leaves the empty one alone, and let Argon2id take aliases for passwords where it makes the 17 bytes that encrypt and verify a phrase. Then the password of a phrase leaves no other trace, neither its bytes nor its length: generate, and convert with all that it asks for, write and do byte for byte the same when the alias is entered for the password, with the same exit status, -verbose, wrong passwords, interrupted prompts and failing runs included; so does recover, when aliases are entered as often as it asks for the phrase's password. The password of a key, before or after it, stays as it is, and so do Argon2id where it makes keys and all other primitives. So to any two passwords there are lawful primitives, which differ from the given ones only in what Argon2id makes of these two in 17 bytes, under which they have changed places in all runs at once: whoever sees the phrases, the keys, all messages and the status, and even the seed, but cannot compute Argon2id, cannot tell one phrase password from another, except that it was not empty.", "quantifier": "all permutations of passwords of any length, primitives and word lists, command lines, environments, phrases given, prompts (also interrupted ones) and random bytes", "why_tests_cant": "That a password does not show in any output is a statement about all pairs of passwords and all functions in the place of Argon2id.", "anchors": ["encoding.go: EncodeMnemonicEncrypted", "recovery.go: DecryptSeed", "cmd/mnemonikey/generate.go: generateAndPrintKey", "cmd/mnemonikey/recover.go: recoverAndPrintKey, decodeMnemonicFromInput", "cmd/mnemonikey/convert.go: decodeAndConvertPhrase", "cmd/mnemonikey/word_input.go: userInputPassword"]}
{"id": "C124", "title": "A run takes from its surroundings only what its options name", "statement": "Take two machines with terminals of the same width, the same answers to prompts and the same random bytes. recover and convert do the same on both, at any two times, when the same phrase is typed or, with -in-word-file, when the file of that name has the same content; how the terminal answers to a change of its mode matters only when the phrase is typed without -simple, and how a file can be written only to convert with -in-word-file. generate does the same on both in the same second: standard input matters only with -unsafe-entropy -, a file's content only when -unsafe-entropy names it, and of other files only with -out-word-file whether that one exists and how it can be written. Doing the same covers all text on both outputs, prompts and files saved, byte for byte and in order, and the exit status, for failing runs and refused command lines too. The one second that is not uniform is the last one a phrase can hold (19 January 2091, 03:14:07 UTC): a generate that succeeds now would succeed on its first nanosecond and fails in the rest of it.", "quantifier": "all command lines, pairs of environments (clocks, files, standard inputs, failures), answers to prompts and random bytes, primitives and word lists", "why_tests_cant": "That nothing else is looked at is a statement about pairs of runs that agree in part and differ arbitrarily in the rest; a test holds one machine fixed.", "anchors": ["mnemonikey.go: New", "cmd/mnemonikey/generate.go: generateAndPrintKey, saveMnemonic, printMnemonic", "cmd/mnemonikey/recover.go: recoverAndPrintKey, decodeMnemonicFromInput", "cmd/mnemonikey/convert.go: decodeAndConvertPhrase", "cmd/mnemonikey/main.go: main"]}
{"id": "C125", "title": "The length of a secret under a password shows how many octets it has", "statement": "A key printed with -encrypt-keys by generate or recover, looked at by somebody without the password: the encrypted field of every secret is exactly 22 octets longer than the secret without its leading zeros, whatever password, salt and IV. For the encryption subkey this is always 54 octets. For the Ed25519 secrets (master, authentication and signing) it is not: two printed keys with passwords have encrypted master secrets of the same length exactly if the secrets have the same number of octets, so that one secret in 256 is seen to begin with a zero octet. Nothing else about the secrets is in the lengths: keys of one seed and second have the same.", "quantifier": "all seeds, seconds, options, passwords, random bytes and primitives that satisfy their contracts, every pair of printed keys", "why_tests_cant": "A short secret occurs once in 256 keys and needs a search to construct; that the length depends on nothing else is a statement about all of them.", "anchors": ["pgp/mpi.go: EncodeMPI", "pgp/ecc_key.go: encodePrivate", "pgp/s2k.go: EncryptS2K", "cmd/mnemonikey/generate.go: generateAndPrintKey", "cmd/mnemonikey/recover.go: recoverAndPrintKey"]}
{"id": "C126", "title": "Which passwords open a printed key", "statement": "The AES key that protects a secret is the SHA-256 of salt and password repeated to 65011712 octets, so other passwords can lead to the same octets. For passwords p and q of together at most 65011696 octets they do exactly if p, salt, q reads the same as q, salt, p. Then p and q are equal, or one is the other followed by the salt and possibly something more, or the salt repeats itself with a period d shorter than 8 and the longer one is the other followed by the first d octets of the salt; fewer than one salt in 255 repeats itself. So every secret of a printed key is opened, with the same result, also by a second password, for instance by the one typed, the salt and the one typed again. But no password other than the one typed has the same octets for two different salts: another password that opens two secrets of the key with different salts shows two different strings with the same SHA-256, or a secret that is under two AES keys an integer followed by its SHA-1. In any case a password opens an encrypted secret, by RFC 4880, exactly if EncryptS2K can have made it with this password, and gives the integer it was made of.", "quantifier": "all passwords, salts, IVs and encrypted fields, all printed keys, seeds, seconds, options and random bytes; any lawful primitives", "why_tests_cant": "The octets hashed are 65011712 for each password and the passwords unbounded; that no others agree is a statement about all of them, and the repository's tests use one password.", "anchors": ["pgp/s2k.go: stringToKey, s2kCountDecode, EncryptS2K", "pgp/ecc_key.go: encodePrivate", "cmd/mnemonikey/generate.go: generateAndPrintKey", "cmd/mnemonikey/recover.go: recoverAndPrintKey"]}
{"id": "C127", "title": "A copy of a printed key with a wrong character is refused", "statement": "Take the armored text that generate or recover prints, as the armor library writes it, and replace any one octet of it by any other: a character of the data, of the padding, of the checksum, of the first or last line, or a line feed. A reader who follows RFC 4880 then gets no key at all, neither the one printed nor another one. The reason is that the checksum (CRC-24) differs whenever up to three neighbouring octets of the key have changed, and that for a changed padding, where an octet is added to or missing at the end of the key, the packets are not complete. For four neighbouring octets the checksum can be the same. That reader wants the bits of the last group that stand for no octet to be 0, as they are written; a reader that ignores them gets no key, or exactly the key printed, and the latter from some wrong copy if and only if the text has padding.", "quantifier": "all keys, seeds, options, passwords and random bytes, all places in the text and all octets put there; all octet strings before and after the changed ones", "why_tests_cant": "A text has some 2000 places with 255 wrong octets each, for each of all keys; the repository's tests damage no text.", "anchors": ["mnemonikey.go: EncodePGPArmor, EncodeSubkeysPGPArmor, armorEncode", "cmd/mnemonikey/generate.go: generateAndPrintKey", "cmd/mnemonikey/recover.go: recoverAndPrintKey"]}
{"id": "C128", "title": "A copy of a printed key with a missing or surplus character is not another key", "statement": "Take the armored text that generate or recover prints, as the armor library writes it, and leave out any one octet of it, or put any octet in at any place, the beginning and the end included. A reader who follows RFC 4880 then gets nothing, or octet by octet the key that was printed; never another key or a part of one. If an octet is left out and the key is still read, the octet was a line feed. If the data is broken into lines in any other way, with or without empty lines, the key is read, except that nothing is read if a line begins with the padding. Any text before and after it, on lines of its own, does no harm, if no line of it before the key is the header line of a key.", "quantifier": "all keys, seeds, options, passwords and random bytes, all places in the text and all octets put in there", "why_tests_cant": "A surplus character can be any of 256 octets at each of some 2000 places, for each of all keys; the repository's tests damage no text.", "anchors": ["mnemonikey.go: EncodePGPArmor, EncodeSubkeysPGPArmor, armorEncode", "cmd/mnemonikey/generate.go: generateAndPrintKey", "cmd/mnemonikey/recover.go: recoverAndPrintKey"]}
{"id": "C129", "title": "A copy of a printed key with two neighbouring characters exchanged is not another key", "statement": "Take the armored text that generate or recover prints, as the armor library writes it, and let any two different neighbouring octets change places. A reader who follows RFC 4880 then gets nothing, or octet by octet the key that was printed; the latter only if one of the two was a line feed. Within the data this is because the exchange changes at most three neighbouring octets of the key, which the checksum (CRC-24) notices, and leaves the padding as long as it was.", "quantifier": "all keys, seeds, options, passwords and random bytes, all places in the text", "why_tests_cant": "For each of all keys there are some 2000 places; the repository's tests damage no text.", "anchors": ["mnemonikey.go: EncodePGPArmor, EncodeSubkeysPGPArmor, armorEncode", "cmd/mnemonikey/generate.go: generateAndPrintKey", "cmd/mnemonikey/recover.go: recoverAndPrintKey"]}
