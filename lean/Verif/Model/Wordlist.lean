import Verif.Basic

/-!
# External dependency `github.com/kklash/wordlist4096` and `strings.ToLower`

The word list is not in `/repo`; it is a parameter with the contract `WordList.Lawful`.
`BitsPerWord` is 12 (4096 words).
-/

namespace Verif.Model

/-- `wordlist4096.BitsPerWord`, re-exported at mnemonic/encode.go:14 -/
def bitsPerWord : Nat := 12

/-- ASCII lower-casing of one byte. -/
def asciiLower (b : Byte) : Byte := if 0x41 ≤ b ∧ b ≤ 0x5A then b + 0x20 else b

/-- The word list package together with `strings.ToLower`. -/
structure WordList where
  /-- `wordlist4096.WordList[i]` -/
  word : Nat → Bytes
  /-- `wordlist4096.WordMap[w]` -/
  lookup : Bytes → Option Nat
  /-- `strings.ToLower`, a Unicode function: only its ASCII behaviour is fixed by the contract. -/
  toLower : Bytes → Bytes
  /-- `wordlist4096.Search(w).Suffixes` -/
  suffixes : Bytes → List Bytes
  /-- `wordlist4096.Search(w).ExactMatch` -/
  exactMatch : Bytes → Bool

/-- A lower-case ASCII letter. -/
def isLowerAz (b : Byte) : Bool := 0x61 ≤ b && b ≤ 0x7A

structure WordList.Lawful (L : WordList) : Prop where
  /-- The map is the inverse of the list; in particular the 4096 words differ. -/
  lookup_iff : ∀ w i, L.lookup w = some i ↔ i < 4096 ∧ L.word i = w
  /-- Words are non-empty and consist of the letters a-z. -/
  word_ne : ∀ i, i < 4096 → L.word i ≠ []
  word_az : ∀ i, i < 4096 → ∀ b ∈ L.word i, isLowerAz b = true
  /-- Words fit in the buffer of a `bufio.Scanner`. -/
  word_short : ∀ i, i < 4096 → (L.word i).length < 65536
  /-- `strings.ToLower` on ASCII input. -/
  lower_ascii : ∀ w : Bytes, (∀ b ∈ w, b < 0x80) → L.toLower w = w.map asciiLower
  /-- `Search` only returns suffixes that complete the query to a list word. -/
  suffix_word : ∀ q s, s ∈ L.suffixes q → ∃ i, i < 4096 ∧ L.word i = q ++ s
  /-- For a complete word the empty suffix comes first. -/
  suffix_exact : ∀ i, i < 4096 → ∃ r, L.suffixes (L.word i) = [] :: r
  /-- `ExactMatch` tells the words of the list. -/
  exact_iff : ∀ w, L.exactMatch w = true ↔ ∃ i, i < 4096 ∧ L.word i = w

end Verif.Model
