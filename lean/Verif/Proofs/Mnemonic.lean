import Verif.Proofs.BigInt
import Verif.Proofs.Digits
import Verif.Model.Mnemonic

/-! Closed forms of the index and word codecs. -/

namespace Verif.Model

theorem size_gt_12 (i : Nat) : i.size > bitsPerWord ↔ 4096 ≤ i := by
  have := @Nat.size_le i 12
  simp only [bitsPerWord]
  norm_num at this
  omega

theorem land_wordMask (v : Nat) : Int.land (v : Int) wordMask = ((v % 4096 : Nat) : Int) := by
  have h : wordMask = ((2 ^ 12 - 1 : Nat) : Int) := by simp [wordMask, bitsPerWord]
  rw [h, land_natCast, Nat.and_two_pow_sub_one_eq_mod]

theorem encodeLoop_nat (i v : Nat) (acc : List Nat) :
    encodeLoop i (v : Int) acc =
      if v < 4096 ^ i then .ok (digitsBE 4096 i v ++ acc) else .panic .indexOutOfRange := by
  induction i generalizing v acc with
  | zero =>
    simp only [encodeLoop, bitLen_natCast, pow_zero, Nat.lt_one_iff, digitsBE, List.nil_append]
    by_cases h : v = 0
    · simp [h]
    · have : v.size > 0 := Nat.size_pos.mpr (Nat.pos_of_ne_zero h)
      simp [h, this]
  | succ i ih =>
    simp only [encodeLoop, bitLen_natCast]
    by_cases h : v = 0
    · subst h
      simp [digitsBE_zero]
    · have hs : v.size > 0 := Nat.size_pos.mpr (Nat.pos_of_ne_zero h)
      have e1 : rsh (v : Int) bitsPerWord = ((v / 4096 : Nat) : Int) := by
        rw [rsh_natCast]; rfl
      have e2 : v % 4096 % 2 ^ 64 % 2 ^ 16 = v % 4096 := by omega
      simp only [hs, if_true, e1, land_wordMask, uint64_natCast, e2, ih]
      have e3 : v / 4096 < 4096 ^ i ↔ v < 4096 ^ (i + 1) := by
        rw [pow_succ, Nat.div_lt_iff_lt_mul (by norm_num)]
      simp [e3, digitsBE]

theorem encodeToIndices_nat (v bitSize : Nat) :
    encodeToIndices (v : Int) bitSize =
      if v < 2 ^ bitSize then .ok (digitsBE 4096 ((bitSize + 11) / 12) v)
      else .err .payloadTooLarge := by
  have hsz := @Nat.size_le v bitSize
  by_cases h : v < 2 ^ bitSize
  · have h1 : ¬ v.size > bitSize := by omega
    have h2 : v < 4096 ^ ((bitSize + 11) / 12) := by
      refine lt_of_lt_of_le h ?_
      have : (4096 : Nat) = 2 ^ 12 := by norm_num
      rw [this, ← pow_mul]
      exact Nat.pow_le_pow_right (by norm_num) (by omega)
    have h3 : (bitSize + bitsPerWord - 1) / bitsPerWord = (bitSize + 11) / 12 := rfl
    simp only [encodeToIndices, bitLen_natCast, h1, if_false, h, if_true, h3, encodeLoop_nat, h2,
      List.append_nil]
  · have h1 : v.size > bitSize := by omega
    simp [encodeToIndices, h1, h]

theorem decodeLoop_nat (p : Nat) (is : List Nat) (h : ∀ i ∈ is, i < 4096) :
    decodeLoop (p : Int) is = .ok ((p * 4096 ^ is.length + ofDigitsBE 4096 is : Nat) : Int) := by
  induction is generalizing p with
  | nil => simp [decodeLoop]
  | cons i is ih =>
    have hi : i < 4096 := h i (by simp)
    have h1 : ¬ i.size > bitsPerWord := by rw [size_gt_12]; omega
    have h2 : Int.lor (lsh (p : Int) bitsPerWord) (i : Int) = ((p * 4096 + i : Nat) : Int) :=
      lor_append p 12 i (by simpa using hi)
    simp only [decodeLoop, h1, if_false, h2]
    rw [ih _ (fun j hj => h j (by simp [hj])), ofDigitsBE_cons]
    simp only [List.length_cons, pow_succ]
    congr 2
    ring

theorem decodeIndices_nat (is : List Nat) (h : ∀ i ∈ is, i < 4096) :
    decodeIndices is = .ok ((ofDigitsBE 4096 is : Nat) : Int) := by
  have := decodeLoop_nat 0 is h
  simpa [decodeIndices] using this

theorem decodeLoop_err (p : Int) (is : List Nat) (h : ∃ i ∈ is, 4096 ≤ i) :
    decodeLoop p is = .err .invalidIndex := by
  induction is generalizing p with
  | nil => simp at h
  | cons i is ih =>
    by_cases hi : 4096 ≤ i
    · simp [decodeLoop, (size_gt_12 i).mpr hi]
    · have h1 : ¬ i.size > bitsPerWord := by rw [size_gt_12]; exact hi
      simp only [decodeLoop, h1, if_false]
      apply ih
      obtain ⟨j, hj, hj'⟩ := h
      simp only [List.mem_cons] at hj
      rcases hj with rfl | hj
      · exact absurd hj' hi
      · exact ⟨j, hj, hj'⟩

theorem encodeToWords_ok (L : WordList) (is : List Nat) (h : ∀ i ∈ is, i < 4096) :
    encodeToWords L is = .ok (is.map L.word) := by
  induction is with
  | nil => rfl
  | cons i is ih =>
    have hi : i < 4096 := h i (by simp)
    have h1 : ¬ i.size > bitsPerWord := by rw [size_gt_12]; omega
    simp [encodeToWords, h1, ih (fun j hj => h j (by simp [hj]))]

theorem encodeToWords_err (L : WordList) (is : List Nat) (h : ∃ i ∈ is, 4096 ≤ i) :
    encodeToWords L is = .err .invalidIndex := by
  induction is with
  | nil => simp at h
  | cons i is ih =>
    by_cases hi : 4096 ≤ i
    · simp [encodeToWords, (size_gt_12 i).mpr hi]
    · have h1 : ¬ i.size > bitsPerWord := by rw [size_gt_12]; exact hi
      have : ∃ i ∈ is, 4096 ≤ i := by
        obtain ⟨j, hj, hj'⟩ := h
        simp only [List.mem_cons] at hj
        rcases hj with rfl | hj
        · exact absurd hj' hi
        · exact ⟨j, hj, hj'⟩
      simp [encodeToWords, h1, ih this]

/-- `decodeWords` succeeds with `is` iff every word looks up to the index at its place. -/
theorem decodeWords_ok_iff (L : WordList) (ws : List Bytes) (is : List Nat) :
    decodeWords L ws = .ok is ↔ ws.map (fun w => L.lookup (L.toLower w)) = is.map some := by
  induction ws generalizing is with
  | nil => cases is <;> simp [decodeWords]
  | cons w ws ih =>
    simp only [decodeWords, List.map_cons]
    cases hl : L.lookup (L.toLower w) with
    | none => cases is <;> simp
    | some i =>
      simp only [Res.bind_eq_ok, Res.ok.injEq]
      constructor
      · rintro ⟨js, h1, rfl⟩
        simp [(ih js).mp h1]
      · intro h
        cases is with
        | nil => simp at h
        | cons j js =>
          simp only [List.map_cons, List.cons.injEq, Option.some.injEq] at h
          exact ⟨js, (ih js).mpr h.2, by rw [h.1]⟩

theorem decodeWords_err_iff (L : WordList) (ws : List Bytes) :
    (∃ w ∈ ws, L.lookup (L.toLower w) = none) ↔ decodeWords L ws = .err .invalidWord := by
  induction ws with
  | nil => simp [decodeWords]
  | cons w ws ih =>
    simp only [decodeWords, List.mem_cons, exists_eq_or_imp]
    cases hl : L.lookup (L.toLower w) with
    | none => simp
    | some i =>
      simp only [reduceCtorEq, false_or, ih]
      cases decodeWords L ws <;> simp

theorem decodeWords_cases (L : WordList) (ws : List Bytes) :
    (∃ is, decodeWords L ws = .ok is) ∨ decodeWords L ws = .err .invalidWord := by
  induction ws with
  | nil => exact .inl ⟨[], rfl⟩
  | cons w ws ih =>
    simp only [decodeWords]
    cases L.lookup (L.toLower w) with
    | none => simp
    | some i => rcases ih with ⟨is, h⟩ | h <;> simp [h]

theorem WordList.Lawful.word_ascii {L : WordList} (hL : L.Lawful) {i : Nat} (hi : i < 4096) :
    ∀ b ∈ L.word i, b < 0x80 := by
  intro b hb
  have := hL.word_az i hi b hb
  simp only [isLowerAz, Bool.and_eq_true, decide_eq_true_eq] at this
  exact UInt8.lt_of_le_of_lt this.2 (by decide)

theorem WordList.Lawful.lower_word {L : WordList} (hL : L.Lawful) {i : Nat} (hi : i < 4096) :
    L.toLower (L.word i) = L.word i := by
  rw [hL.lower_ascii _ (hL.word_ascii hi)]
  conv_rhs => rw [← List.map_id (L.word i)]
  apply List.map_congr_left
  intro b hb
  have := hL.word_az i hi b hb
  simp only [isLowerAz, Bool.and_eq_true, decide_eq_true_eq] at this
  have h2 : ¬ b ≤ 0x5A := by
    intro h
    exact absurd (UInt8.le_trans this.1 h) (by decide)
  simp [asciiLower, h2]

theorem WordList.Lawful.lookup_word {L : WordList} (hL : L.Lawful) {i : Nat} (hi : i < 4096) :
    L.lookup (L.toLower (L.word i)) = some i := by
  rw [hL.lower_word hi, hL.lookup_iff]
  exact ⟨hi, rfl⟩

theorem WordList.Lawful.lookup_lt {L : WordList} (hL : L.Lawful) {w : Bytes} {i : Nat}
    (h : L.lookup w = some i) : i < 4096 := ((hL.lookup_iff w i).mp h).1

theorem decodeWords_map_word {L : WordList} (hL : L.Lawful) (is : List Nat)
    (h : ∀ i ∈ is, i < 4096) : decodeWords L (is.map L.word) = .ok is := by
  rw [decodeWords_ok_iff, List.map_map]
  apply List.map_congr_left
  intro i hi
  exact hL.lookup_word (h i hi)

theorem decodeWords_lt {L : WordList} (hL : L.Lawful) {ws : List Bytes} {is : List Nat}
    (h : decodeWords L ws = .ok is) : ∀ i ∈ is, i < 4096 := by
  rw [decodeWords_ok_iff] at h
  intro i hi
  have : some i ∈ is.map some := List.mem_map.mpr ⟨i, hi, rfl⟩
  rw [← h, List.mem_map] at this
  obtain ⟨w, _, hw⟩ := this
  exact hL.lookup_lt hw

theorem decodeWords_length {L : WordList} {ws : List Bytes} {is : List Nat}
    (h : decodeWords L ws = .ok is) : is.length = ws.length := by
  rw [decodeWords_ok_iff] at h
  have := congrArg List.length h
  simpa using this.symm

/-- The lower-cased words are the list words of the decoded indices. -/
theorem decodeWords_map_lower {L : WordList} (hL : L.Lawful) {ws : List Bytes} {is : List Nat}
    (h : decodeWords L ws = .ok is) : ws.map L.toLower = is.map L.word := by
  induction ws generalizing is with
  | nil => cases is <;> simp_all [decodeWords]
  | cons w ws ih =>
    rw [decodeWords_ok_iff] at h
    cases is with
    | nil => simp at h
    | cons i is =>
      simp only [List.map_cons, List.cons.injEq] at h
      have h1 := ((hL.lookup_iff _ _).mp h.1).2
      have h2 := ih ((decodeWords_ok_iff L ws is).mpr h.2)
      simp [h1, h2]

end Verif.Model
