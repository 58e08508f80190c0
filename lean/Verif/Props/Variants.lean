import Verif.Proofs.Variants

/-!
# C98: how many phrases there are, and how many of those with several words lost or wrong are accepted

Phrases are lists of numbers of words; `shaped` (C07) says that the number of words is that of the version in the first
word.
-/

namespace Verif.Props

open Verif.Model Verif.Spec Verif.Proofs Verif.Instances

/-- What DecodeMnemonic accepts -/
def accepts (L : WordList) (js : List Nat) : Bool := (decodeMnemonic L (js.map L.word)).isOk

theorem variant_shape {S : Finset Nat} {is js : List Nat} {i0 : Nat} (h : AgreesOutside S is js) (h0 : 0 ∉ S)
    (hh : is.head? = some i0) (hs : shaped is.length i0) : js.head? = some i0 ∧ shaped js.length i0 := by
  obtain ⟨h1, -, h3⟩ := h
  rw [h1]
  refine ⟨?_, hs⟩
  have := h3 0 h0
  rw [List.head?_eq_getElem?] at hh ⊢
  rw [this, hh]

theorem agrees_variants {is : List Nat} (hlt : ∀ x ∈ is, x < 4096) {S : Finset Nat} (hS : ∀ p ∈ S, p < is.length)
    (js : List Nat) : AgreesOutside S is js ↔ js ∈ variants (fun _ => List.range 4096) is S.toList := by
  rw [mem_variants S.nodup_toList (by simpa using hS)]
  simp only [Finset.mem_toList, List.mem_range]
  unfold AgreesOutside
  constructor
  · rintro ⟨h1, h2, h3⟩
    refine ⟨h1, h3, fun p hp => ?_⟩
    have hpl : p < js.length := by rw [h1]; exact hS p hp
    exact ⟨js[p], h2 _ (List.getElem_mem _), List.getElem?_eq_getElem hpl⟩
  · rintro ⟨h1, h3, h4⟩
    refine ⟨h1, fun x hx => ?_, h3⟩
    obtain ⟨q, hq, rfl⟩ := List.mem_iff_getElem.1 hx
    by_cases hqS : q ∈ S
    · obtain ⟨v, hv, e⟩ := h4 q hqS
      rw [List.getElem?_eq_getElem hq] at e
      rw [Option.some.inj e]; exact hv
    · have e := h3 q hqS
      rw [List.getElem?_eq_getElem hq, List.getElem?_eq_getElem (by omega)] at e
      rw [Option.some.inj e]
      exact hlt _ (List.getElem_mem _)

theorem differs_variants {is : List Nat} (hlt : ∀ x ∈ is, x < 4096) {S : Finset Nat} (hS : ∀ p ∈ S, p < is.length)
    (js : List Nat) : DiffersAt S is js ↔
      js ∈ variants (fun p => (List.range 4096).filter (fun v => v ≠ is.getD p 0)) is S.toList := by
  rw [mem_variants S.nodup_toList (by simpa using hS)]
  have hag := agrees_variants hlt hS js
  rw [mem_variants S.nodup_toList (by simpa using hS)] at hag
  simp only [Finset.mem_toList, List.mem_range, List.mem_filter, decide_eq_true_eq] at hag ⊢
  have hget : ∀ p ∈ S, is[p]? = some (is.getD p 0) := by
    intro p hp
    rw [List.getD_eq_getElem?_getD, List.getElem?_eq_getElem (hS p hp)]
    rfl
  constructor
  · rintro ⟨h1, h2, h3⟩
    obtain ⟨-, -, h4⟩ := hag.1 ⟨h1, h2, fun p hp => by by_contra hc; exact hp ((h3 p).1 hc)⟩
    refine ⟨h1, fun p hp => by by_contra hc; exact hp ((h3 p).1 hc), fun p hp => ?_⟩
    obtain ⟨v, hv, e⟩ := h4 p hp
    refine ⟨v, ⟨hv, ?_⟩, e⟩
    rintro rfl
    exact (h3 p).2 hp (by rw [e, hget p hp])
  · rintro ⟨h1, h3, h4⟩
    obtain ⟨-, h2, -⟩ := hag.2 ⟨h1, h3, fun p hp => by obtain ⟨v, ⟨hv, -⟩, e⟩ := h4 p hp; exact ⟨v, hv, e⟩⟩
    refine ⟨h1, h2, fun p => ⟨fun h => ?_, fun hp => ?_⟩⟩
    · by_contra hp; exact h (h3 p hp)
    · obtain ⟨v, ⟨-, hv⟩, e⟩ := h4 p hp
      rw [e, hget p hp]
      exact fun h => hv (Option.some.inj h)

/-- One more place, with any word -/
theorem count_place {L : WordList} (hL : L.Lawful) {b : List Nat} (hlt : ∀ x ∈ b, x < 4096) {i0 : Nat}
    (hh : b.head? = some i0) (hs : shaped b.length i0) {p : Nat} (h1 : 1 ≤ p) (h2 : p < b.length) :
    ((List.range 4096).map fun v => b.set p v).countP (accepts L) = 128 := by
  rw [List.countP_map, List.countP_eq_length_filter]
  exact c82_lost_word hL b hlt i0 hh hs p h1 h2

theorem countP_other (Q : Nat → Bool) {l : List Nat} (hl : l.Nodup) {x : Nat} (hx : x ∈ l) :
    (l.filter (fun v => v ≠ x)).countP Q + (if Q x then 1 else 0) = l.countP Q := by
  have h := (List.perm_cons_erase hx).countP_eq Q
  rw [h, List.countP_cons, hl.erase_eq_filter]
  congr 2
  apply List.filter_congr
  intro v _
  by_cases h : v = x <;> simp [h]

theorem length_other {l : List Nat} (hl : l.Nodup) {x : Nat} (hx : x ∈ l) :
    (l.filter (fun v => v ≠ x)).length + 1 = l.length := by
  have := countP_other (fun _ => true) hl hx
  simpa using this

/-- If words other than the first are lost, the number of ways to fill their places with words of the list so that the
phrase is accepted is `128 * 4096 ^ (k - 1)` of `4096 ^ k`: one in 32. -/
theorem c98_lost {L : WordList} (hL : L.Lawful) (is : List Nat) (hlt : ∀ x ∈ is, x < 4096) (i0 : Nat)
    (hh : is.head? = some i0) (hs : shaped is.length i0) (S : Finset Nat) (hS : ∀ p ∈ S, 1 ≤ p ∧ p < is.length)
    (hne : S.Nonempty) :
    {js | AgreesOutside S is js}.ncard = 4096 ^ S.card ∧
    {js | AgreesOutside S is js ∧ (decodeMnemonic L (js.map L.word)).isOk = true}.ncard =
      128 * 4096 ^ (S.card - 1) := by
  have hS' : ∀ p ∈ S, p < is.length := fun p hp => (hS p hp).2
  have hl := nodup_variants (vals := fun _ => List.range 4096) (fun _ => List.nodup_range) S.nodup_toList
    (is := is) (by simpa using hS')
  have hlen : (variants (fun _ => List.range 4096) is S.toList).length = 4096 ^ S.card := by
    rw [length_variants (n := 4096) (by simp), Finset.length_toList]
  refine ⟨?_, ?_⟩
  · rw [ncard_filter hl (fun _ => true) (by intro js; simp [agrees_variants hlt hS' js]), List.countP_true, hlen]
  · rw [ncard_filter hl (accepts L) (by intro js; simp [agrees_variants hlt hS' js, accepts])]
    obtain ⟨p, ps, hps⟩ : ∃ p ps, S.toList = p :: ps := by
      cases h : S.toList with
      | nil => rw [Finset.toList_eq_nil] at h; exact absurd h hne.ne_empty
      | cons p ps => exact ⟨p, ps, rfl⟩
    have hnd := S.nodup_toList
    have hmem : ∀ q, q ∈ p :: ps ↔ q ∈ S := fun q => by rw [← hps, Finset.mem_toList]
    rw [hps] at hnd ⊢
    have hc : S.card = ps.length + 1 := by rw [← Finset.length_toList, hps]; rfl
    obtain ⟨hp, hnd⟩ := List.nodup_cons.1 hnd
    rw [variants]
    have := countP_flatMap (l := variants (fun _ => List.range 4096) is ps) (P := accepts L)
      (f := fun b => (List.range 4096).map fun v => b.set p v) (a := 128) (c := 0) ?_
    · rw [Nat.zero_mul, Nat.add_zero] at this
      rw [this, length_variants (n := 4096) (by simp), hc]
      rfl
    · intro b hb
      have hb' : AgreesOutside ps.toFinset is b := by
        rw [agrees_variants hlt (by intro q hq; exact hS' q ((hmem q).1 (by simp at hq; simp [hq])))]
        rw [mem_variants hnd (fun q hq => hS' q ((hmem q).1 (List.mem_cons_of_mem _ hq)))] at hb
        rw [mem_variants (Finset.nodup_toList _) (by intro q hq; exact hS' q ((hmem q).1 (by simp at hq; simp [hq])))]
        simpa using hb
      have h0 : 0 ∉ ps.toFinset := by
        intro h
        have := (hS 0 ((hmem 0).1 (by simp at h; simp [h]))).1
        omega
      obtain ⟨e1, e2⟩ := variant_shape hb' h0 hh hs
      rw [count_place hL hb'.2.1 e1 e2 (hS p ((hmem p).1 List.mem_cons_self)).1
        (by rw [hb'.1]; exact hS' p ((hmem p).1 List.mem_cons_self))]
      simp

/-- The numbers other than the one at a place -/
def others (is : List Nat) (p : Nat) : List Nat := (List.range 4096).filter (fun v => v ≠ is.getD p 0)

theorem count_others {L : WordList} (hL : L.Lawful) {is : List Nat} (hlt : ∀ x ∈ is, x < 4096) {i0 : Nat}
    (hh : is.head? = some i0) (hs : shaped is.length i0) (hok : accepts L is = true) : ∀ {ps : List Nat}, ps.Nodup →
    (∀ p ∈ ps, 1 ≤ p ∧ p < is.length) →
    32 * ((variants (others is) is ps).countP (accepts L) : Int) = 4095 ^ ps.length + 31 * (-1) ^ ps.length
  | [], _, _ => by simp [variants, hok]
  | p :: ps, hnd, hS => by
    obtain ⟨hp, hnd⟩ := List.nodup_cons.1 hnd
    have hS' : ∀ q ∈ ps, 1 ≤ q ∧ q < is.length := fun q hq => hS q (List.mem_cons_of_mem _ hq)
    obtain ⟨hp1, hp2⟩ := hS p List.mem_cons_self
    have hget : ∀ q, q < is.length → is[q]? = some (is.getD q 0) := by
      intro q hq
      rw [List.getD_eq_getElem?_getD, List.getElem?_eq_getElem hq]
      rfl
    have hx : ∀ q, q < is.length → is.getD q 0 ∈ List.range 4096 := by
      intro q hq
      have := List.getElem?_eq_getElem hq
      rw [hget q hq] at this
      rw [List.mem_range, Option.some.inj this]
      exact hlt _ (List.getElem_mem _)
    have ih := count_others hL hlt hh hs hok hnd hS'
    have hlen : (variants (others is) is ps).length = 4095 ^ ps.length := by
      apply length_variants
      intro q hq
      have := length_other List.nodup_range (hx q (hS' q hq).2)
      rw [List.length_range] at this
      unfold others
      omega
    have hstep := countP_flatMap (l := variants (others is) is ps) (P := accepts L)
      (f := fun b => (others is p).map fun v => b.set p v) (a := 128) (c := 1) ?_
    · rw [variants, List.length_cons, pow_succ, pow_succ]
      rw [hlen] at hstep
      have hz : (((variants (others is) is ps).flatMap fun b => (others is p).map fun v => b.set p v).countP (accepts L) : Int) +
          ((variants (others is) is ps).countP (accepts L) : Int) = 128 * 4095 ^ ps.length := by
        have := congrArg (fun n : Nat => (n : Int)) hstep
        push_cast at this
        linarith
      linarith
    · intro b hb
      obtain ⟨e1, e2, e3⟩ := (mem_variants hnd (fun q hq => (hS' q hq).2)).1 hb
      have hb' : AgreesOutside ps.toFinset is b := by
        refine ⟨e1, fun x hxb => ?_, fun q hq => e2 q (by simpa using hq)⟩
        obtain ⟨q, hq, rfl⟩ := List.mem_iff_getElem.1 hxb
        by_cases hqS : q ∈ ps
        · obtain ⟨v, hv, e⟩ := e3 q hqS
          rw [List.getElem?_eq_getElem hq] at e
          rw [Option.some.inj e]
          exact List.mem_range.1 (List.mem_filter.1 hv).1
        · have e := e2 q hqS
          rw [List.getElem?_eq_getElem hq, List.getElem?_eq_getElem (by omega)] at e
          rw [Option.some.inj e]
          exact hlt _ (List.getElem_mem _)
      have h0 : 0 ∉ ps.toFinset := by
        intro h
        have := (hS' 0 (by simpa using h)).1
        omega
      obtain ⟨g1, g2⟩ := variant_shape hb' h0 hh hs
      have hall := count_place hL hb'.2.1 g1 g2 hp1 (by rw [e1]; exact hp2)
      rw [List.countP_map] at hall ⊢
      have hsame : b.set p (is.getD p 0) = b := by
        apply List.ext_getElem?
        intro q
        by_cases hqp : q = p
        · subst hqp
          rw [List.getElem?_set_self (by omega), e2 q hp, hget q hp2]
        · rw [List.getElem?_set_ne (Ne.symm hqp)]
      have := countP_other (accepts L ∘ fun v => b.set p v) List.nodup_range (hx p hp2)
      rw [hall] at this
      simp only [Function.comp_apply, hsame] at this
      exact this

theorem accepted_head {L : WordList} (hL : L.Lawful) {is : List Nat} (hlt : ∀ x ∈ is, x < 4096)
    (hok : (decodeMnemonic L (is.map L.word)).isOk = true) : ∃ i0, is.head? = some i0 ∧ shaped is.length i0 := by
  cases hr : decodeMnemonic L (is.map L.word) with
  | err => rw [hr] at hok; cases hok
  | panic => rw [hr] at hok; cases hok
  | ok dm =>
    obtain ⟨is', i0, hd, hh, hs, -⟩ := accepted_shape hL hr
    rw [decodeWords_map hL hlt] at hd
    cases hd
    rw [List.length_map] at hs
    exact ⟨i0, hh, hs⟩

/-- In an accepted phrase, let exactly the words at `k` places other than the first be wrong: of the `4095 ^ k` ways
`(4095 ^ k ± 31) / 32` are accepted (+ for even `k`). -/
theorem c98_wrong {L : WordList} (hL : L.Lawful) (is : List Nat) (hlt : ∀ x ∈ is, x < 4096)
    (hok : (decodeMnemonic L (is.map L.word)).isOk = true) (S : Finset Nat) (hS : ∀ p ∈ S, 1 ≤ p ∧ p < is.length) :
    {js | DiffersAt S is js}.ncard = 4095 ^ S.card ∧
    32 * ({js | DiffersAt S is js ∧ (decodeMnemonic L (js.map L.word)).isOk = true}.ncard : Int) =
      4095 ^ S.card + 31 * (-1) ^ S.card := by
  have hS' : ∀ p ∈ S, p < is.length := fun p hp => (hS p hp).2
  have hl := nodup_variants (vals := others is) (fun _ => List.nodup_range.filter _) S.nodup_toList
    (is := is) (by simpa using hS')
  have hlen : (variants (others is) is S.toList).length = 4095 ^ S.card := by
    rw [length_variants (n := 4095), Finset.length_toList]
    intro q hq
    have hq' := hS' q (Finset.mem_toList.1 hq)
    have hx : is.getD q 0 ∈ List.range 4096 := by
      rw [List.getD_eq_getElem?_getD, List.getElem?_eq_getElem hq']
      exact List.mem_range.2 (hlt _ (List.getElem_mem _))
    have := length_other List.nodup_range hx
    rw [List.length_range] at this
    unfold others
    omega
  have hmem : ∀ js, DiffersAt S is js ↔ js ∈ variants (others is) is S.toList := differs_variants hlt hS'
  refine ⟨?_, ?_⟩
  · rw [ncard_filter hl (fun _ => true) (by intro js; simp [hmem js]), List.countP_true, hlen]
  · rw [ncard_filter hl (accepts L) (by intro js; simp [hmem js, accepts])]
    obtain ⟨i0, hh, hs⟩ : ∃ i0, is.head? = some i0 ∧ shaped is.length i0 := accepted_head hL hlt hok
    rw [count_others hL hlt hh hs hok S.nodup_toList (by simpa using hS), Finset.length_toList]

/-- The first words of version `v`, any others -/
def firstOr (v p : Nat) : List Nat := if p = 0 then (List.range 256).map (256 * v + ·) else List.range 4096

theorem count_total {L : WordList} (hL : L.Lawful) {v m : Nat} (hv : v < 16)
    (hs : ∀ i0, shaped (m + 2) i0 ↔ i0 / 256 = v) :
    {js : List Nat | js.length = m + 2 ∧ (∀ x ∈ js, x < 4096) ∧ (decodeMnemonic L (js.map L.word)).isOk = true}.ncard =
      128 * (4096 ^ m * 256) := by
  let ps := (List.range m).map (· + 2)
  have hps : ∀ p, p ∈ ps ↔ 2 ≤ p ∧ p < m + 2 := by
    intro p
    simp only [ps, List.mem_map, List.mem_range]
    constructor
    · rintro ⟨q, hq, rfl⟩; omega
    · rintro ⟨h1, h2⟩; exact ⟨p - 2, by omega, by omega⟩
  have hnd : ps.Nodup := List.nodup_range.map (fun a b h => by simpa using h)
  have hnd0 : (0 :: ps).Nodup := List.nodup_cons.2 ⟨by rw [hps]; omega, hnd⟩
  have hnd1 : (1 :: 0 :: ps).Nodup := List.nodup_cons.2 ⟨by simp [hps], hnd0⟩
  have hin0 : ∀ p ∈ 0 :: ps, p < (List.replicate (m + 2) 0).length := by
    intro p hp
    rw [List.length_replicate]
    rcases List.mem_cons.1 hp with rfl | hp
    · omega
    · exact ((hps p).1 hp).2
  have hin1 : ∀ p ∈ 1 :: 0 :: ps, p < (List.replicate (m + 2) 0).length := by
    intro p hp
    rcases List.mem_cons.1 hp with rfl | hp
    · rw [List.length_replicate]; omega
    · exact hin0 p hp
  have hvals : ∀ p, (firstOr v p).Nodup := by
    intro p
    unfold firstOr
    by_cases hp : p = 0
    · rw [if_pos hp]; exact List.nodup_range.map (fun a b h => by simpa using h)
    · rw [if_neg hp]; exact List.nodup_range
  have hsmall : ∀ p x, x ∈ firstOr v p → x < 4096 := by
    intro p x hx
    unfold firstOr at hx
    by_cases hp : p = 0
    · rw [if_pos hp] at hx
      obtain ⟨y, hy, rfl⟩ := List.mem_map.1 hx
      rw [List.mem_range] at hy
      omega
    · rw [if_neg hp] at hx; exact List.mem_range.1 hx
  have hfirst : ∀ x, x ∈ firstOr v 0 ↔ x / 256 = v := by
    intro x
    simp only [firstOr, if_true, List.mem_map, List.mem_range]
    constructor
    · rintro ⟨y, hy, rfl⟩; omega
    · intro h; exact ⟨x % 256, by omega, by omega⟩
  rw [ncard_filter (nodup_variants hvals hnd1 hin1) (accepts L)]
  · have := countP_flatMap (l := variants (firstOr v) (List.replicate (m + 2) 0) (0 :: ps)) (P := accepts L)
      (f := fun b => (firstOr v 1).map fun v => b.set 1 v) (a := 128) (c := 0) ?_
    · rw [variants]
      rw [length_variants_cons, length_variants (n := 4096)] at this
      · simpa [ps, firstOr] using this
      · intro p hp
        have := (hps p).1 hp
        rw [firstOr, if_neg (by omega), List.length_range]
    · intro b hb
      obtain ⟨e1, e2, e3⟩ := (mem_variants hnd0 hin0).1 hb
      rw [List.length_replicate] at e1
      obtain ⟨x, hx, e⟩ := e3 0 List.mem_cons_self
      have hc := count_place hL (b := b) (i0 := x) (p := 1) ?_ (by rw [List.head?_eq_getElem?, e])
        (by rw [e1, hs]; exact (hfirst x).1 hx) (le_refl 1) (by omega)
      · rw [firstOr, if_neg (by omega), hc]; simp
      · intro y hy
        obtain ⟨q, hq, rfl⟩ := List.mem_iff_getElem.1 hy
        by_cases hq0 : q ∈ 0 :: ps
        · obtain ⟨z, hz, ez⟩ := e3 q hq0
          rw [List.getElem?_eq_getElem hq] at ez
          rw [Option.some.inj ez]
          exact hsmall q z hz
        · have ez := e2 q hq0
          rw [List.getElem?_eq_getElem hq, List.getElem?_replicate, if_pos (by omega)] at ez
          rw [Option.some.inj ez]; omega
  · intro js
    rw [mem_variants hnd1 hin1, List.length_replicate]
    simp only [Set.mem_ofPred_eq, accepts]
    constructor
    · rintro ⟨h1, h2, h3⟩
      refine ⟨⟨h1, fun p hp => ?_, fun p hp => ?_⟩, h3⟩
      · have hpm : m + 2 ≤ p := by
          by_contra hc
          apply hp
          simp only [List.mem_cons, hps]
          omega
        rw [List.getElem?_eq_none (by omega), List.getElem?_eq_none (by simpa using hpm)]
      · have hp' := hin1 p hp
        rw [List.length_replicate] at hp'
        refine ⟨js[p], ?_, List.getElem?_eq_getElem (by omega)⟩
        by_cases hp0 : p = 0
        · subst hp0
          obtain ⟨i0, hh, hsh⟩ := accepted_head hL h2 h3
          rw [h1, hs] at hsh
          rw [List.head?_eq_getElem?, List.getElem?_eq_getElem (by omega)] at hh
          rw [Option.some.inj hh]
          exact (hfirst i0).2 hsh
        · rw [firstOr, if_neg hp0, List.mem_range]
          exact h2 _ (List.getElem_mem _)
    · rintro ⟨⟨h1, h2, h3⟩, h4⟩
      refine ⟨h1, fun x hx => ?_, h4⟩
      obtain ⟨q, hq, rfl⟩ := List.mem_iff_getElem.1 hx
      obtain ⟨z, hz, ez⟩ := h3 q (by simp only [List.mem_cons, hps]; omega)
      rw [List.getElem?_eq_getElem hq] at ez
      rw [Option.some.inj ez]
      exact hsmall q z hz

/-- `2 ^ 159` phrases of fourteen words are accepted, `2 ^ 183` of sixteen words, and no others. -/
theorem c98_total {L : WordList} (hL : L.Lawful) :
    {js : List Nat | js.length = 14 ∧ (∀ x ∈ js, x < 4096) ∧ (decodeMnemonic L (js.map L.word)).isOk = true}.ncard =
      2 ^ 159 ∧
    {js : List Nat | js.length = 16 ∧ (∀ x ∈ js, x < 4096) ∧ (decodeMnemonic L (js.map L.word)).isOk = true}.ncard =
      2 ^ 183 ∧
    ∀ js : List Nat, (∀ x ∈ js, x < 4096) → (decodeMnemonic L (js.map L.word)).isOk = true →
      js.length = 14 ∨ js.length = 16 := by
  refine ⟨?_, ?_, ?_⟩
  · rw [count_total hL (v := 0) (m := 12) (by omega) (by intro i; unfold shaped; omega)]
    norm_num
  · rw [count_total hL (v := 1) (m := 14) (by omega) (by intro i; unfold shaped; omega)]
    norm_num
  · intro js hlt hok
    obtain ⟨i0, -, hs⟩ := accepted_head hL hlt hok
    unfold shaped at hs
    omega

/-! Examples -/

/-- The third and the last word lost: 524288 of the 16777216 ways to fill them are accepted. -/
example :
    let is := [5, 6, 7, 1, 2, 3, 4, 5, 6, 7, 8, 9, 10, 11]
    {js | AgreesOutside {2, 13} is js ∧ (decodeMnemonic toyWordList (js.map toyWordList.word)).isOk = true}.ncard =
      524288 := by
  intro is
  have := (c98_lost toyWordList_lawful is (by decide) 5 rfl (.inl ⟨by decide, rfl⟩) {2, 13} (by decide) (by decide)).2
  exact this.trans (by norm_num)

/-- An accepted phrase with its second and its third word wrong: 524033 of 16769025 are accepted. -/
example :
    let is := [5, 6, 7, 100, 85, 9, 9, 9, 9, 9, 9, 9, 9, 11]
    (decodeMnemonic toyWordList (is.map toyWordList.word)).isOk = true ∧
    {js | DiffersAt {1, 2} is js}.ncard = 16769025 ∧
    {js | DiffersAt {1, 2} is js ∧ (decodeMnemonic toyWordList (js.map toyWordList.word)).isOk = true}.ncard = 524033 := by
  intro is
  have hok : (decodeMnemonic toyWordList (is.map toyWordList.word)).isOk = true := by decide +kernel
  have := c98_wrong toyWordList_lawful is (by decide) hok {1, 2} (by decide)
  have hc : ({1, 2} : Finset Nat).card = 2 := by decide
  rw [hc] at this
  refine ⟨hok, this.1.trans (by norm_num), ?_⟩
  have := this.2
  omega

end Verif.Props
