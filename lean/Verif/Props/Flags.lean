import Verif.Proofs.CliFlags
import Verif.Spec.Options

/-!
# Flag values (C43-C45)
-/

namespace Verif.Props

open Verif.Model Verif.Model.Cli Verif.Proofs Verif.Spec

/-! ## C43 TTL flag parsing -/

/-- Exactly the texts of the right form are accepted, and everything else is the usage error. -/
theorem c43_accepts (s : Bytes) :
    ((∃ d, parseTTL s = .ok d) ↔ ∃ q u, IsTTL s q u) ∧
      ((¬ ∃ q u, IsTTL s q u) → parseTTL s = .err .badDuration) := by
  have h1 : (∃ d, parseTTL s = .ok d) ↔ ∃ q u, IsTTL s q u :=
    ⟨fun ⟨_, h⟩ => parseTTL_ok h, fun ⟨_, _, h⟩ => ⟨_, parseTTL_of h⟩⟩
  refine ⟨h1, fun h => ?_⟩
  have hno : ¬ ∃ d, parseTTL s = .ok d := fun c => h (h1.1 c)
  unfold parseTTL at hno ⊢
  split
  · rfl
  · split
    · rfl
    · split
      · rfl
      · rename_i h1 _ _ h2 _ _ h3
        exact absurd ⟨_, by simp only [h1, h2, h3]; rfl⟩ hno

/-- A duration below 2^63 nanoseconds is returned exactly. -/
theorem c43_value (s : Bytes) (q u : Nat) (h : IsTTL s q u) (hfit : q * u * 10 ^ 9 < 2 ^ 63) :
    parseTTL s = .ok ((q * u * 10 ^ 9 : Nat) : Int) := by
  rw [parseTTL_wrap h]
  generalize q * u * 10 ^ 9 = n at hfit
  have : wrap64 (n : Int) = n := by unfold wrap64; omega
  rw [this]

/-- A text has at most one meaning. -/
theorem c43_unambiguous (s : Bytes) (q u q' u' : Nat) (h : IsTTL s q u) (h' : IsTTL s q' u') :
    q = q' ∧ u = u' := by
  obtain ⟨ds, c, rfl, _, _, hq, _, hu⟩ := h
  obtain ⟨ds', c', he, _, _, hq', _, hu'⟩ := h'
  obtain ⟨rfl, hc⟩ := List.append_inj' he rfl
  simp only [List.cons.injEq, and_true] at hc
  subst hc
  have a := (unitOf_iff c u).2 hu
  have b := (unitOf_iff c u').2 hu'
  rw [a] at b
  exact ⟨hq.symm.trans hq', Option.some.inj b⟩

theorem ttl_17w : IsTTL (str "17W") 17 604800 :=
  ⟨str "17", 0x57, by decide, by decide, by decide +kernel, by decide +kernel, by norm_num,
    .week _ (by decide)⟩

example : parseTTL (str "17W") = .ok (10281600 * 10 ^ 9) := by
  rw [c43_value _ _ _ ttl_17w (by norm_num)]; norm_num

example : parseTTL (str "1.5y") = .err .badDuration ∧ parseTTL (str "y") = .err .badDuration ∧
    parseTTL (str "-1y") = .err .badDuration := by decide +kernel

/-! ## C44 TTL overflow is silent -/

/-- Every accepted text is accepted with its value modulo 2^64, so a duration of 2^63 ns or more is
replaced by a different one without error. -/
theorem c44_wraps (s : Bytes) (q u : Nat) (h : IsTTL s q u) (hbig : 2 ^ 63 ≤ q * u * 10 ^ 9) :
    ∃ d, parseTTL s = .ok d ∧ d ≠ (q * u * 10 ^ 9 : Nat) ∧ -2 ^ 63 ≤ d ∧ d < 2 ^ 63 ∧
      (2 ^ 64 : Int) ∣ d - (q * u * 10 ^ 9 : Nat) := by
  refine ⟨_, parseTTL_wrap h, ?_⟩
  generalize q * u * 10 ^ 9 = n at hbig
  unfold wrap64
  refine ⟨by omega, by omega, by omega, by omega⟩

theorem ttl_600y : IsTTL (str "600y") 600 31536000 :=
  ⟨str "600", 0x79, by decide, by decide, by decide +kernel, by decide +kernel, by norm_num,
    .year _ (by decide)⟩

/-- 600 years are taken for less than 16; 300 years for a negative duration; and 2^63 years for a
zero duration, which `New` takes for no expiry at all. -/
theorem c44_600y :
    (∃ d, parseTTL (str "600y") = .ok d ∧ 15 * 31536000 * 10 ^ 9 < d ∧ d < 16 * 31536000 * 10 ^ 9) ∧
    (∃ d, parseTTL (str "300y") = .ok d ∧ d < 0) ∧
    parseTTL (str "9223372036854775808y") = .ok 0 := by
  refine ⟨⟨wrap64 (600 * 31536000 * 10 ^ 9), by decide +kernel, by decide +kernel, by decide +kernel⟩,
    ⟨wrap64 (300 * 31536000 * 10 ^ 9), by decide +kernel, by decide +kernel⟩, by decide +kernel⟩

example := c44_wraps _ _ _ ttl_600y (by norm_num)

/-! ## C45 -only list decoding -/

theorem onlyLoop_ok : ∀ (es : List Bytes) (m : Bool) (ss : List Bytes),
    (∀ e ∈ es, e ∈ ["master", "encryption", "authentication", "signing"].map str) →
    onlyLoop m ss es = .ok (m || decide (str "master" ∈ es),
      some (ss ++ es.filter (fun e => e ≠ str "master")))
  | [], m, ss, _ => by simp [onlyLoop]
  | e :: es, m, ss, h => by
    have ih := fun m ss => onlyLoop_ok es m ss (fun x hx => h x (by simp [hx]))
    rw [onlyLoop]
    split
    · rename_i he; rw [ih]; simp [he]
    · rename_i he
      have hm : str "master" ≠ e := fun c => he c.symm
      have := h e (by simp)
      simp only [List.map_cons, List.map_nil, List.mem_cons, List.not_mem_nil, or_false, he,
        false_or] at this
      rw [if_pos (by
        rcases this with h | h | h <;> simp [h, subkeyTypeEncryption, subkeyTypeAuthentication,
          subkeyTypeSigning]), ih]
      simp [he, hm]

theorem onlyLoop_err : ∀ (es : List Bytes) (m : Bool) (ss : List Bytes),
    (∃ e ∈ es, e ∉ ["master", "encryption", "authentication", "signing"].map str) →
    onlyLoop m ss es = .err .badOnlyElement
  | [], _, _, h => by simp at h
  | e :: es, m, ss, h => by
    rw [onlyLoop]
    by_cases he : e ∈ ["master", "encryption", "authentication", "signing"].map str
    · have h' : ∃ e ∈ es, e ∉ ["master", "encryption", "authentication", "signing"].map str := by
        obtain ⟨x, hx, hn⟩ := h
        rcases List.mem_cons.1 hx with c | c
        · exact absurd (c ▸ he) hn
        · exact ⟨x, c, hn⟩
      have ih := fun m ss => onlyLoop_err es m ss h'
      split
      · exact ih _ _
      · split
        · exact ih _ _
        · rfl
    · simp only [List.map_cons, List.map_nil, List.mem_cons, List.not_mem_nil, or_false,
        not_or] at he
      rw [if_neg he.1, if_neg]
      unfold subkeyTypeEncryption subkeyTypeAuthentication subkeyTypeSigning
      tauto

/-- An unknown element is the usage error; a list of known elements selects what it lists, and the
empty flag selects everything. -/
theorem c45_only (text : Bytes) (elems : List Bytes) (h : IsList text elems) :
    (text ≠ [] → (∃ e ∈ elems, e ∉ ["master", "encryption", "authentication", "signing"].map str) →
      decodeOnlyKeyTypes text = .err .badOnlyElement) ∧
    ((text = [] ∨ ∀ e ∈ elems, e ∈ ["master", "encryption", "authentication", "signing"].map str) →
      ∃ master subkeys, decodeOnlyKeyTypes text = .ok (master, subkeys) ∧
        (master = true ↔ text = [] ∨ str "master" ∈ elems) ∧
        ∀ opts : KeyOptions, ∀ type ∈ ["encryption", "authentication", "signing"],
          (Selected { opts with subkeys := subkeys } type ↔ text = [] ∨ str type ∈ elems)) := by
  obtain ⟨hne, hfree, rfl⟩ := h
  have hs := split_intercalate elems hne hfree
  refine ⟨fun ht he => ?_, fun hk => ?_⟩
  · rw [decodeOnlyKeyTypes, if_pos ht, hs, onlyLoop_err elems _ _ he]
  · by_cases ht : List.intercalate [44] elems = []
    · refine ⟨true, none, ?_, by simp [ht], ?_⟩
      · rw [decodeOnlyKeyTypes, if_neg (by simpa using ht)]
      · intro opts type _
        simp [Selected, ht]
    · have hk := hk.resolve_left ht
      refine ⟨_, _, by rw [decodeOnlyKeyTypes, if_pos ht, hs, onlyLoop_ok elems _ _ hk], ?_, ?_⟩
      · simp [ht]
      · intro opts type htype
        have : str type ≠ str "master" := by
          simp only [List.mem_cons, List.not_mem_nil, or_false] at htype
          rcases htype with rfl | rfl | rfl <;> decide
        simp [Selected, ht, this]

/-- Every text is the list of its elements. -/
theorem c45_every_text (text : Bytes) : ∃ elems, IsList text elems :=
  ⟨_, split_ne text, split_mem text, (intercalate_split text).symm⟩

theorem list_me : IsList (str "encryption,master") [str "encryption", str "master"] := by
  refine ⟨by simp, ?_, by decide⟩
  intro e he
  simp only [List.mem_cons, List.not_mem_nil, or_false] at he
  rcases he with rfl | rfl <;> decide

example : ∃ subkeys, decodeOnlyKeyTypes (str "encryption,master") = .ok (true, subkeys) := by
  obtain ⟨m, s, h, hm, _⟩ := (c45_only _ _ list_me).2 (by
    right; intro e he
    simp only [List.mem_cons, List.not_mem_nil, or_false] at he
    rcases he with rfl | rfl <;> decide)
  have : m = true := hm.2 (by simp)
  exact ⟨s, this ▸ h⟩

example : decodeOnlyKeyTypes (str "encryption,Master") = .err .badOnlyElement := by decide +kernel

end Verif.Props
