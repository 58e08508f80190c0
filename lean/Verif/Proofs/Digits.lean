import Mathlib.Data.List.Induction
import Mathlib.Data.Nat.Size
import Mathlib.Tactic.Ring
import Mathlib.Tactic.Linarith
import Mathlib.Tactic.NormNum

/-! Fixed-length big-endian digits in base `b`. -/

namespace Verif

/-- The `n` least significant digits of `v` in base `b`, most significant first. -/
def digitsBE (b : Nat) : Nat → Nat → List Nat
  | 0, _ => []
  | n + 1, v => digitsBE b n (v / b) ++ [v % b]

def ofDigitsBE (b : Nat) (l : List Nat) : Nat := l.foldl (fun a x => a * b + x) 0

@[simp] theorem digitsBE_length (b n v : Nat) : (digitsBE b n v).length = n := by
  induction n generalizing v with
  | zero => rfl
  | succ n ih => simp [digitsBE, ih]

theorem digitsBE_lt {b : Nat} (hb : 0 < b) (n v : Nat) : ∀ x ∈ digitsBE b n v, x < b := by
  induction n generalizing v with
  | zero => simp [digitsBE]
  | succ n ih =>
    intro x hx
    simp only [digitsBE, List.mem_append, List.mem_singleton] at hx
    rcases hx with h | h
    · exact ih _ _ h
    · subst h; exact Nat.mod_lt _ hb

@[simp] theorem ofDigitsBE_nil (b : Nat) : ofDigitsBE b [] = 0 := rfl

theorem ofDigitsBE_concat (b : Nat) (l : List Nat) (x : Nat) :
    ofDigitsBE b (l ++ [x]) = ofDigitsBE b l * b + x := by simp [ofDigitsBE]

theorem ofDigitsBE_append (b : Nat) (l m : List Nat) :
    ofDigitsBE b (l ++ m) = ofDigitsBE b l * b ^ m.length + ofDigitsBE b m := by
  induction m using List.reverseRecOn with
  | nil => simp
  | append_singleton m x ih =>
    rw [← List.append_assoc, ofDigitsBE_concat, ofDigitsBE_concat, ih]
    simp only [List.length_append, List.length_singleton, pow_succ]
    ring

theorem ofDigitsBE_cons (b : Nat) (x : Nat) (l : List Nat) :
    ofDigitsBE b (x :: l) = x * b ^ l.length + ofDigitsBE b l := by
  have := ofDigitsBE_append b [x] l
  simpa [ofDigitsBE] using this

theorem ofDigitsBE_lt {b : Nat} {l : List Nat} (h : ∀ x ∈ l, x < b) :
    ofDigitsBE b l < b ^ l.length := by
  induction l using List.reverseRecOn with
  | nil => simp
  | append_singleton l x ih =>
    rw [ofDigitsBE_concat]
    have hx : x < b := h x (by simp)
    have hl := ih (fun y hy => h y (by simp [hy]))
    simp only [List.length_append, List.length_singleton, pow_succ]
    calc ofDigitsBE b l * b + x < ofDigitsBE b l * b + b := by omega
      _ = (ofDigitsBE b l + 1) * b := by ring
      _ ≤ b ^ l.length * b := Nat.mul_le_mul_right _ hl

theorem ofDigitsBE_digitsBE (b n v : Nat) : ofDigitsBE b (digitsBE b n v) = v % b ^ n := by
  induction n generalizing v with
  | zero => simp [digitsBE, Nat.mod_one]
  | succ n ih =>
    rw [digitsBE, ofDigitsBE_concat, ih, pow_succ, Nat.mul_comm (b ^ n) b, Nat.mod_mul]
    ring

theorem digitsBE_ofDigitsBE {b : Nat} {l : List Nat} (h : ∀ x ∈ l, x < b) :
    digitsBE b l.length (ofDigitsBE b l) = l := by
  induction l using List.reverseRecOn with
  | nil => rfl
  | append_singleton l x ih =>
    have hx : x < b := h x (by simp)
    have hb : 0 < b := by omega
    have hl := ih (fun y hy => h y (by simp [hy]))
    simp only [List.length_append, List.length_singleton, digitsBE, ofDigitsBE_concat]
    have h1 : (ofDigitsBE b l * b + x) / b = ofDigitsBE b l := by
      rw [Nat.mul_comm, Nat.mul_add_div hb, Nat.div_eq_of_lt hx, Nat.add_zero]
    have h2 : (ofDigitsBE b l * b + x) % b = x := by
      rw [Nat.mul_comm, Nat.mul_add_mod, Nat.mod_eq_of_lt hx]
    rw [h1, h2, hl]

theorem digitsBE_zero (b n : Nat) : digitsBE b n 0 = List.replicate n 0 := by
  induction n with
  | zero => rfl
  | succ n ih => simp [digitsBE, ih, List.replicate_succ']

theorem digitsBE_add (b m n v : Nat) :
    digitsBE b (m + n) v = digitsBE b m (v / b ^ n) ++ digitsBE b n v := by
  induction n generalizing v with
  | zero => simp [digitsBE]
  | succ n ih =>
    rw [← Nat.add_assoc, digitsBE, ih, digitsBE, pow_succ, Nat.mul_comm (b ^ n) b,
      ← Nat.div_div_eq_div_mul]
    simp

theorem digitsBE_mod (b n v : Nat) : digitsBE b n (v % b ^ n) = digitsBE b n v := by
  induction n generalizing v with
  | zero => rfl
  | succ n ih =>
    rw [digitsBE, digitsBE, pow_succ, Nat.mul_comm (b ^ n) b]
    rw [Nat.mod_mul_right_div_self, ih, Nat.mod_mul_right_mod]

theorem digitsBE_succ_cons (b n v : Nat) :
    digitsBE b (n + 1) v = (v / b ^ n % b) :: digitsBE b n v := by
  rw [Nat.add_comm, digitsBE_add]; simp [digitsBE]

end Verif
