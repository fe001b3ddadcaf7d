import Mathlib.Data.Nat.Bitwise
import Mathlib.Tactic.Ring
import Mathlib.Tactic.Linarith

/-! Bit tricks on natural numbers: `n & (n-1)`, `(i+1) & ~i`, `i | (i+1)`. -/

namespace PS

theorem exists_odd_decomp {n : ℕ} (h : 0 < n) : ∃ k m, n = 2 ^ k * (2 * m + 1) := by
  induction n using Nat.strongRecOn with
  | _ n ih =>
    rcases Nat.even_or_odd' n with ⟨c, hc | hc⟩
    · obtain ⟨k, m, hk⟩ := ih c (by omega) (by omega)
      exact ⟨k + 1, m, by rw [hc, hk]; ring⟩
    · exact ⟨0, c, by rw [hc]; ring⟩

theorem testBit_odd (m j : ℕ) : (2 * m + 1).testBit j = if j = 0 then true else m.testBit (j - 1) := by
  cases j with
  | zero => simp
  | succ j =>
    simp only [Nat.testBit_succ, Nat.succ_ne_zero, if_false, Nat.add_sub_cancel]
    congr 1
    omega

theorem testBit_even (m j : ℕ) : (2 * m).testBit j = if j = 0 then false else m.testBit (j - 1) := by
  cases j with
  | zero => simp
  | succ j =>
    simp only [Nat.testBit_succ, Nat.succ_ne_zero, if_false, Nat.add_sub_cancel]
    congr 1
    omega

theorem testBit_hi (k m j : ℕ) : (2 ^ k * (2 * m + 1)).testBit j =
    if j < k then false else if j = k then true else m.testBit (j - k - 1) := by
  have h := Nat.testBit_two_pow_mul_add (2 * m + 1) (b := 0) (i := k) (by positivity) j
  rw [Nat.add_zero] at h
  rw [h, testBit_odd]
  by_cases h1 : j < k
  · simp [h1]
  · simp only [h1, if_false]
    by_cases h2 : j = k
    · simp [h2]
    · rw [if_neg (by omega), if_neg h2]

theorem pred_odd (k m : ℕ) : 2 ^ k * (2 * m + 1) - 1 = 2 ^ k * (2 * m) + (2 ^ k - 1) := by
  have : 0 < 2 ^ k := by positivity
  rw [Nat.mul_add]; omega

theorem testBit_lo (k m j : ℕ) : (2 ^ k * (2 * m + 1) - 1).testBit j =
    if j < k then true else if j = k then false else m.testBit (j - k - 1) := by
  have hp : 0 < 2 ^ k := by positivity
  rw [pred_odd, Nat.testBit_two_pow_mul_add _ (by omega), testBit_even, Nat.testBit_two_pow_sub_one]
  by_cases h1 : j < k
  · simp [h1]
  · simp only [h1, if_false]
    by_cases h2 : j = k
    · simp [h2]
    · rw [if_neg (by omega), if_neg h2]

theorem land_pred (k m : ℕ) : (2 ^ k * (2 * m + 1)) &&& (2 ^ k * (2 * m + 1) - 1) = 2 ^ (k + 1) * m := by
  apply Nat.eq_of_testBit_eq
  intro j
  have h := Nat.testBit_two_pow_mul_add m (b := 0) (i := k + 1) (by positivity) j
  rw [Nat.add_zero] at h
  rw [Nat.testBit_land, testBit_hi, testBit_lo, h]
  by_cases h1 : j < k
  · simp [h1, show j < k + 1 by omega]
  · by_cases h2 : j = k
    · simp [h2]
    · simp [h1, h2, show ¬ j < k + 1 by omega, Nat.sub_sub]

theorem ldiff_pred (k m : ℕ) : Nat.ldiff (2 ^ k * (2 * m + 1)) (2 ^ k * (2 * m + 1) - 1) = 2 ^ k := by
  apply Nat.eq_of_testBit_eq
  intro j
  rw [Nat.testBit_ldiff, testBit_hi, testBit_lo, Nat.testBit_two_pow]
  by_cases h1 : j < k
  · simp [h1, show ¬ k = j by omega]
  · by_cases h2 : j = k
    · simp [h2]
    · simp [h1, h2, show ¬ k = j by omega]

theorem lor_pred (k m : ℕ) : (2 ^ k * (2 * m + 1) - 1) ||| (2 ^ k * (2 * m + 1)) = 2 ^ (k + 1) * (m + 1) - 1 := by
  apply Nat.eq_of_testBit_eq
  intro j
  have hp : 0 < 2 ^ (k + 1) := by positivity
  have e : 2 ^ (k + 1) * (m + 1) - 1 = 2 ^ (k + 1) * m + (2 ^ (k + 1) - 1) := by
    rw [Nat.mul_add]; omega
  rw [Nat.testBit_lor, testBit_hi, testBit_lo, e, Nat.testBit_two_pow_mul_add _ (by omega),
    Nat.testBit_two_pow_sub_one]
  by_cases h1 : j < k
  · simp [h1, show j < k + 1 by omega]
  · by_cases h2 : j = k
    · simp [h2]
    · simp [h1, h2, show ¬ j < k + 1 by omega, Nat.sub_sub]

end PS
