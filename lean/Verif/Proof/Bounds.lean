import Verif.Proof.Core
import Verif.Proof.PrimeSieve
import Mathlib.Data.Nat.Log

/-! Bounds of the partial sums, to show that they fit the accumulator types. -/

namespace PS
open Finset
open scoped Classical
local notation "π" => Nat.primeCounting

/-- A dyadic bound of the harmonic sum. -/
theorem sum_div_le (x N : ℕ) : ∑ n ∈ Icc 1 N, x / n ≤ x * (Nat.log 2 N + 1) := by
  have key : ∀ k, ∑ n ∈ Ico 1 (2 ^ k), x / n ≤ x * k := by
    intro k
    induction k with
    | zero => simp
    | succ k ih =>
      have h2 : 2 ^ k ≤ 2 ^ (k + 1) := Nat.pow_le_pow_right (by omega) (by omega)
      have h1 : 1 ≤ 2 ^ k := Nat.one_le_two_pow
      rw [← Finset.sum_Ico_consecutive _ h1 h2]
      have : ∑ n ∈ Ico (2 ^ k) (2 ^ (k + 1)), x / n ≤ ∑ n ∈ Ico (2 ^ k) (2 ^ (k + 1)), x / 2 ^ k := by
        apply Finset.sum_le_sum
        intro n hn
        rw [Finset.mem_Ico] at hn
        exact Nat.div_le_div_left hn.1 h1
      have h3 : ∑ n ∈ Ico (2 ^ k) (2 ^ (k + 1)), x / 2 ^ k ≤ x := by
        rw [Finset.sum_const, Nat.card_Ico, smul_eq_mul, pow_succ, Nat.mul_two, Nat.add_sub_cancel]
        exact Nat.mul_div_le _ _
      rw [Nat.mul_add, Nat.mul_one]
      omega
  calc ∑ n ∈ Icc 1 N, x / n ≤ ∑ n ∈ Ico 1 (2 ^ (Nat.log 2 N + 1)), x / n := by
        apply Finset.sum_le_sum_of_subset
        intro n
        simp only [mem_Icc, mem_Ico]
        intro h
        exact ⟨h.1, lt_of_le_of_lt h.2 (Nat.lt_pow_succ_log_self (by omega) N)⟩
    _ ≤ _ := key _

/-- Absolute bound of every sum over numbers `n ≤ N`: `Σ n φ(x/n, a_n)`. -/
theorem sum_leaf_le (x N : ℕ) : (∑ n ∈ Icc 1 N, n * phiSum (x / n) 0) * 2 ≤
    x * (x * (Nat.log 2 N + 1) + N) := by
  have h1 : ∀ n ∈ Icc 1 N, n * phiSum (x / n) 0 * 2 ≤ x * (x / n + 1) := by
    intro n _
    rw [Nat.mul_assoc, phiSum_zero_mul_two, ← Nat.mul_assoc]
    exact Nat.mul_le_mul_right _ (Nat.mul_div_le _ _)
  calc (∑ n ∈ Icc 1 N, n * phiSum (x / n) 0) * 2 = ∑ n ∈ Icc 1 N, n * phiSum (x / n) 0 * 2 := by
        rw [Finset.sum_mul]
    _ ≤ ∑ n ∈ Icc 1 N, x * (x / n + 1) := Finset.sum_le_sum h1
    _ = x * (∑ n ∈ Icc 1 N, x / n + N) := by
        rw [← Finset.mul_sum, Finset.sum_add_distrib]; simp
    _ ≤ _ := by
        apply Nat.mul_le_mul_left
        have := sum_div_le x N
        omega

theorem abs_mu_le (n : ℕ) : |mu n| ≤ 1 := by
  rw [abs_le]
  rcases ArithmeticFunction.moebius_eq_or n with h | h | h <;> unfold mu <;> rw [h] <;> norm_num

/-- The sum of the absolute values of the terms of `S1`. -/
noncomputable def S1Abs (x y c : ℕ) : ℤ :=
  ∑ n ∈ (Icc 1 y).filter (Rough c), |mu n| * (n : ℤ) * phiSum (x / n) c

theorem abs_S1Sum_le_S1Abs (x y c : ℕ) : |S1Sum x y c| ≤ S1Abs x y c := by
  unfold S1Sum S1Abs
  refine le_trans (Finset.abs_sum_le_sum_abs _ _) (le_of_eq ?_)
  apply Finset.sum_congr rfl
  intro n _
  rw [abs_mul, abs_mul, Nat.abs_cast, Nat.abs_cast]

/-- `|S1(x, y, c)| ≤ x (x (log₂ y + 1) + y) / 2`. -/
theorem S1Abs_le (x y c : ℕ) : S1Abs x y c * 2 ≤ x * (x * (Nat.log 2 y + 1) + y) := by
  have h1 : S1Abs x y c ≤ ((∑ n ∈ Icc 1 y, n * phiSum (x / n) 0 : ℕ) : ℤ) := by
    unfold S1Abs
    push_cast
    refine le_trans ?_ (Finset.sum_le_sum_of_subset_of_nonneg (Finset.filter_subset (Rough c) (Icc 1 y))
      (fun _ _ _ => by positivity))
    apply Finset.sum_le_sum
    intro n _
    have h2 := abs_mu_le n
    have h3 : (phiSum (x / n) c : ℤ) ≤ phiSum (x / n) 0 := by exact_mod_cast phiSum_anti (by omega)
    have h4 : (0:ℤ) ≤ n := by positivity
    have h5 : (0:ℤ) ≤ phiSum (x / n) c := by positivity
    calc |mu n| * (n : ℤ) * phiSum (x / n) c ≤ 1 * (n : ℤ) * phiSum (x / n) c := by gcongr
      _ ≤ (n : ℤ) * phiSum (x / n) 0 := by rw [one_mul]; gcongr
  have h2 := sum_leaf_le x y
  have h3 : (((∑ n ∈ Icc 1 y, n * phiSum (x / n) 0) * 2 : ℕ) : ℤ) ≤
    ((x * (x * (Nat.log 2 y + 1) + y) : ℕ) : ℤ) := by exact_mod_cast h2
  push_cast at h3 h1 ⊢
  linarith

theorem abs_S1Sum_le (x y c : ℕ) : |S1Sum x y c| * 2 ≤ x * (x * (Nat.log 2 y + 1) + y) := by
  have h1 := abs_S1Sum_le_S1Abs x y c
  have h2 := S1Abs_le x y c
  linarith

end PS
