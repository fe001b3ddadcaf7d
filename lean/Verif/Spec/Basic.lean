import Mathlib.NumberTheory.PrimeCounting
import Mathlib.NumberTheory.ArithmeticFunction.Moebius
import Mathlib.Algebra.BigOperators.Intervals
import Mathlib.Order.Interval.Finset.Nat

/-!
# Specification: what the program is supposed to compute

Definitions in terms of primes and divisibility only; nothing here refers to the model.
-/

namespace PS

open Finset

open scoped Classical

/-- The sum of the primes `≤ x`. -/
noncomputable def primeSum (x : ℕ) : ℕ := ∑ p ∈ (range (x + 1)).filter Nat.Prime, p

/-- The `i`-th prime, counted from 1: `prm 1 = 2`, `prm 2 = 3`, … -/
noncomputable def prm (i : ℕ) : ℕ := Nat.nth Nat.Prime (i - 1)

/-- `n` is not divisible by any of the first `a` primes. -/
def Rough (a n : ℕ) : Prop := ∀ i, 1 ≤ i → i ≤ a → ¬ prm i ∣ n

/-- The number of `n ≤ x` not divisible by any of the first `a` primes. -/
noncomputable def phi (x a : ℕ) : ℕ := ((Icc 1 x).filter (Rough a)).card

/-- The sum of the `n ≤ x` not divisible by any of the first `a` primes. -/
noncomputable def phiSum (x a : ℕ) : ℕ := ∑ n ∈ (Icc 1 x).filter (Rough a), n

/-- The sum of the `n ≤ x` which are a product of two primes, both greater than `y`. -/
noncomputable def P2Sum (x y : ℕ) : ℕ :=
  ∑ n ∈ (Icc 1 x).filter (fun n => ∃ p q, p.Prime ∧ q.Prime ∧ y < p ∧ y < q ∧ n = p * q), n

/-- The Möbius function. -/
noncomputable abbrev mu (n : ℕ) : ℤ := ArithmeticFunction.moebius n

/-- Contribution of the ordinary leaves: `n ≤ y`, without prime factor among the first `c`. -/
noncomputable def S1Sum (x y c : ℕ) : ℤ :=
  ∑ n ∈ (Icc 1 y).filter (Rough c), mu n * n * phiSum (x / n) c

/-- Special leaves: pairs `(b, m)` with `c < b ≤ π(y)`, `m ≤ y < m p_b`, `m` squarefree, all prime
factors of `m` greater than `p_b`. -/
noncomputable def specialLeaves (y c : ℕ) : Finset (ℕ × ℕ) :=
  ((Icc (c + 1) (Nat.primeCounting y)) ×ˢ (Icc 1 y)).filter
    (fun bm => y < bm.2 * prm bm.1 ∧ Squarefree bm.2 ∧ Rough bm.1 bm.2)

/-- Contribution of the special leaf `(b, m)`. -/
noncomputable def leafTerm (x : ℕ) (bm : ℕ × ℕ) : ℤ :=
  -(mu bm.2) * (bm.2 * prm bm.1) * phiSum (x / (bm.2 * prm bm.1)) (bm.1 - 1)

/-- Contribution of all special leaves. -/
noncomputable def S2Sum (x y c : ℕ) : ℤ := ∑ bm ∈ specialLeaves y c, leafTerm x bm

end PS
