import Verif.Spec.Basic

/-!
# Specification: the classes of special leaves

For a special leaf `(b, m)` put `p = p_b`, `n = p m`.  `z` stands for `x / y`.
-/

namespace PS

open Finset

open scoped Classical

/-- Hard leaves: the remaining ones; `p ≤ √y` or `n ≤ z`. -/
noncomputable def hardLeaves (x y c : ℕ) : Finset (ℕ × ℕ) :=
  (specialLeaves y c).filter (fun bm => prm bm.1 * prm bm.1 ≤ y ∨ bm.2 * prm bm.1 ≤ x / y)

/-- Contribution of the hard leaves. -/
noncomputable def S2HardSum (x y c : ℕ) : ℤ := ∑ bm ∈ hardLeaves x y c, leafTerm x bm

/-- Easy leaves: pairs of primes `√y < p < q ≤ y`, `p` not among the first `c` primes, `p q > z`,
`p² q ≤ x`. -/
noncomputable def easyPairs (x y c : ℕ) : Finset (ℕ × ℕ) :=
  (Icc 1 y ×ˢ Icc 1 y).filter (fun pq => pq.1.Prime ∧ pq.2.Prime ∧ pq.1 < pq.2 ∧
    c < Nat.primeCounting pq.1 ∧ y < pq.1 * pq.1 ∧ x / y < pq.1 * pq.2 ∧ pq.1 * pq.1 * pq.2 ≤ x)

/-- Contribution of the easy leaves. -/
noncomputable def S2EasySum (x y c : ℕ) : ℕ :=
  ∑ pq ∈ easyPairs x y c, pq.1 * pq.2 * phiSum (x / (pq.1 * pq.2)) (Nat.primeCounting pq.1 - 1)

/-- Trivial leaves: pairs of primes `√z < p < q ≤ y`, `p` not among the first `c` primes, `p² q > x`. -/
noncomputable def trivialPairs (x y c : ℕ) : Finset (ℕ × ℕ) :=
  (Icc 1 y ×ˢ Icc 1 y).filter (fun pq => pq.1.Prime ∧ pq.2.Prime ∧ pq.1 < pq.2 ∧
    c < Nat.primeCounting pq.1 ∧ x / y < pq.1 * pq.1 ∧ x < pq.1 * pq.1 * pq.2)

/-- Contribution of the trivial leaves. -/
noncomputable def S2TrivialSum (x y c : ℕ) : ℕ := ∑ pq ∈ trivialPairs x y c, pq.1 * pq.2

end PS
