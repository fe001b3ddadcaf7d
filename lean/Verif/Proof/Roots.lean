import Verif.Model.Roots
import Verif.Proof.Imath
import Mathlib.Tactic.Ring

namespace PS

theorem iroot_le (N x : ℕ) (hN : 1 ≤ N) : iroot N x ^ N ≤ x := by
  unfold iroot
  exact Nat.findGreatest_spec (P := fun r => r ^ N ≤ x) (m := 0) (Nat.zero_le _)
    (by simp [zero_pow (show N ≠ 0 by omega)])

theorem le_iroot {N x r : ℕ} (hN : 1 ≤ N) (h : r ^ N ≤ x) : r ≤ iroot N x := by
  unfold iroot
  exact Nat.le_findGreatest (le_trans (Nat.le_self_pow (by omega) r) h) h

theorem lt_iroot_succ (N x : ℕ) (hN : 1 ≤ N) : x < (iroot N x + 1) ^ N := by
  by_contra hc
  push Not at hc
  have := le_iroot hN hc
  omega

theorem le_iroot_iff {N x r : ℕ} (hN : 1 ≤ N) : r ≤ iroot N x ↔ r ^ N ≤ x :=
  ⟨fun h => le_trans (Nat.pow_le_pow_left h N) (iroot_le N x hN), le_iroot hN⟩

/-- `iroot<N>(x)` of the source, whatever estimate the floating-point `pow` gives. -/
theorem irootM_eq (N est x : ℕ) (hN : 1 ≤ N) : irootM N est x = .ok (iroot N x) := by
  obtain ⟨r, hr, h1, h2⟩ := irootM_ok N est x hN
  rw [hr]
  congr 1
  apply le_antisymm (le_iroot hN h1)
  by_contra hc
  push Not at hc
  have := Nat.pow_le_pow_left (show r + 1 ≤ iroot N x by omega) N
  have := iroot_le N x hN
  omega

end PS
