import Verif.Base
import Mathlib.Data.Nat.Find

/-!
# `iroot<N>(x)`

The result of include/imath.hpp:82-102 (`irootM`, Model/Imath.lean) as a function; `Proof/Roots.lean` proves
that `irootM` returns it for every floating-point estimate.
-/

namespace PS

/-- The integer `N`-th root. -/
def iroot (N x : ℕ) : ℕ := Nat.findGreatest (fun r => r ^ N ≤ x) x

end PS
