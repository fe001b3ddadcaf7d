import Mathlib.Data.Int.Basic
import Mathlib.Algebra.Order.Ring.Int
import Mathlib.Tactic.Linarith

/-!
# Model of include/min_max.hpp: `min` and `max` of two integral types

The models of the algorithms use the minimum and the maximum of numbers; Props/MinMax.lean shows that the templates compute them
for every pair of types that they accept.
-/

namespace PS

/-- An integral type: its size in bits and whether it is signed. -/
structure CType where
  bits : ℕ
  signed : Bool
  deriving DecidableEq

namespace CType

/-- The least value of the type. -/
def lo (T : CType) : ℤ := if T.signed then -2 ^ (T.bits - 1) else 0

/-- The largest value of the type plus one. -/
def hi (T : CType) : ℤ := if T.signed then 2 ^ (T.bits - 1) else 2 ^ T.bits

/-- The values of the type. -/
def Has (T : CType) (z : ℤ) : Prop := T.lo ≤ z ∧ z < T.hi

instance (T : CType) (z : ℤ) : Decidable (T.Has z) := inferInstanceAs (Decidable (_ ∧ _))

/-- The conversion `(T) z`: the low bits are kept (GCC, Clang and C++20; implementation-defined before for a signed type). -/
def conv (T : CType) (z : ℤ) : ℤ :=
  if T.signed then Int.bmod z (2 ^ T.bits) else z % 2 ^ T.bits

/-- include/min_max.hpp:23-42: `is_comparable<A, B>::value`.  Types of the same size and signedness are treated as the same. -/
def comparable (A B : CType) : Bool :=
  A = B || (A.bits > B.bits || (A.bits = B.bits && !A.signed && B.signed))

end CType

/-- include/min_max.hpp:44-51: `min(A, B)`. -/
def cMin (A B : CType) (a b : ℤ) : ℤ := B.conv (min a (A.conv b))

/-- include/min_max.hpp:59-66: `min(A, B, B)`. -/
def cMin3 (A B : CType) (a b c : ℤ) : ℤ := B.conv (min a (A.conv (min b c)))

/-- include/min_max.hpp:74-81: `max(A, B)`. -/
def cMax (A : CType) (a b : ℤ) : ℤ := max a (A.conv b)

/-- include/min_max.hpp:83-90: `max(A, B, B)`. -/
def cMax3 (A : CType) (a b c : ℤ) : ℤ := max a (A.conv (max b c))

end PS
