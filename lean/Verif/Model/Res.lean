import Verif.Model.PhiSum

/-!
# The result types of the templates

The templates in S1.cpp, P2.cpp and S2_*.cpp compute in `next_larger_type<X>`
(include/int256_t.hpp:641-649): `int128_t` for `X = int64_t`, `int256_t` for `X = int128_t`.  The model
functions are generic over this type.  `int128_t` accumulators are 128-bit words with wrapping arithmetic.
-/

namespace PS

/-- Operations the templates use on their result type. -/
class Res (R : Type) where
  ofInt : ℤ → R
  add : R → R → R
  sub : R → R → R
  mul : R → R → R
  /-- `phi_sum(X x, int64_t a)`, src/phi_sum.cpp:84-104. -/
  phiSumR : ℕ → ℕ → M R
  /-- Conversion of the returned value to `int256_t`. -/
  toI256 : R → I256

/-- `int128_t` (`X = int64_t`). -/
abbrev W128 := BitVec 128

instance : Res W128 where
  ofInt z := BitVec.ofInt 128 z
  add a b := a + b
  sub a b := a - b
  mul a b := a * b
  phiSumR x a := do
    let r ← phiSum64 x a
    pure (BitVec.ofInt 128 r)
  toI256 a := I256.ofInt a.toInt

/-- `int256_t` (`X = int128_t`). -/
instance : Res I256 where
  ofInt := I256.ofInt
  add := I256.add
  sub := I256.sub
  mul := I256.mul
  phiSumR := phiSumM
  toI256 a := a

end PS
