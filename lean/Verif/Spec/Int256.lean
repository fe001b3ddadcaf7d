import Verif.Model.Int256

/-!
# Meaning of an `int256_t`

The value of an `int256_t` is the two's complement value of its 256 bits; arithmetic is
specified on integers, reduced to the range `[-2^255, 2^255)`.
-/

namespace PS.I256

/-- The 256 bits. -/
def bits (a : I256) : BitVec 256 := a.high ++ a.low

/-- The represented integer. -/
def val (a : I256) : Int := (bits a).toInt

/-- Reduction of an integer to the range of a 256-bit two's complement number. -/
def wrap (x : Int) : Int := x.bmod (2 ^ 256)

/-- The integers a 256-bit two's complement number can hold. -/
def InRange (x : Int) : Prop := -2 ^ 255 ≤ x ∧ x < 2 ^ 255

end PS.I256
