import Mathlib.Data.Rat.Floor
import Mathlib.Data.Int.Log
import Mathlib.Algebra.Ring.Parity

/-!
# Rounding to the `double` format

The rounding of IEEE 754 binary64 (round to nearest, ties to even), which is what the compiler and the processor are
expected to do, without overflow (magnitude at least `2^1024`), which `Model/Dbl.lean` adds.
-/

namespace PS

/-- Nearest integer, ties to even. -/
def roundEven (q : ℚ) : ℤ :=
  if q - ⌊q⌋ < 1 / 2 then ⌊q⌋
  else if 1 / 2 < q - ⌊q⌋ then ⌊q⌋ + 1
  else if Even ⌊q⌋ then ⌊q⌋ else ⌊q⌋ + 1

/-- The exponent of the unit in the last place of `q` in the binary64 format: 53 bits of precision, least exponent
-1074. -/
def ulpExp (q : ℚ) : ℤ := max (Int.log 2 |q| - 52) (-1074)

/-- IEEE 754 binary64: round to nearest, ties to even. -/
def binary64 (q : ℚ) : ℚ := roundEven (q / 2 ^ ulpExp q) * 2 ^ ulpExp q

end PS
