import Verif.Base
import Verif.Model.Width
import Verif.Model.Ieee

/-!
# `double` values

The values of the type `double` and the operations of IEEE 754 on them, rounding to nearest, ties to even.  The two
zeros are one value, so that the sign of a quotient with divisor 0 is not known: such a division is the outcome
`Err.divZero`.  A conversion to `int64_t` of a value that is not representable, which is undefined in C++, is the
outcome `Err.overflow`.
-/

namespace PS

/-- A value of the type `double`. -/
inductive Dbl where
  | fin (q : ℚ)
  /-- infinity; the argument says whether it is the negative one -/
  | inf (neg : Bool)
  | nan
deriving DecidableEq

namespace Dbl

/-- The `double` that represents `q`: the rounded value, or infinity if that is too large for the format. -/
def round (q : ℚ) : Dbl :=
  if 2 ^ 1024 ≤ binary64 q then .inf false
  else if binary64 q ≤ -2 ^ 1024 then .inf true
  else .fin (binary64 q)

/-- Conversion of an integer. -/
def ofInt (z : ℤ) : Dbl := round z

/-- Addition. -/
def add : Dbl → Dbl → Dbl
  | .fin a, .fin b => round (a + b)
  | .inf a, .inf b => if a = b then .inf a else .nan
  | .inf a, .fin _ => .inf a
  | .fin _, .inf b => .inf b
  | _, _ => .nan

/-- Change of sign. -/
def neg : Dbl → Dbl
  | .fin a => .fin (-a)
  | .inf a => .inf (!a)
  | .nan => .nan

/-- Subtraction. -/
def sub (a b : Dbl) : Dbl := add a (neg b)

/-- Multiplication. -/
def mul : Dbl → Dbl → Dbl
  | .fin a, .fin b => round (a * b)
  | .inf a, .inf b => .inf (a ^^ b)
  | .inf a, .fin b => if b = 0 then .nan else .inf (a ^^ decide (b < 0))
  | .fin a, .inf b => if a = 0 then .nan else .inf (b ^^ decide (a < 0))
  | _, _ => .nan

/-- Division. -/
def div : Dbl → Dbl → M Dbl
  | .fin a, .fin b => if b = 0 then .error .divZero else .ok (round (a / b))
  | .inf a, .fin b => if b = 0 then .error .divZero else .ok (.inf (a ^^ decide (b < 0)))
  | .fin _, .inf _ => .ok (.fin 0)
  | _, _ => .ok .nan

/-- `a < b`. -/
def lt : Dbl → Dbl → Bool
  | .fin a, .fin b => decide (a < b)
  | .fin _, .inf b => !b
  | .inf a, .fin _ => a
  | .inf a, .inf b => a && !b
  | _, _ => false

/-- `a <= b`. -/
def le : Dbl → Dbl → Bool
  | .fin a, .fin b => decide (a ≤ b)
  | .fin _, .inf b => !b
  | .inf a, .fin _ => a
  | .inf a, .inf b => a || !b
  | _, _ => false

/-- `a == 0`. -/
def isZero : Dbl → Bool
  | .fin a => decide (a = 0)
  | _ => false

/-- `std::max(a, b)`. -/
def max (a b : Dbl) : Dbl := if lt a b then b else a

/-- `std::min(a, b)`. -/
def min (a b : Dbl) : Dbl := if lt b a then b else a

/-- include/imath.hpp:104-113: `in_between(min, x, max)`. -/
def inBetween (min x max : Dbl) : Dbl :=
  if lt x min then min
  else if lt max x then max
  else x

/-- Conversion to `int64_t`, which rounds towards 0. -/
def toInt64 : Dbl → M ℤ
  | .fin q => fitI 63 (if 0 ≤ q then ⌊q⌋ else ⌈q⌉)
  | _ => .error .overflow

/-- Conversion to `int128_t`, which rounds towards 0. -/
def toInt128 : Dbl → M ℤ
  | .fin q => fitI 127 (if 0 ≤ q then ⌊q⌋ else ⌈q⌉)
  | _ => .error .overflow

/-- Conversion to `uint64_t`, which rounds towards 0. -/
def toUInt64 : Dbl → M ℕ
  | .fin q => if q ≤ -1 then .error .overflow else fit 64 ⌊q⌋.toNat
  | _ => .error .overflow

/-- The square root of `q > 0`, rounded.  With `e` the exponent of the unit in the last place, the square root of
`q / 4^e` is rounded to an integer. -/
def sqrtQ (q : ℚ) : ℚ :=
  let e := Int.log 2 q / 2 - 52
  let m := q / 4 ^ e
  let n := Nat.sqrt ⌊m⌋.toNat
  let r := if m < (n + 1 / 2) ^ 2 ∨ m = (n + 1 / 2) ^ 2 ∧ n % 2 = 0 then n else n + 1
  r * 2 ^ e

/-- Square root. -/
def sqrt : Dbl → Dbl
  | .fin q => if q < 0 then .nan else if q = 0 then .fin 0 else .fin (sqrtQ q)
  | .inf false => .inf false
  | _ => .nan

end Dbl
end PS
