import Mathlib.Data.Nat.Notation

namespace PS

/-- Canonical decimal representation of an integer (no leading zeros, `-` for negatives). -/
def decimal (z : Int) : List Char :=
  if z < 0 then '-' :: Nat.toDigits 10 z.natAbs else Nat.toDigits 10 z.natAbs

end PS
