import Verif.Base

/-!
# Model of the `int128_t` stream output (include/int128_t.hpp)

`int128_t` / `uint128_t` are the compiler's built-in types: a value is an `Int` (`Nat`) in range;
signed overflow is a distinct outcome.
-/

namespace PS.I128

def minInt : Int := -2 ^ 127
def maxInt : Int := 2 ^ 127 - 1

/-- An `int128_t` result: overflow is undefined. -/
def chk (x : Int) : M Int := if minInt ≤ x ∧ x ≤ maxInt then .ok x else .error .overflow

/-- include/int128_t.hpp:39-43: `while (n > 0) { str += '0' + n % 10; n /= 10; }`. -/
def printLoop (n : Nat) : M (List Char) :=
  loop 40 (n, []) (fun (n, str) =>
    if n > 0 then return .next (n / 10, str ++ [Char.ofNat (48 + n % 10)])
    else return .done str)

/-- include/int128_t.hpp:35-49: `operator<<(uint128_t)`. -/
def printU (n : Nat) : M (List Char) := do
  let str ← printLoop n
  return (if str.isEmpty then ['0'] else str).reverse

/-- include/int128_t.hpp:51-60: `operator<<(int128_t)`. -/
def printS (n : Int) : M (List Char) :=
  if n < 0 then do
    let m ← chk (-n)
    let s ← printU m.toNat
    return '-' :: s
  else printU n.toNat

end PS.I128
