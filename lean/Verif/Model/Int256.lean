import Verif.Base

/-!
# Model of `primesum::int256_t` (include/int256_t.hpp)

The two `uint128_t` members are 128-bit vectors; every operation is transcribed on this
representation.  Shifts by an amount `>= 128` of a `uint128_t`, signed overflow and `std::abort` are
distinct outcomes.
-/

namespace PS

/-- include/int256_t.hpp:469-471: members `low`, `high`. -/
structure I256 where
  low : BitVec 128
  high : BitVec 128
deriving DecidableEq, Repr

namespace I256

/-- include/int256_t.hpp:39-45: construction from a built-in integer `x` (any integral type of at
most 128 bits; `low(x)` converts modulo `2^128`). -/
def ofInt (x : Int) : I256 := ⟨BitVec.ofInt 128 x, if x < 0 then BitVec.ofInt 128 (-1) else 0#128⟩

/-- include/int256_t.hpp:33-37. -/
def zero : I256 := ⟨0#128, 0#128⟩

/-- include/int256_t.hpp:47-51. -/
def eq (a b : I256) : Bool := a.low == b.low && a.high == b.high

/-- include/int256_t.hpp:53-56. -/
def ne (a b : I256) : Bool := !(eq a b)

/-- include/int256_t.hpp:58-64: the high words are compared as `int128_t`. -/
def lt (a b : I256) : Bool :=
  a.high.slt b.high || (a.high == b.high && a.low.ult b.low)

/-- include/int256_t.hpp:66-69. -/
def le (a b : I256) : Bool := !(lt b a)

/-- include/int256_t.hpp:71-74. -/
def gt (a b : I256) : Bool := lt b a

/-- include/int256_t.hpp:76-79. -/
def ge (a b : I256) : Bool := !(lt a b)

/-- include/int256_t.hpp:93-96. -/
def not (a : I256) : I256 := ⟨~~~a.low, ~~~a.high⟩

/-- include/int256_t.hpp:98-105: `--`. -/
def dec (a : I256) : I256 :=
  let high := if a.low = 0#128 then a.high - 1#128 else a.high
  ⟨a.low - 1#128, high⟩

/-- include/int256_t.hpp:107-114: `++`. -/
def inc (a : I256) : I256 :=
  let low := a.low + 1#128
  ⟨low, if low = 0#128 then a.high + 1#128 else a.high⟩

/-- include/int256_t.hpp:86-91: unary minus. -/
def neg (a : I256) : I256 := inc (not a)

/-- include/int256_t.hpp:130-141. -/
def add (a b : I256) : I256 :=
  let high := a.high + b.high
  let low := a.low + b.low
  ⟨low, if low.ult b.low then high + 1#128 else high⟩

/-- include/int256_t.hpp:143-154. -/
def sub (a b : I256) : I256 :=
  let high := a.high - b.high
  let low := a.low - b.low
  ⟨low, if a.low.ult low then high - 1#128 else high⟩

/-- `max64` of include/int256_t.hpp:158. -/
def max64 : BitVec 128 := 0xFFFFFFFFFFFFFFFF#128

/-- The condition of the fast path, include/int256_t.hpp:160-163. -/
def mulFast (a b : I256) : Bool :=
  a.low.ule max64 && b.low.ule max64 &&
    ((a.high == 0#128 || ~~~a.high == 0#128) && (b.high == 0#128 || ~~~b.high == 0#128))

/-- include/int256_t.hpp:156-184. -/
def mul (a b : I256) : I256 :=
  if mulFast a b then
    ⟨a.low * b.low, if a.high == b.high then 0#128 else BitVec.ofInt 128 (-1)⟩
  else
    let al := a.low &&& max64
    let ah := a.low >>> 64
    let bl := b.low &&& max64
    let bh := b.low >>> 64
    let x := al * bl
    let y := al * bh
    let z := ah * bl
    let w := ah * bh
    add (add ⟨y <<< 64, y >>> 64⟩ ⟨z <<< 64, z >>> 64⟩)
      ⟨x, w + a.low * b.high + a.high * b.low⟩

/-- include/int256_t.hpp:196-212. -/
def and (a b : I256) : I256 := ⟨a.low &&& b.low, a.high &&& b.high⟩
def or (a b : I256) : I256 := ⟨a.low ||| b.low, a.high ||| b.high⟩
def xor (a b : I256) : I256 := ⟨a.low ^^^ b.low, a.high ^^^ b.high⟩

/-- `uint128_t << n`: undefined for `n >= 128`. -/
def shl128 (x : BitVec 128) (n : Nat) : M (BitVec 128) :=
  if n < 128 then .ok (x <<< n) else .error .shift

/-- `uint128_t >> n`: undefined for `n >= 128`. -/
def shr128 (x : BitVec 128) (n : Nat) : M (BitVec 128) :=
  if n < 128 then .ok (x >>> n) else .error .shift

/-- include/int256_t.hpp:214-220. -/
def shl (a : I256) (bits : Nat) : M I256 :=
  if bits ≥ 128 then do
    return ⟨0#128, ← shl128 a.low (bits - 128)⟩
  else do
    let l ← shl128 a.low bits
    let h ← shl128 a.high bits
    let c ← shr128 a.low (128 - bits)
    return ⟨l, h ||| c⟩

/-- include/int256_t.hpp:222-228. -/
def shr (a : I256) (bits : Nat) : M I256 :=
  if bits ≥ 128 then do
    return ⟨← shr128 a.high (bits - 128), 0#128⟩
  else do
    let l ← shr128 a.low bits
    let c ← shl128 a.high (128 - bits)
    let h ← shr128 a.high bits
    return ⟨l ||| c, h⟩

/-- Conversions to signed types, include/int256_t.hpp:402-440, `w` bits wide.
`static_cast` keeps the low `w` bits; the unary minus is computed in `int` for `w < 32` (and the
result converted back modulo `2^w`), in the type itself otherwise, where negating the minimum is
undefined. -/
def toSigned (w : Nat) (a : I256) : M (BitVec w) :=
  if lt a (ofInt 0) then
    let t : BitVec w := (BitVec.ofNat w ((a.low - 1#128) ^^^ (BitVec.allOnes 128)).toNat)
    if 32 ≤ w ∧ t = BitVec.intMin w then .error .overflow else .ok (-t)
  else .ok (BitVec.ofNat w a.low.toNat)

/-- Conversions to unsigned types, include/int256_t.hpp:442-465. -/
def toUnsigned (w : Nat) (a : I256) : BitVec w := BitVec.ofNat w a.low.toNat

/-- include/int256_t.hpp:479-482. -/
def minValue : I256 := ⟨0#128, BitVec.intMin 128⟩
/-- include/int256_t.hpp:484-488. -/
def maxValue : I256 := ⟨BitVec.allOnes 128, BitVec.intMax 128⟩

/-- include/int256_t.hpp:490-496. -/
def getBit (a : I256) (bit : Nat) : M Bool :=
  if bit ≥ 128 then do
    return (← shr128 a.high (bit - 128)) &&& 1#128 != 0#128
  else do
    return (← shr128 a.low bit) &&& 1#128 != 0#128

/-- include/int256_t.hpp:498-521. -/
def setBit (a : I256) (bit : Nat) (value : Bool) : M I256 :=
  if bit ≥ 256 then .ok a
  else if bit ≥ 128 then do
    let mask ← shl128 1#128 (bit - 128)
    return ⟨a.low, if value then a.high ||| mask else a.high &&& ~~~mask⟩
  else do
    let mask ← shl128 1#128 bit
    return ⟨if value then a.low ||| mask else a.low &&& ~~~mask, a.high⟩

/-- include/int256_t.hpp:523-535; at most 256 shifts can be needed, so 257 iterations of fuel. -/
def findMsb (a : I256) : M Nat :=
  loop 257 (a, 0) (fun (x, pos) =>
    if ne x (ofInt 0) then do
      let x' ← shr x 1
      return .next (x', pos + 1)
    else return .done pos)

/-- One iteration of the long division loop, include/int256_t.hpp:572-581. -/
def udivStep (a other : I256) (i : Nat) (s : I256 × I256) : M (I256 × I256) := do
  let (quotient, remainder) := s
  let remainder ← shl remainder 1
  let bit ← getBit a i
  let remainder ← setBit remainder 0 bit
  if ge remainder other then
    let remainder := sub remainder other
    let quotient ← setBit quotient i true
    return (quotient, remainder)
  else
    return (quotient, remainder)

/-- The long division loop, include/int256_t.hpp:571: `for (i = n - 1; i >= 0; i--)`. -/
def udivLoop (a other : I256) : Nat → (I256 × I256) → M (I256 × I256)
  | 0, s => .ok s
  | n + 1, s => do
    let s' ← udivStep a other n s
    udivLoop a other n s'

/-- include/int256_t.hpp:538-584. Division by zero calls `std::abort`. -/
def udiv (a other : I256) : M (I256 × I256) :=
  if eq other (ofInt 0) then .error .divZero
  else if eq other (ofInt 1) then .ok (a, ofInt 0)
  else if eq a other then .ok (ofInt 1, ofInt 0)
  else if eq a (ofInt 0) || (ne a minValue && lt a other) then .ok (ofInt 0, a)
  else if a.high == 0#128 && other.high == 0#128 then
    .ok (⟨a.low / other.low, 0#128⟩, ⟨a.low % other.low, 0#128⟩)
  else do
    let i ← findMsb a
    -- `i >= 0 && i <= 256`
    if i ≤ 256 then udivLoop a other (i + 1) (ofInt 0, ofInt 0) else .ok (ofInt 0, ofInt 0)

/-- include/int256_t.hpp:587-614. -/
def divmod (a other : I256) : M (I256 × I256) :=
  if lt a (ofInt 0) then
    let x := neg a
    if lt other (ofInt 0) then do
      let res ← udiv x (neg other)
      return (res.1, neg res.2)
    else do
      let res ← udiv x other
      return (neg res.1, neg res.2)
  else
    if lt other (ofInt 0) then do
      let res ← udiv a (neg other)
      return (neg res.1, res.2)
    else
      udiv a other

/-- include/int256_t.hpp:186-189. -/
def div (a b : I256) : M I256 := do return (← divmod a b).1
/-- include/int256_t.hpp:191-194. -/
def mod (a b : I256) : M I256 := do return (← divmod a b).2

/-- include/int256_t.hpp:627-631: `while (n > 0) { str += '0' + int8_t(n % 10); n /= 10; }`.
`char` is 8 bits wide; the digit character is computed modulo 256.  A 256-bit number has at most 78
decimal digits, so 79 iterations of fuel. -/
def printLoop (n : I256) : M (List Char) :=
  loop 79 (n, []) (fun (n, str) =>
    if gt n (ofInt 0) then do
      let r ← mod n (ofInt 10)
      let d ← toSigned 8 r
      let q ← div n (ofInt 10)
      return .next (q, str ++ [Char.ofNat (BitVec.ofNat 8 48 + d).toNat])
    else return .done str)

/-- include/int256_t.hpp:617-639: the characters written to the stream. -/
def print (n : I256) : M (List Char) :=
  if lt n (ofInt 0) then do
    let str ← printLoop (neg n)
    return '-' :: (if str.isEmpty then ['0'] else str).reverse
  else do
    let str ← printLoop n
    return (if str.isEmpty then ['0'] else str).reverse

end I256
end PS
