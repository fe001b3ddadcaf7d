import Verif.Model.Width
import Verif.Model.Misc
import Verif.Model.Imath
import Mathlib.Data.Nat.Bitwise

/-!
# Model of include/BitSieve.hpp, src/BitSieve.cpp and include/SumBits.hpp

Words are `BitVec 64`.  `sum_bits` adds in `uint64_t` and is modelled with wrapping arithmetic.  The cast `(uint16_t*) &bits[i]` (line 103) reads the 16-bit quarters of a
word in memory order: the model fixes the little-endian order.
-/

namespace PS

namespace SumBits

/-- `__builtin_ctzll(j)`, `j ≠ 0`: the index of the lowest set bit. -/
def ctz (j : ℕ) : ℕ := Nat.log2 (Nat.ldiff j (j - 1))

/-- include/SumBits.hpp:26-28: the entry `sum_bits_[i]`, computed with `uint8_t` additions. -/
def entry (i : ℕ) : M (BitVec 8) :=
  loop 17 (i, 0#8) (fun ((j, s) : ℕ × BitVec 8) =>
    if j ≠ 0 then pure (.next (j &&& (j - 1), s + BitVec.ofNat 8 (ctz j * 2)))
    else pure (.done s))

/-- include/SumBits.hpp:22-30 and :32-36: the table has `2^16` entries. -/
def rd (i : ℕ) : M (BitVec 8) := if i < 2 ^ 16 then entry i else .error .oob

end SumBits

/-- include/BitSieve.hpp:89-92. -/
structure BitSieve where
  sieve : Vec (BitVec 64)
  size : ℕ

namespace BitSieve

/-- src/BitSieve.cpp:32. -/
def primes : Vec ℕ := ⟨#[0, 2, 3, 5, 7, 11, 13, 17, 19, 23]⟩

/-- src/BitSieve.cpp:35-47. -/
def masks : Vec (BitVec 64) := ⟨#[
    0x0000000000000000#64,
    0x5555555555555555#64,
    0x9249249249249249#64,
    0x1084210842108421#64,
    0x8102040810204081#64,
    0x0080100200400801#64,
    0x0010008004002001#64,
    0x0008000400020001#64,
    0x0200004000080001#64,
    0x0000400000800001#64]⟩

/-- src/BitSieve.cpp:49-54. -/
def fastModulo (x y : ℕ) : ℕ := if x < y then x else x - y

/-- src/BitSieve.cpp:56-75: the sum of the word `bits` and the new value of `low`. -/
def sumBits (bits low : BitVec 64) : M (BitVec 64 × BitVec 64) := do
  let bits0 := bits &&& 0xffff#64
  let bits1 := (bits >>> 16) &&& 0xffff#64
  let bits2 := (bits >>> 32) &&& 0xffff#64
  let bits3 := bits >>> 48
  let s0 ← SumBits.rd bits0.toNat
  let s1 ← SumBits.rd bits1.toNat
  let s2 ← SumBits.rd bits2.toNat
  let s3 ← SumBits.rd bits3.toNat
  let sum := 0#64 + s0.setWidth 64 + s1.setWidth 64 + s2.setWidth 64 + s3.setWidth 64
  let sum := sum + low * popcnt64 bits0
  let low := low + 32#64
  let sum := sum + low * popcnt64 bits1
  let low := low + 32#64
  let sum := sum + low * popcnt64 bits2
  let low := low + 32#64
  let sum := sum + low * popcnt64 bits3
  let low := low + 32#64
  pure (sum, low)

/-- src/BitSieve.cpp:98-106: the sum of the words `first, …, first + size - 1`.  The quarters of a word
are those of `sumBits` (lines 77-96 differ only in reading them from memory). -/
def sumWords (v : Vec (BitVec 64)) (first size : ℕ) (low : BitVec 64) : M (ℕ × BitVec 64) :=
  forUp 0 size (0, low) (fun i ((sum, low) : ℕ × BitVec 64) => do
    let w ← v.rd (first + i)
    let (s, low) ← sumBits w low
    let sum ← fit 127 (sum + s.toNat)
    pure (sum, low))

/-- src/BitSieve.cpp:112-146. -/
def setBit : Vec (BitVec 64) := ⟨#[
    1#64 <<< 0, 1#64 <<< 0, 1#64 <<< 1, 1#64 <<< 1, 1#64 <<< 2, 1#64 <<< 2, 1#64 <<< 3, 1#64 <<< 3,
    1#64 <<< 4, 1#64 <<< 4, 1#64 <<< 5, 1#64 <<< 5, 1#64 <<< 6, 1#64 <<< 6, 1#64 <<< 7, 1#64 <<< 7,
    1#64 <<< 8, 1#64 <<< 8, 1#64 <<< 9, 1#64 <<< 9, 1#64 <<< 10, 1#64 <<< 10, 1#64 <<< 11, 1#64 <<<
    11, 1#64 <<< 12, 1#64 <<< 12, 1#64 <<< 13, 1#64 <<< 13, 1#64 <<< 14, 1#64 <<< 14, 1#64 <<< 15,
    1#64 <<< 15, 1#64 <<< 16, 1#64 <<< 16, 1#64 <<< 17, 1#64 <<< 17, 1#64 <<< 18, 1#64 <<< 18, 1#64
    <<< 19, 1#64 <<< 19, 1#64 <<< 20, 1#64 <<< 20, 1#64 <<< 21, 1#64 <<< 21, 1#64 <<< 22, 1#64 <<<
    22, 1#64 <<< 23, 1#64 <<< 23, 1#64 <<< 24, 1#64 <<< 24, 1#64 <<< 25, 1#64 <<< 25, 1#64 <<< 26,
    1#64 <<< 26, 1#64 <<< 27, 1#64 <<< 27, 1#64 <<< 28, 1#64 <<< 28, 1#64 <<< 29, 1#64 <<< 29, 1#64
    <<< 30, 1#64 <<< 30, 1#64 <<< 31, 1#64 <<< 31, 1#64 <<< 32, 1#64 <<< 32, 1#64 <<< 33, 1#64 <<<
    33, 1#64 <<< 34, 1#64 <<< 34, 1#64 <<< 35, 1#64 <<< 35, 1#64 <<< 36, 1#64 <<< 36, 1#64 <<< 37,
    1#64 <<< 37, 1#64 <<< 38, 1#64 <<< 38, 1#64 <<< 39, 1#64 <<< 39, 1#64 <<< 40, 1#64 <<< 40, 1#64
    <<< 41, 1#64 <<< 41, 1#64 <<< 42, 1#64 <<< 42, 1#64 <<< 43, 1#64 <<< 43, 1#64 <<< 44, 1#64 <<<
    44, 1#64 <<< 45, 1#64 <<< 45, 1#64 <<< 46, 1#64 <<< 46, 1#64 <<< 47, 1#64 <<< 47, 1#64 <<< 48,
    1#64 <<< 48, 1#64 <<< 49, 1#64 <<< 49, 1#64 <<< 50, 1#64 <<< 50, 1#64 <<< 51, 1#64 <<< 51, 1#64
    <<< 52, 1#64 <<< 52, 1#64 <<< 53, 1#64 <<< 53, 1#64 <<< 54, 1#64 <<< 54, 1#64 <<< 55, 1#64 <<<
    55, 1#64 <<< 56, 1#64 <<< 56, 1#64 <<< 57, 1#64 <<< 57, 1#64 <<< 58, 1#64 <<< 58, 1#64 <<< 59,
    1#64 <<< 59, 1#64 <<< 60, 1#64 <<< 60, 1#64 <<< 61, 1#64 <<< 61, 1#64 <<< 62, 1#64 <<< 62, 1#64
    <<< 63, 1#64 <<< 63]⟩

/-- src/BitSieve.cpp:148-151: the constructor. -/
def mk' (size : ℕ) : M BitSieve := do
  let n ← ceilDiv size 128
  pure ⟨Vec.mk' n 0#64, size⟩

/-- include/BitSieve.hpp:63-68. -/
def set (b : BitSieve) (pos : ℕ) : M BitSieve := do
  let m ← setBit.rd (pos % 128)
  let w ← b.sieve.rd (pos / 128)
  let v ← b.sieve.wr (pos / 128) (w ||| m)
  pure { b with sieve := v }

/-- include/BitSieve.hpp:70-75. -/
def unset (b : BitSieve) (pos : ℕ) : M BitSieve := do
  let m ← setBit.rd (pos % 128)
  let w ← b.sieve.rd (pos / 128)
  let v ← b.sieve.wr (pos / 128) (w &&& ~~~ m)
  pure { b with sieve := v }

/-- include/BitSieve.hpp:77-82: `operator[]`. -/
def at_ (b : BitSieve) (pos : ℕ) : M Bool := do
  let m ← setBit.rd (pos % 128)
  let w ← b.sieve.rd (pos / 128)
  pure (decide (w &&& m ≠ 0#64))

/-- `std::copy(v.begin(), v.begin() + n, v.begin() + dst)`. -/
def copy (v : Vec (BitVec 64)) (n dst : ℕ) : M (Vec (BitVec 64)) :=
  forUp 0 n v (fun i v => do
    let w ← v.rd i
    v.wr (dst + i) w)

/-- src/BitSieve.cpp:177-186 and :205-213: copy the first `sieved` words until `end` words are filled. -/
def copyLoop (sieved stop sieveSize : ℕ) (v : Vec (BitVec 64)) (last : ℕ) : M (Vec (BitVec 64) × ℕ) :=
  loop (stop + 1) (v, last) (fun ((v, last) : Vec (BitVec 64) × ℕ) =>
    if last < stop then do
      let copyWords := min sieved (sieveSize - last)
      let v ← copy v copyWords last
      pure (.next (v, last + copyWords))
    else pure (.done (v, last)))

/-- src/BitSieve.cpp:188-200: cross off the multiples of the `i`-th prime in the first `last` words; the
first check is for the sum in `ceil_div` (include/imath.hpp:30-35). -/
def preSievePrime (i low last : ℕ) (v : Vec (BitVec 64)) : M (Vec (BitVec 64)) := do
  let prime ← primes.rd i
  let _ ← fit 64 (low + prime)
  let q ← ceilDiv low prime
  let multiple ← fit 64 (q * prime)
  let multiple ← fit 64 (multiple + prime * (if multiple % 2 = 0 then 1 else 0))
  let p64 ← csub prime (64 % prime)
  let mask ← masks.rd i
  let d ← csub multiple low
  let shift := d / 2
  let r ← forUp 0 last (v, shift) (fun j ((v, shift) : Vec (BitVec 64) × ℕ) => do
    let w ← v.rd j
    let m ← (if shift < 64 then .ok (mask <<< shift) else .error .shift : M (BitVec 64))
    let v ← v.wr j (w &&& ~~~ m)
    pure (v, fastModulo (shift + p64) prime))
  pure r.1

/-- src/BitSieve.cpp:157-214: `pre_sieve`. -/
def preSieve (b : BitSieve) (c low : ℕ) : M BitSieve :=
  if b.sieve.size = 0 then pure b
  else do
    let v ← b.sieve.wr 0 (~~~ 0#64)
    let sieveSize := v.size
    let (v, last) ← forUp 2 (c + 1) (v, 1) (fun i ((v, sieved) : Vec (BitVec 64) × ℕ) => do
      let prime ← primes.rd i
      let endCopy := min (sieved * prime) sieveSize
      let (v, last) ← copyLoop sieved endCopy sieveSize v sieved
      let v ← preSievePrime i low last v
      pure (v, last))
    let (v, _) ← copyLoop last sieveSize sieveSize v last
    pure { b with sieve := v }

/-- src/BitSieve.cpp:217-249: `sum(low, start, stop)`. -/
def sum (b : BitSieve) (low start stop : ℕ) : M ℕ := do
  let start := start + start % 2
  let stop := stop - stop % 2
  if start > stop then pure 0
  else do
    let startIdx := start / 128
    let stopIdx := stop / 128
    let b1 ← setBit.rd (start % 128)
    let m1 := ~~~ (b1 - 1#64)
    let b2 ← setBit.rd (stop % 128)
    let m2 := ((b2 - 1#64) <<< 1) ||| 1#64
    let low := BitVec.ofNat 64 (low + (start - start % 128))
    if startIdx = stopIdx then do
      let w ← b.sieve.rd startIdx
      let (s, _) ← sumBits (w &&& (m1 &&& m2)) low
      pure s.toNat
    else do
      let w ← b.sieve.rd startIdx
      let (s1, low) ← sumBits (w &&& m1) low
      let (s2, low) ← sumWords b.sieve (startIdx + 1) (stopIdx - (startIdx + 1)) low
      let w ← b.sieve.rd stopIdx
      let (s3, _) ← sumBits (w &&& m2) low
      let s ← fit 127 (s1.toNat + s2)
      fit 127 (s + s3.toNat)

/-- include/BitSieve.hpp:47-61: `sum(start, stop, low, high, sum_0_start, sum_low_high)`.  The unsigned
differences that would wrap around are reported. -/
def sum6 (b : BitSieve) (start stop low high : ℕ) (sum0Start sumLowHigh : ℤ) : M ℤ :=
  if start > stop then pure 0
  else do
    let d ← csub high low
    let d' ← csub d stop
    if stop - start < d' then do
      let s ← sum b low start stop
      pure s
    else do
      let h ← csub (high - 1) low
      let s ← sum b low (stop + 1) h
      let t ← fitI 127 (sumLowHigh - sum0Start)
      fitI 127 (t - s)

end BitSieve
end PS
