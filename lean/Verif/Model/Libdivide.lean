import Verif.Base

/-!
# Model of include/libdivide.h: `branchfree_divider<uint64_t>`

64-bit words are natural numbers; every operation that can wrap is followed by an explicit reduction modulo
`2^64`.  `libdivide_count_leading_zeros64(d)` is `63 - log2 d`.  The 128 by 64 bit division
(include/libdivide.h:343-357) and the high half of the product (:230-237) are modelled by their result, as in
the builds with `divq` or `__uint128_t`.  The portable code of the builds without them (:238-253, :301-319 and
:359-431) is modelled statement by statement at the end of the file (namespace `Port`).
-/

namespace PS.Libdivide

/-- include/libdivide.h:134-137. -/
structure Divider where
  magic : ℕ
  more : ℕ
deriving Inhabited, DecidableEq

/-- include/libdivide.h:343-357: quotient and remainder of `{u1, u0}` by `v`; the quotient must fit 64 bits. -/
def div128 (u1 u0 v : ℕ) : M (ℕ × ℕ) :=
  if v ≤ u1 then .error .overflow
  else .ok ((u1 * 2 ^ 64 + u0) / v, (u1 * 2 ^ 64 + u0) % v)

/-- include/libdivide.h:230-237. -/
def mullhi (x y : ℕ) : ℕ := x * y / 2 ^ 64

/-- include/libdivide.h:704-754 (`libdivide_internal_u64_gen` with `branchfree = 1`) and :760-767
(`libdivide_u64_branchfree_gen`). -/
def gen (d : ℕ) : M Divider :=
  if d = 1 then .error (.thrown "branchfree divider must be != 1")
  else if d = 0 then .error (.thrown "divider must be != 0")
  else
    let floorLog2d := Nat.log2 d
    if d &&& (d - 1) = 0 then
      .ok ⟨0, (floorLog2d - 1) &&& 0x3f⟩
    else do
      let (m, rem) ← div128 (2 ^ floorLog2d) 0 d
      let m := (m + m) % 2 ^ 64
      let twiceRem := (rem + rem) % 2 ^ 64
      let m := if twiceRem ≥ d ∨ twiceRem < rem then (m + 1) % 2 ^ 64 else m
      let more := floorLog2d ||| 0x40
      return ⟨(1 + m) % 2 ^ 64, more &&& 0x3f⟩

/-- include/libdivide.h:788-792 (`libdivide_u64_branchfree_do`). -/
def run (numer : ℕ) (denom : Divider) : ℕ :=
  let q := mullhi denom.magic numer
  let t := (((numer + 2 ^ 64 - q) % 2 ^ 64) / 2 + q) % 2 ^ 64
  t / 2 ^ denom.more

namespace Port

/-- include/libdivide.h:217-221 (`libdivide_mullhi_u32`). -/
def mullhi32 (x y : ℕ) : ℕ := (x * y) % 2 ^ 64 / 2 ^ 32

/-- include/libdivide.h:239-253: the high half of a product, with 64-bit arithmetic only. -/
def mullhi (x y : ℕ) : ℕ :=
  let mask := 0xFFFFFFFF
  let x0 := x &&& mask
  let x1 := (x >>> 32) % 2 ^ 32
  let y0 := y &&& mask
  let y1 := (y >>> 32) % 2 ^ 32
  let x0y0hi := mullhi32 x0 y0 % 2 ^ 32
  let x0y1 := (x0 * y1) % 2 ^ 64
  let x1y0 := (x1 * y0) % 2 ^ 64
  let x1y1 := (x1 * y1) % 2 ^ 64
  let temp := (x1y0 + x0y0hi) % 2 ^ 64
  let tempLo := temp &&& mask
  let tempHi := temp >>> 32
  ((x1y1 + tempHi) % 2 ^ 64 + (((tempLo + x0y1) % 2 ^ 64) >>> 32)) % 2 ^ 64

/-- include/libdivide.h:292-297: the loop `for (; ~val & hi; hi >>= 1) result++` on a 32-bit word. -/
def clz32 (val : ℕ) : M ℕ :=
  loop 64 (0, 2 ^ 31) (fun ((result, hi) : ℕ × ℕ) =>
    if (2 ^ 32 - 1 - val) &&& hi ≠ 0 then .ok (.next (result + 1, hi >>> 1)) else .ok (.done result))

/-- include/libdivide.h:313-316. -/
def clz64 (val : ℕ) : M ℕ :=
  let hi := (val >>> 32) % 2 ^ 32
  let lo := val &&& 0xFFFFFFFF
  if hi ≠ 0 then clz32 hi else do
    let r ← clz32 lo
    return 32 + r

/-- include/libdivide.h:404-412 and :418-426: correct the estimate `q` of a quotient digit. -/
def digit (q vn0 vn1 rhat un : ℕ) : M ℕ :=
  let b := 2 ^ 32
  loop 8 (q, rhat) (fun ((q, rhat) : ℕ × ℕ) =>
    if q ≥ b ∨ (q * vn0) % 2 ^ 64 > (b * rhat % 2 ^ 64 + un) % 2 ^ 64 then
      let q := (q + 2 ^ 64 - 1) % 2 ^ 64
      let rhat := (rhat + vn1) % 2 ^ 64
      if rhat ≥ b then .ok (.done q) else .ok (.next (q, rhat))
    else .ok (.done q))

/-- include/libdivide.h:359-429: `{u1, u0} / v` by two steps of long division with 32-bit digits.  Returns the
quotient and the remainder.  A shift by 64 bits is reported as an error (undefined behaviour). -/
def div128 (u1 u0 v : ℕ) : M (ℕ × ℕ) := do
  let b := 2 ^ 32
  if u1 ≥ v then
    return (2 ^ 64 - 1, 2 ^ 64 - 1)
  let s ← clz64 v
  if s ≥ 64 then .error .overflow else
  let (v, un64, un10) :=
    if s > 0 then ((v <<< s) % 2 ^ 64, ((u1 <<< s) % 2 ^ 64) ||| (u0 >>> (64 - s)), (u0 <<< s) % 2 ^ 64)
    else (v, u1, u0)
  let vn1 := v >>> 32
  let vn0 := v &&& 0xFFFFFFFF
  let un1 := un10 >>> 32
  let un0 := un10 &&& 0xFFFFFFFF
  let q1 ← cdiv un64 vn1
  let rhat := (un64 + 2 ^ 64 - (q1 * vn1) % 2 ^ 64) % 2 ^ 64
  let q1 ← digit q1 vn0 vn1 rhat un1
  let un21 := (un64 * b % 2 ^ 64 + un1 + 2 ^ 64 - (q1 * v) % 2 ^ 64) % 2 ^ 64
  let q0 ← cdiv un21 vn1
  let rhat := (un21 + 2 ^ 64 - (q0 * vn1) % 2 ^ 64) % 2 ^ 64
  let q0 ← digit q0 vn0 vn1 rhat un0
  let r := ((un21 * b % 2 ^ 64 + un0 + 2 ^ 64 - (q0 * v) % 2 ^ 64) % 2 ^ 64) >>> s
  return ((q1 * b % 2 ^ 64 + q0) % 2 ^ 64, r)

/-- include/libdivide.h:704-767 in a build with the portable helpers. -/
def gen (d : ℕ) : M Divider :=
  if d = 1 then .error (.thrown "branchfree divider must be != 1")
  else if d = 0 then .error (.thrown "divider must be != 0")
  else do
    let c ← clz64 d
    let floorLog2d := 63 - c
    if d &&& (d - 1) = 0 then
      return ⟨0, (floorLog2d - 1) &&& 0x3f⟩
    else do
      let (m, rem) ← div128 (2 ^ floorLog2d) 0 d
      let m := (m + m) % 2 ^ 64
      let twiceRem := (rem + rem) % 2 ^ 64
      let m := if twiceRem ≥ d ∨ twiceRem < rem then (m + 1) % 2 ^ 64 else m
      let more := floorLog2d ||| 0x40
      return ⟨(1 + m) % 2 ^ 64, more &&& 0x3f⟩

/-- include/libdivide.h:788-792 with the portable high product. -/
def run (numer : ℕ) (denom : Divider) : ℕ :=
  let q := mullhi denom.magic numer
  let t := (((numer + 2 ^ 64 - q) % 2 ^ 64) / 2 + q) % 2 ^ 64
  t / 2 ^ denom.more

end Port

end PS.Libdivide
