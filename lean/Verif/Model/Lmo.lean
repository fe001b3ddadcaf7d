import Verif.Model.Pi

/-!
# Model of src/lmo/*.cpp

`isqrt` is `Nat.sqrt` (C32).  `S2_result` has the result type `R` of the templates (`W64` for `int64_t`, `W128`,
`I256`), so that it wraps around like the machine word; signed overflow is undefined in C++, `CInt` reports it.
The overflow of a sum `phi[b]` (`int64_t`, in pi_lmo4.cpp `int128_t`, in pi_lmo_parallel1.cpp `int256_t`) and of the
`int64_t` variables is reported.  While prime number `b` is processed, `phi[b]` and `mu_sum[b]` are local variables.
The status output (`print`) is left out.

The loops over the leaves of one prime are the same in all files except for how the unsieved numbers are summed
(parameter `adv`) and for `mu_sum` and the order of the factors in pi_lmo_parallel1.cpp (parameter `par`).
-/

namespace PS
open Res

/-- `int64_t` with wrapping arithmetic. -/
abbrev W64 := BitVec 64

instance : Res W64 where
  ofInt z := BitVec.ofInt 64 z
  add a b := a + b
  sub a b := a - b
  mul a b := a * b
  phiSumR x a := do
    let r ← phiSum64 x a
    pure (BitVec.ofInt 64 r)
  toI256 a := I256.ofInt a.toInt

/-- A signed integer type of `w` bits where `none` stands for the result of an overflow, which C++ leaves
undefined. -/
structure CInt (w : ℕ) where
  val : Option ℤ

namespace CInt

variable {w : ℕ}

instance : Inhabited (CInt w) := ⟨⟨none⟩⟩

/-- `z` if it is a value of the type. -/
def chk (z : ℤ) : CInt w := if -2 ^ (w - 1) ≤ z ∧ z < 2 ^ (w - 1) then ⟨some z⟩ else ⟨none⟩

/-- An operation on two defined operands. -/
def op (f : ℤ → ℤ → ℤ) (a b : CInt w) : CInt w :=
  match a.val, b.val with
  | some x, some y => chk (f x y)
  | _, _ => ⟨none⟩

instance : Res (CInt w) where
  ofInt := chk
  add := op (· + ·)
  sub := op (· - ·)
  mul := op (· * ·)
  phiSumR x a := do
    let r ← phiSum64 x a
    pure (chk r)
  toI256 a := I256.ofInt (a.val.getD 0)

end CInt

namespace Lmo

variable {R : Type} [Res R] [Inhabited R] {σ : Type}

/-- `S2_result` and `mu_sum[b]`. -/
structure Acc (R : Type) where
  s2 : R
  mu : R

/-- The product `n * phi`; src/lmo/pi_lmo_parallel1.cpp:122, :152 write `phi * n`. -/
def prod (par : Bool) (n phi : ℤ) : R :=
  if par then mul (ofInt phi) (ofInt n) else mul (ofInt n) (ofInt phi)

/-- src/lmo/pi_lmo2.cpp:75, pi_lmo3.cpp:110, pi_lmo4.cpp:119, pi_lmo5.cpp:112, pi_lmo_parallel1.cpp:122-123. -/
def subLeaf (par : Bool) (phi n : ℤ) (a : Acc R) : Acc R :=
  ⟨sub a.s2 (prod par n phi), if par then sub a.mu (ofInt n) else a.mu⟩

/-- src/lmo/pi_lmo5.cpp:140, pi_lmo_parallel1.cpp:152-153. -/
def addLeaf (par : Bool) (phi n : ℤ) (a : Acc R) : Acc R :=
  ⟨add a.s2 (prod par n phi), if par then add a.mu (ofInt n) else a.mu⟩

/-- src/lmo/pi_lmo2.cpp:63-77, pi_lmo3.cpp:100-112, pi_lmo4.cpp:111-121, pi_lmo5.cpp:104-114,
pi_lmo_parallel1.cpp:114-125: one iteration of the loop over `m`.  `adv stop` is the summation of the unsieved
numbers up to position `stop`; it returns the value of `phi`. -/
def leafA (par : Bool) (mu : Vec ℤ) (lpf : Vec ℕ) (x low prime : ℕ) (adv : ℕ → σ → M (ℤ × σ)) (m : ℕ)
    (s : σ × Acc R) : M (σ × Acc R) := do
  let mum ← mu.rd m
  if mum ≠ 0 then do
    let lpfm ← lpf.rd m
    if prime < lpfm then do
      let d ← fit 63 (prime * m)
      let xn ← cdiv x d
      let stop ← csub xn low
      let (phi, t) ← adv stop s.1
      let n ← fitI 63 (mum * m * prime)
      pure (t, subLeaf par phi n s.2)
    else pure s
  else pure s

/-- src/lmo/pi_lmo5.cpp:134-141, pi_lmo_parallel1.cpp:146-154: the loop over the primes `primes[l] > min_m`. -/
def leavesB (par : Bool) (primes : Vec ℕ) (x low prime minM l : ℕ) (adv : ℕ → σ → M (ℤ × σ)) (s : σ × Acc R) :
    M (σ × Acc R) :=
  loop (l + 1) (l, s) (fun ((l, s) : ℕ × σ × Acc R) => do
    let pl ← primes.rd l
    if pl > minM then do
      let d ← fit 63 (prime * pl)
      let xn ← cdiv x d
      let stop ← csub xn low
      let (phi, t) ← adv stop s.1
      let n ← fitI 63 ((pl : ℤ) * prime)
      pure (.next (l - 1, t, addLeaf par phi n s.2))
    else pure (.done s))

/-- `for (; i < hi; i += step) phi += (low + i) * sieve[i];` src/lmo/pi_lmo2.cpp:72-73, pi_lmo3.cpp:107-108,
:114-115, pi_lmo5.cpp:110-111, :116-117, :138-139, :143-144, pi_lmo_parallel1.cpp:120-121, :127-128, :150-151,
:156-157.  `w` is the number of value bits of `phi`. -/
def sumTo (w step : ℕ) (sieve : ℕ → M Bool) (low hi : ℕ) (s : ℕ × ℤ) : M (ℕ × ℤ) :=
  loop (hi + 1) s (fun ((i, phi) : ℕ × ℤ) =>
    if i < hi then do
      let v ← sieve i
      let n ← fit 63 (low + i)
      let phi ← fitI w (phi + (n : ℤ) * (if v then 1 else 0))
      let i ← fit 63 (i + step)
      pure (.next (i, phi))
    else pure (.done (i, phi)))

/-- `sumTo` up to and including position `stop`; the state is `(i, phi)`. -/
def advance (w step : ℕ) (sieve : ℕ → M Bool) (low stop : ℕ) (s : ℕ × ℤ) : M (ℤ × ℕ × ℤ) := do
  let s ← sumTo w step sieve low (stop + 1) s
  pure (s.2, s)

/-- `for (; k < high; k += step) sieve[k - low] = 0;` src/lmo/pi_lmo2.cpp:53-54, :80-81, pi_lmo3.cpp:44-45,
:82-83, pi_lmo4.cpp:91-92; returns the final `k`. -/
def crossC (low high step k : ℕ) (sieve : Vec Bool) : M (ℕ × Vec Bool) :=
  loop (high + 1) (k, sieve) (fun ((k, sieve) : ℕ × Vec Bool) =>
    if k < high then do
      let d ← csub k low
      let sieve ← sieve.wr d false
      let k ← fit 63 (k + step)
      pure (.next (k, sieve))
    else pure (.done (k, sieve)))

/-- src/lmo/pi_lmo4.cpp:37-56: `cross_off` with the binary indexed tree. -/
def crossT (low high step k : ℕ) (sieve : Vec Bool) (tree : BIT) : M (ℕ × Vec Bool × BIT) :=
  loop (high + 1) (k, sieve, tree) (fun ((k, sieve, tree) : ℕ × Vec Bool × BIT) =>
    if k < high then do
      let d ← csub k low
      let v ← sieve.rd d
      let (sieve, tree) ← (if v then do
          let sieve ← sieve.wr d false
          let tree ← tree.update k low
          pure (sieve, tree)
        else pure (sieve, tree) : M (Vec Bool × BIT))
      let k ← fit 63 (k + step)
      pure (.next (k, sieve, tree))
    else pure (.done (k, sieve, tree)))

/-- src/lmo/pi_lmo5.cpp:38-51, pi_lmo_parallel1.cpp:39-52: `cross_off`. -/
def crossB (sieve : BitSieve) (low high prime : ℕ) (w : Wheel.Item) : M (BitSieve × Wheel.Item) :=
  loop (high + 1) (sieve, w) (fun ((sieve, w) : BitSieve × Wheel.Item) =>
    if w.nextMultiple < high then do
      let d ← csub w.nextMultiple low
      let sieve ← sieve.unset d
      let w ← Wheel.step prime w
      pure (.next (sieve, w))
    else pure (.done (sieve, w)))

/-! ### pi_lmo1 -/

/-- src/lmo/pi_lmo1.cpp:52-54: the ordinary leaves. -/
def s1Lmo1 (x y c : ℕ) (primes lpf : Vec ℕ) (mu : Vec ℤ) : M I256 :=
  forUp 1 (y + 1) (I256.ofInt 0) (fun n s1 => do
    let l ← lpf.rd n
    let pc ← primes.rd c
    if l > pc then do
      let xn ← cdiv x n
      let ph ← phiSumM xn c
      let mun ← mu.rd n
      pure (I256.add s1 (I256.mul ph (I256.ofInt (mun * n))))
    else pure s1)

/-- src/lmo/pi_lmo1.cpp:57-60: the special leaves. -/
def s2Lmo1 (x y c piY : ℕ) (primes lpf : Vec ℕ) (mu : Vec ℤ) : M I256 :=
  forUp (c + 1) piY (I256.ofInt 0) (fun b s2 => do
    let pb ← primes.rd b
    let q ← cdiv y pb
    forUp (q + 1) (y + 1) s2 (fun m s2 => do
      let l ← lpf.rd m
      let pb ← primes.rd b
      if l > pb then do
        let xn ← cdiv x (pb * m)
        let ph ← phiSumM xn (b - 1)
        let mum ← mu.rd m
        pure (I256.sub s2 (I256.mul ph (I256.ofInt (mum * m * pb))))
      else pure s2))

/-- src/lmo/pi_lmo1.cpp:36-67: `pi_lmo1(x)`.  `e` supplies the scheduler and the timings of `P2` and the
estimate of `iroot<3>`. -/
def piLmo1 (e : Pi.Env) (tiny : Vec PhiTiny.Tab) (x : ℤ) : M I256 := do
  if x < 2 then pure (I256.ofInt 0)
  else do
    let x := x.toNat
    let y ← irootM 3 e.est3 x
    let piY ← Phi.piLegendre tiny e.schedP2 y
    let c ← PhiTiny.getC y
    let primes ← generatePrimesT 31 y
    let lpf ← generateLpf y
    let mu ← generateMoebius y
    let s1 ← s1Lmo1 x y c primes lpf mu
    let s2 ← s2Lmo1 x y c piY.toNat primes lpf mu
    let phi := I256.add s1 s2
    let p2 ← P2.p2 tiny e.schedP2 e.timeP2 1 x y
    let t ← P2.primeSumTiny y
    pure (I256.sub (I256.sub (I256.add phi (I256.ofInt t)) (I256.ofInt 1)) p2)

/-! ### pi_lmo2 -/

/-- src/lmo/pi_lmo2.cpp:59-81: iteration `b` of the loop; `i` starts at 1.  `w` is the number of value bits
of `phi`, 63 in the code. -/
def body2 (w x y limit : ℕ) (primes lpf : Vec ℕ) (mu : Vec ℤ) (b : ℕ) (st : Vec Bool × R) : M (Vec Bool × R) := do
  let prime ← primes.rd b
  let yp ← cdiv y prime
  let (_, a) ← forDown y yp (((1, 0), ⟨st.2, ofInt 0⟩) : (ℕ × ℤ) × Acc R) (fun m s =>
    leafA false mu lpf x 0 prime (fun stop s => advance w 1 st.1.rd 0 stop s) m s)
  let step ← fit 63 (prime * 2)
  let (_, sieve) ← crossC 0 limit step prime st.1
  pure (sieve, a.s2)

/-- src/lmo/pi_lmo2.cpp:35-85: `S2`. -/
def s2Lmo2 (R : Type) [Res R] (w x y c : ℕ) (primes lpf : Vec ℕ) (mu : Vec ℤ) : M R := do
  let q ← cdiv x y
  let limit ← fit 63 (q + 1)
  let piY ← piBsearch primes y
  let sieve : Vec Bool := Vec.mk' limit true
  let sieve ← forUp 1 (c + 1) sieve (fun b sieve => do
    let prime ← primes.rd b
    let r ← crossC 0 limit prime prime sieve
    pure r.2)
  let st ← forUp (c + 1) piY ((sieve, ofInt 0) : Vec Bool × R) (fun b st => body2 w x y limit primes lpf mu b st)
  pure st.2

/-! ### pi_lmo3 and pi_lmo4 -/

/-- The variables of the segmented versions that change. -/
structure StC (R : Type) where
  sieve : Vec Bool
  next : Vec ℕ
  phi : Vec ℤ
  s2 : R
  tree : BIT

/-- src/lmo/pi_lmo3.cpp:79-85, pi_lmo4.cpp:88-94: the multiples of the first `c` primes. -/
def preC (c low high : ℕ) (primes : Vec ℕ) (st : Vec ℕ × Vec Bool) : M (Vec ℕ × Vec Bool) :=
  forUp 1 (c + 1) st (fun b ((next, sieve) : Vec ℕ × Vec Bool) => do
    let k ← next.rd b
    let prime ← primes.rd b
    let (k, sieve) ← crossC low high prime k sieve
    let next ← next.wr b k
    pure (next, sieve))

/-- src/lmo/pi_lmo3.cpp:89-118: iteration `b`; `true` stands for `break`.  `w` is the number of value bits of
`phi[b]`, 63 in the code. -/
def body3 (w x y low high : ℕ) (primes lpf : Vec ℕ) (mu : Vec ℤ) (b : ℕ) (st : StC R) : M (Bool × StC R) := do
  let prime ← primes.rd b
  let phigh ← fit 63 (prime * high)
  let qh ← cdiv x phigh
  let yp ← cdiv y prime
  let minM := max qh yp
  let plow ← fit 63 (prime * low)
  let ql ← cdiv x plow
  let maxM := min ql y
  if prime ≥ maxM then pure (true, st)
  else do
    let phib ← st.phi.rd b
    let (t, a) ← forDown maxM minM (((0, phib), ⟨st.s2, ofInt 0⟩) : (ℕ × ℤ) × Acc R) (fun m s =>
      leafA false mu lpf x low prime (fun stop s => advance w 1 st.sieve.rd low stop s) m s)
    let t ← sumTo w 1 st.sieve.rd low (high - low) t
    let phi ← st.phi.wr b t.2
    let k ← st.next.rd b
    let step ← fit 63 (prime * 2)
    let (k, sieve) ← crossC low high step k st.sieve
    let next ← st.next.wr b k
    pure (false, { st with sieve := sieve, next := next, phi := phi, s2 := a.s2 })

/-- src/lmo/pi_lmo4.cpp:101-128: iteration `b`; `w` is 127 in the code. -/
def body4 (w x y low high : ℕ) (primes lpf : Vec ℕ) (mu : Vec ℤ) (b : ℕ) (st : StC R) : M (Bool × StC R) := do
  let prime ← primes.rd b
  let phigh ← fit 63 (prime * high)
  let qh ← cdiv x phigh
  let yp ← cdiv y prime
  let minM := max qh yp
  let plow ← fit 63 (prime * low)
  let ql ← cdiv x plow
  let maxM := min ql y
  if prime ≥ maxM then pure (true, st)
  else do
    let phib ← st.phi.rd b
    let (_, a) ← forDown maxM minM (((), ⟨st.s2, ofInt 0⟩) : Unit × Acc R) (fun m s =>
      leafA false mu lpf x low prime (fun stop s => do
        let sum ← st.tree.sum stop
        let phi ← fitI w (phib + sum)
        pure (phi, s)) m s)
    let d ← csub (high - 1) low
    let sum ← st.tree.sum d
    let phib ← fitI w (phib + sum)
    let phi ← st.phi.wr b phib
    let k ← st.next.rd b
    let step ← fit 63 (prime * 2)
    let (k, sieve, tree) ← crossT low high step k st.sieve st.tree
    let next ← st.next.wr b k
    pure (false, { st with sieve := sieve, next := next, phi := phi, s2 := a.s2, tree := tree })

/-- src/lmo/pi_lmo3.cpp:72-119 (`tree = false`), pi_lmo4.cpp:81-129 (`tree = true`): one segment. -/
def segmentC (tree : Bool) (w x y c piY segmentSize limit : ℕ) (primes lpf : Vec ℕ) (mu : Vec ℤ) (low : ℕ)
    (st : StC R) : M (StC R) := do
  let sieve : Vec Bool := Vec.mk' st.sieve.size true
  let h ← fit 63 (low + segmentSize)
  let high := min h limit
  let (next, sieve) ← preC c low high primes (st.next, sieve)
  let t ← (if tree then st.tree.init sieve.size sieve.rd low else pure st.tree : M BIT)
  let r ← forBrk (c + 1) piY { st with sieve := sieve, next := next, tree := t } (fun b st =>
    if tree then body4 w x y low high primes lpf mu b st else body3 w x y low high primes lpf mu b st)
  pure r.2.2

/-- `next_power_of_2(n)` for an `int64_t`. -/
def nextPow2 (n : ℕ) : ℕ := (nextPowerOf2 (BitVec.ofNat 64 n)).toNat

/-- src/lmo/pi_lmo3.cpp:53-123, pi_lmo4.cpp:61-133: `S2`. -/
def s2LmoC (R : Type) [Res R] (tree : Bool) (w x y c : ℕ) (primes lpf : Vec ℕ) (mu : Vec ℤ) : M R := do
  let q ← cdiv x y
  let limit ← fit 63 (q + 1)
  let segmentSize := nextPow2 (Nat.sqrt limit)
  let piY ← piBsearch primes y
  let st : StC R := ⟨Vec.mk' segmentSize false, primes, Vec.mk' primes.size 0, ofInt 0, {}⟩
  let st ← forStep 1 limit segmentSize st (fun low st =>
    segmentC tree w x y c piY segmentSize limit primes lpf mu low st)
  pure st.s2

/-! ### pi_lmo5 and pi_lmo_parallel1 -/

/-- The variables that change while a segment is processed. -/
structure StB (R : Type) where
  sieve : BitSieve
  wheel : Vec Wheel.Item
  phi : Vec ℤ
  muSum : Vec R
  s2 : R

/-- `mu_sum[b]`; there is no such array in pi_lmo5.cpp. -/
def muRd (par : Bool) (v : Vec R) (b : ℕ) : M R := if par then v.rd b else pure (ofInt 0)

/-- Assignment to `mu_sum[b]`. -/
def muWr (par : Bool) (v : Vec R) (b : ℕ) (a : R) : M (Vec R) := if par then v.wr b a else pure v

/-- src/lmo/pi_lmo5.cpp:116-118, :143-145, pi_lmo_parallel1.cpp:127-130, :156-159: the end of the processing of
one prime.  `w` is the number of value bits of `phi[b]`: 63 in pi_lmo5.cpp, 255 in pi_lmo_parallel1.cpp. -/
def finishB (par : Bool) (w low high prime b : ℕ) (st : StB R) (t : ℕ × ℤ) (a : Acc R) : M (StB R) := do
  let t ← sumTo w 2 st.sieve.at_ low (high - low) t
  let phi ← st.phi.wr b t.2
  let muSum ← muWr par st.muSum b a.mu
  let w ← st.wheel.rd b
  let (sieve, w) ← crossB st.sieve low high prime w
  let wheel ← st.wheel.wr b w
  pure ⟨sieve, wheel, phi, muSum, a.s2⟩

/-- src/lmo/pi_lmo5.cpp:96-118, pi_lmo_parallel1.cpp:106-130: iteration `b` of the first loop; `true` stands for
`goto next_segment`. -/
def bodyA (par : Bool) (w x y low high : ℕ) (primes lpf : Vec ℕ) (mu : Vec ℤ) (b : ℕ) (st : StB R) :
    M (Bool × StB R) := do
  let prime ← primes.rd b
  let phigh ← fit 63 (prime * high)
  let qh ← cdiv x phigh
  let yp ← cdiv y prime
  let minM := max qh yp
  let plow ← fit 63 (prime * low)
  let ql ← cdiv x plow
  let maxM := min ql y
  if prime ≥ maxM then pure (true, st)
  else do
    let phib ← st.phi.rd b
    let mub ← muRd par st.muSum b
    let (t, a) ← forDown maxM minM (((0, phib), ⟨st.s2, mub⟩) : (ℕ × ℤ) × Acc R) (fun m s =>
      leafA par mu lpf x low prime (fun stop s => advance w 2 st.sieve.at_ low stop s) m s)
    let st ← finishB par w low high prime b st t a
    pure (false, st)

/-- src/lmo/pi_lmo5.cpp:126-145, pi_lmo_parallel1.cpp:138-159: iteration `b` of the second loop. -/
def bodyB (par : Bool) (w x y low high : ℕ) (primes pi : Vec ℕ) (b : ℕ) (st : StB R) : M (Bool × StB R) := do
  let prime ← primes.rd b
  let plow ← fit 63 (prime * low)
  let ql ← cdiv x plow
  let l ← pi.rd (min ql y)
  let phigh ← fit 63 (prime * high)
  let qh ← cdiv x phigh
  let yp ← cdiv y prime
  let minM := max qh (max yp prime)
  let pl ← primes.rd l
  if prime ≥ pl then pure (true, st)
  else do
    let phib ← st.phi.rd b
    let mub ← muRd par st.muSum b
    let (t, a) ← leavesB par primes x low prime minM l (fun stop s => advance w 2 st.sieve.at_ low stop s)
      (((0, phib), ⟨st.s2, mub⟩) : (ℕ × ℤ) × Acc R)
    let st ← finishB par w low high prime b st t a
    pure (false, st)

/-- src/lmo/pi_lmo5.cpp:84-148, pi_lmo_parallel1.cpp:94-162: one segment; `endA` and `endB` bound the two
loops. -/
def segmentB (par : Bool) (w x y c endA endB : ℕ) (primes lpf : Vec ℕ) (mu : Vec ℤ) (pi : Vec ℕ) (low high : ℕ)
    (st : StB R) : M (StB R) := do
  let sieve ← st.sieve.preSieve c low
  let (jump, b, st) ← forBrk (c + 1) endA { st with sieve := sieve } (fun b st =>
    bodyA par w x y low high primes lpf mu b st)
  if jump then pure st
  else do
    let r ← forBrk b endB st (fun b st => bodyB par w x y low high primes pi b st)
    pure r.2.2

/-- src/lmo/pi_lmo5.cpp:57-153: `S2`. -/
def s2Lmo5 (R : Type) [Res R] [Inhabited R] (w x y c : ℕ) (primes lpf : Vec ℕ) (mu : Vec ℤ) : M R := do
  let q ← cdiv x y
  let limit ← fit 63 (q + 1)
  let segmentSize := nextPow2 (Nat.sqrt limit)
  let sieve ← BitSieve.mk' segmentSize
  let wheel ← Wheel.build primes primes.size 1
  let pi ← generatePi y
  let piSqrty ← pi.rd (Nat.sqrt y)
  let piY ← pi.rd y
  let st : StB R := ⟨sieve, wheel, Vec.mk' primes.size 0, ⟨#[]⟩, ofInt 0⟩
  let st ← forStep 1 limit segmentSize st (fun low st => do
    let h ← fit 63 (low + segmentSize)
    segmentB false w x y c piSqrty piY primes lpf mu pi low (min h limit) st)
  pure st.s2

/-- src/lmo/pi_lmo_parallel1.cpp:60-166: `S2_thread`. -/
def thread (R : Type) [Res R] [Inhabited R] (x y c : ℕ) (pi primes lpf : Vec ℕ) (mu : Vec ℤ)
    (segmentSize segmentsPerThread threadNum low limit : ℕ) : M (S2Hard.ThreadRes R) := do
  let (low, limit) ← S2Hard.interval segmentSize segmentsPerThread threadNum low limit
  let xl ← cdiv x low
  let n ← pi.rd (min (Nat.sqrt xl) y)
  let size := n + 1
  let piSqrty ← pi.rd (Nat.sqrt y)
  let piY ← pi.rd y
  if c ≥ size - 1 then pure ⟨ofInt 0, ⟨#[]⟩, ⟨#[]⟩⟩
  else do
    let sieve ← BitSieve.mk' segmentSize
    let wheel ← Wheel.build primes size low
    let st : StB R := ⟨sieve, wheel, Vec.mk' size 0, Vec.mk' size (ofInt 0), ofInt 0⟩
    let st ← forStep low limit segmentSize st (fun low st => do
      let h ← fit 63 (low + segmentSize)
      segmentB true 255 x y c (min piSqrty size) (min piY size) primes lpf mu pi low (min h limit) st)
    pure ⟨st.s2, st.muSum, st.phi⟩

/-- src/lmo/pi_lmo_parallel1.cpp:176-241: `S2`; the loop of the master is the same as in S2_hard.cpp. -/
def s2Par (e : S2Hard.Env) (x y c : ℕ) (primes lpf : Vec ℕ) (mu : Vec ℤ) (threads : ℤ) : M I256 := do
  let q ← cdiv x y
  let limit ← fit 63 (q + 1)
  let threads ← idealNumThreads threads limit (10 ^ 5)
  let lb ← LB.init e.log x y limit threads.toNat
  let pi ← generatePi y
  S2Hard.masterLoop 255 e.sched e.log e.times limit (fun segmentSize segmentsPerThread i low =>
      thread I256 x y c pi primes lpf mu segmentSize segmentsPerThread i low limit)
    ⟨0, 1, threads.toNat, lb.minSize, 1, lb, ofInt 0, Vec.mk' primes.size 0⟩

/-! ### The entry points -/

/-- src/lmo/pi_lmo2.cpp:95-116, pi_lmo3.cpp:133-154, pi_lmo4.cpp:143-164, pi_lmo5.cpp:163-190,
pi_lmo_parallel1.cpp:251-278 without the final conversion: the same statements except for the call of `S2` and the order
in which the tables are generated. -/
def piLmo (e : Pi.Env) (tiny : Vec PhiTiny.Tab) (threads : ℤ) (s2 : ℕ → ℕ → ℕ → Vec ℕ → Vec ℕ → Vec ℤ → M I256)
    (x : ℤ) : M I256 := do
  if x < 2 then pure (I256.ofInt 0)
  else do
    let x := x.toNat
    let alpha ← Pi.getAlphaLmo e x
    let x13 ← irootM 3 e.est3 x
    let y ← Pi.yOf x13 alpha
    let c ← PhiTiny.getC y
    let p2 ← P2.p2 tiny e.schedP2 e.timeP2 threads x y
    let mu ← generateMoebius y
    let lpf ← generateLpf y
    let primes ← generatePrimesT 31 y
    let s1 ← PS.s1 e.schedS1 x y c
    let s2 ← s2 x y c primes lpf mu
    let phi := I256.add s1 s2
    let t ← P2.primeSumTiny y
    pure (I256.sub (I256.sub (I256.add phi (I256.ofInt t)) (I256.ofInt 1)) p2)

/-- The final `int64_t(sum)` of `pi_lmo2` to `pi_lmo5`. -/
def toI64 (r : M I256) : M ℤ := do
  let r ← r
  let v ← I256.toSigned 64 r
  pure v.toInt

/-- src/lmo/pi_lmo2.cpp:95-116: `pi_lmo2(x)`. -/
def piLmo2 (e : Pi.Env) (tiny : Vec PhiTiny.Tab) (x : ℤ) : M ℤ :=
  toI64 (piLmo e tiny 1 (fun x y c primes lpf mu => do
    let r ← s2Lmo2 W64 63 x y c primes lpf mu
    pure (toI256 r)) x)

/-- src/lmo/pi_lmo3.cpp:133-154: `pi_lmo3(x)`. -/
def piLmo3 (e : Pi.Env) (tiny : Vec PhiTiny.Tab) (x : ℤ) : M ℤ :=
  toI64 (piLmo e tiny 1 (fun x y c primes lpf mu => do
    let r ← s2LmoC W64 false 63 x y c primes lpf mu
    pure (toI256 r)) x)

/-- src/lmo/pi_lmo4.cpp:143-164: `pi_lmo4(x)`. -/
def piLmo4 (e : Pi.Env) (tiny : Vec PhiTiny.Tab) (x : ℤ) : M ℤ :=
  toI64 (piLmo e tiny 1 (fun x y c primes lpf mu => do
    let r ← s2LmoC W128 true 127 x y c primes lpf mu
    pure (toI256 r)) x)

/-- src/lmo/pi_lmo5.cpp:163-190: `pi_lmo5(x)`. -/
def piLmo5 (e : Pi.Env) (tiny : Vec PhiTiny.Tab) (x : ℤ) : M ℤ :=
  toI64 (piLmo e tiny 1 (fun x y c primes lpf mu => do
    let r ← s2Lmo5 W64 63 x y c primes lpf mu
    pure (toI256 r)) x)

/-- src/lmo/pi_lmo_parallel1.cpp:251-278: `pi_lmo_parallel1(x, threads)`; `pi_lmo` (src/primesum.cpp:99-102)
calls it. -/
def piLmoParallel1 (e : Pi.Env) (tiny : Vec PhiTiny.Tab) (x : ℤ) (threads : ℤ) : M I256 :=
  piLmo e tiny threads (fun x y c primes lpf mu => s2Par e.hard x y c primes lpf mu threads) x

end Lmo
end PS
