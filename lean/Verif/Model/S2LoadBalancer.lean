import Verif.Base
import Verif.Model.Imath
import Verif.Model.Width
import Verif.Model.Roots
import Verif.Model.Dbl
import Mathlib.Data.Int.Notation

/-!
# Model of src/S2LoadBalancer.cpp

The computations with `double` values are those of `Model/Dbl.lean`; the measured times are arbitrary `double` values
and `log` is an arbitrary function.  The `int64_t` computations report an overflow.  `isqrt` is `Nat.sqrt` (C32) and
`iroot` the integer root (C32).
-/

namespace PS

/-- The members of `S2LoadBalancer` (include/S2LoadBalancer.hpp:40-50) except `x_`, which is only read by the
constructor, and `z_`, which is never read. -/
structure LB where
  y : Dbl
  rsd : Dbl
  count : Dbl
  totalSeconds : Dbl
  minSeconds : Dbl
  decreaseDividend : Dbl
  minSize : ℕ
  sqrtz : ℕ
  smallestHardLeaf : ℤ

/-- src/primesum.cpp:172-177: `get_alpha(x, y)`. -/
def getAlphaXY (x y : ℕ) : M Dbl := Dbl.div (.ofInt y) (.ofInt (iroot 3 x))

namespace LB

/-- src/S2LoadBalancer.cpp:66-75: `get_avg`. -/
def getAvg (timings : List Dbl) : M Dbl :=
  Dbl.div (timings.foldl (fun (sum t : Dbl) => sum.add t) (.fin 0)) (.ofInt timings.length)

/-- src/S2LoadBalancer.cpp:78-97: `rel_std_dev`. -/
def relStdDev (timings : List Dbl) : M Dbl := do
  let avg ← getAvg timings
  if avg.isZero then pure (.fin 0)
  else do
    let sum := timings.foldl (fun (sum t : Dbl) =>
      let mean := t.sub avg
      sum.add (mean.mul mean)) (.fin 0)
    let q ← Dbl.div sum (.max (.fin 1) ((Dbl.ofInt timings.length).sub (.fin 1)))
    ((Dbl.fin 100).mul q.sqrt).div avg

/-- src/S2LoadBalancer.cpp:177-183: `update_min_size`. -/
def updateMinSize (lb : LB) (divisor : Dbl) : M LB := do
  let minSize := 1 <<< 9
  let q ← (Dbl.ofInt lb.sqrtz).div (.max (.fin 1) divisor)
  let size ← q.toInt64
  pure { lb with minSize := (nextPowerOf2 (BitVec.ofInt 64 (max size minSize))).toNat }

/-- src/S2LoadBalancer.cpp:102-131: the constructor. -/
def init (log : Dbl → Dbl) (x y z threads : ℕ) : M LB := do
  let logThreads := Dbl.max (.fin 1) (log (.ofInt threads))
  let third ← logThreads.div (.fin 3)
  let x_ := Dbl.ofInt x
  let lb : LB := {
    y := .ofInt y
    rsd := .fin 40
    count := .fin 0
    totalSeconds := .fin 0
    minSeconds := (Dbl.round (1 / 100)).mul logThreads
    decreaseDividend := .max (.fin (1 / 2)) third
    minSize := 0
    sqrtz := Nat.sqrt z
    smallestHardLeaf := 0 }
  let lb ← lb.updateMinSize ((log (log x_)).mul (log x_))
  let alpha ← getAlphaXY x y
  let q ← x_.div (((Dbl.ofInt y).mul alpha.sqrt).mul (.ofInt (iroot 6 x)))
  let leaf ← q.toInt64
  pure { lb with smallestHardLeaf := leaf }

/-- src/S2LoadBalancer.cpp:138-141: `get_avg_seconds`. -/
def getAvgSeconds (lb : LB) : M Dbl := lb.totalSeconds.div lb.count

/-- src/S2LoadBalancer.cpp:151-160: `get_pivot`. -/
def getPivot (log : Dbl → Dbl) (lb : LB) (seconds : Dbl) : M Dbl := do
  let seconds := lb.minSeconds.max seconds
  let logSeconds := lb.minSeconds.max (log seconds)
  let dontDecrease ← lb.decreaseDividend.div (seconds.mul logSeconds)
  pure (lb.rsd.add (dontDecrease.min lb.rsd))

/-- src/S2LoadBalancer.cpp:170-175: `is_decrease`. -/
def isDecrease (lb : LB) (seconds pivot : Dbl) : Bool := lb.minSeconds.lt seconds && pivot.lt lb.rsd

/-- src/S2LoadBalancer.cpp:162-168: `is_increase`. -/
def isIncrease (lb : LB) (seconds pivot : Dbl) : M Bool := do
  let fast ← if seconds.lt lb.minSeconds then pure true
    else do
      let avg ← lb.getAvgSeconds
      pure (seconds.lt avg)
  pure (fast && !lb.isDecrease seconds pivot)

/-- src/S2LoadBalancer.cpp:240-258: `update(segments_per_thread, seconds, pivot)`. -/
def updateSegments (lb : LB) (seconds pivot : Dbl) (segmentsPerThread : ℕ) : M ℕ := do
  let increase ← lb.isIncrease seconds pivot
  if increase || lb.isDecrease seconds pivot then
    if seconds.lt lb.minSeconds then fit 63 (segmentsPerThread * 2)
    else do
      let factor ← pivot.div lb.rsd
      let factor := Dbl.inBetween (.fin (1 / 2)) factor (.fin 2)
      let segments := (Dbl.ofInt segmentsPerThread).mul factor
      let n ← (Dbl.max (.fin 1) segments).toInt64
      pure n.toNat
  else pure segmentsPerThread

/-- src/S2LoadBalancer.cpp:201-212: the decision; returns `*segment_size` and `*segments_per_thread`. -/
def decide' (lb : LB) (seconds pivot : Dbl) (low segmentSize segmentsPerThread : ℕ) : M (ℕ × ℕ) :=
  if segmentSize < lb.sqrtz then do
    let increase ← lb.isIncrease seconds pivot
    if increase then do
      let segmentSize ← fit 63 (segmentSize <<< 1)
      pure (segmentSize, segmentsPerThread)
    else if lb.isDecrease seconds pivot then
      if segmentSize > lb.minSize then pure (segmentSize >>> 1, segmentsPerThread)
      else pure (segmentSize, segmentsPerThread)
    else pure (segmentSize, segmentsPerThread)
  else if (low : ℤ) > lb.smallestHardLeaf then do
    let segmentsPerThread ← lb.updateSegments seconds pivot segmentsPerThread
    pure (segmentSize, segmentsPerThread)
  else pure (segmentSize, segmentsPerThread)

/-- src/S2LoadBalancer.cpp:214-215 and :222-223: `high`. -/
def newHigh (low threads segmentSize segmentsPerThread : ℕ) : M ℕ := do
  let threadDistance ← fit 63 (segmentSize * segmentsPerThread)
  let d ← fit 63 (threadDistance * threads)
  fit 63 (low + d)

/-- src/S2LoadBalancer.cpp:217-224: returns `*segment_size` and `high`. -/
def nearLeaf (lb : LB) (low threads segmentSize segmentsPerThread high : ℕ) : M (ℕ × ℕ) :=
  if (low : ℤ) ≤ lb.smallestHardLeaf ∧ (high : ℤ) > lb.smallestHardLeaf then do
    let high ← newHigh low threads lb.minSize segmentsPerThread
    pure (lb.minSize, high)
  else pure (segmentSize, high)

/-- src/S2LoadBalancer.cpp:195-199: the start of `update`; returns the object, `seconds` and `pivot`. -/
def measure (log : Dbl → Dbl) (lb : LB) (timings : List Dbl) : M (LB × Dbl × Dbl) := do
  let lb := { lb with count := lb.count.add (.fin 1) }
  let seconds ← getAvg timings
  let lb := { lb with totalSeconds := lb.totalSeconds.add seconds }
  let pivot ← lb.getPivot log seconds
  let rsd ← relStdDev timings
  pure ({ lb with rsd := .max (.round (1 / 10)) rsd }, seconds, pivot)

/-- src/S2LoadBalancer.cpp:189-233: `update`; returns the object, `*segment_size` and
`*segments_per_thread`. -/
def update (log : Dbl → Dbl) (lb : LB) (timings : List Dbl) (low threads segmentSize segmentsPerThread : ℕ) :
    M (LB × ℕ × ℕ) := do
  let (lb, seconds, pivot) ← measure log lb timings
  let (segmentSize, segmentsPerThread) ← decide' lb seconds pivot low segmentSize segmentsPerThread
  let high ← newHigh low threads segmentSize segmentsPerThread
  let (segmentSize, high) ← nearLeaf lb low threads segmentSize segmentsPerThread high
  if (high : ℤ) ≥ lb.smallestHardLeaf then do
    let lb ← updateMinSize lb (log lb.y)
    pure (lb, max lb.minSize segmentSize, segmentsPerThread)
  else pure (lb, segmentSize, segmentsPerThread)

end LB
end PS
