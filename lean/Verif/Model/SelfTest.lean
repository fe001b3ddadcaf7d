import Verif.Model.Pi
import Verif.Model.Lmo

/-!
# Model of src/test.cpp: the self test started by `--test`

The random numbers, the number of threads and everything the tested functions take from their environment (tuning
factor, schedules, timings, floating-point results: one `Pi.Env` per call) are parameters.  Model/Help.lean has the
progress messages.
-/

namespace PS.SelfTest

/-- What a run of `test()` depends on. -/
structure Env where
  /-- whether the program is compiled with OpenMP -/
  omp : Bool
  /-- `get_num_threads()` -/
  threads : ℤ
  /-- the result of `rand()` at iteration `i` of test `k` -/
  rand : ℕ → ℕ → ℕ
  /-- the environment of a call: test, phase (0: the loop over 0…9999, 1: random), iteration, first or second
  function, argument `x` -/
  alg : ℕ → ℕ → ℕ → Bool → ℤ → Pi.Env
  /-- the schedules inside the calls of `pi_legendre` -/
  sched : Bool → ℕ → Scheduler
  /-- the schedule of the parallel loop of `test_phi_thread_safety` -/
  outer : Scheduler

/-- src/test.cpp:58-62: `get_rand()`, from the result of `rand()`. -/
def getRand (r : ℕ) : ℤ := (r % 10000) * 1000 + 1

/-- src/test.cpp:64-73: `check_equal`. -/
def checkEqual (f1 : String) (x : ℤ) (res1 res2 : I256) : M Unit :=
  if I256.ne res1 res2 then do
    let s1 ← I256.print res1
    let s2 ← I256.print res2
    .error (.thrown (f1 ++ "(" ++ toString x ++ ") = " ++ String.ofList s1 ++
      " is an error, the correct result is " ++ String.ofList s2))
  else .ok ()

/-- src/test.cpp:77-95: `test_phi_thread_safety`. -/
def testPhi (e : Env) (tiny : Vec PhiTiny.Tab) (iters : ℕ) : M Unit := do
  let sum1 ← forUp 0 iters (0 : ℤ) (fun i s => do
    let r ← Phi.piLegendre tiny (e.sched false i) (10000000 + i)
    pure (s + r))
  let sum2 ← ompFor (· + ·) (0 : ℤ) 0 () (e.outer 0 0 iters) (fun i _ s => do
    let r ← Phi.piLegendre tiny (e.sched true i) (10000000 + i)
    pure ((), s + r))
  if sum1 ≠ sum2 then .error (.thrown "Error: multi-threaded phi(x, a) is broken.")
  else .ok ()

/-- src/test.cpp:33-51: the macro `CHECK_EQUAL(f1, f2, check, iters)` of test `k`.  The functions take the
environment of the call and `x`. -/
def check (e : Env) (k : ℕ) (name : String) (f1 f2 : Pi.Env → ℤ → M I256) (iters : ℕ) : M Unit := do
  forUp 0 10000 () (fun x _ => do
    let r1 ← f1 (e.alg k 0 x false x) x
    let r2 ← f2 (e.alg k 0 x true x) x
    checkEqual name x r1 r2)
  let _ ← forUp 0 iters (0 : ℤ) (fun i x => do
    let r1 ← f1 (e.alg k 1 i false x) x
    let r2 ← f2 (e.alg k 1 i true x) x
    checkEqual name x r1 r2
    pure (x + getRand (e.rand k i)))
  pure ()

/-- The conversions of the results to `int256_t`. -/
def ofI (r : M ℤ) : M I256 := do
  let v ← r
  pure (I256.ofInt v)

/-- src/primesum.cpp:113-123: `prime_sum_tiny(x)`; `iterator(0, x)` for a non-negative `x`. -/
def tinySum (x : ℤ) : M I256 := do
  let v ← P2.primeSumTiny x.toNat
  pure (I256.ofInt v)

/-- src/test.cpp:108-121: the body of the `try` block. -/
def body (e : Env) (tiny : Vec PhiTiny.Tab) : M Unit := do
  if e.omp then testPhi e tiny 100
  check e 1 "pi_lmo1" (fun v x => Lmo.piLmo1 v tiny x) (fun _ x => tinySum x) 50
  check e 2 "pi_lmo2" (fun v x => ofI (Lmo.piLmo2 v tiny x)) (fun v x => Lmo.piLmo1 v tiny x) 100
  check e 3 "pi_lmo3" (fun v x => ofI (Lmo.piLmo3 v tiny x)) (fun v x => ofI (Lmo.piLmo2 v tiny x)) 300
  check e 4 "pi_lmo4" (fun v x => ofI (Lmo.piLmo4 v tiny x)) (fun v x => ofI (Lmo.piLmo3 v tiny x)) 400
  check e 5 "pi_lmo5" (fun v x => ofI (Lmo.piLmo5 v tiny x)) (fun v x => ofI (Lmo.piLmo4 v tiny x)) 600
  check e 6 "pi_lmo_parallel1" (fun v x => Lmo.piLmoParallel1 v tiny x e.threads)
    (fun v x => ofI (Lmo.piLmo5 v tiny x)) 600
  check e 7 "pi_deleglise_rivat_parallel1" (fun v x => Pi.pi v tiny x e.threads)
    (fun v x => Lmo.piLmoParallel1 v tiny x e.threads) 900

/-- src/test.cpp:108, 122-129: the `try` block and what follows.  Exceptions make the result `false`; undefined behaviour
is not caught. -/
def report (r : M Unit) : M Bool :=
  match r with
  | .ok _ => .ok true
  | .error (.thrown _) => .ok false
  | .error err => .error err

/-- src/test.cpp:103-130: `test()`. -/
def test (e : Env) : M Bool := do
  let tiny ← PhiTiny.build
  report (body e tiny)

end PS.SelfTest
