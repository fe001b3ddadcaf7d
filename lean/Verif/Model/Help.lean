import Verif.Model.Output
import Verif.Model.SelfTest

/-!
# Model of src/app/help.cpp, of the output of src/test.cpp and of the whole program

`T α` is a computation that writes characters, which remain written if it ends with an exception.
-/

namespace PS.Print

/-- src/app/help.cpp:20-50: `helpMenu`. -/
def helpMenu : Text :=
  "Usage: primesum x [OPTION]...\n".toList ++
  "Sum the primes below x <= 10^31 using fast implementations of the\n".toList ++
  "combinatorial prime summing function.\n".toList ++
  "\n".toList ++
  "Options:\n".toList ++
  "\n".toList ++
  "  -d,    --deleglise_rivat  Sum primes using Deleglise-Rivat algorithm\n".toList ++
  "  -l,    --lmo              Sum primes using Lagarias-Miller-Odlyzko\n".toList ++
  "  -s[N], --status[=N]       Show computation progress 1%, 2%, 3%, ...\n".toList ++
  "                            [N] digits after decimal point e.g. N=1, 99.9%\n".toList ++
  "         --test             Run various correctness tests and exit\n".toList ++
  "         --time             Print the time elapsed in seconds\n".toList ++
  "  -t<N>, --threads=<N>      Set the number of threads, 1 <= N <= CPU cores\n".toList ++
  "  -v,    --version          Print version and license information\n".toList ++
  "  -h,    --help             Print this help menu\n".toList ++
  "\n".toList ++
  "Advanced Deleglise-Rivat options:\n".toList ++
  "\n".toList ++
  "  -a<N>, --alpha=<N>        Tuning factor, 1 <= alpha <= x^(1/6)\n".toList ++
  "         --P2               Only compute the 2nd partial sieve function\n".toList ++
  "         --S1               Only compute the ordinary leaves\n".toList ++
  "         --S2_trivial       Only compute the trivial special leaves\n".toList ++
  "         --S2_easy          Only compute the easy special leaves\n".toList ++
  "         --S2_hard          Only compute the hard special leaves\n".toList ++
  "\n".toList ++
  "Examples:\n".toList ++
  "\n".toList ++
  "  primesum 1e13\n".toList ++
  "  primesum 1e13 --status --threads=4".toList

/-- src/app/help.cpp:52-56: `versionInfo`; `PRIMESUM_VERSION` is `"1.7"` (include/primesum.hpp:16). -/
def versionInfo : Text :=
  "primesum 1.7, <https://github.com/kimwalisch/primesum>\n".toList ++
  "Copyright (C) 2016 - 2019 Kim Walisch\n".toList ++
  "BSD 2-Clause License <https://opensource.org/licenses/BSD-2-Clause>".toList

/-! ### The self-test -/

/-- A computation that writes text and may end with an exception. -/
abbrev T (α : Type) := ExceptT Err (StateM Text) α

/-- `cout << t`. -/
def put (t : Text) : T Unit := modify (· ++ t)

/-- A computation that writes nothing. -/
def quiet {α : Type} (m : M α) : T α := ExceptT.mk (pure m)

/-- `for (i = lo; i < hi; i++) s = f(i, s)`. -/
def forT {σ : Type} (lo hi : ℕ) (s : σ) (f : ℕ → σ → T σ) : T σ :=
  if lo < hi then do
    let s' ← f lo s
    forT (lo + 1) hi s' f
  else pure s
termination_by hi - lo

/-- src/test.cpp:46-47: `(int) percent`; the value is between 0 and 100. -/
def testPercent (i iters : ℕ) : M ℤ := do
  let p ← ((Dbl.fin 100).mul ((Dbl.ofInt i).add (.fin 1))).div (.ofInt iters)
  p.toInt64

/-- src/test.cpp:33-51: the macro `CHECK_EQUAL(f1, f2, check, iters)` of test `k`. -/
def checkOut (e : SelfTest.Env) (k : ℕ) (name : String) (f1 f2 : Pi.Env → ℤ → M I256) (iters : ℕ) : T Unit := do
  put ("Testing ".toList ++ name.toList ++ "(x)".toList)
  forT 0 10000 () (fun x _ => quiet (do
    let r1 ← f1 (e.alg k 0 x false x) x
    let r2 ← f2 (e.alg k 0 x true x) x
    SelfTest.checkEqual name x r1 r2))
  let _ ← forT 0 iters (0 : ℤ) (fun i x => do
    quiet (do
      let r1 ← f1 (e.alg k 1 i false x) x
      let r2 ← f2 (e.alg k 1 i true x) x
      SelfTest.checkEqual name x r1 r2)
    let percent ← quiet (testPercent i iters)
    put ("\rTesting ".toList ++ name.toList ++ "(x) ".toList ++ num percent ++ "%".toList)
    pure (x + SelfTest.getRand (e.rand k i)))
  put nl

/-- src/test.cpp:77-95: `test_phi_thread_safety`. -/
def testPhiOut (e : SelfTest.Env) (tiny : Vec PhiTiny.Tab) (iters : ℕ) : T Unit := do
  put "Testing phi(x, a)".toList
  quiet (SelfTest.testPhi e tiny iters)
  put ("\rTesting phi(x, a) 100%".toList ++ nl)

/-- src/test.cpp:108-121: the body of the `try` block. -/
def bodyOut (e : SelfTest.Env) (tiny : Vec PhiTiny.Tab) : T Unit := do
  if e.omp then testPhiOut e tiny 100
  checkOut e 1 "pi_lmo1" (fun v x => Lmo.piLmo1 v tiny x) (fun _ x => SelfTest.tinySum x) 50
  checkOut e 2 "pi_lmo2" (fun v x => SelfTest.ofI (Lmo.piLmo2 v tiny x)) (fun v x => Lmo.piLmo1 v tiny x) 100
  checkOut e 3 "pi_lmo3" (fun v x => SelfTest.ofI (Lmo.piLmo3 v tiny x)) (fun v x => SelfTest.ofI (Lmo.piLmo2 v tiny x)) 300
  checkOut e 4 "pi_lmo4" (fun v x => SelfTest.ofI (Lmo.piLmo4 v tiny x)) (fun v x => SelfTest.ofI (Lmo.piLmo3 v tiny x)) 400
  checkOut e 5 "pi_lmo5" (fun v x => SelfTest.ofI (Lmo.piLmo5 v tiny x)) (fun v x => SelfTest.ofI (Lmo.piLmo4 v tiny x)) 600
  checkOut e 6 "pi_lmo_parallel1" (fun v x => Lmo.piLmoParallel1 v tiny x e.threads)
    (fun v x => SelfTest.ofI (Lmo.piLmo5 v tiny x)) 600
  checkOut e 7 "pi_deleglise_rivat_parallel1" (fun v x => Pi.pi v tiny x e.threads)
    (fun v x => Lmo.piLmoParallel1 v tiny x e.threads) 900

/-- src/test.cpp:103-130: `test()`, and src/app/cmdoptions.cpp:139: the exit code. -/
def testOut (e : SelfTest.Env) : M Streams := do
  let tiny ← PhiTiny.build
  match (bodyOut e tiny).run.run [] with
  | (.ok _, text) => pure ⟨text ++ "All tests passed successfully!".toList ++ nl, [], 0⟩
  | (.error (.thrown msg), text) => pure ⟨text, nl ++ msg.toList ++ nl, 1⟩
  | (.error err, _) => .error err

/-! ### The program -/

/-- src/app/help.cpp:62-72: `help()` and `version()`; src/app/cmdoptions.cpp:139: `--test`. -/
def exitOut (t : SelfTest.Env) : Main.Exit → M Streams
  | .help => pure ⟨helpMenu ++ nl, [], 1⟩
  | .version => pure ⟨versionInfo ++ nl, [], 1⟩
  | .test => testOut t

/-- src/app/main.cpp:149-216 with src/app/cmdoptions.cpp:115-156: what a run of the program writes and its exit code. -/
def program (e : Main.Env) (o : OutEnv) (t : SelfTest.Env) (args : List (List Char)) : M Streams := do
  match ← mainOut e o args with
  | .ok s => pure s
  | .error ex => exitOut t ex

end PS.Print
