import Verif.Proof.P2Iter
import Verif.Props.P2
import Verif.Props.PoolIter

/-!
# C11 with the prime iterators

`P2(x, y, threads)` where every thread owns two `primesieve::iterator` objects, one going forwards and one backwards,
with their sieves and memory pools.
-/

namespace PS
open Psv Psv.Mem

/-- **C11 with the prime iterators.** Whatever addresses `new` returns to the memory pools of the primesieve library and
whatever new memory contains, `P2(x, y, threads)` is the sum of the `n ≤ x` that are a product of two primes `> y`, or
`std::bad_alloc` is thrown - which ends the program if it happens in a thread - because `new` refused a request for at most
16 MiB to a memory pool that had got at most 128 GiB. -/
theorem C11_iterators {env : Psv.Env} {H : Heaps} (hH : H.Valid)
    (sched : Scheduler) (hs : sched.Valid) (time : ℕ → Ordering) (threads : ℤ) (hth : 1 ≤ threads)
    (x y : ℕ) (hx : x < 2 ^ 124) (hy : y < 2 ^ 62) (hz : x / max y 1 ≤ 2 ^ 62) :
    Ok PhiTiny.build (fun tiny =>
      (NoMem True (P2.p2It env H tiny sched time threads x y) ∧ H.NoMemory) ∨
      Ok (P2.p2It env H tiny sched time threads x y) (fun r => r.val = P2Sum x y)) :=
  PhiTiny.build_ok.mono (fun tiny ht =>
    (P2.p2It_ref hH.good tiny sched time threads (by omega) hy).ok (P2_val ht hs time hth hx hy hz))

/-- One thread of `P2(100, 3, 1)`, run in the model: `25 + 35 + 49 + 55 + 65 + 77 + 85 + 91 + 95 = 577`; the sum of the
primes below 33 is 160; 5 and 7 are both added to and subtracted from `correct`. -/
example : (P2.threadIt W128 env0 (fun _ => heap0) 100 3 33 (2 ^ 23) 0 2).toOption.map
    (fun s => (s.p2.toInt, s.primeSum.toInt, s.correct.toInt)) = some (577, 160, 0) := by
  decide +kernel

example : Ok PhiTiny.build (fun tiny =>
    Ok (P2.p2It env0 (fun _ => heap0) tiny Scheduler.seq (fun _ => .lt) 4 (10 ^ 30) (10 ^ 12))
      (fun r => r.val = P2Sum (10 ^ 30) (10 ^ 12))) :=
  (C11_iterators (env := env0) (H := fun _ => heap0) (fun _ _ _ => bump_valid) _ Scheduler.seq_valid _ _ (by norm_num) _ _
    (by norm_num) (by norm_num) (by norm_num)).mono (fun _ h => h.resolve_left (fun h => h.2.elim (fun _ h => heap0_memory h)))

end PS
