import Verif.Proof.S2HardTop
import Verif.Proof.Partition
import Verif.Props.FactorTable

/-!
# Properties C15 and C45: the hard leaves, and the load balancer that distributes them

`S2HardSum x y c` (Spec/Leaves.lean) is the sum of `-μ(m) m p_b φ(x/(m p_b), b-1)` over the special leaves
`(b, m)` with `p_b ≤ √y` or `m p_b ≤ x/y`.
-/

namespace PS
open Finset LawfulRes
local notation "π" => Nat.primeCounting

/-- `S2_hard(x, y, x / y, c, threads)`: for every number of threads, all times that the load balancer measures (they
decide the segment sizes and the number of segments per thread; any `double` values), every function in the place of
`log`, every distribution of the iterations over threads, and every interleaving of the threads that fill the factor
table.

Full claim: for every `x` and `x / y` that `pi` accepts.  Missing: `x / y ≥ 2^59 - 129`, where `BitSieve::sum` can
exceed `2^64` (`C29_overflow`), and `x ≥ 2^103`. -/
theorem C15_S2_hard_partial (e : S2Hard.Env) (x y c : ℕ) (threads : ℤ) (hs : e.sched.Valid) (hm : e.merge.Valid)
    (hy : 1 ≤ y) (hyx : y * y ≤ x) (hxy : x < (y + 1) ^ 3) (hc : 6 ≤ c ∨ π y ≤ c) (hc10 : c < 10) (hx : x < 2 ^ 103)
    (hz : x / y + 129 < 2 ^ 59) :
    Ok (S2Hard.s2Hard e x y (x / y) c threads) (fun r => r.val = S2HardSum x y c) :=
  S2Hard.s2Hard_ok hs hm hy hyx hxy hc hc10 hx hz

/-- The contribution of the hard leaves fits `int128_t` whenever `S2_hard` computes in that type. -/
theorem C15_fits (x y c : ℕ) (hx : x < 2 ^ 63) (hyx : y * y ≤ x) (hxy : x < (y + 1) ^ 3) (hc : 6 ≤ c ∨ π y ≤ c) :
    -2 ^ 127 < S2HardSum x y c ∧ S2HardSum x y c < 2 ^ 127 :=
  abs_lt.1 (S2Hard.S2HardSum_fits hx hyx hxy hc)

/-- Every leaf is either hard, easy or trivial: the three functions together compute all special leaves. -/
theorem C15_all_leaves (x y c : ℕ) (hy : 1 ≤ y) (hyx : y ≤ x / y) :
    S2Sum x y c = S2TrivialSum x y c + S2EasySum x y c + S2HardSum x y c := by
  rw [S2Sum_split hy hyx]; ring

/-- Non-vacuity: `x = 10^20`, `y = 10^8`. -/
example : ∃ (e : S2Hard.Env) (x y c : ℕ), e.sched.Valid ∧ e.merge.Valid ∧ 1 ≤ y ∧ y * y ≤ x ∧ x < (y + 1) ^ 3 ∧
    (6 ≤ c ∨ π y ≤ c) ∧ c < 10 ∧ x < 2 ^ 103 ∧ x / y + 129 < 2 ^ 59 ∧ 10 ^ 20 ≤ x :=
  ⟨⟨Scheduler.seq, fun k i => .fin (k + i / 7), fun _ => .fin 3, FactorTable.Merge.seq⟩, 10 ^ 20, 10 ^ 8, 6, Scheduler.seq_valid, Merge_seq_valid, by norm_num, by norm_num, by norm_num, by left; norm_num, by norm_num, by norm_num,
    by norm_num, le_rfl⟩

/-! ### C45 -/

/-- The load balancer keeps the segment size and its minimum powers of two `≥ 512` that are less than twice
`max(√z, 512)`, the segment size not below its minimum, and at least one segment per thread, for every outcome of
the measurements: the times may be any values of the type `double`, including infinities and values that are not
numbers, and `log` may be any function.  No `int64_t` variable overflows, every conversion of a `double` to `int64_t` is
defined, and no `double` is divided by zero. -/
theorem C45_update (log : Dbl → Dbl) (z low threads ss spt : ℕ) (lb : LB) (times : List Dbl) (hz : z < 2 ^ 63) (ht : times ≠ [])
    (hT : 1 ≤ threads) (h63 : low + 2 * (ss * spt * threads) < 2 ^ 63) (h0 : lb.minSize ≤ ss)
    (h1 : lb.sqrtz = Nat.sqrt z) (h2 : ∃ k, lb.minSize = 2 ^ k ∧ 9 ≤ k) (h3 : lb.minSize < 2 * max (Nat.sqrt z) 512)
    (h4 : ∃ k, ss = 2 ^ k ∧ 9 ≤ k) (h5 : ss < 2 * max (Nat.sqrt z) 512) (h6 : 1 ≤ spt)
    (h7 : lb.minSeconds = .inf false ∨ ∃ q, lb.minSeconds = .fin q ∧ 1 / 128 ≤ q)
    (h8 : lb.count = .inf false ∨ ∃ q, lb.count = .fin q ∧ 0 ≤ q) :
    Ok (LB.update log lb times low threads ss spt) (fun r => r.1.sqrtz = Nat.sqrt z ∧ (∃ k, r.1.minSize = 2 ^ k ∧ 9 ≤ k) ∧ r.1.minSize < 2 * max (Nat.sqrt z) 512 ∧
      (∃ k, r.2.1 = 2 ^ k ∧ 9 ≤ k) ∧ r.2.1 < 2 * max (Nat.sqrt z) 512 ∧ 1 ≤ r.2.2 ∧
      r.1.minSize ≤ r.2.1 ∧ (r.1.minSeconds = .inf false ∨ ∃ q, r.1.minSeconds = .fin q ∧ 1 / 128 ≤ q) ∧
      (r.1.count = .inf false ∨ ∃ q, r.1.count = .fin q ∧ 0 ≤ q)) := by
  have e : (2 : ℚ) ^ (-7 : ℤ) = 1 / 128 := by norm_num
  refine (LB.update_ok log hz ⟨h1, h2, h3, h4, h5, h0, ?_, Dbl.atLeast_iff.2 h8⟩ h6 ht hT h63).mono (fun r h =>
    ⟨h.1.sqrtz, h.1.minP, h.1.minB, h.1.segP, h.1.segB, h.2, h.1.le, ?_, Dbl.atLeast_iff.1 h.1.cnt⟩)
  · rw [e]; exact Dbl.atLeast_iff.2 h7
  · have := h.1.minSec
    rw [e] at this
    exact Dbl.atLeast_iff.1 this

/-- The constructor establishes what `update` preserves.  For the arguments of `S2_hard` and `pi_lmo_parallel1` its
conversions of `double` values to `int64_t` are defined. -/
theorem C45_init (log : Dbl → Dbl) (x y z threads : ℕ) (hx1 : 1 ≤ x) (hy : 1 ≤ y) (hxz : x / y ≤ z) (hz : z < 2 ^ 59 ∨ (z < 2 ^ 62 ∧ 1024 ≤ y))
    (hx : x < 2 ^ 127) (hy' : y < 2 ^ 63) :
    Ok (LB.init log x y z threads) (fun lb =>
      lb.sqrtz = Nat.sqrt z ∧ (∃ k, lb.minSize = 2 ^ k ∧ 9 ≤ k) ∧ lb.minSize < 2 * max (Nat.sqrt z) 512 ∧
      (lb.minSeconds = .inf false ∨ ∃ q, lb.minSeconds = .fin q ∧ 1 / 128 ≤ q) ∧
      (lb.count = .inf false ∨ ∃ q, lb.count = .fin q ∧ 0 ≤ q)) := by
  refine (LB.init_ok hx1 hy hxz hz hx hy').mono (fun lb h => ⟨h.sqrtz, h.minP, h.minB, ?_, Dbl.atLeast_iff.1 h.cnt⟩)
  have := h.minSec
  rw [show (2 : ℚ) ^ (-7 : ℤ) = 1 / 128 by norm_num] at this
  exact Dbl.atLeast_iff.1 this

/-- The loop of `S2_hard_OpenMP_master` (and of `pi_lmo_parallel1`) hands out every number of `[1, limit)` to
exactly one call of the thread function and no other number to any, for every thread count, every timing
history and every schedule; it terminates, and its `int64_t` variables, those of the load balancer and the bounds of the
intervals never overflow.  The loop is run with a thread function that counts whether `n` is in its interval. -/
theorem C45_partition (w : ℕ) (sched : Scheduler) (hs : sched.Valid) (log : Dbl → Dbl) (times : ℕ → ℕ → Dbl)
    (x y z limit threads threads' n size0 : ℕ) (lb : LB) (hlb : LB.init log x y z threads' = .ok lb) (hz : z < 2 ^ 62)
    (hlim : limit ≤ 2 ^ 60 ∨ limit ≤ 2 ^ 61 ∧ threads ≤ 2 ^ 24) :
    S2Hard.masterLoop w sched log times limit (Trace.thread limit n)
      ⟨0, 1, threads, lb.minSize, 1, lb, (0 : ℤ), Vec.mk' size0 0⟩ =
      .ok (if 1 ≤ n ∧ n < limit then 1 else 0) :=
  Trace.masterLoop_trace hs hz (LB.init_inv (by omega) hlb) hlim

/-- A stand-in for `log`: the largest power of two below the argument, as an exponent. -/
def exampleLog : Dbl → Dbl
  | .fin q => .fin (Int.log 2 q)
  | d => d

/-- The load balancer for `x = 1000`, `y = 20`, `z = 50` and four threads. -/
example : (LB.init exampleLog 1000 20 50 4).toOption.map
    (fun lb => (lb.minSize, lb.sqrtz, lb.smallestHardLeaf, lb.decreaseDividend)) =
      some (512, 7, 11, .fin (6004799503160661 / 2 ^ 53)) := by
  decide +kernel

/-- A load balancer for `z = 10^9`, for the examples. -/
def exampleLB : LB := ⟨.fin 1000000, .fin 40, .fin 0, .fin 0, .fin (1 / 64), .fin 1, 512, 31622, 1000000⟩

/-- Non-vacuity: updates with decisions to enlarge the segments, to keep them and to halve their number. -/
example : (do
      let (lb, ss, spt) ← LB.update exampleLog exampleLB [.fin (1 / 1000), .fin (1 / 500)] 5000 2 512 1
      let (lb, ss', spt') ← LB.update exampleLog lb [.fin 20, .fin 10] 6000 2 ss spt
      let (lb, ss'', spt'') ← LB.update exampleLog lb [.nan, .inf true] (2 * 10 ^ 6) 2 (2 ^ 15) 6
      let (_, ss''', spt''') ← LB.update exampleLog lb [.fin 1, .fin 9] (2 * 10 ^ 6) 2 (2 ^ 15) 100
      pure [(ss, spt), (ss', spt'), (ss'', spt''), (ss''', spt''')]).toOption =
    some [(1024, 1), (1024, 1), (2 ^ 15, 6), (2 ^ 15, 50)] := by
  decide +kernel

/-- Non-vacuity: a partition by three threads whose measured times include infinities and values that are not numbers. -/
example : (S2Hard.masterLoop 127 Scheduler.seq exampleLog (fun k i => if k % 2 = 0 then .nan else if i = 0 then .inf false else .fin i)
    5000 (Trace.thread 5000 777) ⟨0, 1, 3, 512, 1, exampleLB, (0 : ℤ), Vec.mk' 3 0⟩).toOption = some 1 := by
  decide +kernel

end PS
