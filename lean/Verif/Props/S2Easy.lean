import Verif.Proof.S2Easy
import Verif.Proof.Density

/-!
# Property C14: the easy leaves

`S2EasySum x y c` (Spec/Leaves.lean) is the sum of `p q φ(x/(pq), π(p)-1)` over the pairs of primes
`√y < p < q ≤ y` with `π(p) > c`, `p q > x/y` and `p² q ≤ x`.
-/

namespace PS
open Finset LawfulRes S2Easy
local notation "π" => Nat.primeCounting

/-- The contribution of the easy leaves fits `int128_t` whenever that type is used. -/
theorem S2EasySum_fits {x y c : ℕ} (hx : x < 2 ^ 64) (hy : y < 2 ^ 32) (hxy : x < (y + 1) ^ 3) :
    S2EasySum x y c < 2 ^ 127 := by
  by_cases h60 : x < 2 ^ 60
  · have h1 := S2EasySum_le x y c
    have h2 : Nat.log 2 (y * y) < 64 := by
      by_cases h0 : y * y = 0
      · rw [h0]; simp
      · refine Nat.log_lt_of_lt_pow h0 ?_
        calc y * y < 2 ^ 32 * 2 ^ 32 := Nat.mul_lt_mul'' hy hy
          _ = 2 ^ 64 := by norm_num
    have h3 : x * (x * (Nat.log 2 (y * y) + 1) + y * y) ≤ 2 ^ 60 * (2 ^ 60 * 64 + 2 ^ 32 * 2 ^ 32) := by
      gcongr; omega
    norm_num at h3
    omega
  · have hy20 : 2 ^ 20 ≤ y + 1 := by
      by_contra hc
      have : (y + 1) ^ 3 ≤ (2 ^ 20) ^ 3 := Nat.pow_le_pow_left (by omega) 3
      norm_num at this h60
      omega
    have hsq : 13 ≤ Nat.sqrt y := Nat.le_sqrt.2 (by omega)
    have h6 : 6 ≤ π (Nat.sqrt y) := le_trans (by decide +kernel : 6 ≤ π 13) (pi_mono hsq)
    have h1 := S2EasySum_le_four (c := c) hxy
    have h2 := phiSum_anti (x := x) h6
    have h3 := phiSum_density x 6
    rw [primorial_six, totient_six] at h3
    have h4 : (x / 30030 + 1) * (x / 30030 + 2) ≤ (2 ^ 64 / 30030 + 1) * (2 ^ 64 / 30030 + 2) := by
      have : x / 30030 ≤ 2 ^ 64 / 30030 := Nat.div_le_div_right hx.le
      gcongr
    norm_num at h3 h4
    omega

private theorem inRange_easy {x y c : ℕ} (hx : x < 2 ^ 124) (hy : y < 2 ^ 63) :
    I256.InRange (S2EasySum x y c : ℤ) := by
  have h1 := S2EasySum_le x y c
  have h2 : Nat.log 2 (y * y) < 126 := by
    by_cases h0 : y * y = 0
    · rw [h0]; simp
    · refine Nat.log_lt_of_lt_pow h0 ?_
      calc y * y < 2 ^ 63 * 2 ^ 63 := Nat.mul_lt_mul'' hy hy
        _ = 2 ^ 126 := by norm_num
  have h3 : x * (x * (Nat.log 2 (y * y) + 1) + y * y) ≤ 2 ^ 124 * (2 ^ 124 * 126 + 2 ^ 63 * 2 ^ 63) := by
    gcongr; omega
  constructor <;> omega

theorem ps_width {y : ℕ} (h : y ≤ 2 ^ 32 - 1) : primeSum y + 1 < 2 ^ 64 ∧ y * y < 2 ^ 64 := by
  have h1 := primeSum_le y
  have h2 : y * (y + 1) ≤ (2 ^ 32 - 1) * 2 ^ 32 := Nat.mul_le_mul h (by omega)
  have h3 : y * y ≤ (2 ^ 32 - 1) * (2 ^ 32 - 1) := Nat.mul_le_mul h h
  omega

theorem ps_width' {y : ℕ} (h : y < 2 ^ 63) : primeSum y + 1 < 2 ^ 127 ∧ y * y < 2 ^ 127 := by
  have h1 := sum_bound h
  have h3 : y * y ≤ 2 ^ 63 * 2 ^ 63 := Nat.mul_le_mul h.le h.le
  omega

/-- `S2_easy(x, y, x / y, c, threads)` (`fast_div` version), for every distribution of the iterations over
threads and every order of the additions. -/
theorem C14_S2_easy (sched : Scheduler) (hs : sched.Valid) (x y c : ℕ) (hx : x < 2 ^ 124) (hy1 : 1 ≤ y)
    (hy63 : y < 2 ^ 63) (hxy : x < (y + 1) ^ 3) :
    Ok (s2Easy sched x y (x / y) c) (fun r => r.val = S2EasySum x y c) := by
  have hp := generatePrimes_table y
  unfold s2Easy
  rw [generatePrimesT_eq (primes_width hy63), ok_bind]
  refine Ok.bind (generatePrimeSums_ok (sums_width hy63)) (fun sums hsums => ?_)
  have hdv := fun x2 l (_ : x2 ≤ x) h1 h2 => dvFast_ok hp hy63 x2 l h1 h2
  have k256 := fun w hw hw2 => omp_ok (R := I256) .lawful (w := w) hs (c := c) hxy hy1 hy63 hp hsums hx hw hw2 hdv
  have k128 := fun w hw hw2 => omp_ok (R := W128) .lawful (w := w) hs (c := c) hxy hy1 hy63 hp hsums hx hw hw2 hdv
  refine Ok.ite (fun h1 => Ok.ite (fun h2 => ?_) (fun _ => ?_)) (fun h1 => ?_)
  · refine Ok.bind (k128 _ (ps_width h1).1 (ps_width h1).2) (fun r hr => Ok.pure (rep_val r _ hr (show _ ∧ _ from ?_)))
    have := S2EasySum_fits (c := c) (by omega) (by omega) hxy
    constructor <;> omega
  · exact Ok.bind (k256 _ (ps_width h1).1 (ps_width h1).2)
      (fun r hr => Ok.pure (rep_val r _ hr (inRange_easy hx hy63)))
  · exact Ok.bind (k256 _ (ps_width' hy63).1 (ps_width' hy63).2)
      (fun r hr => Ok.pure (rep_val r _ hr (inRange_easy hx hy63)))

/-- The same for the version that divides with libdivide. -/
theorem C14_S2_easy_libdivide (sched : Scheduler) (hs : sched.Valid) (x y c : ℕ) (hx : x < 2 ^ 124) (hy1 : 1 ≤ y)
    (hy63 : y < 2 ^ 63) (hxy : x < (y + 1) ^ 3) :
    Ok (s2EasyLib sched x y (x / y) c) (fun r => r.val = S2EasySum x y c) := by
  have hp := generatePrimes_table y
  unfold s2EasyLib
  rw [generatePrimesT_eq (primes_width hy63), ok_bind]
  refine Ok.bind (generatePrimeSums_ok (sums_width hy63)) (fun sums hsums => ?_)
  refine Ok.bind (libdivideDivisors_ok hp hy63) (fun v hv => ?_)
  have hdv := fun x2 l (_ : x2 ≤ x) h1 h2 => dvLib_ok hp hv x2 l h1 h2
  have k256 := fun w hw hw2 => omp_ok (R := I256) .lawful (w := w) hs (c := c) hxy hy1 hy63 hp hsums hx hw hw2 hdv
  have k128 := fun w hw hw2 => omp_ok (R := W128) .lawful (w := w) hs (c := c) hxy hy1 hy63 hp hsums hx hw hw2 hdv
  refine Ok.ite (fun h1 => Ok.ite (fun h2 => ?_) (fun _ => ?_)) (fun h1 => ?_)
  · refine Ok.bind (k128 _ (ps_width h1).1 (ps_width h1).2) (fun r hr => Ok.pure (rep_val r _ hr (show _ ∧ _ from ?_)))
    have := S2EasySum_fits (c := c) (by omega) (by omega) hxy
    constructor <;> omega
  · exact Ok.bind (k256 _ (ps_width h1).1 (ps_width h1).2)
      (fun r hr => Ok.pure (rep_val r _ hr (inRange_easy hx hy63)))
  · exact Ok.bind (k256 _ (ps_width' hy63).1 (ps_width' hy63).2)
      (fun r hr => Ok.pure (rep_val r _ hr (inRange_easy hx hy63)))

/-- Non-vacuity: `x = 10^30`, `y = 2·10^10` (wide types) and `x = 10^18`, `y = 2·10^6` (`int128_t`). -/
example : Ok (s2Easy Scheduler.seq (10 ^ 30) (2 * 10 ^ 10) (10 ^ 30 / (2 * 10 ^ 10)) 6)
    (fun r => r.val = S2EasySum (10 ^ 30) (2 * 10 ^ 10) 6) :=
  C14_S2_easy _ Scheduler.seq_valid _ _ _ (by norm_num) (by norm_num) (by norm_num) (by norm_num)
example : Ok (s2EasyLib Scheduler.seq (10 ^ 18) (2 * 10 ^ 6) (10 ^ 18 / (2 * 10 ^ 6)) 6)
    (fun r => r.val = S2EasySum (10 ^ 18) (2 * 10 ^ 6) 6) :=
  C14_S2_easy_libdivide _ Scheduler.seq_valid _ _ _ (by norm_num) (by norm_num) (by norm_num) (by norm_num)

end PS
