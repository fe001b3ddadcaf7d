import Verif.Proof.S1
import Verif.Proof.Bounds
import Verif.Proof.Density
import Verif.Props.PhiSum

/-!
# Property C12: the ordinary leaves

`S1Sum x y c` (Spec/Basic.lean) is `Σ_{n ≤ y, lpf(n) > p_c} μ(n) n φ(x/n, c)`.
-/

namespace PS
open Finset

/-- `S1(x, y, c, threads)` for arguments that use `int128_t` (`x ≤ INT64_MAX`, `y ≤ UINT32_MAX`) and every
distribution of the work over threads.  The result is right whenever it fits `int128_t`. -/
theorem C12_S1_64_partial (sched : Scheduler) (hs : sched.Valid) (x y c : ℕ) (hx : x < 2 ^ 63) (hy1 : 1 ≤ y)
    (hyy : y * y < 2 ^ 63) (hc31 : prm c < 2 ^ 31) (hfit : -2 ^ 127 ≤ S1Sum x y c ∧ S1Sum x y c < 2 ^ 127) :
    Ok (s1 sched x y c) (fun r => r.val = S1Sum x y c) := by
  have hy : y < 2 ^ 32 := by nlinarith
  unfold s1
  rw [if_pos (by omega), if_pos (by omega)]
  refine Ok.bind (s1Master_ok (R := W128) (x := x) (y := y) (c := c) (show x < 2 ^ 63 ∧ prm c < 2 ^ 31 from ⟨hx, hc31⟩) (by omega) hy hyy hy1 hs)
    (fun r hr => Ok.pure ?_)
  exact LawfulRes.rep_val r _ hr hfit

/-- It does fit for `c ≥ 3`, and for `y < 8`; one of them holds for the `c` that the program uses
(`PhiTiny::get_c(y) = min(6, π(y))`, C20). -/
theorem C12_S1_64_fits_partial (sched : Scheduler) (hs : sched.Valid) (x y c : ℕ) (hx : x < 2 ^ 63) (hy1 : 1 ≤ y)
    (hyy : y * y < 2 ^ 63) (hc31 : prm c < 2 ^ 31) (hc : 3 ≤ c ∨ y < 8) : Ok (s1 sched x y c) (fun r => r.val = S1Sum x y c) := by
  refine C12_S1_64_partial sched hs x y c hx hy1 hyy hc31 ?_
  have hy : y < 2 ^ 32 := by nlinarith
  have h := abs_lt.1 (S1Sum_fits hx hy hc)
  exact ⟨h.1.le, h.2⟩

/-- It fits for every `c` if `x < 2^60`. -/
theorem C12_S1_below_partial (sched : Scheduler) (hs : sched.Valid) (x y c : ℕ) (hx : x < 2 ^ 60) (hy1 : 1 ≤ y)
    (hyy : y * y < 2 ^ 63) (hc31 : prm c < 2 ^ 31) : Ok (s1 sched x y c) (fun r => r.val = S1Sum x y c) := by
  refine C12_S1_64_partial sched hs x y c (by omega) hy1 hyy hc31 ?_
  have hy : y < 2 ^ 32 := by nlinarith
  have h1 := abs_S1Sum_le x y c
  have h2 : Nat.log 2 y < 32 := Nat.log_lt_of_lt_pow (by omega) hy
  have h3 : x * (x * (Nat.log 2 y + 1) + y) ≤ 2 ^ 60 * (2 ^ 60 * 32 + 2 ^ 32) := by gcongr; omega
  have h4 : ((x * (x * (Nat.log 2 y + 1) + y) : ℕ) : ℤ) ≤ ((2 ^ 60 * (2 ^ 60 * 32 + 2 ^ 32) : ℕ) : ℤ) := by
    exact_mod_cast h3
  push_cast at h4
  have h5 : |S1Sum x y c| * 2 ≤ 2 ^ 60 * (2 ^ 60 * 32 + 2 ^ 32) := le_trans h1 h4
  have h6 := abs_le.1 (show |S1Sum x y c| ≤ 2 ^ 126 by norm_num at h5 ⊢; omega)
  constructor <;> omega

/-- `S1(x, y, c, threads)` for arguments that use `int256_t`.

Full claim: without `NoWindow`, which is inherited from `phi_sum` (C17). -/
theorem C12_S1_128_partial (sched : Scheduler) (hs : sched.Valid) (x y c : ℕ) (hx : x < 2 ^ 124) (hy1 : 1 ≤ y)
    (hy : y < 2 ^ 63) (hxy : 2 ^ 63 ≤ x ∨ 2 ^ 32 ≤ y) (hc31 : prm c < 2 ^ 31) (hw : NoWindow x c) :
    Ok (s1 sched x y c) (fun r => r.val = S1Sum x y c) := by
  have hfit : I256.InRange (S1Sum x y c) := by
    have h1 := abs_S1Sum_le x y c
    have h2 : Nat.log 2 y < 63 := Nat.log_lt_of_lt_pow (by omega) hy
    have h3 : x * (x * (Nat.log 2 y + 1) + y) ≤ 2 ^ 124 * (2 ^ 124 * 63 + 2 ^ 63) := by gcongr; omega
    have h4 : ((x * (x * (Nat.log 2 y + 1) + y) : ℕ) : ℤ) ≤ ((2 ^ 124 * (2 ^ 124 * 63 + 2 ^ 63) : ℕ) : ℤ) := by
      exact_mod_cast h3
    push_cast at h4
    have h5 : |S1Sum x y c| * 2 ≤ 2 ^ 124 * (2 ^ 124 * 63 + 2 ^ 63) := le_trans h1 h4
    have h6 := abs_le.1 (show |S1Sum x y c| ≤ 2 ^ 254 by norm_num at h5 ⊢; omega)
    constructor <;> omega
  have hyy : y * y < 2 ^ 127 := by nlinarith
  have key := fun yb hyb => s1Master_ok (R := I256) (xb := 127) (yb := yb) (x := x) (y := y) (c := c)
    (show x < 2 ^ 127 ∧ prm c < 2 ^ 31 ∧ NoWindow x c from ⟨by omega, hc31, hw⟩) (by omega) hyb hyy hy1 hs
  unfold s1
  refine Ok.ite (fun h1 => ?_) (fun _ => ?_)
  · rw [if_neg (by omega)]
    exact Ok.bind (key _ (by omega)) (fun r hr => Ok.pure (LawfulRes.rep_val r _ hr hfit))
  · exact Ok.bind (key _ hy) (fun r hr => Ok.pure (LawfulRes.rep_val r _ hr hfit))

/-- If `x ≤ INT64_MAX` and `y` lies between `4294967291` and `UINT32_MAX`, the product `square_free * primes[b]`
overflows `int64_t` (for `square_free = 4294967279` and `primes[b] = 4294967291`): `C12_S1_64_partial` does not hold for every
`y ≤ UINT32_MAX`.  `pi(x)` only uses `y ≤ √x`. -/
theorem C12_limit (sched : Scheduler) (hs : sched.Valid) (x y c : ℕ) (hx : x < 2 ^ 63) (hy1 : 4294967291 ≤ y)
    (hy : y < 2 ^ 32) (hc : prm c < 2 ^ 31) : Fails (s1 sched x y c) := by
  have hp := prime_4294967279
  have hq := prime_4294967291
  have e1 := prm_pi hp
  have e2 := prm_pi hq
  have ht := generatePrimes_table y
  obtain ⟨b, hb⟩ : ∃ b, b = Nat.primeCounting 4294967279 := ⟨_, rfl⟩
  obtain ⟨d, hd⟩ : ∃ d, d = Nat.primeCounting 4294967291 := ⟨_, rfl⟩
  rw [← hb] at e1
  rw [← hd] at e2
  have hbd : b < d := by
    by_contra hc
    have := prm_le_prm (show d ≤ b by omega)
    omega
  have hdy : d ≤ Nat.primeCounting y := by rw [hd]; exact Nat.monotone_primeCounting hy1
  have hcb : c < b := by
    by_contra hcon
    have := prm_le_prm (show b ≤ c by omega)
    omega
  unfold s1
  rw [if_pos (by omega), if_pos (by omega)]
  refine Fails.bind_left ?_
  unfold s1Master
  rw [generatePrimesT_eq hy, ok_bind]
  refine Fails.bind (fun s1 _ => ?_)
  rw [ht.1]
  refine ompFor_fails (i := b) (hs 1 (c + 1) _) (by omega) (by omega) (fun s r => ?_)
  rw [ht.rd (by omega) (by omega), ok_bind]
  refine Fails.bind (fun xp _ => ?_)
  refine Fails.bind (fun ph _ => ?_)
  refine Fails.bind_left ?_
  unfold s1Loop
  rw [if_pos (by rw [ht.1]; omega), ht.rd (by omega) (by omega), ok_bind, fit_error, error_bind]
  · exact Fails.error _
  · have h1 := prm_le_prm (show b ≤ b + 1 by omega)
    rw [e1] at h1 ⊢
    nlinarith

/-- Non-vacuity: `S1(100, 7, 1)` on two threads, `S1(10^30, 2·10^10, 6)` on one. -/
example : Ok (s1 (fun id lo hi => if (id, lo, hi) = (1, 2, 5) then [[4], [2, 3]] else Scheduler.seq id lo hi)
    100 7 1) (fun r => r.val = S1Sum 100 7 1) := by
  refine C12_S1_below_partial _ (fun id lo hi => ?_) 100 7 1 (by norm_num) (by norm_num) (by norm_num) (by rw [prm_one]; norm_num)
  split
  · rename_i h
    simp only [Prod.mk.injEq] at h
    obtain ⟨rfl, rfl, rfl⟩ := h
    unfold Sched; decide
  · exact Scheduler.seq_valid id lo hi

example : Ok (s1 Scheduler.seq (10 ^ 30) (2 * 10 ^ 10) 6)
    (fun r => r.val = S1Sum (10 ^ 30) (2 * 10 ^ 10) 6) :=
  C12_S1_128_partial _ Scheduler.seq_valid _ _ _ (by norm_num) (by norm_num) (by norm_num)
    (Or.inl (by norm_num)) (prm_small (by norm_num)) noWindow_ten_pow_30

example : Ok (s1 Scheduler.seq (9 * 10 ^ 18) (3 * 10 ^ 9) 6)
    (fun r => r.val = S1Sum (9 * 10 ^ 18) (3 * 10 ^ 9) 6) :=
  C12_S1_64_fits_partial _ Scheduler.seq_valid _ _ _ (by norm_num) (by norm_num) (by norm_num) (prm_small (by norm_num))
    (Or.inl (by norm_num))

end PS
