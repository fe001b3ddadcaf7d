import Verif.Proof.Checked
import Verif.Props.S2Easy
import Verif.Props.S1
import Verif.Props.P2
import Verif.Proof.P2Bound
import Verif.Props.S2Hard

/-!
# Property C64: no signed overflow in the `int128_t` sums

For small `x` the results are summed in `int128_t`, whose overflow is undefined.  `CInt 128` is `int128_t` with
overflow detection: its value is `none` as soon as one operation has overflowed.  The theorems are about the same
functions as C11, C12, C14, C15 with the result type `CInt 128` in place of the wrapping `W128`.
-/

namespace PS
open S2Easy
open scoped Classical

/-- `S2_easy_OpenMP<int128_t>` (src/deleglise-rivat/S2_easy.cpp:128-129) does not overflow: `S2_easy` uses it for
`x < 2^64` and `y < 2^32`. -/
theorem C64_S2_easy (sched : Scheduler) (hs : sched.Valid) (x y c : ℕ) (hx : x < 2 ^ 64) (hy1 : 1 ≤ y)
    (hy32 : y < 2 ^ 32) (hxy : x < (y + 1) ^ 3) :
    Ok (do
      let primes ← generatePrimesT 32 y
      let sums ← generatePrimeSums 64 y
      omp (CInt 128) sched 64 (dvFast primes) x y (x / y) c primes sums)
      (fun r => r.val = some (S2EasySum x y c : ℤ)) := by
  have hp := generatePrimes_table y
  have hy63 : y < 2 ^ 63 := hy32.trans (by norm_num)
  have hw := ps_width (y := y) (by omega)
  have h1 := primes_width hy63
  have h2 := sums_width hy63
  rw [if_pos (by omega)] at h1 h2
  rw [generatePrimesT_eq h1, ok_bind]
  refine Ok.bind (generatePrimeSums_ok h2) (fun sums hsums => ?_)
  refine (omp_ok EasySpec.checked (w := 64) hs (c := c) hxy hy1 hy63 hp hsums (by omega) hw.1 hw.2
    (fun x2 l (_ : x2 ≤ x) h1 h2 => dvFast_ok hp hy63 x2 l h1 h2)).mono (fun r hr => ?_)
  have := S2EasySum_fits (c := c) hx hy32 hxy
  rw [hr.2 (by omega)]

/-- The same for the version that divides with libdivide (src/deleglise-rivat/S2_easy_libdivide.cpp:176-177). -/
theorem C64_S2_easy_libdivide (sched : Scheduler) (hs : sched.Valid) (x y c : ℕ) (hx : x < 2 ^ 64) (hy1 : 1 ≤ y)
    (hy32 : y < 2 ^ 32) (hxy : x < (y + 1) ^ 3) :
    Ok (do
      let primes ← generatePrimesT 32 y
      let sums ← generatePrimeSums 64 y
      let fastdiv ← libdivideDivisors primes
      omp (CInt 128) sched 64 (dvLib primes fastdiv) x y (x / y) c primes sums)
      (fun r => r.val = some (S2EasySum x y c : ℤ)) := by
  have hp := generatePrimes_table y
  have hy63 : y < 2 ^ 63 := hy32.trans (by norm_num)
  have hw := ps_width (y := y) (by omega)
  have h1 := primes_width hy63
  have h2 := sums_width hy63
  rw [if_pos (by omega)] at h1 h2
  rw [generatePrimesT_eq h1, ok_bind]
  refine Ok.bind (generatePrimeSums_ok h2) (fun sums hsums => ?_)
  refine Ok.bind (libdivideDivisors_ok hp hy63) (fun v hv => ?_)
  refine (omp_ok EasySpec.checked (w := 64) hs (c := c) hxy hy1 hy63 hp hsums (by omega) hw.1 hw.2
    (fun x2 l (_ : x2 ≤ x) h1 h2 => dvLib_ok hp hv x2 l h1 h2)).mono (fun r hr => ?_)
  have := S2EasySum_fits (c := c) hx hy32 hxy
  rw [hr.2 (by omega)]

/-- `S1_OpenMP_master` with the result type `int128_t` (src/S1.cpp:101-102) does not overflow for `c ≥ 3` or `y < 8`; one
of them holds for the `c` that the program uses (C20). -/
theorem C64_S1 (sched : Scheduler) (hs : sched.Valid) (x y c : ℕ) (hx : x < 2 ^ 63) (hy1 : 1 ≤ y)
    (hyy : y * y < 2 ^ 63) (hc31 : prm c < 2 ^ 31) (hc : 3 ≤ c ∨ y < 8) :
    Ok (s1Master (CInt 128) sched 63 32 x y c) (fun r => r.val = some (S1Sum x y c)) := by
  have hy : y < 2 ^ 32 := by nlinarith
  have hphi : BRes.checked.PhiOk x c := ⟨hx, hc31⟩
  refine (s1Master_rep BRes.checked (E := 0) (by simpa using BRes.checked.rep_phi _ _ hphi)
    (fun n hn hr => BRes.checked.phiOk_div x c n (by omega) hr hphi) (by omega) hy hyy hy1 hs).mono (fun r hr => ?_)
  have hA : A1 x y c c 1 = S1Abs x y c := by simp [A1, S1Abs]
  have := S1Abs_fits hx hy hc
  rw [hr.2 (by rw [hA]; omega)]
  simp

/-- `P2_OpenMP_master` with the result type `int128_t` (src/P2.cpp:197-198) does not overflow. -/
theorem C64_P2 (sched : Scheduler) (hs : sched.Valid) (time : ℕ → Ordering) (threads : ℤ) (hth : 1 ≤ threads)
    (x y : ℕ) (hx : x < 2 ^ 63) (hy : y < 2 ^ 62) (hz : x / max y 1 ≤ 2 ^ 62) :
    Ok (do let tiny ← PhiTiny.build; P2.master (CInt 128) tiny sched time threads x y)
      (fun r => r.val = some (P2Sum x y : ℤ)) := by
  refine Ok.bind PhiTiny.build_ok (fun tiny ht => ?_)
  refine (P2.master_rep BRes.checked ht hs time hth (by omega) hy hz (fun a hyx ha => ?_)).mono (fun r hr => ?_)
  · have h1 := primeSum_le y
    have h2 := primeSum_le (x / max y 1)
    have h3 : x / max y 1 * (x / max y 1 + 1) ≤ 2 ^ 62 * 2 ^ 63 := Nat.mul_le_mul hz (by omega)
    have h4 : y * (y + 1) ≤ 2 ^ 62 * 2 ^ 63 := Nat.mul_le_mul hy.le (by omega)
    show a < 2 ^ 127
    omega
  · have := P2.U_fits (y := y) hx
    rcases hr with hr | hr
    · rw [hr.2 (by norm_num)]
    · rw [hr.2 this]

/-- `S2_hard_OpenMP_master` with the result type `int128_t` (src/deleglise-rivat/S2_hard.cpp:404-409) does not
overflow: neither the sums of the threads, nor their vectors `mu_sum`, nor the products and sums of lines 367-374
that put them together. -/
theorem C64_S2_hard (e : S2Hard.Env) (x y c : ℕ) (threads : ℤ) (hs : e.sched.Valid) (hm : e.merge.Valid)
    (hy : 1 ≤ y) (hyx : y * y ≤ x) (hxy : x < (y + 1) ^ 3) (hc : 6 ≤ c ∨ Nat.primeCounting y ≤ c) (hc10 : c < 10)
    (hx : x < 2 ^ 63) (hmax : y ≤ FactorTable.max' (2 ^ 16 - 1)) :
    Ok (do
      let factors ← FactorTable.build (2 ^ 16 - 1) e.merge y threads
      let maxPrime ← cdiv (x / y) (Nat.sqrt y)
      S2Hard.master (CInt 128) e x y (x / y) c (truncVec 32 (generatePrimes maxPrime)) factors threads)
      (fun r => r.val = some (S2HardSum x y c)) := by
  have hs1 : 1 ≤ Nat.sqrt y := Nat.sqrt_pos.2 hy
  refine Ok.bind (FactorTable.build_ok hm threads (by norm_num) hmax (by unfold FactorTable.max' at hmax; norm_num at hmax ⊢; omega)) (fun factors hf => ?_)
  rw [cdiv_ok hs1, ok_bind]
  have hF : S2Hard.FT (S2Hard.cfg x y c) factors := S2Hard.FT.of_table (Or.inl rfl) hf hmax hy
  have hP : PrimePrefix (truncVec 32 (generatePrimes (x / y / Nat.sqrt y)))
      (Nat.primeCounting (min y (x / y / Nat.sqrt y))) := by
    refine truncVec_prefix (pi_mono (min_le_right _ _)) ?_
    unfold FactorTable.max' at hmax
    refine lt_of_le_of_lt (prm_pi_le _) (max_lt (lt_of_le_of_lt (min_le_left _ _) ?_) (by norm_num))
    norm_num at hmax ⊢
    omega
  have hz := S2Hard.z_le hx hxy
  refine (S2Hard.master_rep BRes.checked hP hs hy hyx (hc.imp (by omega) id) hc10 (by omega) (Or.inl ⟨by omega, Or.inr (by omega)⟩) hF).mono
    (fun r hr => ?_)
  rw [hr.2 (S2Hard.sum_abs_hard_fits hx hyx hxy hc)]

/-- Non-vacuity: `x = 9 · 10^18`, `y = 4 · 10^6`. -/
example : ∃ (e : S2Hard.Env) (x y c : ℕ), e.sched.Valid ∧ e.merge.Valid ∧ 1 ≤ y ∧ y * y ≤ x ∧ x < (y + 1) ^ 3 ∧
    (6 ≤ c ∨ Nat.primeCounting y ≤ c) ∧ c < 10 ∧ x < 2 ^ 63 ∧ y ≤ FactorTable.max' (2 ^ 16 - 1) ∧ 9 * 10 ^ 18 ≤ x :=
  ⟨⟨Scheduler.seq, fun k i => .fin (k + i / 7), fun _ => .fin 3, FactorTable.Merge.seq⟩, 9 * 10 ^ 18, 4 * 10 ^ 6, 6, Scheduler.seq_valid, Merge_seq_valid, by norm_num, by norm_num, by norm_num, by left; norm_num, by norm_num, by norm_num,
    by unfold FactorTable.max'; norm_num, le_rfl⟩

example : Ok (do let tiny ← PhiTiny.build; P2.master (CInt 128) tiny Scheduler.seq (fun _ => .gt) 8 (9 * 10 ^ 18) (2 * 10 ^ 6))
    (fun r => r.val = some (P2Sum (9 * 10 ^ 18) (2 * 10 ^ 6) : ℤ)) :=
  C64_P2 _ Scheduler.seq_valid _ _ (by norm_num) _ _ (by norm_num) (by norm_num) (by norm_num)

/-- Non-vacuity: `x = 9 · 10^18`, `y = 2 · 10^6`. -/
example : Ok (s1Master (CInt 128) Scheduler.seq 63 32 (9 * 10 ^ 18) (2 * 10 ^ 6) 6)
    (fun r => r.val = some (S1Sum (9 * 10 ^ 18) (2 * 10 ^ 6) 6)) :=
  C64_S1 _ Scheduler.seq_valid _ _ _ (by norm_num) (by norm_num) (by norm_num) (by rw [prm_6]; norm_num)
    (Or.inl (by norm_num))

/-- Non-vacuity: `x = 10^19`, `y = 3 · 10^6`. -/
example : Ok (do
      let primes ← generatePrimesT 32 (3 * 10 ^ 6)
      let sums ← generatePrimeSums 64 (3 * 10 ^ 6)
      omp (CInt 128) Scheduler.seq 64 (dvFast primes) (10 ^ 19) (3 * 10 ^ 6) (10 ^ 19 / (3 * 10 ^ 6)) 6 primes sums)
      (fun r => r.val = some (S2EasySum (10 ^ 19) (3 * 10 ^ 6) 6 : ℤ)) :=
  C64_S2_easy _ Scheduler.seq_valid _ _ _ (by norm_num) (by norm_num) (by norm_num) (by norm_num)

/-- The type does detect overflow: `2^126 + 2^126` has no value. -/
example : (Res.add (Res.ofInt (2 ^ 126)) (Res.ofInt (2 ^ 126)) : CInt 128).val = none := by decide +kernel

end PS
