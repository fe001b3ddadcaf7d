import Verif.Props.Pi
import Verif.Proof.Mod64

/-!
# Property C72: the low bits of the result

Two things make the result of `pi(x)` wrong: the multiplication of `int256_t` for some operands (C34) and, if `x / y` is `2^60`
or more, the sums of a sieved word, which do not fit 64 bits (C29).  The first spoils multiples of `2^128` only, the second
multiples of `2^64`.  So below `2^103` the low 64 bits of the result are right for every `x` that the program accepts, and
the low 128 bits as long as the sieve is right.
-/

namespace PS
open LawfulRes
local notation "π" => Nat.primeCounting

/-- `phi_sum(x, a)` is right modulo `2^128` for all `x`: compare C17, where it need not be equal. -/
theorem C17_low128 (x a : ℕ) (hx : x < 2 ^ 127) (ha : prm a < 2 ^ 31) :
    Ok (phiSumM x a) (fun r => (2 ^ 128 : ℤ) ∣ r.val - phiSum x a) := phiSumM_low x a hx ha

/-- The argument of `C17_phi_sum_counterexample`: the result is not equal, but right modulo `2^128`. -/
example : Ok (phiSumM (2 * badK) 1) (fun r => r.val ≠ phiSum (2 * badK) 1 ∧ (2 ^ 128 : ℤ) ∣ r.val - phiSum (2 * badK) 1) := by
  have h : (phiSumM (2 * badK) 1).toOption.map I256.val = some ((badK : ℤ) ^ 2 + 2 ^ 128) := by
    decide +kernel
  obtain ⟨r, hr, h2⟩ := C17_low128 (2 * badK) 1 (by unfold badK; norm_num) (by rw [prm_one]; norm_num)
  refine ⟨r, hr, ?_, h2⟩
  rw [hr] at h
  simp only [Except.toOption, Option.map_some, Option.some.injEq] at h
  rw [h, phiSum_one_even]
  push_cast
  omega

/-- `S1` is right modulo `2^128`. -/
theorem C12_low128 (sched : Scheduler) (hs : sched.Valid) (x y c : ℕ) (hx : x < 2 ^ 124) (hy1 : 1 ≤ y)
    (hyx : y * y ≤ x) (hc : prm c < 2 ^ 31) (h3 : 3 ≤ c ∨ y < 8) :
    Ok (s1 sched x y c) (fun r => (2 ^ 128 : ℤ) ∣ r.val - S1Sum x y c) := by
  have hy63 : y < 2 ^ 63 := by nlinarith
  rcases Nat.lt_or_ge x (2 ^ 63) with h63 | h63
  · exact (C12_S1_64_fits_partial _ hs x y c h63 hy1 (by omega) hc h3).mono (fun r hr => I256.low_of_eq hr)
  have hyy : y * y < 2 ^ 127 := by omega
  have key := fun yb hyb => s1Master_rep (BRes.low 128 le_rfl) (xb := 127) (yb := yb) (x := x) (y := y) (c := c) (E := 0) (a := 0)
    (by rw [add_zero]; exact phiSumM_low x c (by omega) hc)
    (fun n _ _ => (⟨lt_of_le_of_lt (Nat.div_le_self _ _) (by omega), hc⟩ : (x / n) < 2 ^ 127 ∧ prm c < 2 ^ 31))
    (by omega) hyb hyy hy1 hs
  simp only [add_zero] at key
  unfold s1
  refine Ok.ite (fun h => ?_) (fun _ => ?_)
  · rw [if_neg (by omega)]
    exact Ok.bind (key _ (by omega)) (fun r hr => Ok.pure hr)
  · exact Ok.bind (key _ hy63) (fun r hr => Ok.pure hr)

/-- Non-vacuity: the `x` at which `S1` is wrong. -/
example : Ok (s1 Scheduler.seq 52175271301331128848 (10 ^ 8) 6)
    (fun r => (2 ^ 128 : ℤ) ∣ r.val - S1Sum 52175271301331128848 (10 ^ 8) 6) :=
  C12_low128 _ Scheduler.seq_valid _ _ _ (by norm_num) (by norm_num) (by norm_num) (prm_small le_rfl) (Or.inl (by norm_num))

/-- `S2_hard` is right modulo `2^64` even where the sums of its sieve exceed 64 bits: up to `x / y` of about `2.5 * 10^18`. -/
theorem C15_low64 (e : S2Hard.Env) (x y c : ℕ) (threads : ℤ) (hs : e.sched.Valid) (hm : e.merge.Valid)
    (hy : 1 ≤ y) (hyx : y * y ≤ x) (hxy : x < (y + 1) ^ 3) (hc : 6 ≤ c ∨ π y ≤ c) (hc10 : c < 10) (hx : x < 2 ^ 103)
    (hz : x / y + 129 < 2 ^ 61 + 2 ^ 58) (hthr : threads ≤ 2 ^ 26) :
    Ok (S2Hard.s2Hard e x y (x / y) c threads) (fun r => (2 ^ 64 : ℤ) ∣ r.val - S2HardSum x y c) :=
  S2Hard.s2Hard_mod hs hm hy hyx hxy hc hc10 hx hz hthr

/-- Non-vacuity: `x / y = 2 * 10^18` is out of reach of `C15_S2_hard_partial`. -/
example : Ok (S2Hard.s2Hard (exampleEnv 3 true).hard (4 * 10 ^ 30) (2 * 10 ^ 12) (4 * 10 ^ 30 / (2 * 10 ^ 12)) 6 8)
    (fun r => (2 ^ 64 : ℤ) ∣ r.val - S2HardSum (4 * 10 ^ 30) (2 * 10 ^ 12) 6) :=
  C15_low64 _ _ _ _ 8 (exampleEnv_valid 3 true).schedHard (exampleEnv_valid 3 true).merge (by norm_num) (by norm_num)
    (by norm_num) (Or.inl le_rfl) (by norm_num) (by norm_num) (by norm_num) (by norm_num)

namespace Pi

theorem s2_low {k : ℕ} (hk : k ≤ 128) {e : Env} {x : ℕ} (hv : e.Valid) (hx1 : 1 ≤ x) (hx : x < 2 ^ 103)
    (hz : x / e.y x < 2 ^ 62) (threads : ℤ)
    (hh : Ok (S2Hard.s2Hard e.hard x (e.y x) (x / e.y x) (min 6 (π (e.y x))) threads)
      (fun r => (2 ^ k : ℤ) ∣ r.val - S2HardSum x (e.y x) (min 6 (π (e.y x))))) :
    Ok (s2 e x (e.y x) (x / e.y x) (min 6 (π (e.y x))) threads)
      (fun r => (2 ^ k : ℤ) ∣ r.val - S2Sum x (e.y x) (min 6 (π (e.y x)))) := by
  obtain ⟨h1, h2, h3⟩ := y_facts hv.fp hx1 (by omega)
  generalize e.y x = y at *
  obtain ⟨c1, c2, c3⟩ := c_cases y
  have hy63 : y < 2 ^ 63 := by nlinarith
  have hz1 : y ≤ x / y := by rw [Nat.le_div_iff_mul_le h1]; exact h2
  unfold s2
  refine Ok.bind (C13_S2_trivial _ hv.schedTrivial x y _ threads h1 (by nlinarith) (by omega) c3 (by omega)) (fun t ht => ?_)
  have he : Ok (s2Easy e x y (x / y) (min 6 (π y))) (fun r => r.val = S2EasySum x y (min 6 (π y))) :=
    Ok.ite (fun _ => C14_S2_easy_libdivide _ hv.schedEasy x y _ (by omega) h1 hy63 h3)
      (fun _ => C14_S2_easy _ hv.schedEasy x y _ (by omega) h1 hy63 h3)
  refine Ok.bind he (fun s hs => ?_)
  refine Ok.bind hh (fun h hh => Ok.pure ?_)
  rw [C15_all_leaves x y _ h1 hz1]
  exact I256.low_add hk (I256.low_add hk (I256.low_of_eq ht) (I256.low_of_eq hs)) hh

/-- `pi(x)` modulo `2^k`, if `S2_hard` is right modulo `2^k`. -/
theorem pi_low {k : ℕ} (hk : k ≤ 128) {e : Env} {x : ℕ} (hv : e.Valid) (hx2 : 2 ≤ x) (hx : x < 2 ^ 103)
    (hz : x / e.y x < 2 ^ 62) {threads : ℤ} (hth : 1 ≤ threads) (hlim : x ≤ e.limit x)
    (hh : Ok (S2Hard.s2Hard e.hard x (e.y x) (x / e.y x) (min 6 (π (e.y x))) threads)
      (fun r => (2 ^ k : ℤ) ∣ r.val - S2HardSum x (e.y x) (min 6 (π (e.y x))))) :
    Ok (do let tiny ← PhiTiny.build; pi e tiny x threads) (fun r => (2 ^ k : ℤ) ∣ r.val - primeSum x) := by
  obtain ⟨h1, h2, h3⟩ := y_facts hv.fp (by omega : 1 ≤ x) (by omega)
  have hs2 := s2_low hk hv (by omega) hx hz threads hh
  have hc2 := (c_cases (e.y x)).2.1
  have hs1 := C12_low128 e.schedS1 hv.schedS1 x (e.y x) (min 6 (π (e.y x))) (by omega) h1 h2 (prm_small (by omega)) hc2
  refine Ok.bind PhiTiny.build_ok (fun tiny ht => ?_)
  unfold pi
  rw [if_neg (by omega)]
  dsimp only
  rw [Int.toNat_natCast, getAlpha_eq, ok_bind, (limit_ok hv.fp (by omega) (by omega)).1, ok_bind, if_neg (by omega),
    irootM_eq 3 _ _ (by norm_num), ok_bind, y_eq hv.fp (by omega) (by omega), ok_bind]
  generalize e.y x = y at *
  have hy62 : y < 2 ^ 62 := by nlinarith
  rw [cdiv_ok (by omega), ok_bind, PhiTiny.getC_ok, ok_bind]
  have hP := P2_val ht hv.schedP2 e.timeP2 hth (y := y) (show x < 2 ^ 124 by omega) hy62
    (by rw [Nat.max_eq_left (by omega)]; omega)
  refine Ok.bind hP (fun p2 hp2 => ?_)
  refine Ok.bind hs1 (fun s1 hs1 => ?_)
  refine Ok.bind hs2 (fun s2 hs2 => ?_)
  rw [P2.primeSumTiny_ok hy62]
  simp only [ok_bind]
  refine Ok.pure ?_
  have ht1 : primeSum y ≤ 2 ^ 62 * 2 ^ 62 := le_trans (primeSum_le_sq y) (Nat.mul_le_mul (by omega) (by omega))
  have r1 : (I256.ofInt (primeSum y : ℤ)).val = primeSum y := I256.val_ofInt _ (by omega) (by omega)
  have r2 : (I256.ofInt 1).val = 1 := by decide
  have h := I256.low_sub hk (I256.low_sub hk (I256.low_add hk (I256.low_add hk
    (Dvd.dvd.trans (pow_dvd_pow 2 hk) hs1) hs2) (I256.low_of_eq r1)) (I256.low_of_eq r2)) (I256.low_of_eq hp2)
  have he := primeSum_eq x y (min 6 (π y)) (by omega) h1 (by nlinarith) h3 (by omega)
  rwa [show S1Sum x y (min 6 (π y)) + S2Sum x y (min 6 (π y)) + (primeSum y : ℤ) - 1 - P2Sum x y = primeSum x by rw [he]] at h

end Pi

/-- For every `x < 2^103` that the program accepts, the low 64 bits of `pi(x)` are those of the sum of the primes `≤ x`: for
every tuning factor, every schedule and timing, and up to `2^26` threads. -/
theorem C72_low64 (e : Pi.Env) (x : ℕ) (threads : ℤ) (hv : e.Valid) (hth : 1 ≤ threads) (hthr : threads ≤ 2 ^ 26)
    (hlim : x ≤ e.limit x) (hx : x < 2 ^ 103) :
    Ok (runPi e x threads) (fun r => (2 ^ 64 : ℤ) ∣ r.val - primeSum x) := by
  rcases Nat.lt_or_ge x 2 with h2 | h2
  · rw [primeSum_lt_two h2]
    exact (runPi_small e x threads (by omega)).mono (fun r hr => by simp [hr])
  obtain ⟨y1, y2, y3⟩ := Pi.y_facts hv.fp (by omega : 1 ≤ x) (by omega)
  have hz := Pi.z_le_limit hv.fp (by omega : 1 ≤ x) (by omega) hlim
  exact Pi.pi_low (by norm_num) hv h2 hx (by omega) hth hlim
    (C15_low64 _ _ _ _ threads hv.schedHard hv.merge y1 y2 y3 (c_cases _).1 (by omega) hx (by omega) hthr)

/-- With the default tuning factor no `x ≥ 2^103` is accepted: then there is no condition on `x`. -/
theorem C72_low64_default (e : Pi.Env) (x : ℕ) (threads : ℤ) (hv : e.Valid) (hl : e.lib.Accurate)
    (hd : e.alpha.lt (.fin 1) = true) (hth : 1 ≤ threads) (hthr : threads ≤ 2 ^ 26) (hx : x < 2 ^ 127) (hlim : x ≤ e.limit x) :
    Ok (runPi e x threads) (fun r => (2 ^ 64 : ℤ) ∣ r.val - primeSum x) := by
  refine C72_low64 e x threads hv hth hthr hlim ?_
  by_contra hc
  have := Pi.limit_lt_default hv.fp hl hd (x := x) (by norm_num at hc ⊢; omega) hx
  omega

/-- As long as the sums of the sieve fit (`x < 2^88`, or the default tuning factor and `x ≤ 5 * 10^29`), the low 128 bits are right: for every number of
threads. -/
theorem C72_low128 (e : Pi.Env) (x : ℕ) (threads : ℤ) (hv : e.Valid) (hth : 1 ≤ threads) (hb : e.Reach x) :
    Ok (runPi e x threads) (fun r => (2 ^ 128 : ℤ) ∣ r.val - primeSum x) := by
  have hlt := hb.lt
  rcases Nat.lt_or_ge x 2 with h2 | h2
  · rw [primeSum_lt_two h2]
    exact (runPi_small e x threads (by omega)).mono (fun r hr => by simp [hr])
  obtain ⟨y1, y2, y3⟩ := Pi.y_facts hv.fp (by omega : 1 ≤ x) (by omega)
  have hz := hb.z hv.fp (by omega : 1 ≤ x)
  exact Pi.pi_low le_rfl hv h2 (by omega) (by omega) hth (hb.limit hv.fp (by omega))
    ((C15_S2_hard_partial e.hard _ _ _ threads hv.schedHard hv.merge y1 y2 y3 (c_cases _).1 (by omega) (by omega) hz).mono
      (fun r hr => I256.low_of_eq hr))

/-- Non-vacuity: `10^30` with the tuning factor 60 is out of reach of C01, and `52175271301331128848` is where the result
is not equal. -/
example : Ok (runPi (exampleEnv 60 true) (10 ^ 30 : ℕ) 8) (fun r => (2 ^ 64 : ℤ) ∣ r.val - primeSum (10 ^ 30)) :=
  C72_low64 _ _ 8 (exampleEnv_valid 60 true) (by norm_num) (by norm_num) (limit_60 _ (by norm_num) le_rfl) (by norm_num)

example : Ok (runPi (exampleEnv 3 false) (52175271301331128848 : ℕ) 4)
    (fun r => r.val ≠ primeSum 52175271301331128848 ∧ (2 ^ 128 : ℤ) ∣ r.val - primeSum 52175271301331128848) := by
  obtain ⟨r, hr, h2⟩ := C72_low128 (exampleEnv 3 false) 52175271301331128848 4 (exampleEnv_valid 3 false) (by norm_num)
    (Or.inl (by norm_num))
  obtain ⟨r', hr', h3⟩ := C01_counterexample (exampleEnv 3 false) 4 (exampleEnv_valid 3 false) (by norm_num)
  refine ⟨r, hr, ?_, h2⟩
  have : r = r' := by
    have h4 : runPi (exampleEnv 3 false) (52175271301331128848 : ℕ) 4 = .ok r := hr
    push_cast at h4
    rw [hr'] at h4
    injection h4 with h4
    exact h4.symm
  rw [this, h3]
  omega

end PS
