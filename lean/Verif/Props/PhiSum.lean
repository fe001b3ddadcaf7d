import Verif.Proof.PhiSum
import Verif.Proof.BigPrimes

/-!
# Property C17: `phi_sum`

`phiSum x a` (Spec/Basic.lean) is the sum of the `n ≤ x` not divisible by any of the first `a` primes.
-/

namespace PS

/-- `phi_sum(int64_t x, int64_t a)`: exact, and no `int128_t` operation overflows.

Full claim: for every `a`.  That claim is false: the primes are kept in a `vector<int32_t>`
(`C17_phi_sum_limit`). -/
theorem C17_phi_sum64_partial (x a : ℕ) (hx : x < 2 ^ 63) (ha : prm a < 2 ^ 31) : phiSum64 x a = .ok (phiSum x a : ℤ) :=
  phiSum64_ok x a hx ha

/-- Non-vacuity: `phi_sum(10, 2) = 1 + 5 + 7`. -/
example : phiSum64 10 2 = .ok 13 := by decide +kernel
example : (10 : ℕ) < 2 ^ 63 := by norm_num

/-- `phi_sum(int128_t x, int64_t a)`.

Full claim: the same without `NoWindow x a` and for every `a`.  That claim is false
(`C17_phi_sum_counterexample`, `C17_phi_sum_limit`); `NoWindow x a` says that no intermediate sum `φ(x/m, a')`, `a' < a`,
lies in the interval on which `int256_t::operator*` is wrong. -/
theorem C17_phi_sum_partial (x a : ℕ) (hx : x < 2 ^ 127) (ha : prm a < 2 ^ 31) (hw : NoWindow x a) :
    Ok (phiSumM x a) (fun r => r.val = phiSum x a) := phiSumM_ok x a hx ha hw

/-- No restriction on the sums is needed below `2k = 52175271301331128848` (about `5.2 * 10^19`). -/
theorem C17_phi_sum_below_partial (x a : ℕ) (hx : x < 52175271301331128848) (ha : prm a < 2 ^ 31) :
    Ok (phiSumM x a) (fun r => r.val = phiSum x a) :=
  phiSumM_ok x a (by omega) ha (noWindow_of_lt a (by unfold badK; omega))

/-- `2147483659` is the first prime that does not fit `int32_t`: once it is among the first `a` primes, the table of
primes that both versions of `phi_sum` ask for cannot be represented. -/
theorem C17_phi_sum_limit (x a : ℕ) (hx : 1 ≤ x) (ha : Nat.primeCounting 2147483659 ≤ a) :
    phiSum64 x a = .error .overflow ∧ phiSumM x a = .error .overflow := by
  have hp := prime_2147483659
  have h1 := prm_pi hp
  have h2 := prm_le_prm ha
  have h10 : 10 ≤ a := by
    by_contra hc
    have h3 := smallPrimes_table.2.2 9 (by norm_num) (by norm_num)
    have h4 := prm_le_prm (show a ≤ 9 by omega)
    have h5 : smallPrimes.get 9 = 23 := by decide
    omega
  have e : generateNPrimesT a = .error .overflow := generateNPrimesT_error (by omega) (by omega)
  have e1 : phiSum64 x a = .error .overflow := by
    unfold phiSum64
    rw [if_neg (by omega), if_neg (by omega), e]
    rfl
  refine ⟨e1, ?_⟩
  unfold phiSumM
  rw [if_neg (show ¬ a < 10 by omega), e, e1]
  split <;> rfl

/-- Non-vacuity: an argument above 64 bits. -/
example : (2 ^ 65 : ℕ) < 52175271301331128848 ∧
    (phiSumM (2 ^ 65) 3).toOption.map I256.val = some 181483929024500513864350085099071960951 := by
  decide +kernel

/-- `phi_sum(x, a)` for `a ≤ 1` evaluated from the closed form. -/
theorem phiSum_one_even (k : ℕ) : phiSum (2 * k) 1 = k ^ 2 := by
  have h := phiSum_succ (2 * k) 0
  rw [show 0 + 1 = 1 from rfl, prm_one, Nat.mul_div_cancel_left _ (by omega)] at h
  have h1 := phiSum_zero_mul_two (2 * k)
  have h2 := phiSum_zero_mul_two k
  nlinarith

/-- The code's answer for `phi_sum(2k, 1)`, `k = 26087635650665564424`, is `2^128` too large. -/
theorem C17_phi_sum_counterexample :
    ∃ x r, x < 2 ^ 127 ∧ phiSumM x 1 = .ok r ∧ r.val = phiSum x 1 + 2 ^ 128 := by
  have h : (phiSumM (2 * badK) 1).toOption.map I256.val = some ((badK : ℤ) ^ 2 + 2 ^ 128) := by
    decide +kernel
  cases hr : phiSumM (2 * badK) 1 with
  | error e => rw [hr] at h; simp [Except.toOption] at h
  | ok r =>
    rw [hr] at h
    simp only [Except.toOption, Option.map_some, Option.some.injEq] at h
    refine ⟨2 * badK, r, by unfold badK; norm_num, hr, ?_⟩
    rw [h, phiSum_one_even]
    push_cast
    rfl

/-- A computable form of the recursion, to evaluate `phiSum` at large arguments. -/
def phiRec : ℕ → ℕ → ℕ
  | 0, x => x * (x + 1) / 2
  | a + 1, x => phiRec a x - smallPrimes.get (a + 1) * phiRec a (x / smallPrimes.get (a + 1))

theorem phiRec_eq (a x : ℕ) (ha : a ≤ 9) : phiRec a x = phiSum x a := by
  induction a generalizing x with
  | zero => rw [phiSum_zero]; rfl
  | succ a ih =>
    unfold phiRec
    have h := smallPrimes_table.2.2 (a + 1) (by omega) (by omega)
    rw [ih _ (by omega), ih _ (by omega), phiSum_succ x a, h]
    omega

/-- If consecutive quotients jump over the window, `NoWindow` holds. -/
theorem noWindow_of_jumps (x A : ℕ) (hA : A ≤ 9) (f : ℕ → ℕ)
    (h : ∀ a < A, phiRec a (x / (f a + 1)) ≤ 2 ^ 128 - 2 ^ 64 ∧ 2 ^ 128 < phiRec a (x / f a)) :
    NoWindow x A := by
  refine .of_forall (fun m a hm ha hc => ?_)
  obtain ⟨h1, h2⟩ := h a ha
  rw [phiRec_eq _ _ (by omega)] at h1 h2
  rcases Nat.lt_or_ge (f a) m with hlt | hge
  · have : phiSum (x / m) a ≤ phiSum (x / (f a + 1)) a :=
      phiSum_mono (Nat.div_le_div_left hlt (by omega))
    omega
  · have : phiSum (x / f a) a ≤ phiSum (x / m) a :=
      phiSum_mono (Nat.div_le_div_left hge (by omega))
    omega

/-- Non-vacuity of `C17_phi_sum_partial` far above 64 bits: `x = 10^30`, `a = 6`. -/
theorem noWindow_ten_pow_30 : NoWindow (10 ^ 30) 6 := by
  refine noWindow_of_jumps _ _ (by omega)
    (fun a => (#[38332335417, 27105054312, 22131184171, 19794732892, 18326361581, 17473500164] :
      Array ℕ).getD a 0) ?_
  decide +kernel

example : Ok (phiSumM (10 ^ 30) 6) (fun r => r.val = phiSum (10 ^ 30) 6) :=
  C17_phi_sum_partial _ _ (by norm_num) (prm_small (by norm_num)) noWindow_ten_pow_30

end PS
