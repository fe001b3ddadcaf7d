import Verif.Proof.Imath
import Verif.Proof.Misc

/-!
# Properties C32, C44, C46, C48, C49, C50: integer helpers
-/

namespace PS
local notation "π" => Nat.primeCounting

/-! ## C32 integer roots -/

/-- `isqrt(x)` is the integer square root whatever `std::sqrt` returned (`est`), for every type
(`tmax` its largest value). -/
theorem C32_isqrt (tmax est x : ℕ) (hx : x ≤ tmax) :
    Ok (isqrtM tmax est x) (fun r => r * r ≤ x ∧ x < (r + 1) * (r + 1)) := by
  rw [isqrtM_ok tmax est x hx]
  exact Ok.ok ⟨Nat.sqrt_le x, Nat.sqrt_lt_self' x⟩
where
  Nat.sqrt_lt_self' (x : ℕ) : x < (Nat.sqrt x + 1) * (Nat.sqrt x + 1) := Nat.sqrt_lt.1 (Nat.lt_succ_self _)

/-- The first candidate squared in `isqrt` fits the type even if the estimate is too large. -/
theorem C32_isqrt_no_overflow (tmax est : ℕ) :
    Ok (ctSqrt tmax) (fun m => min est m * min est m ≤ tmax) := by
  rw [ctSqrt_ok]; exact Ok.ok (isqrtM_no_overflow tmax est)

/-- `iroot<N>(x)` is the integer `N`-th root whatever `std::pow` returned. -/
theorem C32_iroot (N est x : ℕ) (hN : 1 ≤ N) :
    Ok (irootM N est x) (fun r => r ^ N ≤ x ∧ x < (r + 1) ^ N) := irootM_ok N est x hN

/-- Non-vacuity: estimates that are too large and too small. -/
example : isqrtM (2 ^ 63 - 1) 1003 (10 ^ 6 - 1) = .ok 999 ∧ isqrtM (2 ^ 63 - 1) 990 (10 ^ 6) = .ok 1000 ∧
    irootM 3 11 999 = .ok 9 ∧ irootM 3 8 1000 = .ok 10 := by decide +kernel

/-! ## C44 thread counts -/

/-- After `set_num_threads(n)`, `get_num_threads()` is `n` clamped to `1 .. omp_get_max_threads()`, whatever
the setting was before. -/
theorem C44_set_get (ompMax n : ℤ) (s : ThreadSt) (h : 1 ≤ ompMax) :
    getNumThreads ompMax (setNumThreads ompMax s n) = max 1 (min n ompMax) := by
  unfold getNumThreads setNumThreads inBetween
  simp only
  split <;> rename_i hs <;> split_ifs at hs ⊢ <;> omega

/-- After any history of `set_num_threads` calls `get_num_threads()` lies in `1 .. max`, and it is
determined by the last call alone. -/
theorem C44_history (ompMax : ℤ) (hist : List ℤ) (h : 1 ≤ ompMax) :
    let s := hist.foldl (setNumThreads ompMax) {}
    getNumThreads ompMax s = (match hist.getLast? with
      | none => ompMax
      | some n => max 1 (min n ompMax)) ∧
    1 ≤ getNumThreads ompMax s ∧ getNumThreads ompMax s ≤ ompMax := by
  intro s
  have key : getNumThreads ompMax s = (match hist.getLast? with
      | none => ompMax
      | some n => max 1 (min n ompMax)) := by
    rcases List.eq_nil_or_concat hist with hl | ⟨l, n, hl⟩
    · subst hl
      show getNumThreads ompMax {} = ompMax
      unfold getNumThreads
      simp only [ne_eq, not_true_eq_false, if_false]
      omega
    · have : s = setNumThreads ompMax (l.foldl (setNumThreads ompMax) {}) n := by
        simp [s, hl]
      rw [this, C44_set_get _ _ _ h, hl]
      simp
  refine ⟨key, ?_⟩
  rw [key]
  split <;> omega

/-- `ideal_num_threads` returns at least one thread, never more than asked for, and (beyond one
thread) at most one thread per `threshold` numbers. -/
theorem C44_ideal (threads limit threshold : ℤ) (hl : 0 ≤ limit) :
    Ok (idealNumThreads threads limit threshold) (fun t =>
      1 ≤ t ∧ t ≤ max 1 threads ∧ (t = 1 ∨ t * max 1 threshold ≤ limit)) := by
  unfold idealNumThreads
  simp only
  rw [if_neg (by omega)]
  refine Ok.ok ?_
  have hq : Int.tdiv limit (max 1 threshold) = limit / max 1 threshold := Int.tdiv_eq_ediv_of_nonneg hl
  rw [hq]
  refine ⟨by omega, by omega, ?_⟩
  by_cases h1 : max 1 (min threads (limit / max 1 threshold)) = 1
  · exact Or.inl h1
  · right
    have h2 : max 1 (min threads (limit / max 1 threshold)) ≤ limit / max 1 threshold := by omega
    exact (Int.le_ediv_iff_mul_le (by omega)).1 h2

example : getNumThreads 8 ([3, -5, 100].foldl (setNumThreads 8) {}) = 8 ∧
    getNumThreads 8 ([3, -5].foldl (setNumThreads 8) {}) = 1 ∧
    idealNumThreads 8 3500 1000 = .ok 3 := by decide

/-! ## C46 fast_div -/

/-- `fast_div(x, y) = x / y` if both types have the same size. -/
theorem C46_same (szX x y : ℕ) (hy : 0 < y) : fastDivSame szX x y = .ok (x / y) :=
  fastDivSame_ok szX x y hy

/-- `fast_div(x, y) = x / y` if `Y` is smaller than `X`; built-in sizes are powers of two, so `Y` has at
most half the size of `X`.  The cast of `y` to `fastdiv_t` loses nothing. -/
theorem C46_wide (szX szY x y : ℕ) (hsz : 2 * szY ≤ szX) (hy : 0 < y) (hy2 : y < 2 ^ (8 * szY)) :
    fastDivWide szX x y = .ok (x / y) := by
  apply fastDivWide_ok _ _ _ hy
  refine lt_of_lt_of_le hy2 (Nat.pow_le_pow_right (by omega) ?_)
  unfold fastdivBits
  split_ifs <;> omega

/-- Non-vacuity: `uint128_t / int64_t` and `int64_t / uint32_t`. -/
example : fastDivWide 16 (10 ^ 30) (10 ^ 10) = .ok (10 ^ 20) ∧ fastDivWide 8 (10 ^ 9) 7 = .ok 142857142 ∧
    fastDivSame 8 (10 ^ 12) (10 ^ 10) = .ok 100 := by decide +kernel

/-! ## C48 powers of two -/

/-- `next_power_of_2(x)` is the least power of two `>= x`, if that fits 64 bits. -/
theorem C48_next (x : BitVec 64) (h : x.toNat ≤ 2 ^ 63) :
    (∃ k, (nextPowerOf2 x).toNat = 2 ^ k) ∧ x.toNat ≤ (nextPowerOf2 x).toNat ∧
      ∀ j, x.toNat ≤ 2 ^ j → (nextPowerOf2 x).toNat ≤ 2 ^ j := by
  by_cases h0 : x = 0#64
  · subst h0
    refine ⟨⟨0, by decide⟩, by decide, fun j _ => ?_⟩
    rw [show (nextPowerOf2 0#64).toNat = 1 by decide]
    exact Nat.one_le_two_pow
  · rw [nextPowerOf2_eq x h0 h]
    refine ⟨⟨_, rfl⟩, ?_, fun j hj => ?_⟩
    · have := Nat.lt_size_self (x.toNat - 1); omega
    · apply Nat.pow_le_pow_right (by omega)
      rw [Nat.size_le]
      have := Nat.one_le_two_pow (n := j)
      omega

/-- `prev_power_of_2(x)` is the greatest power of two `<= x`, for `x > 0`. -/
theorem C48_prev (x : BitVec 64) (h : 0 < x.toNat) :
    (∃ k, (prevPowerOf2 x).toNat = 2 ^ k) ∧ (prevPowerOf2 x).toNat ≤ x.toNat ∧
      ∀ j, 2 ^ j ≤ x.toNat → 2 ^ j ≤ (prevPowerOf2 x).toNat := by
  have h0 : x ≠ 0#64 := by rintro rfl; simp at h
  rw [prevPowerOf2_eq x h0]
  refine ⟨⟨_, rfl⟩, ?_, fun j hj => ?_⟩
  · rw [← Nat.lt_size]
    have := Nat.size_pos.2 h
    omega
  · apply Nat.pow_le_pow_right (by omega)
    rw [← Nat.lt_size] at hj
    omega

example : (nextPowerOf2 1000#64).toNat = 1024 ∧ (nextPowerOf2 1024#64).toNat = 1024 ∧
    (prevPowerOf2 1000#64).toNat = 512 ∧ (prevPowerOf2 1024#64).toNat = 1024 := by decide

/-! ## C49 popcount -/

/-- The portable `popcnt64` counts the one bits. -/
theorem C49_popcnt (x : BitVec 64) :
    (popcnt64 x).toNat = ((Finset.range 64).filter (fun i => x.getLsbD i = true)).card := by
  have key : ∀ (f : ℕ → ℕ) n, ((List.range n).map f).sum = ∑ i ∈ Finset.range n, f i := by
    intro f n
    induction n with
    | zero => rfl
    | succ n ih => rw [List.range_succ, Finset.sum_range_succ, ← ih]; simp
  rw [popcnt64_ok, bitSum, Finset.card_filter, key]
  apply Finset.sum_congr rfl
  intro i _
  show (x.toNat.testBit i).toNat = if x.toNat.testBit i = true then 1 else 0
  cases x.toNat.testBit i <;> rfl

example : (popcnt64 0xF0F0000000000001#64).toNat = 9 := by decide

/-! ## C50 prime lookup by bisection -/

/-- `pi_bsearch(primes, x)` is the number of primes `<= x` for a table of the first `n` primes with
`x` below the next prime (in particular for `x <= primes.back()`). -/
theorem C50_pi_bsearch (n x : ℕ) (v : Vec ℕ) (hs : v.size = n + 1)
    (h0 : v.get 0 = 0) (hv : ∀ i, 1 ≤ i → i ≤ n → v.get i = prm i) (hx : x < prm (n + 1)) :
    piBsearch v x = .ok (π x) := piBsearch_ok ⟨hs, h0, hv⟩ x hx

example : piBsearch ⟨#[0, 2, 3, 5, 7]⟩ 6 = .ok 3 ∧ piBsearch ⟨#[0, 2, 3, 5, 7]⟩ 7 = .ok 4 ∧
    piBsearch ⟨#[0]⟩ 1 = .ok 0 := by decide +kernel

end PS
