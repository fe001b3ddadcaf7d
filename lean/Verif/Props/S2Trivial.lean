import Verif.Proof.S2Trivial

/-!
# Properties C13 and C16: trivial leaves, partition of the special leaves
-/

namespace PS
open Finset LawfulRes

/-- `S2_trivial(x, y, z, c, threads)` with `z = x / y` is the sum of `p q` over the pairs of primes
`max(p_c, √z) < p < q ≤ y` with `p² q > x`, for every `y < 2^62` and `z < 2^63`
(an `int64_t`), every number of threads and every distribution of the intervals over the threads.  (For `c = 0` `nth_prime` returns 2, so that the pairs with `p = 2` are not
counted; there are none if `y < 3`.) -/
theorem C13_S2_trivial (sched : Scheduler) (hs : sched.Valid) (x y c : ℕ) (threads : ℤ) (hy : 1 ≤ y)
    (hy62 : y < 2 ^ 62) (hz : x / y < 2 ^ 63) (hc : 1 ≤ c ∨ y < 3) (hc9 : c ≤ 9) :
    Ok (S2Trivial.s2Trivial sched x y (x / y) c threads) (fun r => r.val = S2TrivialSum x y c) := by
  unfold S2Trivial.s2Trivial
  have hy63 : y < 2 ^ 63 := hy62.trans (by norm_num)
  refine Ok.bind (generatePrimeSums_ok (sums_width hy63)) (fun sums hsums => ?_)
  refine (S2Trivial.omp_ok (R := I256) hs threads hy hy62 hz hc9 hsums).mono (fun r hr => ?_)
  rw [S2Trivial.S2TrivialSum_max hc] at hr
  refine rep_val r _ hr (show I256.InRange _ from ?_)
  have h1 := S2Trivial.S2TrivialSum_le x y c
  have h2 : y * y * (y * y) ≤ 2 ^ 63 * 2 ^ 63 * (2 ^ 63 * 2 ^ 63) := by gcongr
  constructor <;> omega

/-- `c ≥ 10` raises an exception. -/
theorem C13_throws (sched : Scheduler) (x y z c : ℕ) (threads : ℤ) (hy63 : y < 2 ^ 63) (hc : 10 ≤ c) :
    S2Trivial.s2Trivial sched x y z c threads = .error (.thrown "nth_prime(n): n must be < 10") := by
  unfold S2Trivial.s2Trivial S2Trivial.omp
  obtain ⟨v, hv, _⟩ := generatePrimeSums_ok (sums_width hy63)
  obtain ⟨t, ht, _⟩ := PiTable.build_ok y
  have : ∃ k, idealNumThreads threads y (10 ^ 7) = .ok k := by
    unfold idealNumThreads
    dsimp only
    rw [if_neg (by norm_num)]
    exact ⟨_, rfl⟩
  obtain ⟨k, hk⟩ := this
  rw [hv, hk]
  simp only [ok_bind]
  rw [ht, nthPrime_throws hc]
  rfl

/-- Every special leaf is a trivial, an easy or a hard one and is counted once: the three contributions add
up to `S2`. -/
theorem C16_partition (x y c : ℕ) (hy : 1 ≤ y) (hyz : y ≤ x / y) :
    S2Sum x y c = S2HardSum x y c + S2EasySum x y c + S2TrivialSum x y c := S2Sum_split hy hyz

open scoped Classical in
/-- The three classes as sets: a special leaf `(b, m)` is either hard, or `(p_b, m)` is an easy pair, or it is
a trivial pair, and only one of these. -/
theorem C16_exactly_one (x y c b m : ℕ) (hy : 1 ≤ y) (hyz : y ≤ x / y) (h : (b, m) ∈ specialLeaves y c) :
    ((b, m) ∈ hardLeaves x y c ∧ (prm b, m) ∉ easyPairs x y c ∧ (prm b, m) ∉ trivialPairs x y c) ∨
    ((b, m) ∉ hardLeaves x y c ∧ (prm b, m) ∈ easyPairs x y c ∧ (prm b, m) ∉ trivialPairs x y c) ∨
    ((b, m) ∉ hardLeaves x y c ∧ (prm b, m) ∉ easyPairs x y c ∧ (prm b, m) ∈ trivialPairs x y c) := by
  have hh : (b, m) ∈ hardLeaves x y c ↔ (prm b * prm b ≤ y ∨ m * prm b ≤ x / y) := by
    unfold hardLeaves
    simp only [Finset.mem_filter, h, true_and]
  by_cases hc : prm b * prm b ≤ y ∨ m * prm b ≤ x / y
  · left
    refine ⟨hh.2 hc, ?_, ?_⟩
    · unfold easyPairs
      simp only [Finset.mem_filter, not_and]
      intro _ _ _ _ _ h1 h2
      rw [Nat.mul_comm] at hc
      rw [Nat.mul_comm m] at hc
      omega
    · unfold trivialPairs
      simp only [Finset.mem_filter, Finset.mem_product, Finset.mem_Icc, not_and]
      intro h0 _ _ h1 _ h2 h3
      exact leaves_disjoint hy hyz h1 h0.2.2 h3 hc
  · right
    have hn : (b, m) ∉ hardLeaves x y c := fun h => hc (hh.1 h)
    push Not at hc
    have hl := leaf_prime h hc.1
    have hs := h
    unfold specialLeaves at hs
    simp only [Finset.mem_filter, Finset.mem_product, Finset.mem_Icc] at hs
    have hb : prm b ≤ y := (prm_le_iff_le_pi (by omega)).2 hs.1.1.2
    have h0 := prm_pos b
    have hpi : c < Nat.primeCounting (prm b) := by rw [pi_prm (by omega)]; omega
    by_cases ht : prm b * prm b * m ≤ x
    · left
      refine ⟨hn, ?_, ?_⟩
      · unfold easyPairs
        simp only [Finset.mem_filter, Finset.mem_product, Finset.mem_Icc]
        exact ⟨⟨⟨h0, hb⟩, hl.1.one_lt.le, hl.2.2⟩, prm_prime b, hl.1, hl.2.1, hpi, hc.1,
          by rw [Nat.mul_comm]; exact hc.2, ht⟩
      · unfold trivialPairs
        simp only [Finset.mem_filter]
        rintro ⟨_, _, _, _, _, _, h1⟩
        omega
    · right
      push Not at ht
      refine ⟨hn, ?_, ?_⟩
      · unfold easyPairs
        simp only [Finset.mem_filter]
        rintro ⟨_, _, _, _, _, _, _, h1⟩
        omega
      · unfold trivialPairs
        simp only [Finset.mem_filter, Finset.mem_product, Finset.mem_Icc]
        exact ⟨⟨⟨h0, hb⟩, hl.1.one_lt.le, hl.2.2⟩, prm_prime b, hl.1, hl.2.1, hpi,
          (trivial_facts hy hyz hl.2.1 hl.2.2 ht).1, ht⟩

open scoped Classical in
/-- Conversely every easy or trivial pair is a special leaf. -/
theorem C16_only_leaves (x y c p q : ℕ) (hy : 1 ≤ y) (hyz : y ≤ x / y)
    (h : (p, q) ∈ easyPairs x y c ∨ (p, q) ∈ trivialPairs x y c) :
    (Nat.primeCounting p, q) ∈ specialLeaves y c := by
  rcases h with h | h
  · unfold easyPairs at h
    simp only [Finset.mem_filter, Finset.mem_product, Finset.mem_Icc] at h
    obtain ⟨⟨⟨_, _⟩, _, h1⟩, hp, hq, h2, h3, h4, h5, h6⟩ := h
    exact mem_specialLeaves_prime hp hq h2 h1 (by omega) h3
  · unfold trivialPairs at h
    simp only [Finset.mem_filter, Finset.mem_product, Finset.mem_Icc] at h
    obtain ⟨⟨⟨_, _⟩, _, h1⟩, hp, hq, h2, h3, h4, h5⟩ := h
    have hf := trivial_facts hy hyz h2 h1 h5
    exact mem_specialLeaves_prime hp hq h2 h1 (by omega) h3

/-- Non-vacuity: for `x = 1000`, `y = 20`, `c = 1` the pair `(11, 13)` is trivial, `(5, 11)` easy and the leaf
`(2, 7)` (`p = 3`) hard. -/
example : (11, 13) ∈ trivialPairs 1000 20 1 := by
  unfold trivialPairs
  simp only [Finset.mem_filter, Finset.mem_product, Finset.mem_Icc]
  decide +kernel
example : (5, 11) ∈ easyPairs 1000 20 1 := by
  unfold easyPairs
  simp only [Finset.mem_filter, Finset.mem_product, Finset.mem_Icc]
  decide +kernel
example : (2, 7) ∈ hardLeaves 1000 20 1 := by
  unfold hardLeaves
  simp only [Finset.mem_filter, prm_2]
  refine ⟨?_, by norm_num⟩
  have := mem_specialLeaves_prime (y := 20) (c := 1) (p := 3) (q := 7) (by norm_num) (by norm_num) (by norm_num)
    (by norm_num) (by norm_num) (by decide +kernel)
  rwa [show Nat.primeCounting 3 = 2 by decide +kernel] at this
example : Ok (S2Trivial.s2Trivial Scheduler.seq (10 ^ 30) (2 * 10 ^ 12) (10 ^ 30 / (2 * 10 ^ 12)) 6 8)
    (fun r => r.val = S2TrivialSum (10 ^ 30) (2 * 10 ^ 12) 6) :=
  C13_S2_trivial _ Scheduler.seq_valid _ _ _ _ (by norm_num) (by norm_num) (by norm_num)
    (Or.inl (by norm_num)) (by norm_num)

end PS
