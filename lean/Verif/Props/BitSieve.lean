import Verif.Proof.PreSieve

/-! # C28, C29: the bit sieve -/

namespace PS
open Finset BitSieve

theorem BitSieve.primes_prm {j : ℕ} (h1 : 1 ≤ j) (h2 : j < 10) : primes.get j = prm j := by
  have : j = 1 ∨ j = 2 ∨ j = 3 ∨ j = 4 ∨ j = 5 ∨ j = 6 ∨ j = 7 ∨ j = 8 ∨ j = 9 := by omega
  rcases this with rfl | rfl | rfl | rfl | rfl | rfl | rfl | rfl | rfl
  · rw [prm_one]; decide
  · rw [prm_2]; decide
  · rw [prm_3]; decide
  · rw [prm_4]; decide
  · rw [prm_5]; decide
  · rw [prm_6]; decide
  · rw [prm_7]; decide
  · rw [prm_8]; decide
  · rw [prm_9]; decide

/-- `pre_sieve(c, low)` with odd `low` and `c < 10`, whatever the previous content of the sieve: position
`2k` is set iff `low + 2k` is not divisible by any of the first `c` primes. -/
theorem C28_pre_sieve (b : BitSieve) (c low : ℕ) (hc : c < 10) (hodd : low % 2 = 1) (h64 : low + 46 ≤ 2 ^ 64) (hsize : b.size ≤ 128 * b.sieve.size) :
    Ok (preSieve b c low) (fun b' => b'.size = b.size ∧ b'.sieve.size = b.sieve.size ∧
      ∀ i, i < b.size → i % 2 = 0 → at_ b' i = .ok (decide (∀ j ∈ Finset.Icc 1 c, ¬ prm j ∣ low + i))) := by
  refine (preSieve_ok h64 hc hodd).mono (fun b' h => ⟨h.1, h.2.1, fun i hi he => ?_⟩)
  obtain ⟨k, rfl⟩ : ∃ k, i = 2 * k := ⟨i / 2, by omega⟩
  rw [at_ok (by rw [h.2.1]; omega)]
  congr 1
  rw [Bool.eq_iff_iff, h.2.2 k (by omega), decide_eq_true_iff]
  constructor
  · intro hp j hj
    rw [Finset.mem_Icc] at hj
    rcases Nat.lt_or_ge j 2 with h2 | h2
    · have : j = 1 := by omega
      subst this
      rw [prm_one]; omega
    · rw [← primes_prm hj.1 (by omega)]
      exact hp j h2 hj.2
  · intro hp j h1 h2
    rw [primes_prm (by omega) (by omega)]
    exact hp j (Finset.mem_Icc.2 ⟨by omega, h2⟩)

/-- The constructor satisfies the size hypothesis of `C28_pre_sieve`. -/
theorem C28_constructor (size : ℕ) : Ok (BitSieve.mk' size) (fun b => b.size = size ∧ b.size ≤ 128 * b.sieve.size) := by
  unfold BitSieve.mk'
  rw [ceilDiv_ok _ _ (by norm_num)]
  simp only [ok_bind]
  refine Ok.pure ⟨rfl, ?_⟩
  dsimp only
  rw [Vec.size_mk']
  omega

/-- Crossing off position `2k` removes it and nothing else. -/
theorem C28_unset (b : BitSieve) (k : ℕ) (h : 2 * k < b.size) (hsize : b.size ≤ 128 * b.sieve.size) :
    Ok (unset b (2 * k)) (fun b' => b'.size = b.size ∧ b'.sieve.size = b.sieve.size ∧
      ∀ j, 2 * j < b.size → ∃ v, at_ b (2 * j) = .ok v ∧ at_ b' (2 * j) = .ok (v && decide (j ≠ k))) := by
  refine (unset_ok (by omega)).mono (fun b' h' => ⟨h'.1, h'.2.1, fun j hj => ⟨bit b j, at_ok (by omega), ?_⟩⟩)
  rw [at_ok (by rw [h'.2.1]; omega), h'.2.2]

/-- The specification of `sum`: the sum of `low + i` over the set positions `start ≤ i ≤ stop`. -/
def BitSieve.sumSpec (b : BitSieve) (low start stop : ℕ) : ℕ :=
  ∑ i ∈ (Finset.Icc start stop).filter (fun i => i % 2 = 0 ∧ at_ b i = .ok true), (low + i)

theorem BitSieve.bsum_eq_spec {b : BitSieve} {low start stop : ℕ} (h : stop < 128 * b.sieve.size) :
    bsum b.sieve low ((start + 1) / 2) (stop / 2 + 1) = sumSpec b low start stop := by
  unfold bsum sumSpec
  rw [← Finset.sum_filter]
  refine Finset.sum_bij (fun k _ => 2 * k) ?_ ?_ ?_ ?_
  · intro k hk
    simp only [Finset.mem_filter, Finset.mem_Ico, Finset.mem_Icc] at hk ⊢
    refine ⟨by omega, by omega, ?_⟩
    rw [at_ok (by omega)]
    exact congrArg Except.ok hk.2
  · intro a _ a' _ he
    omega
  · intro i hi
    simp only [Finset.mem_filter, Finset.mem_Icc] at hi
    obtain ⟨k, rfl⟩ : ∃ k, i = 2 * k := ⟨i / 2, by omega⟩
    refine ⟨k, ?_, rfl⟩
    simp only [Finset.mem_filter, Finset.mem_Ico]
    refine ⟨by omega, ?_⟩
    have h2 := hi.2.2
    rw [at_ok (by omega)] at h2
    exact Except.ok.inj h2
  · intro k _; rfl

/-- `sum(low, start, stop)` for every sieve content, as long as the 64-bit word sums cannot overflow. -/
theorem C29_sum (b : BitSieve) (low start stop : ℕ) (hs : stop < 128 * b.sieve.size) (hlow : low + stop + 128 < 2 ^ 58) :
    sum b low start stop = .ok (sumSpec b low start stop) := by
  rw [sum_ok hs (by omega) (fits_of_lt (by omega)), bsum_eq_spec hs]

/-- The same up to `2^59` for a sieve from which the multiples of 3, 5 and 7 have been removed, as in `S2_hard`. -/
theorem C29_sum_sieved (b : BitSieve) (low start stop : ℕ) (hs : stop < 128 * b.sieve.size) (hlow : low + stop + 128 < 2 ^ 59)
    (hb : ∀ i, i ≤ stop → i % 2 = 0 → at_ b i = .ok true → ¬ 3 ∣ low + i ∧ ¬ 5 ∣ low + i ∧ ¬ 7 ∣ low + i) :
    sum b low start stop = .ok (sumSpec b low start stop) := by
  rw [sum_ok hs (by omega) (fits_of_rough (by omega) (fun k hk hv => ?_)), bsum_eq_spec hs]
  have := hb (2 * k) (by omega) (by omega) (by rw [at_ok (by omega)]; exact congrArg Except.ok hv)
  omega

/-- Of 64 consecutive odd numbers at least 17 are not divisible by 3, 5, 7, 11 or 13. -/
theorem window_ge (n : ℕ) : 17 ≤ ((range 64).filter (fun j => (n + 2 * j) % 3 ≠ 0 ∧ (n + 2 * j) % 5 ≠ 0 ∧ (n + 2 * j) % 7 ≠ 0 ∧ (n + 2 * j) % 11 ≠ 0 ∧ (n + 2 * j) % 13 ≠ 0)).card := by
  have h357 : ∀ r < 105, 28 ≤ ((range 64).filter (fun j => (r + 2 * j) % 3 ≠ 0 ∧ (r + 2 * j) % 5 ≠ 0 ∧ (r + 2 * j) % 7 ≠ 0)).card := by
    decide +kernel
  have h11 : ∀ r < 11, ((range 64).filter (fun j => (r + 2 * j) % 11 = 0)).card ≤ 6 := by decide +kernel
  have h13 : ∀ r < 13, ((range 64).filter (fun j => (r + 2 * j) % 13 = 0)).card ≤ 5 := by decide +kernel
  have a := h357 (n % 105) (Nat.mod_lt _ (by norm_num))
  have b := h11 (n % 11) (Nat.mod_lt _ (by norm_num))
  have c := h13 (n % 13) (Nat.mod_lt _ (by norm_num))
  have hsub : (range 64).filter (fun j => (n % 105 + 2 * j) % 3 ≠ 0 ∧ (n % 105 + 2 * j) % 5 ≠ 0 ∧ (n % 105 + 2 * j) % 7 ≠ 0) ⊆
      (range 64).filter (fun j => (n + 2 * j) % 3 ≠ 0 ∧ (n + 2 * j) % 5 ≠ 0 ∧ (n + 2 * j) % 7 ≠ 0 ∧ (n + 2 * j) % 11 ≠ 0 ∧ (n + 2 * j) % 13 ≠ 0) ∪
        ((range 64).filter (fun j => (n % 11 + 2 * j) % 11 = 0) ∪ (range 64).filter (fun j => (n % 13 + 2 * j) % 13 = 0)) := by
    intro j hj
    simp only [Finset.mem_union, Finset.mem_filter, Finset.mem_range] at hj ⊢
    obtain ⟨j1, j3, j5, j7⟩ := hj
    by_cases e1 : (n + 2 * j) % 11 = 0
    · exact Or.inr (Or.inl ⟨j1, by omega⟩)
    by_cases e2 : (n + 2 * j) % 13 = 0
    · exact Or.inr (Or.inr ⟨j1, by omega⟩)
    exact Or.inl ⟨j1, by omega, by omega, by omega, e1, e2⟩
  have d := (Finset.card_le_card hsub).trans ((Finset.card_union_le _ _).trans (Nat.add_le_add_left (Finset.card_union_le _ _) _))
  omega

/-- From `2^60` on the sum of every word is wrong, after sieving with up to six primes as in `S2_hard`: the sum
exceeds 64 bits. -/
theorem C29_wraps (b : BitSieve) (c low : ℕ) (hc : c ≤ 6) (hodd : low % 2 = 1) (h60 : 2 ^ 60 ≤ low) (h63 : low < 2 ^ 63) :
    Ok (preSieve b c low) (fun b' => ∀ w, w < b.sieve.size →
      ∃ s, sum b' low (128 * w) (128 * w + 126) = .ok s ∧ s + 2 ^ 64 ≤ sumSpec b' low (128 * w) (128 * w + 126)) := by
  refine (preSieve_ok (by omega) (by omega) hodd).mono (fun b' h w hw => ?_)
  obtain ⟨h1, h2, h3⟩ := h
  have hsp : 17 * 2 ^ 60 ≤ sumSpec b' low (128 * w) (128 * w + 126) := by
    rw [← bsum_eq_spec (by omega)]
    unfold bsum
    rw [← Finset.sum_filter]
    refine le_trans (Nat.mul_le_mul_right _ (window_ge (low + 128 * w))) ?_
    rw [← smul_eq_mul]
    refine le_trans (b := ((Ico ((128 * w + 1) / 2) ((128 * w + 126) / 2 + 1)).filter (fun k => vbit b'.sieve k = true)).card • 2 ^ 60) ?_
      (Finset.card_nsmul_le_sum _ _ _ (fun k hk => by omega))
    refine Nat.mul_le_mul_right _ (Finset.card_le_card_of_injOn (fun j => 64 * w + j) ?_ ?_)
    · intro j hj
      simp only [Finset.coe_filter, Finset.mem_range, Set.mem_ofPred_eq, Finset.mem_Ico] at hj ⊢
      refine ⟨by omega, (h3 (64 * w + j) (by omega)).2 (fun i hi1 hi2 => ?_)⟩
      have hi : i = 2 ∨ i = 3 ∨ i = 4 ∨ i = 5 ∨ i = 6 := by omega
      rw [Nat.dvd_iff_mod_eq_zero]
      rcases hi with rfl | rfl | rfl | rfl | rfl
      · show ¬ (low + 2 * (64 * w + j)) % 3 = 0
        omega
      · show ¬ (low + 2 * (64 * w + j)) % 5 = 0
        omega
      · show ¬ (low + 2 * (64 * w + j)) % 7 = 0
        omega
      · show ¬ (low + 2 * (64 * w + j)) % 11 = 0
        omega
      · show ¬ (low + 2 * (64 * w + j)) % 13 = 0
        omega
    · intro j _ j' _ he
      dsimp only at he
      omega
  refine ⟨_, sum_word (by omega), ?_⟩
  rw [← bsum_eq_spec (by omega), show (128 * w + 1) / 2 = 64 * w by omega, show (128 * w + 126) / 2 + 1 = 64 * w + 64 by omega] at hsp ⊢
  omega


/-- The six-argument form returns the same value as the three-argument form, given the sum of the
positions below `start` and the sum of the whole segment `[low, high)`. -/
theorem C29_sum6 (b : BitSieve) (low high start stop : ℕ) (hl : low ≤ high) (hst : stop < high - low)
    (hs : high - low ≤ 128 * b.sieve.size) (hlow : high + 128 < 2 ^ 58) (h0 : 1 ≤ start) :
    sum6 b start stop low high (sumSpec b low 0 (start - 1)) (sumSpec b low 0 (high - low - 1)) =
      .ok ((sumSpec b low start stop : ℕ) : ℤ) := by
  by_cases hc : start ≤ stop
  · rw [sum6_ok hst hs (by omega) (fits_of_lt (by omega)) hl, bsum_eq_spec (by omega)]
    · rw [← bsum_eq_spec (by omega)]
      congr 2
      omega
    · rw [← bsum_eq_spec (by omega)]
      congr 2
      omega
  · unfold sum6 sumSpec
    rw [if_pos (by omega), Finset.Icc_eq_empty (by omega)]
    rfl

/-- The same for `start = 0`, where nothing precedes. -/
theorem C29_sum6_zero (b : BitSieve) (low high stop : ℕ) (hl : low ≤ high) (hst : stop < high - low)
    (hs : high - low ≤ 128 * b.sieve.size) (hlow : high + 128 < 2 ^ 58) :
    sum6 b 0 stop low high 0 (sumSpec b low 0 (high - low - 1)) = .ok ((sumSpec b low 0 stop : ℕ) : ℤ) := by
  rw [sum6_ok hst hs (by omega) (fits_of_lt (by omega)) hl, bsum_eq_spec (by omega)]
  · simp [bsum]
  · rw [← bsum_eq_spec (by omega)]
    congr 2
    omega

/-- The bound on `low` is needed: the word sum of a full word at `low = 2^59` wraps around in `uint64_t`. -/
theorem C29_overflow : ∃ b : BitSieve, sum b (2 ^ 59 + 1) 0 126 ≠ .ok (∑ k ∈ range 64, (2 ^ 59 + 1 + 2 * k)) :=
  ⟨⟨Vec.mk' 1 (~~~ 0#64), 128⟩, by decide +kernel⟩

/-- A sieve of 300 numbers from 1001 on: the numbers up to 1021 not divisible by 2, 3, 5, 7 are 1003, 1007,
1009, 1013, 1019, 1021; 1007 is crossed off. -/
example : (do let b ← BitSieve.mk' 300
              let b ← preSieve b 4 1001
              let b ← unset b 6
              sum b 1001 0 20) = .ok (1003 + 1009 + 1013 + 1019 + 1021) := by decide +kernel

/-- Between `2^58` and `2^59`: the sum of a word after sieving, near the largest value that fits. -/
example : (do let b ← BitSieve.mk' 128
              let b ← preSieve b 4 (2 ^ 59 - 2 ^ 20 + 1)
              sum b (2 ^ 59 - 2 ^ 20 + 1) 0 127).toOption.map (fun s => decide (2 ^ 63 ≤ s)) = some true := by decide +kernel

/-- Above `2^60`. -/
example : Ok (preSieve ⟨Vec.mk' 2 0#64, 256⟩ 6 (2 ^ 60 + 1)) (fun b' => ∃ s, sum b' (2 ^ 60 + 1) 128 254 = .ok s ∧
    s + 2 ^ 64 ≤ sumSpec b' (2 ^ 60 + 1) 128 254) :=
  (C29_wraps ⟨Vec.mk' 2 0#64, 256⟩ 6 (2 ^ 60 + 1) le_rfl (by norm_num) (by norm_num) (by norm_num)).mono (fun _ h => h 1 (by decide))

end PS
