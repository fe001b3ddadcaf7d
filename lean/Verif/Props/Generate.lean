import Verif.Proof.Tables

/-!
# Properties C20–C25: lookup tables
-/

namespace PS
open Finset
local notation "π" => Nat.primeCounting

/-! ## C20 PhiTiny -/

/-- The table built by the constructor makes `phi_tiny(x, a)` the number of `n ≤ x` not divisible by any of
the first `a` primes, for every 64-bit `x` and every `a ≤ 6`. -/
theorem C20_phi_tiny (x a : ℕ) (hx : x < 2 ^ 63) (ha : a ≤ 6) :
    Ok (do let t ← PhiTiny.build; PhiTiny.phiTiny t x a) (fun r => r = phi x a) :=
  Ok.bind PhiTiny.build_ok (fun _ ht => Ok.of_eq (PhiTiny.phiTiny_ok ht ha x hx) rfl)

/-- `get_c(y)` is the number of primes `≤ y`, capped by 6. -/
theorem C20_get_c (y : ℕ) : PhiTiny.getC y = .ok (min 6 (π y)) := PhiTiny.getC_ok y

/-- A cell at the end of the second row and queries above it, run in the model. -/
example : PhiTiny.getC 12 = .ok 5 ∧ PhiTiny.getC 13 = .ok 6 ∧
    PhiTiny.phiTiny ⟨#[⟨⟨#[0]⟩⟩, ⟨⟨#[0, 1]⟩⟩]⟩ 11 1 = .ok 6 ∧
    PhiTiny.phiTiny ⟨#[⟨⟨#[0]⟩⟩, ⟨⟨#[0, 1]⟩⟩]⟩ (2 ^ 40 + 1) 1 = .ok (2 ^ 39 + 1) := by decide +kernel

/-! ## C21 PiTable -/

/-- `PiTable(max)[n] = π(n)` for every `n ≤ max`. -/
theorem C21_pi_table (max n : ℕ) (hn : n ≤ max) :
    Ok (do let t ← PiTable.build max; t.at n) (fun r => r = π n) := by
  refine Ok.bind (PiTable.build_ok max) (fun t ht => ?_)
  exact Ok.of_eq (PiTable.at_ok ht.2 (by rw [ht.1]; exact hn)) rfl

/-- The table has entries for exactly `0 .. max`. -/
theorem C21_size (max : ℕ) : Ok (PiTable.build max) (fun t => t.size = max + 1) :=
  (PiTable.build_ok max).mono (fun t ht => by unfold PiTable.size; rw [ht.1])

/-- `n` in the second word, on and next to a word boundary. -/
example : Ok (do let t ← PiTable.build 130; t.at 127) (fun r => r = 31) ∧
    Ok (do let t ← PiTable.build 130; t.at 63) (fun r => r = 18) ∧
    Ok (do let t ← PiTable.build 130; t.at 130) (fun r => r = 31) := by
  refine ⟨(C21_pi_table 130 127 (by omega)).mono (fun r h => ?_),
    (C21_pi_table 130 63 (by omega)).mono (fun r h => ?_),
    (C21_pi_table 130 130 (by omega)).mono (fun r h => ?_)⟩ <;> rw [h] <;> decide +kernel

/-! ## C22–C25 -/

/-- `generate_moebius(max)[n] = μ(n)`; the entries are of type `int32_t`. -/
theorem C22_moebius (max n : ℕ) (hm : max < 2 ^ 31) (h1 : 1 ≤ n) (hn : n ≤ max) :
    Ok (do let t ← generateMoebius max; t.rd n) (fun r => r = ArithmeticFunction.moebius n) := by
  refine Ok.bind (generateMoebius_ok hm) (fun t ht => ?_)
  exact Ok.of_eq (Vec.rd_ok (by rw [ht.1]; omega)) (ht.2 n h1 hn)

example : Ok (do let t ← generateMoebius 40; t.rd 30) (fun r => r = -1) ∧
    Ok (do let t ← generateMoebius 40; t.rd 12) (fun r => r = 0) ∧
    Ok (do let t ← generateMoebius 40; t.rd 35) (fun r => r = 1) := by
  refine ⟨⟨_, by decide +kernel, rfl⟩, ⟨_, by decide +kernel, rfl⟩, ⟨_, by decide +kernel, rfl⟩⟩

/-- `generate_lpf(max)[n]` is the least prime factor of `n`. -/
theorem C23_lpf (max n : ℕ) (hm : max < 2 ^ 31) (h1 : 2 ≤ n) (hn : n ≤ max) :
    Ok (do let t ← generateLpf max; t.rd n)
      (fun r => r.Prime ∧ r ∣ n ∧ ∀ q, q.Prime → q ∣ n → r ≤ q) := by
  refine Ok.bind (generateLpf_ok hm) (fun t ht => ?_)
  rw [Vec.rd_ok (by rw [ht.1]; omega), ht.2.1 n h1 hn]
  exact Ok.ok ⟨Nat.minFac_prime (by omega), Nat.minFac_dvd n,
    fun q hq hd => Nat.minFac_le_of_dvd hq.two_le hd⟩

/-- `generate_lpf(max)[1] = INT32_MAX`. -/
theorem C23_lpf_one (max : ℕ) (hm : max < 2 ^ 31) (h : 1 ≤ max) :
    Ok (do let t ← generateLpf max; t.rd 1) (fun r => r = 2147483647) := by
  refine Ok.bind (generateLpf_ok hm) (fun t ht => ?_)
  rw [Vec.rd_ok (by rw [ht.1]; omega), ht.2.2 h]
  exact Ok.ok (by norm_num)

example : Ok (do let t ← generateLpf 100; t.rd 91) (fun r => r = 7) := ⟨_, by decide +kernel, rfl⟩

/-- `generate_pi(max)[n] = π(n)`. -/
theorem C24_pi (max n : ℕ) (hm : π max < 2 ^ 31) (hn : n ≤ max) :
    Ok (do let t ← generatePi max; t.rd n) (fun r => r = π n) := by
  refine Ok.bind (generatePi_ok hm) (fun t ht => ?_)
  exact Ok.of_eq (Vec.rd_ok (by rw [ht.1]; omega)) (ht.2 n hn)

example : Ok (do let t ← generatePi 100; t.rd 97) (fun r => r = 25) := ⟨_, by decide +kernel, rfl⟩

/-- `generate_prime_sums(max)` has `π(max) + 1` entries and entry `i` is the sum of the first `i` primes. -/
theorem C25_prime_sums (tb max : ℕ) (htb : max * (max + 1) < 2 * 2 ^ tb) :
    Ok (generatePrimeSums tb max) (fun t => t.size = π max + 1 ∧
      ∀ i, i ≤ π max → t.rd i = .ok (∑ j ∈ Icc 1 i, prm j)) :=
  (generatePrimeSums_ok htb).mono (fun _ ht => ⟨ht.1, fun _ hi => SumTable.rd_le ht hi⟩)

/-- Hence entry `π(n)` is the sum of the primes `≤ n`. -/
theorem C25_prime_sums_pi (tb max n : ℕ) (htb : max * (max + 1) < 2 * 2 ^ tb) (hn : n ≤ max) :
    Ok (do let t ← generatePrimeSums tb max; t.rd (π n)) (fun r => r = primeSum n) :=
  Ok.bind (generatePrimeSums_ok htb) (fun _ ht => Ok.of_eq (SumTable.rd_pi ht hn) rfl)

/-- Every entry fits `int64_t` for `max < 2^32` (`2 · entry ≤ max (max + 1)`). -/
theorem C25_bound (tb max : ℕ) (htb : max * (max + 1) < 2 * 2 ^ tb) :
    Ok (generatePrimeSums tb max) (fun t => ∀ i, i ≤ π max → t.get i * 2 ≤ max * (max + 1)) := by
  refine (generatePrimeSums_ok htb).mono (fun t ht i hi => ?_)
  rw [ht.2 i hi]
  calc (∑ j ∈ Icc 1 i, prm j) * 2 ≤ (∑ j ∈ Icc 1 (π max), prm j) * 2 := by
        apply Nat.mul_le_mul_right
        exact Finset.sum_le_sum_of_subset (Finset.Icc_subset_Icc le_rfl hi)
    _ = primeSum max * 2 := by rw [← primeSum_eq_sum_prm]
    _ ≤ _ := primeSum_le max

example : Ok (do let t ← generatePrimeSums 63 20; t.rd 8) (fun r => r = 77) := by
  refine (Ok.bind (generatePrimeSums_ok (tb := 63) (max := 20) (by norm_num)) (fun t ht => ?_) : Ok _ (fun r => r = primeSum 20)).mono
    (fun r h => ?_)
  · have := SumTable.rd_pi ht (le_refl 20)
    rw [show π 20 = 8 by decide +kernel] at this
    exact Ok.of_eq this rfl
  · rw [h]; simp [primeSum]; decide +kernel

end PS
