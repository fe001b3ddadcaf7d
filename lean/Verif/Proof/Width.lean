import Verif.Model.Width
import Verif.Proof.PrimeSieve

namespace PS
local notation "π" => Nat.primeCounting

theorem fit_ok {b n : ℕ} (h : n < 2 ^ b) : fit b n = .ok n := if_pos h

theorem fit_error {b n : ℕ} (h : 2 ^ b ≤ n) : fit b n = .error .overflow := if_neg (by omega)

theorem fitI_ok {b : ℕ} {z : ℤ} (h1 : -2 ^ b ≤ z) (h2 : z < 2 ^ b) : fitI b z = .ok z := if_pos ⟨h1, h2⟩

theorem fitVec_ok {b : ℕ} {v : Vec ℕ} (h : ∀ i < v.size, v.get i < 2 ^ b) : fitVec b v = .ok v := if_pos h

theorem fitVec_error {b i : ℕ} {v : Vec ℕ} (hi : i < v.size) (h : 2 ^ b ≤ v.get i) :
    fitVec b v = .error .overflow := if_neg (fun hc => by have := hc i hi; omega)

theorem PrimeTable.fit {v : Vec ℕ} {n b : ℕ} (h : PrimeTable v n) (hb : prm n < 2 ^ b) :
    fitVec b v = .ok v := by
  refine fitVec_ok (fun i hi => ?_)
  rw [h.1] at hi
  rcases Nat.eq_zero_or_pos i with h0 | h0
  · subst h0; rw [h.2.1]; exact Nat.two_pow_pos b
  · rw [h.2.2 i h0 (by omega)]
    exact lt_of_le_of_lt (prm_le_prm (by omega)) hb

/-- The primes up to `max` fit a type that holds `max`. -/
theorem generatePrimesT_eq {b max : ℕ} (h : max < 2 ^ b) : generatePrimesT b max = .ok (generatePrimes max) := by
  have ht := generatePrimes_table max
  refine fitVec_ok (fun i hi => ?_)
  rw [ht.1] at hi
  rcases Nat.eq_zero_or_pos i with h0 | h0
  · subst h0; rw [ht.2.1]; exact Nat.two_pow_pos b
  · rw [ht.2.2 i h0 (by omega)]
    exact lt_of_le_of_lt ((prm_le_iff_le_pi h0).2 (by omega)) h

theorem generateNPrimesT_eq {n : ℕ} (h : prm n < 2 ^ 31) : generateNPrimesT n = .ok (generateNPrimes n) :=
  (generateNPrimes_table n).fit h

/-- The primes up to `2^b - 1` survive the truncation. -/
theorem truncVec_prefix {b max n : ℕ} (hn : n ≤ π max) (hb : prm n < 2 ^ b) :
    PrimePrefix (truncVec b (generatePrimes max)) n := by
  have ht := generatePrimes_table max
  have hsz : (truncVec b (generatePrimes max)).size = π max + 1 := by unfold truncVec; rw [Vec.size_ofFn, ht.1]
  refine ⟨by omega, ?_, fun i h1 h2 => ?_⟩
  · unfold truncVec
    rw [Vec.get_ofFn _ _ _ (by rw [ht.1]; omega), ht.2.1, Nat.zero_mod]
  · unfold truncVec
    rw [Vec.get_ofFn _ _ _ (by rw [ht.1]; omega), ht.2.2 i h1 (by omega)]
    exact Nat.mod_eq_of_lt (lt_of_le_of_lt (prm_le_prm h2) hb)

/-- Conversely, a prime that does not fit is reported. -/
theorem generatePrimesT_error {b max p : ℕ} (hp : p.Prime) (h1 : 2 ^ b ≤ p) (h2 : p ≤ max) :
    generatePrimesT b max = .error .overflow := by
  have ht := generatePrimes_table max
  have h3 := pi_mono h2
  have h4 := pi_pos hp.two_le
  refine fitVec_error (i := π p) (by rw [ht.1]; omega) ?_
  rw [ht.2.2 _ (by omega) h3, prm_pi hp]
  exact h1

theorem generateNPrimesT_error {n : ℕ} (h1 : 1 ≤ n) (h : 2 ^ 31 ≤ prm n) : generateNPrimesT n = .error .overflow := by
  have ht := generateNPrimes_table n
  refine fitVec_error (i := n) (by rw [ht.1]; omega) ?_
  rw [ht.2.2 _ h1 le_rfl]
  exact h

end PS
