import Mathlib.Data.Nat.Prime.Basic
import Mathlib.Data.Nat.Sqrt
import Mathlib.Tactic.NormNum

/-!
# Some primes near `2^31` and `2^32`

The trial divisions are evaluated by the kernel.
-/

namespace PS

/-- No number in `[a, a + 2^k)` divides `p`. -/
def noDiv (p : ℕ) : ℕ → ℕ → Bool
  | 0, a => !(Nat.beq (p % a) 0)
  | k + 1, a => noDiv p k a && noDiv p k (a + 2 ^ k)

theorem noDiv_spec {p k a : ℕ} (h : noDiv p k a = true) : ∀ d, a ≤ d → d < a + 2 ^ k → ¬ d ∣ p := by
  induction k generalizing a with
  | zero =>
    intro d h1 h2 h3
    obtain rfl : d = a := by omega
    rw [noDiv, Nat.mod_eq_zero_of_dvd h3] at h
    simp at h
  | succ k ih =>
    rw [noDiv, Bool.and_eq_true] at h
    intro d h1 h2
    rcases Nat.lt_or_ge d (a + 2 ^ k) with hd | hd
    · exact ih h.1 d h1 hd
    · exact ih h.2 d hd (by rw [pow_succ] at h2; omega)

theorem prime_of_noDiv {p : ℕ} (h2 : 2 ≤ p) (hp : p < 65536 ^ 2) (h : noDiv p 16 2 = true) : p.Prime := by
  rw [Nat.prime_def_le_sqrt]
  refine ⟨h2, fun m h1 h3 => noDiv_spec h m h1 ?_⟩
  have : Nat.sqrt p < 65536 := Nat.sqrt_lt'.2 hp
  omega

/-- The first prime above `2^31`. -/
theorem prime_2147483659 : Nat.Prime 2147483659 := prime_of_noDiv (by norm_num) (by norm_num) (by decide +kernel)

theorem prime_4294967279 : Nat.Prime 4294967279 := prime_of_noDiv (by norm_num) (by norm_num) (by decide +kernel)

/-- The last prime below `2^32`. -/
theorem prime_4294967291 : Nat.Prime 4294967291 := prime_of_noDiv (by norm_num) (by norm_num) (by decide +kernel)

end PS
