import Verif.Model.Ieee
import Mathlib.Tactic.NormNum
import Mathlib.Algebra.Order.Field.Power
import Mathlib.Tactic.Ring
import Mathlib.Tactic.Linarith
import Mathlib.Tactic.Positivity
import Mathlib.Tactic.FieldSimp

/-!
# IEEE 754 rounding is monotone and keeps integers and powers of two
-/

namespace PS

theorem roundEven_int (n : ℤ) : roundEven n = n := by
  unfold roundEven
  rw [Int.floor_intCast, sub_self, if_pos (by norm_num)]

theorem roundEven_cases (q : ℚ) : roundEven q = ⌊q⌋ ∨ roundEven q = ⌊q⌋ + 1 := by
  unfold roundEven
  split_ifs <;> simp

theorem roundEven_le_of_le_int {q : ℚ} {n : ℤ} (h : q ≤ n) : roundEven q ≤ n := by
  rcases roundEven_cases q with h1 | h1
  · rw [h1]; exact_mod_cast (Int.floor_le q).trans h
  · by_cases hf : ⌊q⌋ < n
    · omega
    · have hq : q = n := by
        refine le_antisymm h ?_
        have : n ≤ ⌊q⌋ := by omega
        exact Int.le_floor.1 this
      rw [hq, roundEven_int]

theorem le_roundEven_of_int_le {q : ℚ} {n : ℤ} (h : (n : ℚ) ≤ q) : n ≤ roundEven q := by
  have := Int.le_floor.2 h
  rcases roundEven_cases q with h1 | h1 <;> omega

theorem roundEven_mono {q r : ℚ} (h : q ≤ r) : roundEven q ≤ roundEven r := by
  have hf := Int.floor_mono h
  rcases hf.lt_or_eq with hlt | heq
  · rcases roundEven_cases q with h1 | h1 <;> rcases roundEven_cases r with h2 | h2 <;> omega
  · unfold roundEven
    rw [heq]
    split_ifs <;> first | omega | (exfalso; linarith)

theorem roundEven_neg (q : ℚ) : roundEven (-q) = -roundEven q := by
  by_cases hi : (⌊q⌋ : ℚ) = q
  · rw [← hi, ← Int.cast_neg, roundEven_int, roundEven_int]
  · have h1 := Int.floor_le q
    have h2 := Int.lt_floor_add_one q
    have hlt : (⌊q⌋ : ℚ) < q := lt_of_le_of_ne h1 hi
    have hf : ⌊-q⌋ = -⌊q⌋ - 1 := by
      rw [Int.floor_eq_iff]; push_cast; constructor <;> linarith
    unfold roundEven
    rw [hf]
    push_cast
    by_cases ha : q - ⌊q⌋ < 1 / 2
    · rw [if_pos ha, if_neg (by linarith), if_pos (by linarith)]; ring
    · by_cases hb : 1 / 2 < q - ⌊q⌋
      · rw [if_neg ha, if_pos hb, if_pos (by linarith)]; ring
      · rw [if_neg ha, if_neg hb, if_neg (by linarith), if_neg (by linarith)]
        have hpar : Even (-⌊q⌋ - 1) ↔ ¬ Even ⌊q⌋ := by
          rw [Int.even_sub_one, even_neg]
        by_cases he : Even ⌊q⌋
        · rw [if_neg (by rw [hpar]; simpa using he), if_pos he]; ring
        · rw [if_pos (hpar.2 he), if_neg he]; ring

theorem ulpExp_neg (q : ℚ) : ulpExp (-q) = ulpExp q := by unfold ulpExp; rw [abs_neg]

theorem binary64_neg (q : ℚ) : binary64 (-q) = -binary64 q := by
  unfold binary64
  rw [ulpExp_neg, neg_div, roundEven_neg]
  push_cast; ring

theorem binary64_nonneg {q : ℚ} (h : 0 ≤ q) : 0 ≤ binary64 q := by
  unfold binary64
  have hp : (0 : ℚ) < 2 ^ ulpExp q := by positivity
  have : (0 : ℤ) ≤ roundEven (q / 2 ^ ulpExp q) := le_roundEven_of_int_le (by push_cast; positivity)
  have : (0 : ℚ) ≤ roundEven (q / 2 ^ ulpExp q) := by exact_mod_cast this
  positivity

theorem binary64_mono_nonneg {q r : ℚ} (h0 : 0 ≤ q) (h : q ≤ r) : binary64 q ≤ binary64 r := by
  rcases h0.lt_or_eq with hq | hq
  swap
  · rw [← hq]
    have : binary64 0 = 0 := by
      unfold binary64; rw [zero_div, show roundEven 0 = 0 from by exact_mod_cast roundEven_int 0]; simp
    rw [this]; exact binary64_nonneg (h0.trans h)
  have hr : 0 < r := lt_of_lt_of_le hq h
  have hlog : Int.log 2 |q| ≤ Int.log 2 |r| := by
    rw [abs_of_pos hq, abs_of_pos hr]; exact Int.log_mono_right hq h
  have he : ulpExp q ≤ ulpExp r := max_le_max (by omega) le_rfl
  have hpq : (0 : ℚ) < 2 ^ ulpExp q := by positivity
  have hpr : (0 : ℚ) < 2 ^ ulpExp r := by positivity
  rcases he.lt_or_eq with hlt | heq
  · have hre : ulpExp r = Int.log 2 |r| - 52 := by
      unfold ulpExp at hlt ⊢
      omega
    have h2 : (2 : ℚ) ^ (ulpExp r + 52) ≤ r := by
      rw [hre, show Int.log 2 |r| - 52 + 52 = Int.log 2 |r| by ring, abs_of_pos hr]
      exact_mod_cast Int.zpow_log_le_self (b := 2) (by norm_num) hr
    have h3 : q ≤ (2 : ℚ) ^ (ulpExp q + 53) := by
      have h4 : q < (2 : ℚ) ^ (Int.log 2 q + 1) := by exact_mod_cast Int.lt_zpow_succ_log_self (b := 2) (by norm_num) q
      refine h4.le.trans (zpow_le_zpow_right₀ (by norm_num) ?_)
      have : Int.log 2 |q| - 52 ≤ ulpExp q := le_max_left _ _
      rw [abs_of_pos hq] at this
      omega
    have a1 : roundEven (q / 2 ^ ulpExp q) ≤ 2 ^ 53 := by
      refine roundEven_le_of_le_int ?_
      rw [div_le_iff₀ hpq]
      refine h3.trans (le_of_eq ?_)
      rw [zpow_add₀ (by norm_num)]
      push_cast; ring
    have a2 : 2 ^ 52 ≤ roundEven (r / 2 ^ ulpExp r) := by
      refine le_roundEven_of_int_le ?_
      rw [le_div_iff₀ hpr]
      refine le_trans (le_of_eq ?_) h2
      rw [zpow_add₀ (by norm_num)]
      push_cast; norm_num; ring
    have b1 : ((roundEven (q / 2 ^ ulpExp q) : ℤ) : ℚ) ≤ 2 ^ 53 := by exact_mod_cast a1
    have b2 : (2 : ℚ) ^ 52 ≤ ((roundEven (r / 2 ^ ulpExp r) : ℤ) : ℚ) := by exact_mod_cast a2
    have b3 : (2 : ℚ) * 2 ^ ulpExp q ≤ 2 ^ ulpExp r := by
      rw [show (2 : ℚ) * 2 ^ ulpExp q = 2 ^ (ulpExp q + 1) by rw [zpow_add₀ (by norm_num)]; norm_num; ring]
      exact zpow_le_zpow_right₀ (by norm_num) (by omega)
    unfold binary64
    calc ((roundEven (q / 2 ^ ulpExp q) : ℤ) : ℚ) * 2 ^ ulpExp q ≤ 2 ^ 53 * 2 ^ ulpExp q :=
          mul_le_mul_of_nonneg_right b1 hpq.le
      _ = 2 ^ 52 * (2 * 2 ^ ulpExp q) := by ring
      _ ≤ 2 ^ 52 * 2 ^ ulpExp r := mul_le_mul_of_nonneg_left b3 (by norm_num)
      _ ≤ _ := mul_le_mul_of_nonneg_right b2 hpr.le
  · unfold binary64
    rw [heq]
    refine mul_le_mul_of_nonneg_right ?_ hpr.le
    exact_mod_cast roundEven_mono (div_le_div_of_nonneg_right h hpr.le)

theorem binary64_mono : Monotone binary64 := by
  intro q r h
  rcases le_total 0 q with hq | hq
  · exact binary64_mono_nonneg hq h
  · rcases le_total 0 r with hr | hr
    · have h1 := binary64_nonneg (neg_nonneg.2 hq)
      rw [binary64_neg] at h1
      have h2 := binary64_nonneg hr
      linarith
    · have := binary64_mono_nonneg (neg_nonneg.2 hr) (neg_le_neg h)
      rw [binary64_neg, binary64_neg] at this
      linarith

theorem binary64_nat (n : ℕ) (hn : n ≤ 2 ^ 53) : binary64 n = n := by
  rcases Nat.eq_zero_or_pos n with rfl | h0
  · unfold binary64; rw [Nat.cast_zero, zero_div, show roundEven 0 = 0 from by exact_mod_cast roundEven_int 0]; simp
  have key : ∃ z : ℤ, (n : ℚ) / 2 ^ ulpExp (n : ℚ) = z := by
    have hl : Int.log 2 |(n : ℚ)| = Nat.log 2 n := by
      rw [abs_of_nonneg (by positivity)]; exact Int.log_natCast 2 n
    unfold ulpExp
    rw [hl]
    by_cases h53 : n = 2 ^ 53
    · subst h53
      refine ⟨2 ^ 52, ?_⟩
      have : Nat.log 2 (2 ^ 53) = 53 := Nat.log_pow (by norm_num) 53
      rw [this, show max ((53 : ℕ) - 52 : ℤ) (-1074) = 1 by norm_num]
      norm_num
    · have : Nat.log 2 n < 53 := Nat.log_lt_of_lt_pow (by omega) (by omega)
      obtain ⟨k, hk⟩ : ∃ k : ℕ, max ((Nat.log 2 n : ℤ) - 52) (-1074) = -(k : ℤ) :=
        ⟨(-(max ((Nat.log 2 n : ℤ) - 52) (-1074))).toNat, by omega⟩
      refine ⟨n * 2 ^ k, ?_⟩
      rw [hk, zpow_neg, div_inv_eq_mul, zpow_natCast]
      push_cast; ring
  obtain ⟨z, hz⟩ := key
  unfold binary64
  rw [hz, roundEven_int, ← hz]
  field_simp

theorem roundEven_ge (q : ℚ) : q - 1 / 2 ≤ roundEven q := by
  have h2 := Int.lt_floor_add_one q
  unfold roundEven
  split_ifs <;> push_cast <;> linarith

theorem roundEven_le (q : ℚ) : roundEven q ≤ q + 1 / 2 := by
  have h2 := Int.floor_le q
  unfold roundEven
  split_ifs <;> push_cast <;> linarith

/-- The relative error of rounding down a normal number. -/
theorem binary64_ge {q : ℚ} (h : 1 ≤ q) : q * (1 - 1 / 2 ^ 53) ≤ binary64 q := by
  have hq : 0 < q := by linarith
  have hp : (0 : ℚ) < 2 ^ ulpExp q := by positivity
  have hl : 0 ≤ Int.log 2 |q| := by
    rw [abs_of_pos hq]
    have := Int.log_mono_right (b := 2) (r₁ := (1 : ℚ)) (by norm_num) h
    rwa [Int.log_one_right] at this
  have he : ulpExp q = Int.log 2 |q| - 52 := by unfold ulpExp; omega
  have h2 : (2 : ℚ) ^ ulpExp q * 2 ^ 52 ≤ q := by
    rw [he, zpow_sub₀ (by norm_num), abs_of_pos hq]
    have : (2 : ℚ) ^ Int.log 2 q ≤ q := by exact_mod_cast Int.zpow_log_le_self (b := 2) (by norm_num) hq
    have e52 : (2 : ℚ) ^ (52 : ℤ) = 2 ^ 52 := by norm_cast
    rw [e52, div_mul_cancel₀ _ (by norm_num)]
    exact this
  have h3 := roundEven_ge (q / 2 ^ ulpExp q)
  have h4 : (q / 2 ^ ulpExp q - 1 / 2) * 2 ^ ulpExp q ≤ binary64 q := mul_le_mul_of_nonneg_right h3 hp.le
  have h5 : (q / 2 ^ ulpExp q - 1 / 2) * 2 ^ ulpExp q = q - 2 ^ ulpExp q / 2 := by
    field_simp
  rw [h5] at h4
  norm_num at h2 ⊢
  linarith

/-- The relative error of rounding up a normal number. -/
theorem binary64_le {q : ℚ} (h : 1 ≤ q) : binary64 q ≤ q * (1 + 1 / 2 ^ 53) := by
  have hq : 0 < q := by linarith
  have hp : (0 : ℚ) < 2 ^ ulpExp q := by positivity
  have hl : 0 ≤ Int.log 2 |q| := by
    rw [abs_of_pos hq]
    have := Int.log_mono_right (b := 2) (r₁ := (1 : ℚ)) (by norm_num) h
    rwa [Int.log_one_right] at this
  have he : ulpExp q = Int.log 2 |q| - 52 := by unfold ulpExp; omega
  have h2 : (2 : ℚ) ^ ulpExp q * 2 ^ 52 ≤ q := by
    rw [he, zpow_sub₀ (by norm_num), abs_of_pos hq]
    have : (2 : ℚ) ^ Int.log 2 q ≤ q := by exact_mod_cast Int.zpow_log_le_self (b := 2) (by norm_num) hq
    have e52 : (2 : ℚ) ^ (52 : ℤ) = 2 ^ 52 := by norm_cast
    rw [e52, div_mul_cancel₀ _ (by norm_num)]
    exact this
  have h3 := roundEven_le (q / 2 ^ ulpExp q)
  have h4 : binary64 q ≤ (q / 2 ^ ulpExp q + 1 / 2) * 2 ^ ulpExp q := mul_le_mul_of_nonneg_right h3 hp.le
  have h5 : (q / 2 ^ ulpExp q + 1 / 2) * 2 ^ ulpExp q = q + 2 ^ ulpExp q / 2 := by
    field_simp
  rw [h5] at h4
  norm_num at h2 ⊢
  linarith

/-- The absolute error of rounding a normal number. -/
theorem binary64_near {q : ℚ} (h : 1 / 2 ^ 1000 ≤ q) : q * (15 / 16) ≤ binary64 q ∧ binary64 q ≤ q * (17 / 16) := by
  have hq : 0 < q := lt_of_lt_of_le (by positivity) h
  have hp : (0 : ℚ) < 2 ^ ulpExp q := by positivity
  have hl : -1000 ≤ Int.log 2 |q| := by
    rw [abs_of_pos hq, ← Int.zpow_le_iff_le_log (by norm_num) hq]
    rw [zpow_neg]
    refine le_trans (le_of_eq ?_) h
    rw [one_div]
    norm_cast
  have he : ulpExp q = Int.log 2 |q| - 52 := by unfold ulpExp; omega
  have h2 : (2 : ℚ) ^ ulpExp q * 2 ^ 52 ≤ q := by
    rw [he, zpow_sub₀ (by norm_num), abs_of_pos hq]
    have : (2 : ℚ) ^ Int.log 2 q ≤ q := by exact_mod_cast Int.zpow_log_le_self (b := 2) (by norm_num) hq
    have e52 : (2 : ℚ) ^ (52 : ℤ) = 2 ^ 52 := by norm_cast
    rw [e52, div_mul_cancel₀ _ (by norm_num)]
    exact this
  have h3 := roundEven_ge (q / 2 ^ ulpExp q)
  have h3' := roundEven_le (q / 2 ^ ulpExp q)
  have h4 : (q / 2 ^ ulpExp q - 1 / 2) * 2 ^ ulpExp q ≤ binary64 q := mul_le_mul_of_nonneg_right h3 hp.le
  have h4' : binary64 q ≤ (q / 2 ^ ulpExp q + 1 / 2) * 2 ^ ulpExp q := mul_le_mul_of_nonneg_right h3' hp.le
  have h5 : (q / 2 ^ ulpExp q - 1 / 2) * 2 ^ ulpExp q = q - 2 ^ ulpExp q / 2 := by
    field_simp
  have h5' : (q / 2 ^ ulpExp q + 1 / 2) * 2 ^ ulpExp q = q + 2 ^ ulpExp q / 2 := by
    field_simp
  rw [h5] at h4
  rw [h5'] at h4'
  norm_num at h2
  constructor <;> linarith

theorem log_two_mul {q : ℚ} (h : 0 < q) : Int.log 2 (2 * q) = Int.log 2 q + 1 := by
  have h1 : (2 : ℚ) ^ Int.log 2 q ≤ q := by exact_mod_cast Int.zpow_log_le_self (b := 2) (by norm_num) h
  have h2 : q < (2 : ℚ) ^ (Int.log 2 q + 1) := by exact_mod_cast Int.lt_zpow_succ_log_self (b := 2) (by norm_num) q
  have a1 : Int.log 2 q + 1 ≤ Int.log 2 (2 * q) := by
    rw [← Int.zpow_le_iff_le_log (by norm_num) (by linarith), zpow_add₀ (by norm_num)]
    push_cast
    linarith
  have a2 : Int.log 2 (2 * q) < Int.log 2 q + 1 + 1 := by
    rw [← Int.lt_zpow_iff_log_lt (by norm_num) (by linarith), zpow_add₀ (by norm_num)]
    push_cast
    linarith
  omega

/-- Doubling is exact. -/
theorem binary64_two_mul {q : ℚ} (h : 1 ≤ q) : binary64 (2 * q) = 2 * binary64 q := by
  have hq : 0 < q := by linarith
  have hl : 0 ≤ Int.log 2 q := by
    have := Int.log_mono_right (b := 2) (r₁ := (1 : ℚ)) (by norm_num) h
    rwa [Int.log_one_right] at this
  have he : ulpExp (2 * q) = ulpExp q + 1 := by
    unfold ulpExp
    rw [abs_of_pos hq, abs_of_pos (by linarith), log_two_mul hq]
    omega
  unfold binary64
  rw [he, zpow_add₀ (by norm_num), zpow_one, mul_comm (2 : ℚ) q, mul_div_mul_right _ _ (by norm_num)]
  ring

/-- Powers of two are not changed. -/
theorem binary64_zpow {k : ℤ} (hk : -1074 ≤ k) : binary64 (2 ^ k) = 2 ^ k := by
  have hl : Int.log 2 |(2 : ℚ) ^ k| = k := by
    rw [abs_of_pos (by positivity)]; exact_mod_cast Int.log_zpow (R := ℚ) (b := 2) (by norm_num) k
  obtain ⟨m, hm⟩ : ∃ m : ℕ, k - ulpExp (2 ^ k) = m := ⟨(k - ulpExp (2 ^ k)).toNat, by unfold ulpExp; omega⟩
  have : (2 : ℚ) ^ k / 2 ^ ulpExp (2 ^ k) = ((2 ^ m : ℕ) : ℤ) := by
    rw [← zpow_sub₀ (by norm_num), hm]; norm_cast
  unfold binary64
  rw [this, roundEven_int, ← this]
  field_simp

end PS
