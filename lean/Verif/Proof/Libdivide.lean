import Verif.Model.Libdivide
import Mathlib.Data.Nat.Log
import Mathlib.Data.Nat.Bitwise
import Mathlib.Tactic.Ring
import Mathlib.Tactic.NormNum
import Mathlib.Tactic.Linarith

namespace PS.Libdivide

theorem and_pred_ne_zero {d k : ℕ} (h1 : 2 ^ k < d) (h2 : d < 2 ^ (k + 1)) : d &&& (d - 1) ≠ 0 := by
  intro h
  have t1 : d.testBit k = true := by
    rw [Nat.testBit_eq_decide_div_mod_eq, decide_eq_true_eq]
    have : d / 2 ^ k = 1 := by
      apply Nat.div_eq_of_lt_le <;> rw [pow_succ] at * <;> omega
    rw [this]
  have t2 : (d - 1).testBit k = true := by
    rw [Nat.testBit_eq_decide_div_mod_eq, decide_eq_true_eq]
    have : (d - 1) / 2 ^ k = 1 := by
      apply Nat.div_eq_of_lt_le <;> rw [pow_succ] at * <;> omega
    rw [this]
  have := congrArg (fun n => n.testBit k) h
  simp [Nat.testBit_and, t1, t2] at this

/-- The heart: multiplication by the rounded up reciprocal gives the exact quotient. -/
theorem reciprocal {n d k : ℕ} (hn : n < 2 ^ 64) (hd : 0 < d) (hd2 : d < 2 ^ (k + 1)) :
    (2 ^ (65 + k) / d + 1) * n / 2 ^ (65 + k) = n / d := by
  set P := 2 ^ (65 + k) with hP
  have hP0 : 0 < P := by positivity
  have hdm := Nat.div_add_mod P d
  have hml := Nat.mod_lt P hd
  set m := P / d
  set r := P % d
  have hdn := Nat.div_add_mod n d
  have hrl := Nat.mod_lt n hd
  set q := n / d
  set s := n % d
  have e1 : d * (m + 1) = P + (d - r) := by rw [Nat.mul_add]; omega
  have hdn2 : d * n < P := by
    have h1 : d * n < 2 ^ (k + 1) * 2 ^ 64 := Nat.mul_lt_mul'' hd2 hn
    rw [hP, show (2 : ℕ) ^ (65 + k) = 2 ^ (k + 1) * 2 ^ 64 by rw [← pow_add]; congr 1; omega]
    exact h1
  have e2 : d * ((m + 1) * n) = P * n + (d - r) * n := by rw [← Nat.mul_assoc, e1, Nat.add_mul]
  have hle : (d - r) * n ≤ d * n := Nat.mul_le_mul_right _ (Nat.sub_le _ _)
  have e3 : P * n = d * (P * q) + P * s := by rw [← hdn]; ring
  have e4 : P * s + P ≤ P * d := by
    have : P * (s + 1) ≤ P * d := Nat.mul_le_mul_left _ hrl
    rw [Nat.mul_add, Nat.mul_one] at this; exact this
  apply Nat.div_eq_of_lt_le
  · have : d * (q * P) ≤ d * ((m + 1) * n) := by
      have : d * (q * P) = d * (P * q) := by ring
      omega
    exact Nat.le_of_mul_le_mul_left this hd
  · have : d * ((m + 1) * n) < d * ((q + 1) * P) := by
      have : d * ((q + 1) * P) = d * (P * q) + P * d := by ring
      omega
    exact Nat.lt_of_mul_lt_mul_left this

theorem libdivide_ok {n d : ℕ} (hn : n < 2 ^ 64) (hd : 2 ≤ d) (hd64 : d < 2 ^ 64) :
    Ok (gen d) (fun v => run n v = n / d) := by
  have hk1 : 2 ^ Nat.log2 d ≤ d := Nat.log2_self_le (by omega)
  have hk2 : d < 2 ^ (Nat.log2 d + 1) := Nat.lt_log2_self
  have hk3 : Nat.log2 d < 64 := (Nat.log2_lt (by omega)).2 hd64
  have hk0 : 1 ≤ Nat.log2 d := (Nat.le_log2 (by omega)).2 (by omega)
  unfold gen
  rw [if_neg (by omega), if_neg (by omega)]
  dsimp only
  generalize Nat.log2 d = k at *
  have hand : ∀ j, j < 64 → j &&& 0x3f = j := by
    intro j hj
    rw [show (0x3f : ℕ) = 2 ^ 6 - 1 by norm_num, Nat.and_two_pow_sub_one_eq_mod, Nat.mod_eq_of_lt (by omega)]
  have hor : (k ||| 0x40) &&& 0x3f = k := by
    rw [show (0x3f : ℕ) = 2 ^ 6 - 1 by norm_num, Nat.and_two_pow_sub_one_eq_mod]
    rw [Nat.or_mod_two_pow (n := 6), Nat.mod_eq_of_lt (show k < 2 ^ 6 by omega)]
    simp
  rcases Nat.lt_or_ge (2 ^ k) d with hlt | hge
  · rw [if_neg (and_pred_ne_zero hlt hk2)]
    unfold div128
    rw [if_neg (by omega)]
    simp only [ok_bind]
    refine Ok.pure ?_
    have hP : (2 : ℕ) ^ (65 + k) = 2 * (2 ^ k * 2 ^ 64) := by rw [← pow_add, ← pow_succ']; congr 1; omega
    have hdm := Nat.div_add_mod (2 ^ k * 2 ^ 64) d
    have hml := Nat.mod_lt (2 ^ k * 2 ^ 64) (show d > 0 by omega)
    rw [Nat.add_zero]
    have key := reciprocal (n := n) (d := d) (k := k) hn (by omega) hk2
    rw [hP] at key
    have hmul1 : d * 2 ^ 64 < 2 * (2 ^ k * 2 ^ 64) := by rw [pow_succ] at hk2; omega
    have hmul2 : 2 * (2 ^ k * 2 ^ 64) + 2 * 2 ^ 64 ≤ d * 2 ^ 65 := by
      have : (2 ^ k + 1) * 2 ^ 65 ≤ d * 2 ^ 65 := Nat.mul_le_mul_right _ hlt
      omega
    -- the doubled quotient
    have hq : 2 * (2 ^ k * 2 ^ 64) / d = 2 * (2 ^ k * 2 ^ 64 / d) +
        (if d ≤ 2 * (2 ^ k * 2 ^ 64 % d) then 1 else 0) := by
      rw [Nat.div_eq_iff (by omega)]
      generalize 2 ^ k * 2 ^ 64 / d = m at *
      generalize 2 ^ k * 2 ^ 64 % d = r at *
      split
      · have e1 : (2 * m + 1) * d = 2 * (d * m) + d := by ring
        rw [e1]
        omega
      · have e1 : (2 * m + 0) * d = 2 * (d * m) := by ring
        rw [e1]
        omega
    have hQ1 : 2 ^ 64 ≤ 2 * (2 ^ k * 2 ^ 64) / d := by
      rw [Nat.le_div_iff_mul_le (by omega), Nat.mul_comm]; omega
    have hQ2 : 2 * (2 ^ k * 2 ^ 64) / d < 2 ^ 65 - 1 := by
      rw [Nat.div_lt_iff_lt_mul (by omega), Nat.sub_mul, one_mul, Nat.mul_comm]
      omega
    generalize 2 * (2 ^ k * 2 ^ 64) / d = Q at *
    generalize 2 ^ k * 2 ^ 64 / d = m at *
    generalize 2 ^ k * 2 ^ 64 % d = r at *
    have hmagic : (1 + (if (r + r) % 2 ^ 64 ≥ d ∨ (r + r) % 2 ^ 64 < r then ((m + m) % 2 ^ 64 + 1) % 2 ^ 64
        else (m + m) % 2 ^ 64)) % 2 ^ 64 = Q + 1 - 2 ^ 64 := by
      have hiff : ((r + r) % 2 ^ 64 ≥ d ∨ (r + r) % 2 ^ 64 < r) ↔ d ≤ 2 * r := by omega
      simp only [hiff]
      split at hq
      · rename_i h; rw [if_pos h]; omega
      · rename_i h; rw [if_neg h]; omega
    rw [hmagic, hor]
    unfold run mullhi
    dsimp only
    have e5 : (Q + 1) * n = (Q + 1 - 2 ^ 64) * n + 2 ^ 64 * n := by
      have : Q + 1 = (Q + 1 - 2 ^ 64) + 2 ^ 64 := by omega
      conv_lhs => rw [this, Nat.add_mul]
    have e6 : (Q + 1 - 2 ^ 64) * n / 2 ^ 64 ≤ n := by
      have : (Q + 1 - 2 ^ 64) * n ≤ 2 ^ 64 * n := Nat.mul_le_mul_right _ (by omega)
      omega
    have e7 : (Q + 1) * n / 2 ^ 64 = (Q + 1 - 2 ^ 64) * n / 2 ^ 64 + n := by
      rw [e5, Nat.add_mul_div_left _ _ (by positivity)]
    have e8 : (Q + 1) * n / (2 * (2 ^ k * 2 ^ 64)) = (Q + 1) * n / 2 ^ 64 / 2 / 2 ^ k := by
      rw [Nat.div_div_eq_div_mul, Nat.div_div_eq_div_mul]
      congr 1; ring
    rw [e8, e7] at key
    rw [← key]
    generalize (Q + 1 - 2 ^ 64) * n / 2 ^ 64 = q at *
    have e9 : ((n + 2 ^ 64 - q) % 2 ^ 64 / 2 + q) % 2 ^ 64 = (q + n) / 2 := by omega
    rw [e9]
  · have hd2 : d = 2 ^ k := by omega
    have hand0 : d &&& (d - 1) = 0 := by
      rw [hd2, Nat.and_two_pow_sub_one_eq_mod, Nat.mod_self]
    rw [if_pos hand0]
    refine Ok.ok ?_
    unfold run mullhi
    dsimp only
    rw [hand _ (by omega), Nat.zero_mul, Nat.zero_div, Nat.sub_zero, Nat.add_zero, hd2]
    have e1 : (n + 2 ^ 64) % 2 ^ 64 = n := by omega
    rw [e1, Nat.mod_eq_of_lt (show n / 2 < 2 ^ 64 by omega), Nat.div_div_eq_div_mul, ← pow_succ', show k - 1 + 1 = k by omega]

end PS.Libdivide
