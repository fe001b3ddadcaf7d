import Mathlib.Tactic.Linarith
import Mathlib.Tactic.Ring
import Mathlib.Tactic.IntervalCases
import Verif.Model.Calculator
import Verif.Spec.Calculator

/-!
# The operations of the calculator compute what the specification says
-/

namespace PS
namespace Calc

open Spec I128

/-- The values of `int128_t`. -/
def R (x : ℤ) : Prop := -2 ^ 127 ≤ x ∧ x < 2 ^ 127

theorem chk_eq_fit (x : ℤ) : chk x = fit x := by
  unfold chk fit minInt maxInt
  have : (-2 ^ 127 ≤ x ∧ x ≤ 2 ^ 127 - 1) ↔ (-2 ^ 127 ≤ x ∧ x < 2 ^ 127) := by omega
  simp only [this]

theorem fit_of {x : ℤ} (h : R x) : fit x = .ok x := if_pos h
theorem fit_not {x : ℤ} (h : ¬ R x) : fit x = .error .overflow := if_neg h

theorem fit_R {x v : ℤ} (h : fit x = .ok v) : R v ∧ v = x := by
  unfold fit at h
  split at h
  · injection h with h; subst h; exact ⟨by assumption, rfl⟩
  · cases h

theorem bind_congr_ok {α β : Type} {m : M α} {f g : α → M β} (h : ∀ v, m = .ok v → f v = g v) :
    (m >>= f) = (m >>= g) := by
  cases m with
  | error e => rfl
  | ok v => exact h v rfl

theorem bind_assoc' {α β γ : Type} (m : M α) (f : α → M β) (g : β → M γ) :
    (m >>= f) >>= g = m >>= fun x => f x >>= g := by
  cases m <;> rfl

/-! ## Bit operations -/

theorem getLsbD_ofInt' (w i : ℕ) (a : ℤ) :
    (BitVec.ofInt w a).getLsbD i = (decide (i < w) && Int.testBit a i) := by
  rcases a with m | m
  · change (BitVec.ofNat w m).getLsbD i = _
    rw [BitVec.getLsbD_ofNat]; rfl
  · rw [BitVec.ofInt_negSucc_eq_not_ofNat, BitVec.getLsbD_not, BitVec.getLsbD_ofNat]
    by_cases hi : i < w <;> simp [hi, Int.testBit]

theorem ofInt_land (w : ℕ) (a b : ℤ) :
    BitVec.ofInt w (Int.land a b) = BitVec.ofInt w a &&& BitVec.ofInt w b := by
  apply BitVec.eq_of_getLsbD_eq
  intro i hi
  rw [BitVec.getLsbD_and, getLsbD_ofInt', getLsbD_ofInt', getLsbD_ofInt', Int.testBit_land]
  simp [hi]

theorem ofInt_lor (w : ℕ) (a b : ℤ) :
    BitVec.ofInt w (Int.lor a b) = BitVec.ofInt w a ||| BitVec.ofInt w b := by
  apply BitVec.eq_of_getLsbD_eq
  intro i hi
  rw [BitVec.getLsbD_or, getLsbD_ofInt', getLsbD_ofInt', getLsbD_ofInt', Int.testBit_lor]
  simp [hi]

theorem toInt_ofInt' {a : ℤ} (h : R a) : (BitVec.ofInt 128 a).toInt = a := by
  unfold R at h
  rw [BitVec.toInt_ofInt, Int.bmod_def]
  split <;> omega

theorem R_nat {m : ℕ} : R (m : ℤ) ↔ m < 2 ^ 127 := by unfold R; omega
theorem R_neg {m : ℕ} : R (Int.negSucc m) ↔ m < 2 ^ 127 := by
  unfold R; rw [Int.negSucc_eq]; omega

theorem ldiff_le (m n : ℕ) : Nat.ldiff m n ≤ m := by
  apply Nat.le_of_testBit
  intro i
  rw [Nat.testBit_ldiff]
  cases m.testBit i <;> simp

theorem land_R {a b : ℤ} (ha : R a) (hb : R b) : R (Int.land a b) := by
  rcases a with m | m <;> rcases b with n | n
  · exact R_nat.2 (Nat.and_lt_two_pow _ (R_nat.1 hb))
  · exact R_nat.2 ((ldiff_le _ _).trans_lt (R_nat.1 ha))
  · exact R_nat.2 ((ldiff_le _ _).trans_lt (R_nat.1 hb))
  · exact R_neg.2 (Nat.or_lt_two_pow (R_neg.1 ha) (R_neg.1 hb))

theorem lor_R {a b : ℤ} (ha : R a) (hb : R b) : R (Int.lor a b) := by
  rcases a with m | m <;> rcases b with n | n
  · exact R_nat.2 (Nat.or_lt_two_pow (R_nat.1 ha) (R_nat.1 hb))
  · exact R_neg.2 ((ldiff_le _ _).trans_lt (R_neg.1 hb))
  · exact R_neg.2 ((ldiff_le _ _).trans_lt (R_neg.1 ha))
  · exact R_neg.2 (Nat.and_lt_two_pow _ (R_neg.1 hb))

/-! ## Powers -/

theorem sq_ne (x : ℤ) : x * x ≠ 2 ^ 127 := by
  intro h
  have h1 : x * x = x.natAbs * x.natAbs := by rw [← Int.natAbs_mul_self' x]
  generalize x.natAbs = y at h1
  have h2 : y * y = 2 ^ 127 := by zify; rw [← h1, h]
  rcases Nat.lt_or_ge y 13043817825332782213 with h3 | h3
  · have : y * y ≤ 13043817825332782212 * 13043817825332782212 := Nat.mul_le_mul (by omega) (by omega)
    omega
  · have : 13043817825332782213 * 13043817825332782213 ≤ y * y := Nat.mul_le_mul h3 h3
    omega

theorem R_mul_sq {r x : ℤ} {k : ℕ} (h : ¬ R r) : ¬ R (r * (x * x) ^ k) ∨ x = 0 := by
  by_cases hx : x = 0
  · exact .inr hx
  left
  have h1 : (x * x) ^ k = 1 ∨ 4 ≤ (x * x) ^ k := by
    by_cases h4 : 4 ≤ x * x
    · rcases Nat.eq_zero_or_pos k with rfl | hk
      · left; simp
      · right
        calc (4 : ℤ) ≤ x * x := h4
          _ = (x * x) ^ 1 := (pow_one _).symm
          _ ≤ (x * x) ^ k := pow_le_pow_right₀ (by omega) hk
    · left
      have : x = 1 ∨ x = -1 := by
        have h2 : x < 2 := by by_contra; nlinarith
        have h3 : -2 < x := by by_contra; nlinarith
        omega
      rcases this with rfl | rfl <;> simp
  rcases h1 with h1 | h1
  · rw [h1, mul_one]; exact h
  · unfold R at h ⊢
    rcases lt_or_ge r 0 with h0 | h0
    · have h2 : r < -2 ^ 127 := by omega
      have : r * (x * x) ^ k ≤ r * 4 := by nlinarith
      omega
    · have h2 : 2 ^ 127 ≤ r := by omega
      have : r * 4 ≤ r * (x * x) ^ k := by nlinarith
      omega

theorem R_sq_mul {r x : ℤ} {k : ℕ} (hk : 0 < k) (h : ¬ R (x * x)) (hr : r ≠ 0) : ¬ R (r * (x * x) ^ k) := by
  have h0 : 0 ≤ x * x := mul_self_nonneg x
  have h1 := sq_ne x
  have h2 : 2 ^ 127 < x * x := by unfold R at h; omega
  have h3 : x * x ≤ (x * x) ^ k := by
    calc x * x = (x * x) ^ 1 := (pow_one _).symm
      _ ≤ (x * x) ^ k := pow_le_pow_right₀ (by omega) hk
  unfold R
  rcases Int.lt_or_gt_of_ne hr with h4 | h4
  · have : r * (x * x) ^ k ≤ - (x * x) ^ k := by nlinarith
    omega
  · have : (x * x) ^ k ≤ r * (x * x) ^ k := by nlinarith
    omega

/-- One iteration of `pow`. -/
def powStep : ℤ × ℤ × ℤ → M (Step (ℤ × ℤ × ℤ) ℤ) := fun ((x, n, res) : ℤ × ℤ × ℤ) =>
    if n > 0 then do
      let (res, n) ← (if n.tmod 2 ≠ 0 then do
          let res ← chk (res * x)
          pure (res, n - 1)
        else pure (res, n) : M (ℤ × ℤ))
      let n := n.tdiv 2
      let x ← (if n > 0 then chk (x * x) else pure x : M ℤ)
      pure (.next (x, n, res))
    else pure (.done res)

theorem pow_loop : ∀ (f n : ℕ) (x res : ℤ), n < 2 ^ f → R res → (x ≠ 0 → res ≠ 0) →
    loop (f + 1) (x, (n : ℤ), res) powStep = fit (res * x ^ n) := by
  intro f
  induction f with
  | zero =>
    intro n x res hn hres _
    obtain rfl : n = 0 := by omega
    rw [pow_zero, mul_one, fit_of hres]
    rfl
  | succ f ih =>
    intro n x res hn hres h0
    rcases Nat.eq_zero_or_pos n with rfl | hpos
    · rw [pow_zero, mul_one, fit_of hres]; rfl
    have key : ∀ (r : ℤ) (k : ℕ), k < 2 ^ f → R r → (x ≠ 0 → r ≠ 0) →
        ((if (k : ℤ) > 0 then chk (x * x) else pure x : M ℤ) >>= fun x =>
          loop (f + 1) (x, (k : ℤ), r) powStep) = fit (r * (x * x) ^ k) := by
      intro r k hk hr hr0
      rcases Nat.eq_zero_or_pos k with rfl | hk0
      · rw [if_neg (by simp), pure_eq_ok, ok_bind, ih 0 x r hk hr hr0]
        simp
      · rw [if_pos (by exact_mod_cast hk0), chk_eq_fit]
        by_cases hR : R (x * x)
        · rw [fit_of hR, ok_bind, ih k _ r hk hr (fun h => hr0 (by rintro rfl; simp at h))]
        · rw [fit_not hR, error_bind, fit_not]
          exact R_sq_mul hk0 hR (hr0 (by rintro rfl; exact hR (by unfold R; norm_num)))
    rw [loop]
    conv_lhs => arg 1; unfold powStep
    dsimp only
    rw [if_pos (by exact_mod_cast hpos)]
    rcases Nat.even_or_odd' n with ⟨k, rfl | rfl⟩
    · have h1 : ((2 * k : ℕ) : ℤ).tmod 2 = 0 := by
        rw [Int.tmod_eq_emod_of_nonneg (by positivity)]; omega
      have h2 : ((2 * k : ℕ) : ℤ).tdiv 2 = (k : ℤ) := by
        rw [Int.tdiv_eq_ediv_of_nonneg (by positivity)]; omega
      rw [if_neg (by rw [h1]; simp), pure_eq_ok, ok_bind]
      dsimp only
      rw [h2, bind_assoc', pow_mul, pow_two]
      exact key res k (by omega) hres h0
    · have h1 : ((2 * k + 1 : ℕ) : ℤ).tmod 2 = 1 := by
        rw [Int.tmod_eq_emod_of_nonneg (by positivity)]; omega
      have h2 : (((2 * k + 1 : ℕ) : ℤ) - 1).tdiv 2 = (k : ℤ) := by
        rw [Int.tdiv_eq_ediv_of_nonneg (by push_cast; omega)]; omega
      have h3 : res * x ^ (2 * k + 1) = (res * x) * (x * x) ^ k := by
        rw [pow_succ, pow_mul, pow_two]; ring
      rw [if_pos (by rw [h1]; decide), chk_eq_fit, h3]
      by_cases hR : R (res * x)
      · rw [fit_of hR, ok_bind, pure_eq_ok, ok_bind]
        dsimp only
        rw [h2, bind_assoc']
        refine key (res * x) k (by omega) hR (fun hx => mul_ne_zero (h0 hx) hx)
      · rw [fit_not hR, error_bind, error_bind, error_bind, fit_not]
        rcases R_mul_sq (x := x) (k := k) hR with h | h
        · exact h
        · exact absurd (by rw [h, mul_zero]; unfold R; norm_num) hR

theorem pow_eq (x n : ℤ) (hn : R n) : pow x n = fit (natPow x n) := by
  have h1 : pow x n = loop 129 (x, n, 1) powStep := rfl
  rw [h1]
  rcases lt_or_ge 0 n with h | h
  · obtain ⟨m, rfl⟩ := Int.eq_ofNat_of_zero_le h.le
    rw [pow_loop 128 m x 1 (by unfold R at hn; omega) (by unfold R; norm_num) (by simp)]
    simp [natPow]
  · have h2 : n.toNat = 0 := by omega
    rw [natPow, h2, pow_zero, fit_of (by unfold R; norm_num), loop]
    unfold powStep
    dsimp only
    rw [if_neg (by omega), pure_eq_ok, ok_bind]

/-! ## All operations -/

/-- The operator of the model. -/
def _root_.PS.Calc.Spec.BinOp.toOp : BinOp → Op
  | .or => .or | .and => .and | .shl => .shl | .shr => .shr | .add => .add | .sub => .sub | .mul => .mul
  | .div => .div | .mod => .mod | .pow => .pow | .exp => .exp

theorem calculate_eq {a b : ℤ} (ha : R a) (hb : R b) (o : BinOp) : calculate a b o.toOp = o.apply a b := by
  cases o
  · change pure _ = Except.ok _
    rw [← ofInt_lor, toInt_ofInt' (lor_R ha hb)]; rfl
  · change pure _ = Except.ok _
    rw [← ofInt_land, toInt_ofInt' (land_R ha hb)]; rfl
  · change shl a b = _
    simp only [BinOp.apply]; unfold shl
    simp only [ge_iff_le, chk_eq_fit]
  · change shr a b = _
    simp only [BinOp.apply]; unfold shr
    simp only [ge_iff_le, Int.shiftRight_eq_div_pow, pure_eq_ok]
    norm_num
  · exact chk_eq_fit _
  · exact chk_eq_fit _
  · exact chk_eq_fit _
  · change (checkZero b >>= fun b => chk (a.tdiv b)) = _
    simp only [BinOp.apply]; unfold checkZero
    split
    · rfl
    · rw [pure_eq_ok, ok_bind, chk_eq_fit]
  · change (checkZero b >>= fun b => if b = -1 ∧ a = minInt then .error .overflow else pure (a.tmod b)) = _
    simp only [BinOp.apply]; unfold checkZero
    split
    · rfl
    · rw [pure_eq_ok, ok_bind]
      by_cases h : a = -2 ^ 127 ∧ b = -1
      · rw [if_pos h, if_pos ⟨h.2, h.1⟩]
      · rw [if_neg h, if_neg (fun h' => h ⟨h'.2, h'.1⟩)]; rfl
  · exact pow_eq _ _ hb
  · change (pow 10 b >>= fun p => chk (a * p)) = _
    rw [pow_eq _ _ hb]
    simp only [chk_eq_fit]
    rfl

theorem ok_R {v w : ℤ} (h : (.ok v : M ℤ) = .ok w) (hv : R v) : R w := by
  injection h with h; rwa [← h]

theorem apply_R {a b v : ℤ} (ha : R a) (hb : R b) {o : BinOp} (h : o.apply a b = .ok v) : R v := by
  cases o <;> simp only [BinOp.apply] at h
  · exact ok_R h (lor_R ha hb)
  · exact ok_R h (land_R ha hb)
  · split at h
    · cases h
    · split at h
      · cases h
      · exact (fit_R h).1
  · split at h
    · cases h
    · refine ok_R h ?_
      have h1 : (1 : ℤ) ≤ 2 ^ b.toNat := one_le_pow₀ (by norm_num)
      generalize (2 : ℤ) ^ b.toNat = d at h1
      unfold R at ha ⊢
      constructor
      · rw [Int.le_ediv_iff_mul_le (by omega)]
        nlinarith
      · rw [Int.ediv_lt_iff_lt_mul (by omega)]
        nlinarith
  · exact (fit_R h).1
  · exact (fit_R h).1
  · exact (fit_R h).1
  · split at h
    · cases h
    · exact (fit_R h).1
  · split at h
    · cases h
    · split at h
      · cases h
      · refine ok_R h ?_
        have h1 : (a.tmod b).natAbs ≤ a.natAbs := by
          rw [Int.natAbs_tmod]; exact Nat.mod_le _ _
        by_cases h2 : (0 : ℤ) ≤ a
        · have := Int.tmod_nonneg b h2
          unfold R at ha ⊢
          omega
        · have : a.tmod b ≤ 0 := by
            have := Int.tmod_nonneg b (show 0 ≤ -a by omega)
            rw [Int.neg_tmod] at this
            omega
          unfold R at ha ⊢
          omega
  · exact (fit_R h).1
  · cases h1 : fit (natPow 10 b) with
    | error e => rw [h1] at h; cases h
    | ok p => rw [h1] at h; exact (fit_R h).1

theorem eval_R : ∀ {e : Expr} {v : ℤ}, e.eval = .ok v → R v := by
  intro e
  induction e with
  | num n => intro v h; exact (fit_R h).1
  | compl e ih =>
    intro v h
    unfold Expr.eval at h
    cases h1 : e.eval with
    | error e => rw [h1] at h; cases h
    | ok w =>
      rw [h1] at h
      refine ok_R h ?_
      have := ih h1
      unfold R at this ⊢
      omega
  | plus e ih => intro v h; exact ih h
  | neg e ih =>
    intro v h
    unfold Expr.eval at h
    cases h1 : e.eval with
    | error e => rw [h1] at h; cases h
    | ok w => rw [h1] at h; exact (fit_R h).1
  | bin o a b iha ihb =>
    intro v h
    unfold Expr.eval at h
    cases h1 : a.eval with
    | error e => rw [h1] at h; cases h
    | ok x =>
      cases h2 : b.eval with
      | error e => rw [h1, h2] at h; cases h
      | ok y => rw [h1, h2] at h; exact apply_R (iha h1) (ihb h2) h

end Calc
end PS
