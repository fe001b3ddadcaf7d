import Verif.Proof.S2Easy
import Verif.Proof.LmoAcc
import Verif.Proof.S1
import Verif.Proof.Bounds

/-!
# `int128_t` with overflow detection

`CInt 128` (Model/Lmo.lean) has no value once an operation has overflowed.
-/

namespace PS
open Res

/-- The constant `2^127`. -/
theorem CInt.chk_ok {z : ℤ} (h1 : -2 ^ 127 ≤ z) (h2 : z < 2 ^ 127) : (CInt.chk z : CInt 128) = ⟨some z⟩ := by
  unfold CInt.chk
  exact if_pos ⟨h1, h2⟩

theorem CInt.add_ok {x y : ℤ} (h1 : -2 ^ 127 ≤ x + y) (h2 : x + y < 2 ^ 127) :
    (add ⟨some x⟩ ⟨some y⟩ : CInt 128) = ⟨some (x + y)⟩ := CInt.chk_ok h1 h2

theorem CInt.sub_ok {x y : ℤ} (h1 : -2 ^ 127 ≤ x - y) (h2 : x - y < 2 ^ 127) :
    (sub ⟨some x⟩ ⟨some y⟩ : CInt 128) = ⟨some (x - y)⟩ := CInt.chk_ok h1 h2

theorem CInt.mul_ok {x y : ℤ} (h1 : -2 ^ 127 ≤ x * y) (h2 : x * y < 2 ^ 127) :
    (mul ⟨some x⟩ ⟨some y⟩ : CInt 128) = ⟨some (x * y)⟩ := CInt.chk_ok h1 h2

/-- As long as the bound fits, nothing has overflowed. -/
def BRes.checked : BRes (CInt 128) where
  Rep r z a := |z| ≤ a ∧ (a < 2 ^ 127 → r = ⟨some z⟩)
  PhiOk x c := x < 2 ^ 63 ∧ prm c < 2 ^ 31
  Lim a := a < 2 ^ 127
  mod := 0
  rep_near z z' h1 h2 h3 := by
    rw [zero_dvd_iff, sub_eq_zero] at h3
    subst h3
    exact ⟨le_rfl, fun _ => CInt.chk_ok h1 h2⟩
  rep_add r r' x s y t h1 h2 := by
    have h3 := abs_le.1 ((abs_add_le x y).trans (add_le_add h1.1 h2.1))
    have h4 := (abs_nonneg _).trans h1.1
    have h5 := (abs_nonneg _).trans h2.1
    refine ⟨abs_le.2 h3, fun h => ?_⟩
    rw [h1.2 (by omega), h2.2 (by omega)]
    exact CInt.add_ok (by omega) (by omega)
  rep_sub r r' x s y t h1 h2 := by
    have h3 := abs_le.1 ((abs_sub x y).trans (add_le_add h1.1 h2.1))
    have h4 := (abs_nonneg _).trans h1.1
    have h5 := (abs_nonneg _).trans h2.1
    refine ⟨abs_le.2 h3, fun h => ?_⟩
    rw [h1.2 (by omega), h2.2 (by omega)]
    exact CInt.sub_ok (by omega) (by omega)
  rep_mul r r' x s y t h1 h2 _ _ _ _ h3 h4 := by
    have h5 := (abs_mul x y).le.trans (mul_le_mul h1.1 h2.1 (abs_nonneg _) ((abs_nonneg _).trans h1.1))
    have h6 := abs_le.1 h5
    refine ⟨h5, fun h => ?_⟩
    rw [h1.2 h3, h2.2 h4]
    exact CInt.mul_ok (by omega) (by omega)
  rep_phi x c h := by
    show Ok (do let r ← phiSum64 x c; pure (CInt.chk r : CInt 128)) _
    rw [phiSum64_ok x c h.1 h.2, ok_bind]
    refine Ok.pure ⟨by simp, fun h => CInt.chk_ok (by omega) h⟩
  phiOk_div x c m _ _ h := ⟨lt_of_le_of_lt (Nat.div_le_self _ _) h.1, h.2⟩
  phiOk_anti x c c' hc h := ⟨h.1, lt_of_le_of_lt (prm_le_prm hc) h.2⟩
  phiOk_lt x c h := by have := h.1; omega
  phiOk_lim x c h := by
    have h1 := phiSum_le x c
    have h2 : x * (x + 1) ≤ 2 ^ 63 * 2 ^ 63 := Nat.mul_le_mul h.1.le h.1
    omega
  lim_small a h := by omega

namespace S2Easy

/-- Sums of positive terms: as long as the sum fits, nothing has overflowed. -/
def EasySpec.checked : EasySpec (CInt 128) where
  Rep r z := 0 ≤ z ∧ (z < 2 ^ 127 → r = ⟨some z⟩)
  zero := ⟨le_rfl, fun _ => CInt.chk_ok (by norm_num) (by norm_num)⟩
  add a b x y ha hb := by
    refine ⟨by omega, fun h => ?_⟩
    rw [ha.2 (by omega), hb.2 (by omega)]
    exact CInt.add_ok (by omega) h
  term3 := by
    intro acc z a p d ha h1 h2 h3 h4 h5 h6
    have hap : 1 ≤ a * p := by nlinarith
    have hapd : a * p ≤ a * p * d := by nlinarith
    have ha' : a ≤ a * p := by nlinarith
    refine ⟨by omega, fun h => ?_⟩
    rw [ha.2 (by omega), show (ofInt a : CInt 128) = ⟨some a⟩ from CInt.chk_ok (by omega) (by omega),
      show (ofInt p : CInt 128) = ⟨some p⟩ from CInt.chk_ok (by omega) (by omega),
      show (ofInt d : CInt 128) = ⟨some d⟩ from CInt.chk_ok (by omega) (by omega),
      CInt.mul_ok (by omega) (by omega), CInt.mul_ok (by omega) (by omega)]
    exact CInt.add_ok (by omega) h
  term2 := by
    intro acc z a p ha h1 h2 h3 h4
    have hap : 1 ≤ a * p := by nlinarith
    refine ⟨by omega, fun h => ?_⟩
    rw [ha.2 (by omega), show (ofInt a : CInt 128) = ⟨some a⟩ from CInt.chk_ok (by omega) (by omega),
      show (ofInt p : CInt 128) = ⟨some p⟩ from CInt.chk_ok (by omega) (by omega),
      CInt.mul_ok (by omega) (by omega)]
    exact CInt.add_ok (by omega) h

end S2Easy
end PS
