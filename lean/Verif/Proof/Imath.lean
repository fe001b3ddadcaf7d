import Verif.Model.Imath
import Mathlib.Data.Nat.Sqrt
import Mathlib.Data.Nat.Size
import Mathlib.Data.Nat.Bitwise
import Mathlib.Tactic.Ring
import Mathlib.Tactic.Linarith
import Mathlib.Tactic.NormNum

namespace PS

theorem sqrtHelper_ok (x fuel lo hi : ℕ) (hf : hi - lo < fuel) (hle : lo ≤ hi)
    (h1 : lo ≤ Nat.sqrt x) (h2 : Nat.sqrt x ≤ hi) : sqrtHelper fuel x lo hi = .ok (Nat.sqrt x) := by
  induction fuel generalizing lo hi with
  | zero => omega
  | succ n ih =>
    unfold sqrtHelper
    split
    · congr 1; omega
    · have hm : 0 < (lo + hi + 1) / 2 := by omega
      simp only [cdiv_ok hm, ok_bind]
      have key : x / ((lo + hi + 1) / 2) < (lo + hi + 1) / 2 ↔ Nat.sqrt x < (lo + hi + 1) / 2 := by
        rw [Nat.div_lt_iff_lt_mul hm, Nat.sqrt_lt]
      split
      · rename_i h
        rw [csub_ok (by omega)]
        simp only [ok_bind]
        rw [key] at h
        exact ih lo _ (by omega) (by omega) h1 (by omega)
      · rename_i h
        rw [key] at h
        exact ih _ hi (by omega) (by omega) (by omega) h2

theorem ctSqrt_ok (x : ℕ) : ctSqrt x = .ok (Nat.sqrt x) := by
  unfold ctSqrt
  apply sqrtHelper_ok
  · omega
  · omega
  · omega
  · by_contra h
    push Not at h
    have h2 := Nat.sqrt_le x
    have : (x / 2 + 2) * (x / 2 + 2) ≤ x := le_trans (Nat.mul_le_mul (by omega) (by omega)) h2
    have : x < 2 * (x / 2) + 2 := by omega
    nlinarith

theorem isqrtM_ok (tmax est x : ℕ) (_ : x ≤ tmax) : isqrtM tmax est x = .ok (Nat.sqrt x) := by
  rw [← ok_iff_eq]
  unfold isqrtM
  rw [ctSqrt_ok]
  simp only [ok_bind]
  refine Ok.bind (P := fun r => r * r ≤ x) ?_ (fun r hr => ?_)
  · refine loop_ok (fun _ => True) (fun r => r) _ trivial (Nat.lt_succ_self _) (fun r _ => ?_)
    refine Ok.ite (fun h => ?_) (fun h => Ok.pure (by simpa using h))
    have : 1 ≤ r := by rcases Nat.eq_zero_or_pos r with rfl | h0 <;> omega
    rw [csub_ok this]
    exact Ok.ok ⟨trivial, by omega⟩
  · refine loop_ok (fun r => r * r ≤ x) (fun r => x - r) _ hr (by omega) (fun r hr => ?_)
    rw [csub_ok hr]
    simp only [ok_bind]
    refine Ok.ite (fun h => Ok.pure ?_) (fun h => Ok.pure ?_)
    · have e : (r + 1) * (r + 1) ≤ x := by have : (r + 1) * (r + 1) = r * r + r * 2 + 1 := by ring
                                           omega
      have := Nat.le_mul_self (r + 1)
      exact ⟨e, by omega⟩
    · apply Nat.eq_sqrt.2 ⟨hr, ?_⟩
      have : (r + 1) * (r + 1) = r * r + r * 2 + 1 := by ring
      omega

/-- No value squared by `isqrt` exceeds the type's range, whatever the estimate: the first candidate is
at most `ct_sqrt(max)`. -/
theorem isqrtM_no_overflow (tmax est : ℕ) : min est (Nat.sqrt tmax) * min est (Nat.sqrt tmax) ≤ tmax :=
  le_trans (Nat.mul_le_mul (Nat.min_le_right _ _) (Nat.min_le_right _ _)) (Nat.sqrt_le tmax)

theorem ipow_eq (x n : ℕ) : ipow x n = x ^ n := by
  unfold ipow
  induction n with
  | zero => rfl
  | succ n ih => rw [List.range_succ, List.foldl_append, ih]; simp [pow_succ]

theorem irootM_ok (N est x : ℕ) (hN : 1 ≤ N) :
    Ok (irootM N est x) (fun r => r ^ N ≤ x ∧ x < (r + 1) ^ N) := by
  unfold irootM
  have key : ∀ r, 0 < r → (ipow r (N - 1) ≤ x / r ↔ r ^ N ≤ x) := by
    intro r hr
    rw [Nat.le_div_iff_mul_le hr, ipow_eq, ← pow_succ, Nat.sub_add_cancel hN]
  refine Ok.bind (P := fun r => r ^ N ≤ x) ?_ (fun r hr => ?_)
  · refine loop_ok (fun _ => True) (fun r => r) _ trivial (Nat.lt_succ_self _) (fun r _ => ?_)
    refine Ok.ite (fun h => ?_) (fun h => Ok.pure ?_)
    · rw [cdiv_ok h]
      simp only [ok_bind]
      refine Ok.ite (fun h2 => Ok.pure ?_) (fun h2 => Ok.pure ⟨trivial, by omega⟩)
      exact (key r h).1 h2
    · have : r = 0 := by omega
      subst this
      simp [zero_pow (by omega : N ≠ 0)]
  · have bound : ∀ r, r ^ N ≤ x → r ≤ x := fun r h => le_trans (Nat.le_self_pow (by omega) r) h
    refine loop_ok (fun r => r ^ N ≤ x) (fun r => x + 1 - r) _ hr (by omega) (fun r hr => ?_)
    rw [cdiv_ok (by omega)]
    simp only [ok_bind]
    refine Ok.ite (fun h => Ok.pure ?_) (fun h => Ok.pure ?_)
    · have h3 := (key (r + 1) (by omega)).1 h
      have := bound _ h3
      exact ⟨h3, by omega⟩
    · refine ⟨hr, ?_⟩
      rw [key (r + 1) (by omega)] at h
      omega

/-! ## Smearing bits to the right -/

/-- The bit smearing loop shared by `next_power_of_2` and `prev_power_of_2`. -/
def smear (x : BitVec 64) : BitVec 64 := [1, 2, 4, 8, 16, 32].foldl (fun x i => x ||| (x >>> i)) x

theorem smear_step (x y : BitVec 64) (w : ℕ) (h : ∀ j, y.getLsbD j = true ↔ ∃ k, j ≤ k ∧ k < j + w ∧
    x.getLsbD k = true) (j : ℕ) : (y ||| (y >>> w)).getLsbD j = true ↔
      ∃ k, j ≤ k ∧ k < j + (w + w) ∧ x.getLsbD k = true := by
  simp only [BitVec.getLsbD_or, BitVec.getLsbD_ushiftRight, Bool.or_eq_true, h]
  constructor
  · rintro (⟨k, h1, h2, h3⟩ | ⟨k, h1, h2, h3⟩)
    · exact ⟨k, by omega, by omega, h3⟩
    · exact ⟨k, by omega, by omega, h3⟩
  · rintro ⟨k, h1, h2, h3⟩
    by_cases hk : k < j + w
    · exact Or.inl ⟨k, by omega, by omega, h3⟩
    · exact Or.inr ⟨k, by omega, by omega, h3⟩

theorem smear_bit (x : BitVec 64) (j : ℕ) :
    (smear x).getLsbD j = true ↔ ∃ k, j ≤ k ∧ x.getLsbD k = true := by
  have h0 : ∀ j, x.getLsbD j = true ↔ ∃ k, j ≤ k ∧ k < j + 1 ∧ x.getLsbD k = true := by
    intro j
    constructor
    · intro h; exact ⟨j, by omega, by omega, h⟩
    · rintro ⟨k, h1, h2, h3⟩
      have : k = j := by omega
      rwa [this] at h3
  have h6 := smear_step x _ 32 (smear_step x _ 16 (smear_step x _ 8 (smear_step x _ 4 (smear_step x _ 2
    (smear_step x _ 1 h0))))) j
  show _ ↔ _
  unfold smear
  simp only [List.foldl]
  rw [h6]
  constructor
  · rintro ⟨k, h1, _, h3⟩; exact ⟨k, h1, h3⟩
  · rintro ⟨k, h1, h3⟩
    refine ⟨k, h1, ?_, h3⟩
    have := BitVec.lt_of_getLsbD h3
    omega

theorem smear_toNat (x : BitVec 64) : (smear x).toNat = 2 ^ Nat.size x.toNat - 1 := by
  apply Nat.eq_of_testBit_eq
  intro j
  rw [Nat.testBit_two_pow_sub_one, Bool.eq_iff_iff, ← BitVec.getLsbD, smear_bit, decide_eq_true_eq,
    Nat.lt_size]
  constructor
  · rintro ⟨k, h1, h2⟩
    have := Nat.ge_two_pow_of_testBit (x := x.toNat) (i := k) h2
    exact le_trans (Nat.pow_le_pow_right (by omega) h1) this
  · intro h
    obtain ⟨k, hk, hb⟩ := Nat.exists_ge_and_testBit_of_ge_two_pow h
    exact ⟨k, hk, hb⟩

theorem nextPowerOf2_eq (x : BitVec 64) (h0 : x ≠ 0#64) (h : x.toNat ≤ 2 ^ 63) :
    (nextPowerOf2 x).toNat = 2 ^ Nat.size (x.toNat - 1) := by
  have hx : x.toNat ≠ 0 := fun hc => h0 (BitVec.eq_of_toNat_eq (by simpa using hc))
  have e : (x - 1#64).toNat = x.toNat - 1 := by
    rw [BitVec.toNat_sub_of_le]
    · rfl
    · rw [BitVec.le_def]; show 1 ≤ _; omega
  have hs : Nat.size (x.toNat - 1) ≤ 63 := Nat.size_le.2 (by omega)
  have hp : 2 ^ Nat.size (x.toNat - 1) ≤ 2 ^ 63 := Nat.pow_le_pow_right (by omega) hs
  have hp1 : 1 ≤ 2 ^ Nat.size (x.toNat - 1) := Nat.one_le_two_pow
  unfold nextPowerOf2
  rw [if_neg h0]
  show (smear (x - 1#64) + 1#64).toNat = _
  rw [BitVec.toNat_add, smear_toNat, e]
  show (_ + 1) % 2 ^ 64 = _
  rw [Nat.mod_eq_of_lt (by omega)]
  omega

theorem prevPowerOf2_eq (x : BitVec 64) (h0 : x ≠ 0#64) :
    (prevPowerOf2 x).toNat = 2 ^ (Nat.size x.toNat - 1) := by
  have hx : x.toNat ≠ 0 := fun hc => h0 (BitVec.eq_of_toNat_eq (by simpa using hc))
  have hs : 0 < Nat.size x.toNat := Nat.size_pos.2 (by omega)
  show (smear x - (smear x >>> 1)).toNat = _
  have e2 : (smear x >>> 1).toNat = (2 ^ Nat.size x.toNat - 1) / 2 := by
    rw [BitVec.toNat_ushiftRight, smear_toNat, Nat.shiftRight_eq_div_pow]
  rw [BitVec.toNat_sub_of_le (by rw [BitVec.le_def, e2, smear_toNat]; omega), e2, smear_toNat]
  obtain ⟨s, hs'⟩ : ∃ s, Nat.size x.toNat = s + 1 := ⟨_, (Nat.succ_pred_eq_of_pos hs).symm⟩
  rw [hs', Nat.add_sub_cancel, pow_succ]
  have : 1 ≤ 2 ^ s := Nat.one_le_two_pow
  omega

theorem ceilDiv_ok (a b : ℕ) (hb : 0 < b) : ceilDiv a b = .ok ((a + b - 1) / b) := cdiv_ok hb

end PS
