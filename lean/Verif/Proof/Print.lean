import Verif.Proof.Int256Div
import Verif.Model.Int128
import Verif.Spec.Decimal
import Mathlib.Tactic.IntervalCases

namespace PS

theorem digitChar_eq {d : ℕ} (h : d < 10) : Nat.digitChar d = Char.ofNat (48 + d) := by
  interval_cases d <;> rfl

/-- State of the digit loops: `str` holds the low digits of `n0`, `n` the rest. -/
def DigitInv (n0 n : ℕ) (str : List Char) : Prop :=
  (0 < n ∧ Nat.toDigits 10 n0 = Nat.toDigits 10 n ++ str.reverse) ∨
  (n = 0 ∧ n0 = 0 ∧ str = []) ∨
  (n = 0 ∧ str ≠ [] ∧ Nat.toDigits 10 n0 = str.reverse)

theorem digitInv_init (n : ℕ) : DigitInv n n [] := by
  unfold DigitInv
  rcases Nat.eq_zero_or_pos n with h | h
  · right; left; exact ⟨h, h, rfl⟩
  · left; exact ⟨h, by simp⟩

theorem digitInv_step {n0 n : ℕ} {str : List Char} (h : DigitInv n0 n str) (hn : 0 < n) :
    DigitInv n0 (n / 10) (str ++ [Char.ofNat (48 + n % 10)]) := by
  unfold DigitInv at *
  rcases h with ⟨_, h⟩ | ⟨h, _⟩ | ⟨h, _⟩
  · rcases Nat.lt_or_ge n 10 with h10 | h10
    · right; right
      refine ⟨Nat.div_eq_of_lt h10, by simp, ?_⟩
      rw [h, Nat.toDigits_of_lt_base h10, Nat.mod_eq_of_lt h10, digitChar_eq h10]
      simp
    · left
      refine ⟨by omega, ?_⟩
      rw [h, Nat.toDigits_of_base_le (by omega) h10, digitChar_eq (Nat.mod_lt _ (by omega))]
      simp
  · omega
  · omega

theorem digitInv_final {n0 : ℕ} {str : List Char} (h : DigitInv n0 0 str) :
    (if str.isEmpty then ['0'] else str).reverse = Nat.toDigits 10 n0 := by
  unfold DigitInv at h
  rcases h with ⟨h, _⟩ | ⟨_, h, h'⟩ | ⟨_, h, h'⟩
  · omega
  · subst h; subst h'; rfl
  · have : str.isEmpty = false := by cases str <;> simp_all
    rw [this, h']; rfl

theorem pow_aux {n k : ℕ} (hn : 0 < n) (h : n < 10 ^ k) : 0 < k ∧ n / 10 < 10 ^ (k - 1) := by
  rcases k with _ | k
  · simp at h; omega
  · refine ⟨by omega, ?_⟩
    rw [Nat.div_lt_iff_lt_mul (by omega)]
    simpa [Nat.pow_succ] using h

namespace I128

theorem printU_ok (n : ℕ) (h : n < 2 ^ 128) : printU n = .ok (Nat.toDigits 10 n) := by
  apply Ok.eq
  unfold printU printLoop
  refine Ok.bind (P := fun str => DigitInv n 0 str) ?_ (fun str hs => Ok.ok (digitInv_final hs))
  refine loop_ok (fun s => DigitInv n s.1 s.2 ∧ s.1 < 10 ^ (39 - s.2.length) ∧ s.2.length ≤ 39)
    (fun s => 39 - s.2.length) _ ⟨digitInv_init n, ?_, ?_⟩ ?_ ?_
  · norm_num; omega
  · simp
  · simp
  · rintro ⟨m, str⟩ ⟨h1, h2, h3⟩
    simp only at h1 h2 h3 ⊢
    refine Ok.ite (fun hm => Ok.ok ?_) (fun hm => Ok.ok ?_)
    · have := pow_aux hm h2
      refine ⟨⟨digitInv_step h1 hm, ?_, ?_⟩, ?_⟩
      · simp only [List.length_append, List.length_singleton]
        rw [show 39 - (str.length + 1) = 39 - str.length - 1 by omega]
        exact this.2
      · simp; omega
      · simp; omega
    · rwa [show m = 0 by omega] at h1

theorem printS_ok (n : ℤ) (h : -2 ^ 127 < n) (h2 : n < 2 ^ 127) : printS n = .ok (decimal n) := by
  unfold printS decimal
  split
  · have : chk (-n) = .ok (-n) := by unfold chk minInt maxInt; rw [if_pos ⟨by omega, by omega⟩]
    rw [this]
    simp only [ok_bind]
    rw [printU_ok _ (by omega), show (-n).toNat = n.natAbs by omega]
    rfl
  · rw [printU_ok _ (by omega), show n.toNat = n.natAbs by omega]

end I128

namespace I256

/-- Conversion of small non-negative values to `int8_t`. -/
theorem toSigned8_small (a : I256) (h : a.nat < 10) :
    toSigned 8 a = .ok (BitVec.ofNat 8 a.nat) := by
  unfold toSigned
  have h0 : (ofInt 0).val = 0 := by decide
  have : lt a (ofInt 0) = false := by
    rw [← Bool.not_eq_true, lt_iff, h0, val_of_nat_lt (by omega)]; omega
  rw [this]
  simp only [Bool.false_eq_true, if_false]
  have : a.low.toNat = a.nat := by unfold nat at *; omega
  rw [this]

theorem printLoop_ok (n : I256) (h : n.nat < 2 ^ 255) :
    Ok (printLoop n) (fun str => DigitInv n.nat 0 str) := by
  unfold printLoop
  refine loop_ok (fun s => s.1.nat < 2 ^ 255 ∧ DigitInv n.nat s.1.nat s.2 ∧
      s.1.nat < 10 ^ (78 - s.2.length) ∧ s.2.length ≤ 78)
    (fun s => 78 - s.2.length) _ ⟨h, digitInv_init _, ?_, ?_⟩ ?_ ?_
  · norm_num; omega
  · simp
  · simp
  · rintro ⟨m, str⟩ ⟨h1, h2, h3, h4⟩
    simp only at h1 h2 h3 h4 ⊢
    have h0 : (ofInt 0).val = 0 := by decide
    have hgt : gt m (ofInt 0) = true ↔ 0 < m.nat := by
      unfold gt; rw [lt_iff, h0, val_of_nat_lt h1]; omega
    refine Ok.ite (fun hm => ?_) (fun hm => Ok.ok ?_)
    · rw [hgt] at hm
      have hd := udiv_ok m (ofInt 10) h1 (by decide) (by decide)
      have hdm : divmod m (ofInt 10) = udiv m (ofInt 10) := by
        unfold divmod
        have e1 : lt m (ofInt 0) = false := by
          rw [← Bool.not_eq_true, lt_iff, h0, val_of_nat_lt h1]; omega
        have e2 : lt (ofInt 10) (ofInt 0) = false := by decide
        rw [e1, e2]; rfl
      obtain ⟨⟨q, r⟩, hqr, hq, hr⟩ := hd
      simp only [nat_ten] at hq hr
      unfold mod div
      rw [hdm, hqr]
      simp only [ok_bind, pure_eq_ok]
      rw [toSigned8_small r (by omega)]
      simp only [ok_bind]
      have := pow_aux hm h3
      have hc : (48#8 + BitVec.ofNat 8 r.nat).toNat = 48 + m.nat % 10 := by
        rw [BitVec.toNat_add, BitVec.toNat_ofNat, BitVec.toNat_ofNat, hr]; omega
      refine Ok.ok ⟨⟨?_, ?_, ?_, ?_⟩, ?_⟩
      · simp only [hq]; omega
      · simp only [hq]
        have := digitInv_step h2 hm
        rw [← hc] at this
        exact this
      · simp only [List.length_append, List.length_singleton, hq]
        rw [show 78 - (str.length + 1) = 78 - str.length - 1 by omega]
        exact this.2
      · simp; omega
      · simp; omega
    · rw [hgt] at hm
      rwa [show m.nat = 0 by omega] at h2

theorem print_ok (n : I256) (h : n.val ≠ -2 ^ 255) : print n = .ok (decimal n.val) := by
  have h0 : (ofInt 0).val = 0 := by decide
  have hl : lt n (ofInt 0) = true ↔ n.val < 0 := by rw [lt_iff, h0]
  have hr := val_range n
  unfold InRange at hr
  apply Ok.eq
  unfold print decimal
  refine Ok.ite (fun c => ?_) (fun c => ?_) <;> rw [hl] at c
  · rw [if_pos c]
    have hv := val_neg_exact h
    obtain ⟨e1, e2⟩ := nat_of_val_nonneg (show 0 ≤ (neg n).val by omega)
    refine Ok.bind (printLoop_ok (neg n) e2) (fun str hs => Ok.ok ?_)
    rw [digitInv_final hs, show (neg n).nat = n.val.natAbs by omega]
  · rw [if_neg c]
    obtain ⟨e1, e2⟩ := nat_of_val_nonneg (show 0 ≤ n.val by omega)
    refine Ok.bind (printLoop_ok n e2) (fun str hs => Ok.ok ?_)
    rw [digitInv_final hs, show n.nat = n.val.natAbs by omega]

/-- Every number can be printed. -/
theorem print_total (r : I256) : ∃ d, print r = .ok d := by
  by_cases h : r.val = -2 ^ 255
  · have hm : r = minValue := val_inj (by rw [h]; decide +kernel)
    exact ⟨_, by rw [hm]; exact (by decide +kernel : print minValue = .ok ['-', '0'])⟩
  · exact ⟨_, print_ok r h⟩

end I256
end PS
