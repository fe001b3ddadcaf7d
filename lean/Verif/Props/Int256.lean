import Verif.Proof.Print

/-!
# Properties C33–C38: `int256_t` and printing

`I256.val` (Spec/Int256.lean) is the represented integer, `I256.wrap` reduction to 256-bit two's complement.
-/

namespace PS.I256

/-! ## C33 addition, subtraction, negation, complement, increment, decrement -/

theorem C33_add (a b : I256) : (add a b).val = wrap (a.val + b.val) := by
  apply val_eq_wrap
  rw [nat_add]
  have := val_emod a; have := val_emod b
  omega

theorem C33_sub (a b : I256) : (sub a b).val = wrap (a.val - b.val) := by
  apply val_eq_wrap
  rw [nat_sub]
  have := val_emod a; have := val_emod b; have := a.nat_lt; have := b.nat_lt
  omega

theorem C33_neg (a : I256) : (neg a).val = wrap (-a.val) := val_neg'

theorem C33_not (a : I256) : (not a).val = -1 - a.val := by
  rw [val_eq, val_eq, nat_not]
  have := a.nat_lt
  split <;> split <;> omega

theorem C33_inc (a : I256) : (inc a).val = wrap (a.val + 1) := by
  apply val_eq_wrap
  rw [nat_inc]
  have := val_emod a
  omega

theorem C33_dec (a : I256) : (dec a).val = wrap (a.val - 1) := by
  apply val_eq_wrap
  rw [nat_dec]
  have := val_emod a
  omega

/-- Whenever the mathematical result fits, it is what the code returns. -/
theorem C33_add_exact (a b : I256) (h : InRange (a.val + b.val)) : (add a b).val = a.val + b.val := by
  rw [C33_add, wrap_of_inRange h]

theorem C33_sub_exact (a b : I256) (h : InRange (a.val - b.val)) : (sub a b).val = a.val - b.val := by
  rw [C33_sub, wrap_of_inRange h]

/-- Construction from a built-in integer (signed or unsigned, at most 128 bits) keeps the value. -/
theorem C33_ofInt (x : Int) (h : -2 ^ 127 ≤ x) (h2 : x < 2 ^ 128) : (ofInt x).val = x :=
  val_ofInt x h h2

/-- Non-vacuity: a carry from the low into the high word. -/
example : InRange ((ofInt (2 ^ 128 - 1)).val + (ofInt 1).val) ∧
    (add (ofInt (2 ^ 128 - 1)) (ofInt 1)).val = 2 ^ 128 := by
  rw [val_ofInt _ (by norm_num) (by norm_num), val_ofInt _ (by norm_num) (by norm_num)]
  exact ⟨by unfold InRange; norm_num, by decide⟩

/-! ## C34 multiplication -/

/-- The window of values for which the fast path of `operator*` misreads the operand. -/
def InWindow (x : Int) : Prop := -2 ^ 128 ≤ x ∧ x < -2 ^ 128 + 2 ^ 64

/-- Values with which a window value is multiplied by the fast path. -/
def Small (x : Int) : Prop := 0 ≤ x ∧ x < 2 ^ 64

/-- The operand pairs for which the product is wrong. -/
def MulBad (x y : Int) : Prop :=
  (InWindow x ∧ Small y ∧ y ≠ 1) ∨ (Small x ∧ x ≠ 1 ∧ InWindow y) ∨
  (InWindow x ∧ InWindow y ∧ ¬ (x = -2 ^ 128 ∧ y = -2 ^ 128))

theorem word_of_small {a : I256} (h1 : a.low.toNat < 2 ^ 64) (h2 : a.high.toNat = 0) :
    a.val = a.low.toNat := by
  rw [val_eq]; unfold nat; split <;> omega

theorem word_of_window {a : I256} (h1 : a.low.toNat < 2 ^ 64) (h2 : a.high.toNat = 2 ^ 128 - 1) :
    a.val = a.low.toNat - 2 ^ 128 := by
  rw [val_eq]; unfold nat; split <;> omega

theorem fast_of_small {a : I256} (h : Small a.val) : a.low.toNat < 2 ^ 64 ∧ a.high.toNat = 0 := by
  have := a.low.isLt; have := a.high.isLt
  unfold Small at h
  rw [val_eq] at h
  unfold nat at h
  split at h <;> omega

theorem fast_of_window {a : I256} (h : InWindow a.val) :
    a.low.toNat < 2 ^ 64 ∧ a.high.toNat = 2 ^ 128 - 1 := by
  have := a.low.isLt; have := a.high.isLt
  unfold InWindow at h
  rw [val_eq] at h
  unfold nat at h
  split at h <;> omega

theorem mul_emod_nat (a b : I256) : ((a.nat * b.nat : ℕ) : ℤ) % 2 ^ 256 = (a.val * b.val) % 2 ^ 256 := by
  push_cast
  rw [val_emod a, val_emod b]
  exact (Int.mul_emod _ _ _).symm

/-- **C34, exact characterisation**: `operator*` returns the product modulo `2^256` if and only if the
operands are not one of the bad pairs. -/
theorem C34_mul_iff (a b : I256) :
    (mul a b).val = wrap (a.val * b.val) ↔ ¬ MulBad a.val b.val := by
  by_cases hf : mulFast a b = true
  · have hw := (mulFast_iff a b).1 hf
    have hn := nat_mul_fast a b hf
    obtain ⟨h1, h2, h3, h4⟩ := hw
    have hp := Nat.mul_le_mul (show a.low.toNat ≤ 2 ^ 64 - 1 by omega)
      (show b.low.toNat ≤ 2 ^ 64 - 1 by omega)
    rcases h3 with h3 | h3 <;> rcases h4 with h4 | h4
    · -- both small
      rw [if_pos (BitVec.eq_of_toNat_eq (by omega))] at hn
      have e1 := word_of_small h1 h3
      have e2 := word_of_small h2 h4
      constructor
      · rintro _ (⟨hb, _⟩ | ⟨_, _, hb⟩ | ⟨hb, _⟩) <;> unfold InWindow at hb <;> omega
      · intro _
        rw [e1, e2, wrap_of_inRange, val_of_nat_lt (by omega), hn]
        · push_cast; ring
        · rw [← Nat.cast_mul]; unfold InRange; omega
    · -- a small, b in the window
      rw [if_neg (fun h => by rw [← BitVec.toNat_inj] at h; omega)] at hn
      have e1 := word_of_small h1 h3
      have e2 := word_of_window h2 h4
      have ev : (mul a b).val = a.low.toNat * b.low.toNat - 2 ^ 128 := by
        rw [val_eq, hn, if_neg (by omega)]; push_cast; omega
      have ew : wrap (a.val * b.val) = a.low.toNat * b.low.toNat - 2 ^ 128 * a.low.toNat := by
        rw [e1, e2, wrap_of_inRange]
        · ring
        · rw [mul_sub, ← Nat.cast_mul]; unfold InRange; omega
      rw [ev, ew]
      unfold MulBad InWindow Small
      omega
    · -- a in the window, b small
      rw [if_neg (fun h => by rw [← BitVec.toNat_inj] at h; omega)] at hn
      have e1 := word_of_window h1 h3
      have e2 := word_of_small h2 h4
      have ev : (mul a b).val = a.low.toNat * b.low.toNat - 2 ^ 128 := by
        rw [val_eq, hn, if_neg (by omega)]; push_cast; omega
      have ew : wrap (a.val * b.val) = a.low.toNat * b.low.toNat - 2 ^ 128 * b.low.toNat := by
        rw [e1, e2, wrap_of_inRange]
        · ring
        · rw [sub_mul, ← Nat.cast_mul]; unfold InRange; omega
      rw [ev, ew]
      unfold MulBad InWindow Small
      omega
    · -- both in the window
      rw [if_pos (BitVec.eq_of_toNat_eq (by omega))] at hn
      have e1 := word_of_window h1 h3
      have e2 := word_of_window h2 h4
      have ev : (mul a b).val = a.low.toNat * b.low.toNat := by
        rw [val_of_nat_lt (by omega), hn]; push_cast; ring
      have ew : wrap (a.val * b.val) =
          a.low.toNat * b.low.toNat - 2 ^ 128 * (a.low.toNat + b.low.toNat) := by
        rw [← wrap_of_inRange (x := (a.low.toNat * b.low.toNat - 2 ^ 128 * (a.low.toNat + b.low.toNat) : ℤ))]
        · apply wrap_congr
          rw [e1, e2]
          have : ((a.low.toNat : ℤ) - 2 ^ 128) * (b.low.toNat - 2 ^ 128) =
            (a.low.toNat * b.low.toNat - 2 ^ 128 * (a.low.toNat + b.low.toNat)) + 2 ^ 256 * 1 := by ring
          rw [this, Int.add_mul_emod_self_left]
        · rw [← Nat.cast_mul]; unfold InRange; omega
      rw [ev, ew]
      unfold MulBad InWindow Small
      omega
  · have hf' : mulFast a b = false := by simpa using hf
    have hn := nat_mul_slow a b hf'
    constructor
    · intro _ hbad
      apply hf
      rw [mulFast_iff]
      rcases hbad with ⟨x, y, _⟩ | ⟨y, _, x⟩ | ⟨x, y, _⟩
      · have := fast_of_window x; have := fast_of_small y; omega
      · have := fast_of_window x; have := fast_of_small y; omega
      · have := fast_of_window x; have := fast_of_window y; omega
    · intro _
      apply val_eq_wrap
      rw [hn, ← mul_emod_nat]
      push_cast
      exact Int.emod_emod _ _

/-- C34 away from the window: exact modulo `2^256`.  (The full claim, without hypotheses, is false:
`C34_mul_counterexample`.) -/
theorem C34_mul_partial (a b : I256) (ha : ¬ InWindow a.val) (hb : ¬ InWindow b.val) :
    (mul a b).val = wrap (a.val * b.val) := by
  rw [C34_mul_iff]
  rintro (⟨h, _⟩ | ⟨_, _, h⟩ | ⟨h, _⟩)
  · exact ha h
  · exact hb h
  · exact ha h

/-- Products of non-negative numbers are always right. -/
theorem C34_mul_nonneg (a b : I256) (ha : 0 ≤ a.val) (hb : 0 ≤ b.val) :
    (mul a b).val = wrap (a.val * b.val) :=
  C34_mul_partial a b (by unfold InWindow; omega) (by unfold InWindow; omega)

/-- The code violates C34: `(-2^128) * 2` gives `-2^128`. -/
theorem C34_mul_counterexample :
    ∃ a b : I256, a.val = -2 ^ 128 ∧ b.val = 2 ∧ (mul a b).val = -2 ^ 128 ∧
      (mul a b).val ≠ wrap (a.val * b.val) := by
  refine ⟨⟨0#128, BitVec.allOnes 128⟩, ofInt 2, by decide, by decide, by decide, by decide⟩

theorem val_low (a : I256) : ∃ k : ℤ, a.val = a.low.toNat + 2 ^ 128 * k := by
  rw [val_eq]
  unfold nat
  split
  · exact ⟨a.high.toNat, by push_cast; ring⟩
  · exact ⟨a.high.toNat - 2 ^ 128, by push_cast; ring⟩

/-- C34 for all operands, also the bad ones: the low 128 bits of the product are right. -/
theorem C34_mul_mod128 (a b : I256) : (2 ^ 128 : ℤ) ∣ (mul a b).val - a.val * b.val := by
  by_cases hf : mulFast a b = true
  · obtain ⟨k, hk⟩ := val_low a
    obtain ⟨l, hl⟩ := val_low b
    have hn := nat_mul_fast a b hf
    obtain ⟨m, hm⟩ : ∃ m : ℤ, (mul a b).val = a.low.toNat * b.low.toNat + 2 ^ 128 * m := by
      rw [val_eq, hn]
      generalize (if a.high = b.high then 0 else 2 ^ 128 - 1) = h
      split
      · exact ⟨h, by push_cast; ring⟩
      · exact ⟨h - 2 ^ 128, by push_cast; ring⟩
    rw [hm, hk, hl]
    exact ⟨m - (a.low.toNat * l + k * b.low.toNat + 2 ^ 128 * k * l), by ring⟩
  · have hf' : mulFast a b = false := by simpa using hf
    have hn := nat_mul_slow a b hf'
    have h1 : (mul a b).val = wrap (a.val * b.val) := by
      apply val_eq_wrap
      rw [hn, ← mul_emod_nat]
      push_cast
      exact Int.emod_emod _ _
    rw [h1]
    have h2 : (2 ^ 256 : ℤ) ∣ wrap (a.val * b.val) - a.val * b.val := by
      apply Int.dvd_of_emod_eq_zero
      have := wrap_emod (a.val * b.val)
      omega
    exact Dvd.dvd.trans (by norm_num) h2

/-- The pair of `C34_mul_counterexample`: the result is wrong, its low 128 bits are not. -/
example : ∃ a b : I256, a.val = -2 ^ 128 ∧ b.val = 2 ∧ (mul a b).val ≠ a.val * b.val ∧ (2 ^ 128 : ℤ) ∣ (mul a b).val - a.val * b.val := by
  obtain ⟨a, b, h1, h2, h3, -⟩ := C34_mul_counterexample
  exact ⟨a, b, h1, h2, by rw [h1, h2, h3]; norm_num, C34_mul_mod128 a b⟩

/-- Non-vacuity of `C34_mul_partial` on operands with both words in use. -/
example : ¬ InWindow (I256.val ⟨5#128, 7#128⟩) ∧ ¬ InWindow (I256.val (ofInt (-3))) := by
  unfold InWindow
  have h1 : I256.val ⟨5#128, 7#128⟩ = 7 * 2 ^ 128 + 5 := by decide
  have h2 : I256.val (ofInt (-3)) = -3 := by decide
  rw [h1, h2]; norm_num

/-! ## C35 division and modulo -/

/-- C35: truncated division.  Missing: operands equal to the minimum `-2^255`, for which the claim is false
(`C35_div_counterexample`). -/
theorem C35_div_partial (a b : I256) (hb : b.val ≠ 0) (ha' : a.val ≠ -2 ^ 255) (hb' : b.val ≠ -2 ^ 255) :
    Ok (div a b) (fun q => q.val = a.val.tdiv b.val) := by
  unfold div
  exact Ok.bind (divmod_ok a b hb ha' hb') (fun s hs => Ok.ok hs.1)

theorem C35_mod_partial (a b : I256) (hb : b.val ≠ 0) (ha' : a.val ≠ -2 ^ 255) (hb' : b.val ≠ -2 ^ 255) :
    Ok (mod a b) (fun r => r.val = a.val.tmod b.val) := by
  unfold mod
  exact Ok.bind (divmod_ok a b hb ha' hb') (fun s hs => Ok.ok hs.2)

/-- Division by zero never returns (`std::abort`). -/
theorem C35_div_zero (a b : I256) (hb : b.val = 0) : div a b = .error .divZero := by
  have : b = ofInt 0 := val_inj (by rw [hb]; decide)
  subst this
  have h : ∀ x, udiv x (ofInt 0) = .error .divZero := by intro x; unfold udiv; rfl
  have e : lt (ofInt 0) (ofInt 0) = false := by decide
  unfold div divmod
  rw [e]
  simp only [h, Bool.false_eq_true, if_false, error_bind, ite_self]

/-- The code violates C35 at the minimum value: `1 / -2^255` returns `-3`, and `-2^255 / 3` shifts a
128-bit word by 128 (undefined). -/
theorem C35_div_counterexample :
    Ok (div (ofInt 1) minValue) (fun q => q.val = -3) ∧ minValue.val = -2 ^ 255 ∧
    div minValue (ofInt 3) = .error .shift := by
  refine ⟨⟨neg (ofInt 3), by decide +kernel, by decide +kernel⟩, by decide +kernel, by decide +kernel⟩

example : (ofInt (-7)).val ≠ -2 ^ 255 ∧ (ofInt 2).val ≠ 0 ∧ (ofInt 2).val ≠ -2 ^ 255 ∧
    div (ofInt (-7)) (ofInt 2) = .ok (ofInt (-3)) := by decide +kernel

/-! ## C36 comparisons -/

theorem C36_lt (a b : I256) : lt a b = true ↔ a.val < b.val := lt_iff a b

theorem C36_le (a b : I256) : le a b = true ↔ a.val ≤ b.val := by
  unfold le; rw [Bool.not_eq_true', ← Bool.not_eq_true, lt_iff]; omega

theorem C36_gt (a b : I256) : gt a b = true ↔ a.val > b.val := lt_iff b a

theorem C36_ge (a b : I256) : ge a b = true ↔ a.val ≥ b.val := by
  unfold ge; rw [Bool.not_eq_true', ← Bool.not_eq_true, lt_iff]; omega

theorem C36_eq (a b : I256) : eq a b = true ↔ a.val = b.val := by
  rw [eq_iff]; exact ⟨fun h => by rw [h], val_inj⟩

theorem C36_ne (a b : I256) : ne a b = true ↔ a.val ≠ b.val := by
  unfold ne; rw [Bool.not_eq_true', ← Bool.not_eq_true, C36_eq]

/-- `min_value()` and `max_value()` are the smallest and the largest `int256_t`, and represent `-2^255` and `2^255 - 1`. -/
theorem C36_limits (a : I256) : le minValue a = true ∧ le a maxValue = true ∧ minValue.val = -2 ^ 255 ∧ maxValue.val = 2 ^ 255 - 1 := by
  have h1 : minValue.val = -2 ^ 255 := by decide +kernel
  have h2 : maxValue.val = 2 ^ 255 - 1 := by decide +kernel
  have h3 := val_range a
  refine ⟨(C36_le _ _).2 (by rw [h1]; exact h3.1), (C36_le _ _).2 (by rw [h2]; have := h3.2; omega), h1, h2⟩

example : lt (ofInt (-1)) (ofInt 0) = true ∧ lt ⟨0#128, 1#128⟩ ⟨5#128, 0#128⟩ = false := by decide

/-! ## C37 shifts and conversions -/

/-- Left shift by 1..255 bits multiplies modulo `2^256`. -/
theorem C37_shl (a : I256) (k : ℕ) (h1 : 1 ≤ k) (h2 : k < 256) :
    Ok (shl a k) (fun r => r.val = wrap (a.val * 2 ^ k)) := by
  refine (nat_shl a k h1 h2).mono (fun r hr => val_eq_wrap ?_)
  rw [hr]
  have hv := val_emod a
  push_cast
  norm_num at hv ⊢
  rw [hv, Int.mul_emod, Int.emod_emod, ← Int.mul_emod]

/-- Right shift by 1..255 bits is the floor division of the unsigned 256-bit word. -/
theorem C37_shr (a : I256) (k : ℕ) (h1 : 1 ≤ k) (h2 : k < 256) :
    Ok (shr a k) (fun r => r.bits.toNat = a.bits.toNat / 2 ^ k) := by
  refine (nat_shr a k h1 h2).mono (fun r hr => ?_)
  rw [bits_toNat, bits_toNat, hr]

/-- On non-negative values `>>` is floor division. -/
theorem C37_shr_nonneg (a : I256) (k : ℕ) (h1 : 1 ≤ k) (h2 : k < 256) (h : 0 ≤ a.val) :
    Ok (shr a k) (fun r => r.val = a.val / 2 ^ k) := by
  refine (nat_shr a k h1 h2).mono (fun r hr => ?_)
  obtain ⟨e1, e2⟩ := nat_of_val_nonneg h
  have : r.nat < 2 ^ 255 := by rw [hr]; exact lt_of_le_of_lt (Nat.div_le_self _ _) e2
  rw [val_of_nat_lt this, hr, ← e1]
  push_cast; rfl

/-- Shifts outside 1..255 are undefined: by 0 the code shifts a 128-bit word by 128. -/
theorem C37_shift_undefined (a : I256) (k : ℕ) (h : k = 0 ∨ 256 ≤ k) :
    shl a k = .error .shift ∧ shr a k = .error .shift := by
  unfold shl shr shl128 shr128
  rcases h with rfl | h
  · exact ⟨rfl, rfl⟩
  · simp only [show k ≥ 128 by omega, if_true, show ¬ k - 128 < 128 by omega, if_false, error_bind,
      and_self]

theorem low_emod (a : I256) (w : ℕ) (hw : w ≤ 128) :
    (a.low.toNat : ℤ) % 2 ^ w = a.val % 2 ^ w := by
  have hd : (2 : ℤ) ^ w ∣ 2 ^ 128 := pow_dvd_pow 2 hw
  obtain ⟨c, hc⟩ := hd
  have : a.val = a.low.toNat + 2 ^ 128 * (a.high.toNat + if a.nat < 2 ^ 255 then 0 else - 2 ^ 128) := by
    rw [val_eq]; unfold nat
    split <;> push_cast <;> ring
  rw [this, hc, mul_assoc, Int.add_mul_emod_self_left]

/-- Conversion to an unsigned type of width `w` keeps the value modulo `2^w`. -/
theorem C37_toUnsigned (a : I256) (w : ℕ) (hw : w ≤ 128) :
    toUnsigned w a = BitVec.ofInt w a.val := by
  unfold toUnsigned
  apply BitVec.eq_of_toNat_eq
  rw [BitVec.toNat_ofNat, BitVec.toNat_ofInt]
  have := low_emod a w hw
  zify
  rw [this, Int.toNat_of_nonneg]
  exact Int.emod_nonneg _ (by positivity)

/-- Conversion to a signed type of width `w` keeps the value modulo `2^w`, except that for `w >= 32`
a negative value congruent to `2^(w-1)` makes the code negate the minimum (undefined). -/
theorem C37_toSigned (a : I256) (w : ℕ) (h1 : 1 ≤ w) (hw : w ≤ 128)
    (hmin : ¬ (32 ≤ w ∧ a.val < 0 ∧ a.val % 2 ^ w = 2 ^ (w - 1))) :
    toSigned w a = .ok (BitVec.ofInt w a.val) := by
  have h0 : (ofInt 0).val = 0 := by decide
  have hu := C37_toUnsigned a w hw
  unfold toUnsigned at hu
  unfold toSigned
  have hneg : (BitVec.ofNat w ((a.low - 1#128) ^^^ (BitVec.allOnes 128)).toNat) =
      - (BitVec.ofNat w a.low.toNat) := by
    have e : (a.low - 1#128) ^^^ (BitVec.allOnes 128) = - a.low := by
      rw [BitVec.xor_allOnes, BitVec.not_eq_neg_add]
      bv_omega
    rw [e]
    apply BitVec.eq_of_toNat_eq
    simp only [BitVec.toNat_ofNat, BitVec.toNat_neg]
    have hd : 2 ^ w ∣ 2 ^ 128 := Nat.pow_dvd_pow 2 hw
    rw [Nat.mod_mod_of_dvd _ hd]
    obtain ⟨c, hc⟩ := hd
    have hl := a.low.isLt
    have hm := Nat.mod_lt a.low.toNat (show 0 < 2 ^ w by positivity)
    have hdm := Nat.div_add_mod a.low.toNat (2 ^ w)
    have hq : a.low.toNat / 2 ^ w ≤ c := by
      apply Nat.div_le_of_le_mul
      rw [← hc]; omega
    rcases Nat.eq_or_lt_of_le hq with hq' | hq'
    · exfalso
      rw [hq', ← hc] at hdm
      omega
    · obtain ⟨t, ht⟩ : ∃ t, c = a.low.toNat / 2 ^ w + 1 + t := ⟨c - (a.low.toNat / 2 ^ w + 1), by omega⟩
      have : 2 ^ 128 - a.low.toNat = (2 ^ w - a.low.toNat % 2 ^ w) + 2 ^ w * t := by
        rw [hc, ht]
        have : 2 ^ w * (a.low.toNat / 2 ^ w + 1 + t) =
          2 ^ w * (a.low.toNat / 2 ^ w) + 2 ^ w + 2 ^ w * t := by ring
        omega
      rw [this, Nat.add_mul_mod_self_left]
  have hlt : lt a (ofInt 0) = true ↔ a.val < 0 := by rw [lt_iff, h0]
  split
  · rename_i hc
    rw [hlt] at hc
    simp only [hneg]
    rw [if_neg, hu, BitVec.neg_neg]
    rintro ⟨h32, hmn⟩
    apply hmin
    refine ⟨h32, hc, ?_⟩
    have hmn' : BitVec.ofInt w a.val = BitVec.intMin w := by
      rw [← hu, ← BitVec.neg_neg (x := BitVec.ofNat w a.low.toNat), hmn, BitVec.neg_intMin]
    have := congrArg BitVec.toNat hmn'
    rw [BitVec.toNat_ofInt, BitVec.toNat_intMin_of_pos h1] at this
    zify at this
    rw [Int.toNat_of_nonneg (Int.emod_nonneg _ (by positivity))] at this
    exact this
  · rw [hu]

/-- A conversion that is undefined although the value `-2^63` fits `int64_t`. -/
theorem C37_toSigned_counterexample :
    (ofInt (-2 ^ 63)).val = -2 ^ 63 ∧ toSigned 64 (ofInt (-2 ^ 63)) = .error .overflow := by
  refine ⟨by decide, by decide⟩

example : ¬ (32 ≤ 64 ∧ (ofInt (-5)).val < 0 ∧ (ofInt (-5)).val % 2 ^ 64 = 2 ^ (64 - 1)) ∧
    toSigned 64 (ofInt (-5)) = .ok (BitVec.ofInt 64 (-5)) := by decide

/-! ## C38 printing -/

/-- C38 for `int256_t`; missing: the minimum value (`C38_print_counterexample`). -/
theorem C38_print256_partial (n : I256) (h : n.val ≠ -2 ^ 255) : print n = .ok (decimal n.val) :=
  print_ok n h

/-- The minimum value prints as `-0`. -/
theorem C38_print_counterexample : minValue.val = -2 ^ 255 ∧ print minValue = .ok ['-', '0'] := by
  refine ⟨by decide +kernel, by decide +kernel⟩

theorem C38_printU128 (n : ℕ) (h : n < 2 ^ 128) : I128.printU n = .ok (decimal n) := by
  rw [I128.printU_ok n h]; rfl

/-- C38 for `int128_t`; missing: the minimum, whose negation overflows. -/
theorem C38_printS128_partial (n : ℤ) (h : -2 ^ 127 < n) (h2 : n < 2 ^ 127) :
    I128.printS n = .ok (decimal n) := I128.printS_ok n h h2

theorem C38_printS128_counterexample : I128.printS (-2 ^ 127) = .error .overflow := by decide

/-- Reading the printed digits back gives the number. -/
theorem C38_read_back (n : ℕ) : Nat.ofDigitChars 10 (decimal n) 0 = n := by
  unfold decimal
  rw [if_neg (by omega)]
  simp

example : print (ofInt (-1203)) = .ok ['-', '1', '2', '0', '3'] := by decide +kernel

end PS.I256
