import Verif.Props.Int256

namespace PS.I256

/-- The default constructor gives 0.  The private copies of a sum in a reduction with `+` start with it, since the declaration of
the reduction (include/int256_t.hpp:658) has no initializer; the models start with `ofInt 0`. -/
theorem C33_zero : zero = ofInt 0 ∧ zero.val = 0 := by decide +kernel

/-! ## C37: bitwise operators -/

/-- Bit `i` of the two's complement representation of `v`, which has infinitely many bits. -/
def BitOf (v : ℤ) (i : ℕ) : Prop := v / 2 ^ i % 2 = 1

theorem bitOf_min (a : I256) (i : ℕ) : BitOf a.val i ↔ a.bits.getLsbD (min i 255) = true := by
  rw [BitVec.getLsbD, Nat.testBit_eq_decide_div_mod_eq, decide_eq_true_eq, bits_toNat]
  have h := val_eq a
  have hn := nat_lt a
  unfold BitOf
  rw [h]
  generalize a.nat = n at *
  rcases Nat.lt_or_ge i 256 with hi | hi
  · rw [show min i 255 = i by omega]
    have e : (2 : ℤ) ^ 256 = 2 ^ i * (2 * 2 ^ (255 - i)) := by
      rw [← pow_succ', ← pow_add]; congr 1; omega
    have h2 : (if n < 2 ^ 255 then (n : ℤ) else (n : ℤ) - 2 ^ 256) / 2 ^ i % 2 = (n : ℤ) / 2 ^ i % 2 := by
      split
      · rfl
      · rw [e, show (n : ℤ) - (2 ^ i * (2 * 2 ^ (255 - i))) = n + 2 ^ i * (-(2 * 2 ^ (255 - i))) by ring,
          Int.add_mul_ediv_left _ _ (by positivity)]
        omega
    rw [h2]
    norm_cast
  · rw [show min i 255 = 255 by omega]
    have hp : (2 : ℤ) ^ 256 ≤ 2 ^ i := pow_le_pow_right₀ (by norm_num) hi
    split
    · rename_i h1
      rw [Int.ediv_eq_zero_of_lt (by omega) (by omega), Nat.div_eq_of_lt h1]
      simp
    · rename_i h1
      have h2 : ((n : ℤ) - 2 ^ 256) / 2 ^ i = -1 := by
        rw [Int.ediv_eq_iff_of_pos (by positivity)]
        constructor <;> omega
      have h3 : n / 2 ^ 255 = 1 := by omega
      rw [h3]
      omega

theorem bits_getLsbD (a : I256) (i : ℕ) :
    a.bits.getLsbD i = if i < 128 then a.low.getLsbD i else a.high.getLsbD (i - 128) := BitVec.getLsbD_append

theorem bits_and (a b : I256) : (and a b).bits = a.bits &&& b.bits := by
  apply BitVec.eq_of_getLsbD_eq
  intro i _
  rw [BitVec.getLsbD_and, bits_getLsbD, bits_getLsbD, bits_getLsbD]
  unfold and
  split <;> simp

theorem bits_or (a b : I256) : (or a b).bits = a.bits ||| b.bits := by
  apply BitVec.eq_of_getLsbD_eq
  intro i _
  rw [BitVec.getLsbD_or, bits_getLsbD, bits_getLsbD, bits_getLsbD]
  unfold or
  split <;> simp

theorem bits_xor (a b : I256) : (xor a b).bits = a.bits ^^^ b.bits := by
  apply BitVec.eq_of_getLsbD_eq
  intro i _
  rw [BitVec.getLsbD_xor, bits_getLsbD, bits_getLsbD, bits_getLsbD]
  unfold xor
  split <;> simp

/-- `&`, `|` and `^` act on every bit of the two's complement representation. -/
theorem C37_and (a b : I256) (i : ℕ) : BitOf (and a b).val i ↔ BitOf a.val i ∧ BitOf b.val i := by
  simp only [bitOf_min, bits_and, BitVec.getLsbD_and, Bool.and_eq_true]

theorem C37_or (a b : I256) (i : ℕ) : BitOf (or a b).val i ↔ BitOf a.val i ∨ BitOf b.val i := by
  simp only [bitOf_min, bits_or, BitVec.getLsbD_or, Bool.or_eq_true]

theorem C37_xor (a b : I256) (i : ℕ) : BitOf (xor a b).val i ↔ ¬ (BitOf a.val i ↔ BitOf b.val i) := by
  rw [bitOf_min, bitOf_min, bitOf_min, bits_xor, BitVec.getLsbD_xor]
  cases a.bits.getLsbD (min i 255) <;> cases b.bits.getLsbD (min i 255) <;> simp

/-- The bits determine the number. -/
theorem C37_bits (a b : I256) (h : ∀ i, BitOf a.val i ↔ BitOf b.val i) : a.val = b.val := by
  have : a.bits = b.bits := by
    apply BitVec.eq_of_getLsbD_eq
    intro i hi
    have := h i
    rw [bitOf_min, bitOf_min, show min i 255 = i by omega] at this
    exact Bool.eq_iff_iff.2 this
  unfold val
  rw [this]

example : (and (ofInt (-6)) (ofInt 11)).val = 10 ∧ (or (ofInt (-6)) (ofInt 11)).val = -5 ∧
    (xor (ofInt (-6)) (ofInt 11)).val = -15 := by decide +kernel
example : BitOf 10 3 ∧ ¬ BitOf 10 2 ∧ BitOf (-6) 300 := by unfold BitOf; decide +kernel

end PS.I256
