import Verif.Spec.Int256
import Mathlib.Tactic.Ring
import Mathlib.Tactic.Linarith
import Mathlib.Tactic.NormNum

namespace PS.I256

/-- Value of the two words as a natural number. -/
def nat (a : I256) : Nat := a.low.toNat + 2 ^ 128 * a.high.toNat

theorem bits_toNat (a : I256) : a.bits.toNat = a.nat := by
  unfold bits nat
  rw [BitVec.toNat_append, ← Nat.shiftLeft_add_eq_or_of_lt a.low.isLt, Nat.shiftLeft_eq]
  omega

theorem nat_lt (a : I256) : a.nat < 2 ^ 256 := by
  rw [← bits_toNat]; exact a.bits.isLt

theorem bits_inj {a b : I256} (h : a.bits = b.bits) : a = b := by
  have h1 : a.nat = b.nat := by rw [← bits_toNat, ← bits_toNat, h]
  unfold nat at h1
  have := a.low.isLt
  have := b.low.isLt
  obtain ⟨al, ah⟩ := a
  obtain ⟨bl, bh⟩ := b
  simp only at *
  congr 1 <;> apply BitVec.eq_of_toNat_eq <;> omega

theorem nat_inj {a b : I256} (h : a.nat = b.nat) : a = b := by
  apply bits_inj; apply BitVec.eq_of_toNat_eq; rw [bits_toNat, bits_toNat, h]

theorem val_eq_bmod (a : I256) : a.val = (a.nat : Int).bmod (2 ^ 256) := by
  unfold val
  rw [BitVec.toInt_eq_toNat_bmod, bits_toNat]

theorem val_eq (a : I256) :
    a.val = if a.nat < 2 ^ 255 then (a.nat : Int) else (a.nat : Int) - 2 ^ 256 := by
  unfold val
  rw [BitVec.toInt_eq_toNat_cond, bits_toNat]
  have := a.nat_lt
  split <;> split <;> simp <;> omega

theorem val_inj {a b : I256} (h : a.val = b.val) : a = b :=
  bits_inj (BitVec.toInt_inj.1 h)

theorem val_range (a : I256) : InRange a.val := by
  have := a.nat_lt
  unfold InRange
  rw [val_eq]; split <;> omega

theorem val_emod (a : I256) : (a.nat : Int) = a.val % 2 ^ 256 := by
  have := a.nat_lt
  rw [val_eq]; split <;> omega

theorem wrap_of_inRange {x : Int} (h : InRange x) : wrap x = x := by
  unfold wrap InRange at *
  rw [Int.bmod_def]
  split <;> omega

/-- Congruent naturals give the same wrapped value. -/
theorem val_eq_wrap {a : I256} {x : Int} (h : (a.nat : Int) % 2 ^ 256 = x % 2 ^ 256) :
    a.val = wrap x := by
  rw [val_eq_bmod]
  unfold wrap
  rw [Int.bmod_def, Int.bmod_def]
  norm_num at h ⊢
  rw [h]

theorem wrap_emod (x : Int) : wrap x % 2 ^ 256 = x % 2 ^ 256 := by
  unfold wrap
  have := Int.emod_bmod (x := x) (n := 2 ^ 256)
  rw [Int.bmod_def]
  split <;> omega

theorem wrap_congr {x y : Int} (h : x % 2 ^ 256 = y % 2 ^ 256) : wrap x = wrap y := by
  unfold wrap
  rw [Int.bmod_def, Int.bmod_def]
  norm_num at h ⊢
  rw [h]

/-! ## Constructors -/

theorem nat_ofInt (x : Int) (h : -2 ^ 127 ≤ x) (h2 : x < 2 ^ 128) :
    ((ofInt x).nat : Int) = x % 2 ^ 256 := by
  unfold ofInt nat
  simp only [BitVec.toNat_ofInt]
  split
  · simp only [BitVec.toNat_ofInt]
    norm_num
    omega
  · norm_num
    omega

theorem val_ofInt (x : Int) (h : -2 ^ 127 ≤ x) (h2 : x < 2 ^ 128) : (ofInt x).val = x := by
  rw [val_eq_wrap (x := x) (by rw [nat_ofInt x h h2]; omega)]
  exact wrap_of_inRange ⟨by omega, by omega⟩

@[simp] theorem nat_zero : (ofInt 0).nat = 0 := by decide
@[simp] theorem nat_one : (ofInt 1).nat = 1 := by decide
@[simp] theorem nat_ten : (ofInt 10).nat = 10 := by decide

/-! ## Addition and friends -/

theorem nat_add (a b : I256) : (add a b).nat = (a.nat + b.nat) % 2 ^ 256 := by
  obtain ⟨al, ah⟩ := a
  obtain ⟨bl, bh⟩ := b
  unfold add nat
  have := al.isLt; have := bl.isLt; have := ah.isLt; have := bh.isLt
  simp only [BitVec.ult]
  split <;> rename_i h <;> simp only [decide_eq_true_eq, BitVec.toNat_add, BitVec.toNat_ofNat] at * <;> omega

theorem nat_sub (a b : I256) : (sub a b).nat = (a.nat + (2 ^ 256 - b.nat)) % 2 ^ 256 := by
  obtain ⟨al, ah⟩ := a
  obtain ⟨bl, bh⟩ := b
  unfold sub nat
  have := al.isLt; have := bl.isLt; have := ah.isLt; have := bh.isLt
  simp only [BitVec.ult]
  split <;> rename_i h <;> simp only [decide_eq_true_eq, BitVec.toNat_sub, BitVec.toNat_ofNat] at * <;> omega

theorem nat_not (a : I256) : (not a).nat = 2 ^ 256 - 1 - a.nat := by
  obtain ⟨al, ah⟩ := a
  unfold not nat
  have := al.isLt; have := ah.isLt
  simp only [BitVec.toNat_not]
  omega

theorem nat_inc (a : I256) : (inc a).nat = (a.nat + 1) % 2 ^ 256 := by
  obtain ⟨al, ah⟩ := a
  unfold inc nat
  have := al.isLt; have := ah.isLt
  simp only [← BitVec.toNat_inj]
  split <;> rename_i h <;> simp only [BitVec.toNat_add, BitVec.toNat_ofNat] at * <;> omega

theorem nat_dec (a : I256) : (dec a).nat = (a.nat + (2 ^ 256 - 1)) % 2 ^ 256 := by
  obtain ⟨al, ah⟩ := a
  unfold dec nat
  have := al.isLt; have := ah.isLt
  simp only [← BitVec.toNat_inj]
  split <;> rename_i h <;> simp only [BitVec.toNat_sub, BitVec.toNat_ofNat] at * <;> omega

theorem nat_neg (a : I256) : (neg a).nat = (2 ^ 256 - a.nat) % 2 ^ 256 := by
  unfold neg
  have := a.nat_lt
  rw [nat_inc, nat_not]
  omega

/-! ## Multiplication -/

theorem mulFast_iff (a b : I256) : mulFast a b = true ↔
    a.low.toNat < 2 ^ 64 ∧ b.low.toNat < 2 ^ 64 ∧
      (a.high.toNat = 0 ∨ a.high.toNat = 2 ^ 128 - 1) ∧
      (b.high.toNat = 0 ∨ b.high.toNat = 2 ^ 128 - 1) := by
  have := a.high.isLt
  have := b.high.isLt
  unfold mulFast max64
  simp only [Bool.and_eq_true, Bool.or_eq_true, BitVec.ule, decide_eq_true_eq, beq_iff_eq,
    ← BitVec.toNat_inj, BitVec.toNat_not, BitVec.toNat_ofNat]
  omega

theorem max64_and (x : BitVec 128) : (x &&& max64).toNat = x.toNat % 2 ^ 64 := by
  unfold max64
  rw [BitVec.toNat_and]
  have : (0xFFFFFFFFFFFFFFFF#128).toNat = 2 ^ 64 - 1 := by decide
  rw [this, Nat.and_two_pow_sub_one_eq_mod]

theorem nat_shift64 (y : BitVec 128) :
    nat ⟨y <<< 64, y >>> 64⟩ = y.toNat * 2 ^ 64 := by
  unfold nat
  simp only [BitVec.toNat_shiftLeft, BitVec.toNat_ushiftRight, Nat.shiftLeft_eq, Nat.shiftRight_eq_div_pow]
  have := y.isLt
  omega

theorem mul_expand (al ah bl bh H H' : Nat) :
    (al + 2 ^ 64 * ah + 2 ^ 128 * H) * (bl + 2 ^ 64 * bh + 2 ^ 128 * H') =
      al * bl + 2 ^ 64 * (al * bh) + 2 ^ 64 * (ah * bl) +
      2 ^ 128 * (ah * bh + (al + 2 ^ 64 * ah) * H' + H * (bl + 2 ^ 64 * bh)) +
      2 ^ 256 * (H * H') := by
  ring

/-- The general path is always right. -/
theorem nat_mul_slow (a b : I256) (h : mulFast a b = false) :
    (mul a b).nat = (a.nat * b.nat) % 2 ^ 256 := by
  obtain ⟨L, H⟩ := a
  obtain ⟨L', H'⟩ := b
  unfold mul
  rw [h]
  simp only [Bool.false_eq_true, if_false]
  rw [nat_add, nat_add, nat_shift64, nat_shift64]
  have hL := L.isLt; have hL' := L'.isLt; have hH := H.isLt; have hH' := H'.isLt
  unfold nat
  simp only [BitVec.toNat_mul, BitVec.toNat_add, max64_and, BitVec.toNat_ushiftRight,
    Nat.shiftRight_eq_div_pow]
  generalize ha : L.toNat % 2 ^ 64 = al at *
  generalize ha' : L.toNat / 2 ^ 64 = ah at *
  generalize hb : L'.toNat % 2 ^ 64 = bl at *
  generalize hb' : L'.toNat / 2 ^ 64 = bh at *
  have eL : L.toNat = al + 2 ^ 64 * ah := by omega
  have eL' : L'.toNat = bl + 2 ^ 64 * bh := by omega
  rw [eL, eL', mul_expand]
  have hal : al ≤ 2 ^ 64 - 1 := by omega
  have hah : ah ≤ 2 ^ 64 - 1 := by omega
  have hbl : bl ≤ 2 ^ 64 - 1 := by omega
  have hbh : bh ≤ 2 ^ 64 - 1 := by omega
  have p1 := Nat.mul_le_mul hal hbl
  have p2 := Nat.mul_le_mul hal hbh
  have p3 := Nat.mul_le_mul hah hbl
  have p4 := Nat.mul_le_mul hah hbh
  generalize al * bl = x at *
  generalize al * bh = y at *
  generalize ah * bl = z at *
  generalize ah * bh = w at *
  generalize (al + 2 ^ 64 * ah) * H'.toNat = u at *
  generalize H.toNat * (bl + 2 ^ 64 * bh) = v at *
  generalize H.toNat * H'.toNat = t at *
  clear eL eL' ha ha' hb hb' h hL hL' hH hH' hal hah hbl hbh
  omega

/-- The fast path: the product of the low words, with a high word that only looks at the signs. -/
theorem nat_mul_fast (a b : I256) (h : mulFast a b = true) :
    (mul a b).nat = a.low.toNat * b.low.toNat +
      2 ^ 128 * (if a.high = b.high then 0 else 2 ^ 128 - 1) := by
  have h' := (mulFast_iff a b).1 h
  unfold mul
  rw [h]
  simp only [if_true, nat, BitVec.toNat_mul, beq_iff_eq]
  have p := Nat.mul_le_mul (show a.low.toNat ≤ 2 ^ 64 - 1 by omega)
    (show b.low.toNat ≤ 2 ^ 64 - 1 by omega)
  rw [Nat.mod_eq_of_lt (by omega)]
  split
  · rfl
  · rfl

/-! ## Comparisons -/

theorem lt_iff (a b : I256) : lt a b = true ↔ a.val < b.val := by
  rw [val_eq, val_eq]
  obtain ⟨al, ah⟩ := a
  obtain ⟨bl, bh⟩ := b
  have := al.isLt; have := bl.isLt; have := ah.isLt; have := bh.isLt
  unfold lt nat
  simp only [Bool.or_eq_true, Bool.and_eq_true, BitVec.slt, BitVec.ult, decide_eq_true_eq, beq_iff_eq,
    BitVec.toInt_eq_toNat_cond, ← BitVec.toNat_inj]
  split <;> split <;> split <;> split <;> omega

theorem eq_iff (a b : I256) : eq a b = true ↔ a = b := by
  obtain ⟨al, ah⟩ := a
  obtain ⟨bl, bh⟩ := b
  simp [eq]

/-! ## Shifts -/

theorem nat_shl (a : I256) (k : Nat) (h1 : 1 ≤ k) (h2 : k < 256) :
    Ok (shl a k) (fun r => r.nat = a.nat * 2 ^ k % 2 ^ 256) := by
  unfold shl shl128 shr128
  by_cases hk : k ≥ 128
  · simp only [hk, if_true, show k - 128 < 128 by omega]
    refine Ok.ok ?_
    unfold nat
    simp only [BitVec.toNat_shiftLeft, Nat.shiftLeft_eq, BitVec.toNat_ofNat]
    obtain ⟨j, rfl⟩ : ∃ j, k = 128 + j := ⟨k - 128, by omega⟩
    rw [show 128 + j - 128 = j by omega]
    have e : (a.low.toNat + 2 ^ 128 * a.high.toNat) * 2 ^ (128 + j) =
        2 ^ 128 * (a.low.toNat * 2 ^ j) + 2 ^ 256 * (a.high.toNat * 2 ^ j) := by
      rw [Nat.pow_add]; ring
    rw [e]
    omega
  · simp only [hk, if_false, show k < 128 by omega, show 128 - k < 128 by omega, if_true]
    refine Ok.ok ?_
    have hlt : a.low.toNat / 2 ^ (128 - k) < 2 ^ k := by
      rw [Nat.div_lt_iff_lt_mul (by positivity), ← Nat.pow_add, show k + (128 - k) = 128 by omega]
      exact a.low.isLt
    have hor : (a.high <<< k ||| a.low >>> (128 - k)).toNat =
        a.high.toNat * 2 ^ k % 2 ^ 128 + a.low.toNat / 2 ^ (128 - k) := by
      have e1 : (a.high <<< k).toNat = (a.high.toNat % 2 ^ (128 - k)) <<< k := by
        rw [BitVec.toNat_shiftLeft, Nat.shiftLeft_eq, Nat.shiftLeft_eq]
        conv_lhs => rw [show (2:ℕ) ^ 128 = 2 ^ (128 - k) * 2 ^ k by rw [← Nat.pow_add]; congr 1; omega]
        rw [Nat.mul_mod_mul_right]
      rw [BitVec.toNat_or, e1, BitVec.toNat_ushiftRight, Nat.shiftRight_eq_div_pow,
        ← Nat.shiftLeft_add_eq_or_of_lt hlt, ← e1, BitVec.toNat_shiftLeft, Nat.shiftLeft_eq]
    unfold nat
    simp only [hor, BitVec.toNat_shiftLeft, Nat.shiftLeft_eq]
    have e2 : a.low.toNat * 2 ^ k = a.low.toNat * 2 ^ k % 2 ^ 128 + 2 ^ 128 * (a.low.toNat / 2 ^ (128 - k)) := by
      have : a.low.toNat * 2 ^ k / 2 ^ 128 = a.low.toNat / 2 ^ (128 - k) := by
        conv_lhs => rw [show (2:ℕ) ^ 128 = 2 ^ (128 - k) * 2 ^ k by rw [← Nat.pow_add]; congr 1; omega]
        exact Nat.mul_div_mul_right _ _ (by positivity)
      rw [← this]; omega
    have e3 : (a.low.toNat + 2 ^ 128 * a.high.toNat) * 2 ^ k =
        a.low.toNat * 2 ^ k + 2 ^ 128 * (a.high.toNat * 2 ^ k) := by ring
    rw [e3, e2]
    have hlt2 : a.low.toNat / 2 ^ (128 - k) < 2 ^ 128 :=
      lt_of_lt_of_le hlt (Nat.pow_le_pow_right (by omega) (by omega))
    have hle : a.high.toNat * 2 ^ k % 2 ^ 128 + a.low.toNat / 2 ^ (128 - k) < 2 ^ 128 := by
      rw [← hor]; exact BitVec.isLt _
    have hu := Nat.mod_lt (a.low.toNat * 2 ^ k) (show 0 < 2 ^ 128 by positivity)
    generalize a.low.toNat * 2 ^ k % 2 ^ 128 = u at *
    generalize a.low.toNat / 2 ^ (128 - k) = v at *
    generalize a.high.toNat * 2 ^ k = w at *
    clear e2 e3 hor
    omega

theorem nat_shr (a : I256) (k : Nat) (h1 : 1 ≤ k) (h2 : k < 256) :
    Ok (shr a k) (fun r => r.nat = a.nat / 2 ^ k) := by
  unfold shr shl128 shr128
  have hl := a.low.isLt
  have hh := a.high.isLt
  by_cases hk : k ≥ 128
  · simp only [hk, if_true, show k - 128 < 128 by omega]
    refine Ok.ok ?_
    unfold nat
    simp only [BitVec.toNat_ushiftRight, Nat.shiftRight_eq_div_pow, BitVec.toNat_ofNat]
    obtain ⟨j, rfl⟩ : ∃ j, k = 128 + j := ⟨k - 128, by omega⟩
    rw [show 128 + j - 128 = j by omega, Nat.pow_add, ← Nat.div_div_eq_div_mul]
    rw [show (a.low.toNat + 2 ^ 128 * a.high.toNat) / 2 ^ 128 = a.high.toNat by omega]
    omega
  · simp only [hk, if_false, show k < 128 by omega, show 128 - k < 128 by omega, if_true]
    refine Ok.ok ?_
    have hlt : a.low.toNat / 2 ^ k < 2 ^ (128 - k) := by
      rw [Nat.div_lt_iff_lt_mul (by positivity), ← Nat.pow_add, show 128 - k + k = 128 by omega]
      exact hl
    have hor : (a.low >>> k ||| a.high <<< (128 - k)).toNat =
        a.low.toNat / 2 ^ k + (a.high.toNat % 2 ^ k) * 2 ^ (128 - k) := by
      have e1 : (a.high <<< (128 - k)).toNat = (a.high.toNat % 2 ^ k) <<< (128 - k) := by
        rw [BitVec.toNat_shiftLeft, Nat.shiftLeft_eq, Nat.shiftLeft_eq]
        conv_lhs => rw [show (2:ℕ) ^ 128 = 2 ^ k * 2 ^ (128 - k) by rw [← Nat.pow_add]; congr 1; omega]
        rw [Nat.mul_mod_mul_right]
      rw [BitVec.toNat_or, e1, BitVec.toNat_ushiftRight, Nat.shiftRight_eq_div_pow, Nat.or_comm,
        ← Nat.shiftLeft_add_eq_or_of_lt hlt, Nat.shiftLeft_eq]
      omega
    unfold nat
    simp only [hor, BitVec.toNat_ushiftRight, Nat.shiftRight_eq_div_pow]
    have e2 : a.high.toNat = a.high.toNat % 2 ^ k + 2 ^ k * (a.high.toNat / 2 ^ k) :=
      (Nat.mod_add_div _ _).symm
    have e3 : a.low.toNat + 2 ^ 128 * a.high.toNat =
        a.low.toNat + 2 ^ k * ((a.high.toNat % 2 ^ k) * 2 ^ (128 - k) + 2 ^ 128 * (a.high.toNat / 2 ^ k)) := by
      conv_lhs => rw [e2]
      have : (2:ℕ) ^ 128 = 2 ^ k * 2 ^ (128 - k) := by rw [← Nat.pow_add]; congr 1; omega
      rw [Nat.mul_add (2 ^ 128)]
      conv_lhs => rw [this]
      rw [this]
      ring
    rw [e3, Nat.add_mul_div_left _ _ (by positivity)]
    omega

end PS.I256
