import Verif.Proof.Libdivide
import Verif.Proof.LibdividePort

/-!
# Properties C47 and C62: division by a libdivide branch-free divider
-/

namespace PS

/-- For every 64-bit `n` and every 64-bit divisor `d ≥ 2`: building a divider succeeds and dividing with it
gives `⌊n / d⌋`. -/
theorem C47_libdivide (n d : ℕ) (hn : n < 2 ^ 64) (hd : 2 ≤ d) (hd64 : d < 2 ^ 64) :
    Ok (Libdivide.gen d) (fun v => Libdivide.run n v = n / d) := Libdivide.libdivide_ok hn hd hd64

/-- The divider fits its fields: a 64-bit magic number and a shift below 64. -/
theorem C47_shift_defined (d : ℕ) (hd : 2 ≤ d) (hd64 : d < 2 ^ 64) :
    Ok (Libdivide.gen d) (fun v => v.magic < 2 ^ 64 ∧ v.more < 64) := by
  obtain ⟨v, hv, _⟩ := Libdivide.libdivide_ok (n := 0) (by norm_num) hd hd64
  refine ⟨v, hv, ?_⟩
  have hand : ∀ k : ℕ, k &&& 0x3f < 64 := fun k => lt_of_le_of_lt Nat.and_le_right (by norm_num)
  unfold Libdivide.gen at hv
  rw [if_neg (by omega), if_neg (by omega)] at hv
  dsimp only at hv
  split at hv
  · injection hv with hv
    subst hv
    exact ⟨by norm_num, hand _⟩
  · unfold Libdivide.div128 at hv
    split at hv
    · simp [error_bind] at hv
    · simp only [ok_bind, pure_eq_ok] at hv
      injection hv with hv
      subst hv
      exact ⟨Nat.mod_lt _ (by norm_num), hand _⟩

/-- The divisors 0 and 1 are rejected. -/
theorem C47_rejects : (∃ m, Libdivide.gen 0 = .error (.thrown m)) ∧ (∃ m, Libdivide.gen 1 = .error (.thrown m)) :=
  ⟨⟨_, rfl⟩, ⟨_, rfl⟩⟩

/-- Non-vacuity: a concrete divider. -/
example : Ok (Libdivide.gen 7) (fun v => Libdivide.run (2 ^ 64 - 1) v = 2635249153387078802) :=
  C47_libdivide (2 ^ 64 - 1) 7 (by norm_num) (by norm_num) (by norm_num)

/-- C62: in a build without 128-bit integers, for every dividend `{u1, u0}` and every 64-bit divisor `v > u1`,
the long division with 32-bit digits returns the exact quotient and remainder. -/
theorem C62_long_division (u1 u0 v : ℕ) (h1 : u1 < v) (h0 : u0 < 2 ^ 64) (hv : v < 2 ^ 64) :
    Libdivide.Port.div128 u1 u0 v = .ok ((u1 * 2 ^ 64 + u0) / v, (u1 * 2 ^ 64 + u0) % v) := by
  rw [Libdivide.Port.div128_eq h1 h0 hv, Libdivide.div128, if_neg (by omega)]

/-- C62: the portable high product is the high half of the 128-bit product. -/
theorem C62_high_product (x y : ℕ) (hx : x < 2 ^ 64) (hy : y < 2 ^ 64) :
    Libdivide.Port.mullhi x y = x * y / 2 ^ 64 := Libdivide.Port.mullhi_eq hx hy

/-- C62: the portable count of leading zeros of a non-zero word: shifting it left by that many bits makes its
top bit 1 without losing a bit. -/
theorem C62_leading_zeros (v : ℕ) (h0 : 0 < v) (hv : v < 2 ^ 64) :
    Ok (Libdivide.Port.clz64 v) (fun s => s < 64 ∧ 2 ^ 63 ≤ v * 2 ^ s ∧ v * 2 ^ s < 2 ^ 64) := by
  refine ⟨_, Libdivide.Port.clz64_ok h0 hv, ?_⟩
  have hlog : Nat.log2 v < 64 := (Nat.log2_lt (by omega)).mpr hv
  have hle : 2 ^ Nat.log2 v ≤ v := Nat.log2_self_le (by omega)
  have hlt : v < 2 ^ (Nat.log2 v + 1) := Nat.lt_log2_self
  have e1 : 2 ^ Nat.log2 v * 2 ^ (63 - Nat.log2 v) = 2 ^ 63 := by rw [← pow_add]; congr 1; omega
  have e2 : 2 ^ (Nat.log2 v + 1) * 2 ^ (63 - Nat.log2 v) = 2 ^ 64 := by rw [← pow_add]; congr 1; omega
  exact ⟨by omega, e1 ▸ Nat.mul_le_mul_right _ hle, e2 ▸ Nat.mul_lt_mul_of_pos_right hlt (by positivity)⟩

/-- C62: a divider built and used with the portable helpers divides exactly. -/
theorem C62_libdivide (n d : ℕ) (hn : n < 2 ^ 64) (hd : 2 ≤ d) (hd64 : d < 2 ^ 64) :
    Ok (Libdivide.Port.gen d) (fun v => Libdivide.Port.run n v = n / d) := by
  obtain ⟨v, hv, h1, _⟩ := C47_shift_defined d hd hd64
  obtain ⟨v', hv', h2⟩ := C47_libdivide n d hn hd hd64
  rw [hv] at hv'
  injection hv' with hv'
  subst hv'
  refine ⟨v, by rw [Libdivide.Port.gen_eq hd64, hv], ?_⟩
  rw [← h2]
  dsimp only
  unfold Libdivide.Port.run Libdivide.run
  rw [Libdivide.Port.mullhi_eq h1 hn]

/-- Non-vacuity: both correction steps of the long division are taken. -/
example : Libdivide.Port.div128 (2 ^ 63) 0 (2 ^ 63 + 2 ^ 32 - 1) =
    .ok ((2 ^ 63 * 2 ^ 64) / (2 ^ 63 + 2 ^ 32 - 1), (2 ^ 63 * 2 ^ 64) % (2 ^ 63 + 2 ^ 32 - 1)) :=
  C62_long_division (2 ^ 63) 0 (2 ^ 63 + 2 ^ 32 - 1) (by norm_num) (by norm_num) (by norm_num)

example : Ok (Libdivide.Port.gen 7) (fun v => Libdivide.Port.run (2 ^ 64 - 1) v = 2635249153387078802) :=
  C62_libdivide (2 ^ 64 - 1) 7 (by norm_num) (by norm_num) (by norm_num)

end PS
