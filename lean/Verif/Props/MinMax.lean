import Verif.Model.MinMax
import Mathlib.Tactic.Ring
import Mathlib.Tactic.NormNum

/-!
# Property C76: `min` and `max` of numbers of different types

Whenever the templates of include/min_max.hpp accept two types, they return the minimum and the maximum of the two numbers,
unless a negative number is compared with an unsigned one, or the number of the larger type is less than every value of the smaller
type.
-/

namespace PS
open CType

theorem CType.conv_of_has {T : CType} {z : ℤ} (hT : 0 < T.bits) (h : T.Has z) : T.conv z = z := by
  obtain ⟨b, s⟩ := T
  obtain ⟨n, rfl⟩ : ∃ n, b = n + 1 := ⟨b - 1, by simp only at hT; omega⟩
  cases s
  · simp only [Has, lo, hi, conv, Bool.false_eq_true, if_false] at *
    exact Int.emod_eq_of_lt h.1 h.2
  · simp only [Has, lo, hi, conv, if_true, Nat.add_sub_cancel] at *
    have e : (2 : ℤ) ^ (n + 1) = 2 * 2 ^ n := by ring
    have e' : (((2 : ℕ) ^ (n + 1) : ℕ) : ℤ) = 2 * 2 ^ n := by push_cast; ring
    apply Int.bmod_eq_of_le
    · rw [e']; omega
    · rw [e']; omega

theorem CType.has_of_comparable {A B : CType} {b : ℤ} (hB : 0 < B.bits) (h : comparable A B = true) (hb : B.Has b)
    (hs : A.signed = true ∨ 0 ≤ b) : A.Has b := by
  obtain ⟨m, s⟩ := A
  obtain ⟨n, t⟩ := B
  have hle : n ≤ m := by
    simp only [comparable, Bool.or_eq_true, decide_eq_true_eq, Bool.and_eq_true, CType.mk.injEq] at h
    omega
  obtain ⟨n, rfl⟩ : ∃ k, n = k + 1 := ⟨n - 1, by simp only at hB; omega⟩
  obtain ⟨m, rfl⟩ : ∃ k, m = k + 1 := ⟨m - 1, by omega⟩
  have e : (2 : ℤ) ^ (n + 1) = 2 * 2 ^ n := by ring
  have f : (2 : ℤ) ^ (m + 1) = 2 * 2 ^ m := by ring
  have p : (0 : ℤ) < 2 ^ n := by positivity
  have q : (2 : ℤ) ^ n ≤ 2 ^ m := pow_le_pow_right₀ (by norm_num) (by omega)
  have r : n < m → (2 : ℤ) * 2 ^ n ≤ 2 ^ m := fun hlt => by
    rw [← e]; exact pow_le_pow_right₀ (by norm_num) hlt
  cases s <;> cases t <;>
    simp only [Has, lo, hi, comparable, Bool.or_eq_true, decide_eq_true_eq, Bool.and_eq_true, CType.mk.injEq,
      Bool.false_eq_true, if_false, if_true, Nat.add_sub_cancel, false_or, true_or, Bool.not_true, Bool.not_false, and_true,
      and_false, or_false, reduceCtorEq] at *
  · omega
  · omega
  · have := r (by omega)
    omega
  · omega

/-- `min(A a, B b)` is the lesser of the two numbers. -/
theorem C76_min (A B : CType) (a b : ℤ) (hB : 0 < B.bits) (h : comparable A B = true) (_ha : A.Has a) (hb : B.Has b)
    (hs : A.signed = true ∨ 0 ≤ b) (hl : B.lo ≤ a) : cMin A B a b = min a b := by
  have hA : 0 < A.bits := by
    simp only [comparable, Bool.or_eq_true, decide_eq_true_eq, Bool.and_eq_true] at h
    rcases h with h | h | h
    · rw [h]; exact hB
    all_goals omega
  rw [cMin, conv_of_has hA (has_of_comparable hB h hb hs)]
  exact conv_of_has hB ⟨le_min hl hb.1, lt_of_le_of_lt (min_le_right _ _) hb.2⟩

/-- `min(A a, B b, B c)` is the least of the three numbers. -/
theorem C76_min3 (A B : CType) (a b c : ℤ) (hB : 0 < B.bits) (h : comparable A B = true) (_ha : A.Has a) (hb : B.Has b)
    (hc : B.Has c) (hs : A.signed = true ∨ (0 ≤ b ∧ 0 ≤ c)) (hl : B.lo ≤ a) : cMin3 A B a b c = min a (min b c) :=
  C76_min A B a (min b c) hB h _ha ⟨le_min hb.1 hc.1, lt_of_le_of_lt (min_le_left _ _) hb.2⟩
    (hs.imp id fun h => le_min h.1 h.2) hl

/-- `max(A a, B b)` is the greater of the two numbers. -/
theorem C76_max (A B : CType) (a b : ℤ) (hB : 0 < B.bits) (h : comparable A B = true) (_ha : A.Has a) (hb : B.Has b)
    (hs : A.signed = true ∨ 0 ≤ b) : cMax A a b = max a b := by
  have hA : 0 < A.bits := by
    simp only [comparable, Bool.or_eq_true, decide_eq_true_eq, Bool.and_eq_true] at h
    rcases h with h | h | h
    · rw [h]; exact hB
    all_goals omega
  rw [cMax, conv_of_has hA (has_of_comparable hB h hb hs)]

/-- `max(A a, B b, B c)` is the greatest of the three numbers. -/
theorem C76_max3 (A B : CType) (a b c : ℤ) (hB : 0 < B.bits) (h : comparable A B = true) (_ha : A.Has a) (hb : B.Has b)
    (hc : B.Has c) (hs : A.signed = true ∨ (0 ≤ b ∧ 0 ≤ c)) : cMax3 A a b c = max a (max b c) :=
  C76_max A B a (max b c) hB h _ha ⟨le_trans hb.1 (le_max_left _ _), max_lt hb.2 hc.2⟩
    (hs.imp id fun h => le_trans h.1 (le_max_left _ _))

theorem CType.conv_lt (T : CType) (z : ℤ) (hT : 0 < T.bits) : T.conv z < T.hi := by
  obtain ⟨b, s⟩ := T
  obtain ⟨n, rfl⟩ : ∃ n, b = n + 1 := ⟨b - 1, by simp only at hT; omega⟩
  cases s
  · simp only [hi, conv, Bool.false_eq_true, if_false]
    exact Int.emod_lt_of_pos _ (by positivity)
  · simp only [hi, conv, if_true, Nat.add_sub_cancel]
    have e' : (((2 : ℕ) ^ (n + 1) : ℕ) : ℤ) = 2 * 2 ^ n := by push_cast; ring
    have := Int.bmod_lt (x := z) (m := 2 ^ (n + 1)) (by positivity)
    rw [e'] at this
    omega

/-- Of types of whole bytes no others could be accepted: `max` would be wrong for numbers that are not negative. -/
theorem C76_needed (A B : CType) (hA : 0 < A.bits) (hA8 : 8 ∣ A.bits) (hB8 : 8 ∣ B.bits) (hB : 0 < B.bits)
    (h : comparable A B = false) : ∃ b, B.Has b ∧ 0 ≤ b ∧ cMax A 0 b ≠ max 0 b := by
  have hAB : A.hi < B.hi := by
    obtain ⟨m, s⟩ := A
    obtain ⟨n, t⟩ := B
    obtain ⟨n, rfl⟩ : ∃ k, n = k + 1 := ⟨n - 1, by simp only at hB; omega⟩
    obtain ⟨m, rfl⟩ : ∃ k, m = k + 1 := ⟨m - 1, by simp only at hA; omega⟩
    have e : (2 : ℤ) ^ (n + 1) = 2 * 2 ^ n := by ring
    have f : (2 : ℤ) ^ (m + 1) = 2 * 2 ^ m := by ring
    have p : (0 : ℤ) < 2 ^ n := by positivity
    have p' : (0 : ℤ) < 2 ^ m := by positivity
    have r : m < n → (2 : ℤ) * 2 ^ m < 2 ^ n := fun hlt => by
      rw [← f]; exact pow_lt_pow_right₀ (by norm_num) (by simp only at hA8 hB8; omega)
    have q : m = n → (2 : ℤ) ^ m = 2 ^ n := fun h => by rw [h]
    cases s <;> cases t <;>
      simp [hi, comparable] at h ⊢ <;>
      (rcases Nat.lt_or_ge m n with hlt | hge
       · have := r hlt
         omega
       · have := q (by omega)
         omega)
  have hA0 : 0 < A.hi := by rw [hi]; split <;> positivity
  refine ⟨B.hi - 1, ⟨?_, by omega⟩, by omega, ?_⟩
  · rw [lo]
    split
    · have : (0 : ℤ) < 2 ^ (B.bits - 1) := by positivity
      omega
    · omega
  · have := A.conv_lt (B.hi - 1) hA
    rw [cMax]
    omega

section Examples

/-- `int128_t`, `int64_t`, `uint64_t`, `int32_t` -/
def int128 : CType := ⟨128, true⟩
def int64 : CType := ⟨64, true⟩
def uint64 : CType := ⟨64, false⟩
def int32 : CType := ⟨32, true⟩

example : comparable int128 int64 = true ∧ int128.Has (2 ^ 100) ∧ int64.Has 7 ∧ cMin int128 int64 (2 ^ 100) 7 = 7 := by decide +kernel
example : comparable uint64 int64 = true ∧ cMax uint64 (2 ^ 63) 7 = 2 ^ 63 := by decide +kernel
example : cMin3 int128 int64 5 9 3 = 3 ∧ cMax3 int128 5 9 3 = 9 := by decide +kernel
example : comparable int64 uint64 = false ∧ comparable int64 int128 = false := by decide +kernel
/-- The two hypotheses are needed. -/
example : cMin uint64 int64 5 (-1) = 5 := by decide +kernel
example : cMin int64 int32 (-2 ^ 40) 0 = 0 ∧ cMin int64 int32 (-2 ^ 40 + 1) 0 = 1 := by decide +kernel

end Examples
end PS
