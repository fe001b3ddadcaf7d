import Verif.Model.FactorTable
import Mathlib.Data.Nat.Prime.Basic
import Mathlib.Data.Nat.GCD.Basic
import Mathlib.Order.Monotone.Basic
import Mathlib.Tactic.IntervalCases
import Mathlib.Tactic.NormNum

/-! The numbers coprime to 210 and their numbering. -/

namespace PS
namespace FactorTable

/-- `get_number` as a function. -/
def num (i : ℕ) : ℕ := 210 * (i / 48) + numbers.get (i % 48)

/-- `get_index` as a function. -/
def idx (n : ℕ) : ℕ := (48 * (n / 210 : ℕ) + indexes.get (n % 210) : ℤ).toNat

/-- Coprime to 2, 3, 5 and 7. -/
abbrev Cop (n : ℕ) : Prop := Nat.Coprime n 210

theorem numbers_bounds : ∀ j, j < 48 → 1 ≤ numbers.get j ∧ numbers.get j < 210 ∧ Cop (numbers.get j) := by
  decide +kernel

theorem numbers_le_iff : ∀ r, r < 210 → ∀ j, j < 48 → (numbers.get j ≤ r ↔ (j : ℤ) ≤ indexes.get r) := by
  decide +kernel

theorem indexes_bounds : ∀ r, r < 210 → -1 ≤ indexes.get r ∧ indexes.get r < 48 ∧ (1 ≤ r → 0 ≤ indexes.get r) := by
  decide +kernel

theorem numbers_indexes : ∀ r, r < 210 → Cop r → numbers.get (indexes.get r).toNat = r ∧ 0 ≤ indexes.get r := by
  decide +kernel

theorem getNumber_ok (i : ℕ) : getNumber i = .ok (num i) := by
  unfold getNumber num
  dsimp only
  rw [Vec.rd_ok (show i % 48 < numbers.size from Nat.mod_lt _ (by norm_num))]
  rfl

theorem idx_nonneg {n : ℕ} (hn : 1 ≤ n) : (0 : ℤ) ≤ 48 * (n / 210 : ℕ) + indexes.get (n % 210) := by
  have h := indexes_bounds (n % 210) (Nat.mod_lt _ (by norm_num))
  by_cases h1 : 1 ≤ n % 210
  · have := h.2.2 h1; omega
  · omega

theorem getIndex_ok {n : ℕ} (hn : 1 ≤ n) : getIndex n = .ok (idx n) := by
  unfold getIndex idx
  dsimp only
  rw [Vec.rd_ok (show n % 210 < indexes.size from Nat.mod_lt _ (by norm_num))]
  simp only [ok_bind]
  rw [if_neg (by have := idx_nonneg hn; omega)]
  rfl

theorem num_le_iff {i n : ℕ} (hn : 1 ≤ n) : num i ≤ n ↔ i ≤ idx n := by
  have hr : n % 210 < 210 := Nat.mod_lt _ (by norm_num)
  have hj : i % 48 < 48 := Nat.mod_lt _ (by norm_num)
  have h1 := numbers_bounds (i % 48) hj
  have h2 := numbers_le_iff (n % 210) hr (i % 48) hj
  have h3 := indexes_bounds (n % 210) hr
  have h4 := idx_nonneg hn
  unfold num idx
  have hi := Nat.div_add_mod i 48
  have hn' := Nat.div_add_mod n 210
  rw [← Int.ofNat_le (m := i), Int.toNat_of_nonneg h4]
  generalize numbers.get (i % 48) = a at *
  generalize indexes.get (n % 210) = b at *
  rcases lt_trichotomy (i / 48) (n / 210) with h | h | h
  · constructor <;> intro _ <;> omega
  · rw [h]
    constructor
    · intro h5
      have : a ≤ n % 210 := by omega
      have := h2.1 this
      omega
    · intro h5
      have : ((i % 48 : ℕ) : ℤ) ≤ b := by omega
      have := h2.2 this
      omega
  · constructor <;> intro _ <;> omega

theorem num_pos (i : ℕ) : 1 ≤ num i := by
  have h1 := numbers_bounds (i % 48) (Nat.mod_lt _ (by norm_num))
  unfold num; omega

theorem num_zero : num 0 = 1 := by decide +kernel
theorem num_one : num 1 = 11 := by decide +kernel

theorem cop_num (i : ℕ) : Cop (num i) := by
  have h1 := numbers_bounds (i % 48) (Nat.mod_lt _ (by norm_num))
  unfold num Cop
  rw [Nat.coprime_mul_left_add_left]
  exact h1.2.2

theorem num_idx {n : ℕ} (h : Cop n) : num (idx n) = n := by
  have hr : n % 210 < 210 := Nat.mod_lt _ (by norm_num)
  have hc : Cop (n % 210) := by
    unfold Cop at *
    rw [← Nat.div_add_mod n 210, Nat.coprime_mul_left_add_left] at h
    exact h
  have h2 := numbers_indexes (n % 210) hr hc
  have h3 := indexes_bounds (n % 210) hr
  have e : idx n = 48 * (n / 210) + (indexes.get (n % 210)).toNat := by
    unfold idx; omega
  have hlt : (indexes.get (n % 210)).toNat < 48 := by omega
  unfold num
  rw [e]
  rw [show (48 * (n / 210) + (indexes.get (n % 210)).toNat) / 48 = n / 210 by omega,
    show (48 * (n / 210) + (indexes.get (n % 210)).toNat) % 48 = (indexes.get (n % 210)).toNat by omega, h2.1]
  omega

theorem idx_num (i : ℕ) : idx (num i) = i := by
  apply le_antisymm
  · by_contra hc
    push Not at hc
    -- the numbers of `i` and `idx (num i)` agree
    have h1 := num_idx (cop_num i)
    have h2 := (num_le_iff (i := idx (num i)) (num_pos i)).2 le_rfl
    have h3 : ∀ a b, num a = num b → a = b := by
      intro a b hab
      have ha := numbers_bounds (a % 48) (Nat.mod_lt _ (by norm_num))
      have hb := numbers_bounds (b % 48) (Nat.mod_lt _ (by norm_num))
      have inj : ∀ i, i < 48 → ∀ j, j < 48 → numbers.get i = numbers.get j → i = j := by decide +kernel
      unfold num at hab
      have h5 : numbers.get (a % 48) = numbers.get (b % 48) := by omega
      have := inj _ (Nat.mod_lt _ (by norm_num)) _ (Nat.mod_lt _ (by norm_num)) h5
      omega
    have := h3 _ _ h1
    omega
  · exact (num_le_iff (num_pos i)).1 le_rfl

theorem num_inj {a b : ℕ} (h : num a = num b) : a = b := by rw [← idx_num a, h, idx_num]

theorem num_le_num {a b : ℕ} : num a ≤ num b ↔ a ≤ b := by
  rw [num_le_iff (num_pos b), idx_num]

theorem num_lt_num {a b : ℕ} : num a < num b ↔ a < b := by
  have := num_le_num (a := b) (b := a)
  omega

theorem cop_iff {n : ℕ} : Cop n ↔ ∃ i, num i = n :=
  ⟨fun h => ⟨idx n, num_idx h⟩, fun ⟨i, h⟩ => h ▸ cop_num i⟩

theorem lt_num (i : ℕ) : i < num i := by
  induction i with
  | zero => exact num_pos 0
  | succ n ih =>
    have := num_lt_num.2 (show n < n + 1 by omega)
    omega

theorem cop_pos {n : ℕ} (h : Cop n) : 1 ≤ n := by
  obtain ⟨i, rfl⟩ := cop_iff.1 h; exact num_pos i

theorem cop_mul {a b : ℕ} : Cop (a * b) ↔ Cop a ∧ Cop b := Nat.coprime_mul_iff_left

theorem cop_of_dvd {a b : ℕ} (h : a ∣ b) (hb : Cop b) : Cop a := Nat.Coprime.coprime_dvd_left h hb

/-- Besides 1, the numbers coprime to 210 are at least 11. -/
theorem cop_ge {n : ℕ} (h : Cop n) (h1 : n ≠ 1) : 11 ≤ n := by
  obtain ⟨i, rfl⟩ := cop_iff.1 h
  by_cases hi : i = 0
  · subst hi; exact absurd num_zero h1
  · rw [← num_one]; exact num_le_num.2 (by omega)

theorem cop_prime {p : ℕ} (hp : p.Prime) (h : 11 ≤ p) : Cop p := by
  unfold Cop
  rw [Nat.Prime.coprime_iff_not_dvd hp]
  intro hd
  have e : (210 : ℕ) = 2 * 3 * 5 * 7 := by norm_num
  rw [e, hp.dvd_mul, hp.dvd_mul, hp.dvd_mul] at hd
  rcases hd with ((hd | hd) | hd) | hd <;>
  · have := Nat.le_of_dvd (by norm_num) hd
    omega

end FactorTable
end PS
