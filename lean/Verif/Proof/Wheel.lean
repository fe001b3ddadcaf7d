import Verif.Model.Wheel
import Verif.Proof.Wheel210
import Verif.Proof.PrimeSieve
import Verif.Proof.Imath
import Verif.Proof.Width

/-! The wheel enumerates the multiples whose cofactor is coprime to 210. -/

namespace PS
namespace Wheel
open FactorTable

theorem next_table : ∀ w, w < 48 → (next.get w).2 = (w + 1) % 48 ∧
    numbers.get w + (next.get w).1 = if w = 47 then 211 else numbers.get (w + 1) := by decide +kernel

theorem init_table : ∀ r, r < 210 → (init.get r).2 < 48 ∧ r + (init.get r).1 = numbers.get (init.get r).2 ∧
    ∀ j, j < (init.get r).2 → numbers.get j < r := by decide +kernel

theorem num_succ (i : ℕ) : num (i + 1) = num i + (next.get (i % 48)).1 := by
  have h := next_table (i % 48) (Nat.mod_lt _ (by norm_num))
  unfold num
  by_cases h47 : i % 48 = 47
  · rw [if_pos h47] at h
    have e1 : (i + 1) / 48 = i / 48 + 1 := by omega
    have e2 : (i + 1) % 48 = 0 := by omega
    have e3 : numbers.get 0 = 1 := by decide
    rw [e1, e2, e3]
    omega
  · rw [if_neg h47] at h
    have e1 : (i + 1) / 48 = i / 48 := by omega
    have e2 : (i + 1) % 48 = i % 48 + 1 := by omega
    rw [e1, e2]
    omega

/-- The item points to the multiple `p * num i`. -/
def At (p i : ℕ) (w : Item) : Prop := w.nextMultiple = p * num i ∧ w.wheelIndex = i % 48

/-- `p * num i` is the first such multiple `≥ low`. -/
def First (p low i : ℕ) : Prop := low ≤ p * num i ∧ ∀ j, j < i → p * num j < low

theorem nextFactor_ok (i : ℕ) : nextFactor (i % 48) = .ok (next.get (i % 48)) ∧
    (next.get (i % 48)).2 = (i + 1) % 48 := by
  have hi : i % 48 < 48 := Nat.mod_lt _ (by norm_num)
  refine ⟨?_, ?_⟩
  · unfold nextFactor
    rw [Vec.rd_ok (show i % 48 < next.size from hi)]
  · rw [(next_table _ hi).1]
    omega

theorem next_le : ∀ w, w < 48 → (next.get w).1 ≤ 10 := by decide +kernel

theorem init_le : ∀ r, r < 210 → (init.get r).1 ≤ 9 := by decide +kernel

/-- The step succeeds exactly if the next multiple is an `int64_t`. -/
theorem step_ok' {p i : ℕ} {w : Item} (h : At p i w) (hb : p * num (i + 1) < 2 ^ 63) : Ok (step p w) (At p (i + 1)) := by
  rw [num_succ, Nat.mul_add] at hb
  unfold step
  rw [h.2, (nextFactor_ok i).1]
  simp only [ok_bind]
  rw [fit_ok (by omega)]
  simp only [ok_bind]
  rw [h.1, fit_ok hb]
  simp only [ok_bind]
  refine Ok.pure ⟨?_, (nextFactor_ok i).2⟩
  dsimp only
  rw [num_succ, Nat.mul_add]

theorem step_error {p i : ℕ} {w : Item} (h : At p i w) (hb : 2 ^ 63 ≤ p * num (i + 1)) : step p w = .error .overflow := by
  rw [num_succ, Nat.mul_add] at hb
  unfold step
  rw [h.2, (nextFactor_ok i).1]
  simp only [ok_bind]
  by_cases hd : p * (next.get (i % 48)).1 < 2 ^ 63
  · rw [fit_ok hd, ok_bind, h.1, fit_error hb]; rfl
  · rw [fit_error (by omega)]; rfl

theorem step_ok {p i : ℕ} {w : Item} (h : At p i w) (hb : p * num i + 10 * p < 2 ^ 63) : Ok (step p w) (At p (i + 1)) := by
  refine step_ok' h ?_
  rw [num_succ, Nat.mul_add]
  have := Nat.mul_le_mul_left p (next_le (i % 48) (Nat.mod_lt _ (by norm_num)))
  omega

theorem First.lt {p low i : ℕ} (hp : 1 ≤ p) (h : First p low i) : p * num i < low + 10 * p := by
  cases i with
  | zero =>
    have : num 0 = 1 := by decide +kernel
    rw [this]; omega
  | succ i =>
    have h1 := h.2 i (by omega)
    have h2 := Nat.mul_le_mul_left p (next_le (i % 48) (Nat.mod_lt _ (by norm_num)))
    rw [num_succ, Nat.mul_add]
    omega

theorem item_ok {p low : ℕ} (hp : 1 ≤ p) (hb : low + 10 * p < 2 ^ 63) : Ok (item p low) (fun w => ∃ i, At p i w ∧ First p low i) := by
  unfold item
  rw [fit_ok (by omega), ok_bind, ceilDiv_ok _ _ hp]
  simp only [ok_bind]
  set Q := (low + p - 1) / p with hQ
  have hr : Q % 210 < 210 := Nat.mod_lt _ (by norm_num)
  have hQU : p * Q ≤ low + p - 1 := Nat.mul_div_le _ _
  have hi9 := Nat.mul_le_mul_left p (init_le _ hr)
  rw [fit_ok (by omega), ok_bind, Vec.rd_ok (show Q % 210 < init.size from hr), ok_bind, fit_ok (by omega), ok_bind,
    fit_ok (by omega), ok_bind]
  have ht := init_table _ hr
  have hle : ∀ n, low ≤ p * n ↔ Q ≤ n := by
    intro n
    have h := Nat.div_lt_iff_lt_mul (x := low + p - 1) (y := n + 1) hp
    rw [← hQ, Nat.add_mul, Nat.mul_comm n] at h
    omega
  clear_value Q
  generalize hw : (init.get (Q % 210)).2 = w at ht
  generalize hf : (init.get (Q % 210)).1 = f at ht
  have e1 : (48 * (Q / 210) + w) / 48 = Q / 210 := by omega
  have e2 : (48 * (Q / 210) + w) % 48 = w := by omega
  have en : num (48 * (Q / 210) + w) = Q + f := by
    unfold num
    rw [e1, e2, ← ht.2.1]
    omega
  refine Ok.pure ⟨48 * (Q / 210) + w, ⟨?_, e2.symm⟩, ?_, ?_⟩
  · rw [en, Nat.mul_add]
  · rw [hle, en]; omega
  · intro j hj
    have := hle (num j)
    by_contra hc
    have h1 : Q ≤ num j := by omega
    have hb := numbers_bounds (j % 48) (Nat.mod_lt _ (by norm_num))
    unfold num at h1
    by_cases hq : j / 48 = Q / 210
    · have h2 : j % 48 < w := by omega
      have := ht.2.2 _ h2
      omega
    · have : j / 48 < Q / 210 := by omega
      omega

theorem build_ok {primes : Vec ℕ} {n size low : ℕ} (hp : PrimePrefix primes n) (hs : size ≤ n + 1) (h1 : 1 ≤ size)
    (hb : ∀ b, 1 ≤ b → b < size → low + 10 * prm b < 2 ^ 63) :
    Ok (build primes size low) (fun w => w.size = size ∧ ∀ b, 1 ≤ b → b < size →
      ∃ i, At (prm b) i (w.get b) ∧ First (prm b) low i) := by
  unfold build
  refine forUp_ok (fun k (w : Vec Item) => w.size = k ∧ ∀ b, 1 ≤ b → b < k →
      ∃ i, At (prm b) i (w.get b) ∧ First (prm b) low i) ⟨by simp, by omega⟩ h1 (fun b w h2 h3 hw => ?_)
  rw [hp.rd h2 (by omega)]
  simp only [ok_bind]
  refine Ok.bind (item_ok (prm_pos b) (hb b h2 h3)) (fun it hit => Ok.pure ⟨by simp [hw.1], fun b' h4 h5 => ?_⟩)
  rw [Vec.get_push]
  by_cases he : b' = b
  · subst he
    rw [if_pos hw.1.symm]; exact hit
  · rw [if_neg (by rw [hw.1]; exact he)]
    exact hw.2 b' h4 (by omega)

end Wheel
end PS
