import Verif.Proof.Wheel

/-! # C31: the wheel -/

namespace PS
open FactorTable Wheel

/-- The item after `n` steps of the wheel of the prime `p` started at `low`. -/
def Wheel.visits (p low : ℕ) : ℕ → M Item
  | 0 => item p low
  | n + 1 => do let w ← Wheel.visits p low n; step p w

theorem Wheel.visits_ok {p low : ℕ} {i : ℕ} (hi : Ok (item p low) (At p i)) :
    ∀ n, p * num (i + n) < 2 ^ 63 → Ok (visits p low n) (At p (i + n)) := by
  intro n
  induction n with
  | zero => exact fun _ => hi
  | succ n ih =>
    intro h
    refine Ok.bind (ih (lt_of_le_of_lt (Nat.mul_le_mul_left _ (num_le_num.2 (by omega))) h)) (fun w hw => step_ok' hw h)

theorem Wheel.visits_error {p low : ℕ} {i : ℕ} (hi : Ok (item p low) (At p i)) (h0 : p * num i < 2 ^ 63) :
    ∀ n, 2 ^ 63 ≤ p * num (i + n) → visits p low n = .error .overflow := by
  intro n
  induction n with
  | zero => exact fun h => absurd h (by simpa using h0)
  | succ n ih =>
    intro h
    unfold visits
    by_cases hc : p * num (i + n) < 2 ^ 63
    · obtain ⟨w, hw, hat⟩ := Wheel.visits_ok hi n hc
      rw [hw, ok_bind]
      exact step_error hat h
    · rw [ih (by omega)]; rfl

theorem Wheel.cop_dvd (k : ℕ) : Cop k ↔ (¬ 2 ∣ k ∧ ¬ 3 ∣ k ∧ ¬ 5 ∣ k ∧ ¬ 7 ∣ k) := by
  unfold Cop
  rw [show (210 : ℕ) = 2 * (3 * (5 * 7)) by norm_num]
  simp only [Nat.coprime_mul_iff_right]
  simp only [Nat.coprime_comm (n := k), Nat.Prime.coprime_iff_not_dvd Nat.prime_two,
    Nat.Prime.coprime_iff_not_dvd Nat.prime_three, Nat.Prime.coprime_iff_not_dvd Nat.prime_five,
    Nat.Prime.coprime_iff_not_dvd Nat.prime_seven]

/-- The multiples visited by the wheel form a strictly increasing sequence, and they are exactly the
numbers `p * k ≥ low` with `k` not divisible by 2, 3, 5, 7, as long as they are below `2^63`; the `int64_t` computation
overflows at the first one that is not. -/
theorem C31_wheel (p low : ℕ) (hp : 1 ≤ p) (hb : low + 10 * p < 2 ^ 63) :
    ∃ f : ℕ → ℕ, (∀ n, f n < 2 ^ 63 → Ok (visits p low n) (fun w => w.nextMultiple = f n)) ∧
      (∀ n, 2 ^ 63 ≤ f n → visits p low n = .error .overflow) ∧ StrictMono f ∧
      ∀ m, (∃ n, f n = m) ↔ (low ≤ m ∧ ∃ k, m = p * k ∧ ¬ 2 ∣ k ∧ ¬ 3 ∣ k ∧ ¬ 5 ∣ k ∧ ¬ 7 ∣ k) := by
  obtain ⟨w0, hw0, i, hat, hfi⟩ := item_ok (p := p) (low := low) hp hb
  have hi : Ok (item p low) (At p i) := by rw [hw0]; exact Ok.ok hat
  have h0 : p * num i < 2 ^ 63 := (hfi.lt hp).trans_le (by omega)
  have hv := Wheel.visits_ok hi
  refine ⟨fun n => p * num (i + n), fun n hn => (hv n hn).mono (fun w hw => hw.1), Wheel.visits_error hi h0, ?_, ?_⟩
  · intro a b hab
    exact Nat.mul_lt_mul_of_pos_left (num_lt_num.2 (by omega)) hp
  · intro m
    constructor
    · rintro ⟨n, rfl⟩
      refine ⟨le_trans hfi.1 (Nat.mul_le_mul_left _ (num_le_num.2 (by omega))), _, rfl, ?_⟩
      exact (cop_dvd _).1 (cop_num _)
    · rintro ⟨hl, k, rfl, hk⟩
      have hc : Cop k := (cop_dvd k).2 hk
      have hj : i ≤ idx k := by
        by_contra hc'
        have := hfi.2 (idx k) (by omega)
        rw [num_idx hc] at this
        omega
      refine ⟨idx k - i, ?_⟩
      show p * num (i + (idx k - i)) = p * k
      rw [Nat.add_sub_cancel' hj, num_idx hc]

/-- The constructor stores, for every prime of index `1 ≤ b < size`, the item at which the wheel of
that prime starts. -/
theorem C31_constructor {primes : Vec ℕ} {n size low : ℕ} (hp : PrimePrefix primes n) (hs : size ≤ n + 1)
    (h1 : 1 ≤ size) (hb : ∀ b, 1 ≤ b → b < size → low + 10 * prm b < 2 ^ 63) :
    Ok (Wheel.build primes size low) (fun w => w.size = size ∧ ∀ b, 1 ≤ b → b < size →
      item (prm b) low = .ok (w.get b)) := by
  unfold Wheel.build
  refine forUp_ok (fun k (w : Vec Item) => w.size = k ∧ ∀ b, 1 ≤ b → b < k →
      item (prm b) low = .ok (w.get b)) ⟨by simp, by omega⟩ h1 (fun b w h2 h3 hw => ?_)
  rw [hp.rd h2 (by omega)]
  simp only [ok_bind]
  obtain ⟨it, hit, -⟩ := item_ok (low := low) (prm_pos b) (hb b h2 h3)
  rw [hit]
  simp only [ok_bind]
  refine Ok.pure ⟨by simp [hw.1], fun b' h4 h5 => ?_⟩
  rw [Vec.get_push]
  by_cases he : b' = b
  · subst he
    rw [if_pos hw.1.symm]; exact hit
  · rw [if_neg (by rw [hw.1]; exact he)]
    exact hw.2 b' h4 (by omega)

/-- The end of the range: the wheel of 13 started at `2^63 - 140`. -/
example : visits 13 (2 ^ 63 - 140) 0 = .ok ⟨2 ^ 63 - 21, 47⟩ ∧ visits 13 (2 ^ 63 - 140) 1 = .error .overflow := by
  decide +kernel

example : visits 13 1000 0 = .ok ⟨1027, 18⟩ ∧ visits 13 1000 3 = .ok ⟨1261, 21⟩ := by decide +kernel

end PS
