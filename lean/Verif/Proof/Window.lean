import Verif.Props.PhiSum

/-!
# The numbers for which a 256-bit multiplication goes wrong

`NoWindow x 6`, the condition under which `phi_sum` and `S1` are right, in terms of seven quotients of `x`.
-/

namespace PS

/-- One of the seven quotients that lead to a wrong multiplication occurs: `x / 2m` for an odd `m`, `x / 3m` for an `m` prime to `6`,
`x / 5m` for an `m` prime to `30` or `x / 7m` for an `m` prime to `210`. -/
def Exceptional (x : ℕ) : Prop :=
  ∃ m, (Nat.Coprime m 2 ∧ x / (2 * m) = 26087635650665564424) ∨
    (Nat.Coprime m 6 ∧ (x / (3 * m) = 36893488147419103231 ∨ x / (3 * m) = 36893488147419103232)) ∨
    (Nat.Coprime m 30 ∧ (x / (5 * m) = 45185110396297924511 ∨ x / (5 * m) = 45185110396297924512)) ∨
    (Nat.Coprime m 210 ∧ (x / (7 * m) = 50518489208477310479 ∨ x / (7 * m) = 50518489208477310480))

theorem prm_table {i : ℕ} (h1 : 1 ≤ i) (h9 : i ≤ 9) : prm i = smallPrimes.get i := by
  exact (smallPrimes_table.2.2 i h1 h9).symm

theorem prm_vals : prm 1 = 2 ∧ prm 2 = 3 ∧ prm 3 = 5 ∧ prm 4 = 7 ∧ prm 5 = 11 ∧ prm 6 = 13 := by
  refine ⟨?_, ?_, ?_, ?_, ?_, ?_⟩ <;> rw [prm_table (by norm_num) (by norm_num)] <;> decide

/-- The arguments for which the sum lies in the window form an interval. -/
theorem window_iff {a L R : ℕ} (ha : a ≤ 9) (h1 : phiRec a (L - 1) ≤ 2 ^ 128 - 2 ^ 64) (h2 : 2 ^ 128 - 2 ^ 64 < phiRec a L)
    (h3 : phiRec a (R - 1) ≤ 2 ^ 128) (h4 : 2 ^ 128 < phiRec a R) (v : ℕ) :
    (2 ^ 128 - 2 ^ 64 < phiSum v a ∧ phiSum v a ≤ 2 ^ 128) ↔ L ≤ v ∧ v < R := by
  rw [phiRec_eq _ _ ha] at h1 h2 h3 h4
  have mono : ∀ {u w : ℕ}, u ≤ w → phiSum u a ≤ phiSum w a := fun h => phiSum_mono h
  constructor
  · rintro ⟨h5, h6⟩
    constructor
    · by_contra hc
      have := mono (show v ≤ L - 1 by omega)
      omega
    · by_contra hc
      have := mono (show R ≤ v by omega)
      omega
  · rintro ⟨h5, h6⟩
    have := mono h5
    have := mono (show v ≤ R - 1 by omega)
    omega

theorem window0 (v : ℕ) : (2 ^ 128 - 2 ^ 64 < phiSum v 0 ∧ phiSum v 0 ≤ 2 ^ 128) ↔ v = 26087635650665564424 := by
  rw [window_iff (L := 26087635650665564424) (R := 26087635650665564425) (by norm_num) (by decide +kernel) (by decide +kernel) (by decide +kernel)
    (by decide +kernel)]
  omega

theorem window1 (v : ℕ) : (2 ^ 128 - 2 ^ 64 < phiSum v 1 ∧ phiSum v 1 ≤ 2 ^ 128) ↔
    v = 36893488147419103231 ∨ v = 36893488147419103232 := by
  rw [window_iff (L := 36893488147419103231) (R := 36893488147419103233) (by norm_num) (by decide +kernel) (by decide +kernel) (by decide +kernel)
    (by decide +kernel)]
  omega

theorem window2 (v : ℕ) : (2 ^ 128 - 2 ^ 64 < phiSum v 2 ∧ phiSum v 2 ≤ 2 ^ 128) ↔
    v = 45185110396297924511 ∨ v = 45185110396297924512 := by
  rw [window_iff (L := 45185110396297924511) (R := 45185110396297924513) (by norm_num) (by decide +kernel) (by decide +kernel) (by decide +kernel)
    (by decide +kernel)]
  omega

theorem window3 (v : ℕ) : (2 ^ 128 - 2 ^ 64 < phiSum v 3 ∧ phiSum v 3 ≤ 2 ^ 128) ↔
    v = 50518489208477310479 ∨ v = 50518489208477310480 := by
  rw [window_iff (L := 50518489208477310479) (R := 50518489208477310481) (by norm_num) (by decide +kernel) (by decide +kernel) (by decide +kernel)
    (by decide +kernel)]
  omega

theorem window4 (v : ℕ) : ¬ (2 ^ 128 - 2 ^ 64 < phiSum v 4 ∧ phiSum v 4 ≤ 2 ^ 128) := by
  rw [window_iff (L := 54566204839242865883) (R := 54566204839242865883) (by norm_num) (by decide +kernel) (by decide +kernel) (by decide +kernel)
    (by decide +kernel)]
  omega

theorem window5 (v : ℕ) : ¬ (2 ^ 128 - 2 ^ 64 < phiSum v 5 ∧ phiSum v 5 ≤ 2 ^ 128) := by
  rw [window_iff (L := 57229518446462859523) (R := 57229518446462859523) (by norm_num) (by decide +kernel) (by decide +kernel) (by decide +kernel)
    (by decide +kernel)]
  omega

theorem rough1 (m : ℕ) : Rough 1 m ↔ Nat.Coprime m 2 := by
  rw [show (1 : ℕ) = 0 + 1 from rfl, rough_succ, Nat.coprime_comm, Nat.Prime.coprime_iff_not_dvd (by norm_num), prm_vals.1]
  simp

theorem rough2 (m : ℕ) : Rough 2 m ↔ Nat.Coprime m 6 := by
  rw [show (2 : ℕ) = 1 + 1 from rfl, rough_succ, rough1, prm_vals.2.1, show 6 = 2 * 3 from rfl, Nat.coprime_mul_iff_right,
    Nat.coprime_comm (n := m) (m := 3), Nat.Prime.coprime_iff_not_dvd (p := 3) (by norm_num)]

theorem rough3 (m : ℕ) : Rough 3 m ↔ Nat.Coprime m 30 := by
  rw [show (3 : ℕ) = 2 + 1 from rfl, rough_succ, rough2, prm_vals.2.2.1, show 30 = 6 * 5 from rfl, Nat.coprime_mul_iff_right,
    Nat.coprime_comm (n := m) (m := 5), Nat.Prime.coprime_iff_not_dvd (p := 5) (by norm_num)]

theorem rough4 (m : ℕ) : Rough 4 m ↔ Nat.Coprime m 210 := by
  rw [show (4 : ℕ) = 3 + 1 from rfl, rough_succ, rough3, prm_vals.2.2.2.1, show 210 = 30 * 7 from rfl, Nat.coprime_mul_iff_right,
    Nat.coprime_comm (n := m) (m := 7), Nat.Prime.coprime_iff_not_dvd (p := 7) (by norm_num)]

/-- `NoWindow x 6` in terms of quotients. -/
theorem noWindow_iff (x : ℕ) : NoWindow x 6 ↔ ¬ Exceptional x := by
  obtain ⟨p1, p2, p3, p4, p5, p6⟩ := prm_vals
  constructor
  · rintro h ⟨m, ⟨hm, h0⟩ | ⟨hm, h0⟩ | ⟨hm, h0⟩ | ⟨hm, h0⟩⟩
    · have := h m 0 (by norm_num) ((rough1 m).2 hm)
      rw [p1, window0] at this
      exact this h0
    · have := h m 1 (by norm_num) ((rough2 m).2 hm)
      rw [p2, window1] at this
      exact this h0
    · have := h m 2 (by norm_num) ((rough3 m).2 hm)
      rw [p3, window2] at this
      exact this h0
    · have := h m 3 (by norm_num) ((rough4 m).2 hm)
      rw [p4, window3] at this
      exact this h0
  · intro h m a ha hr hc
    apply h
    refine ⟨m, ?_⟩
    obtain rfl | rfl | rfl | rfl | rfl | rfl : a = 0 ∨ a = 1 ∨ a = 2 ∨ a = 3 ∨ a = 4 ∨ a = 5 := by omega
    · rw [p1, window0] at hc
      exact Or.inl ⟨(rough1 m).1 hr, hc⟩
    · rw [p2, window1] at hc
      exact Or.inr (Or.inl ⟨(rough2 m).1 hr, hc⟩)
    · rw [p3, window2] at hc
      exact Or.inr (Or.inr (Or.inl ⟨(rough3 m).1 hr, hc⟩))
    · rw [p4, window3] at hc
      exact Or.inr (Or.inr (Or.inr ⟨(rough4 m).1 hr, hc⟩))
    · exact absurd hc (window4 _)
    · exact absurd hc (window5 _)

end PS
