import Verif.Model.Libdivide
import Verif.Proof.Libdivide

/-!
# The portable helpers of include/libdivide.h compute what the 128-bit ones do
-/

namespace PS.Libdivide.Port

theorem mask_eq (x : ℕ) : x &&& 0xFFFFFFFF = x % 2 ^ 32 := by
  rw [show (0xFFFFFFFF : ℕ) = 2 ^ 32 - 1 by norm_num, Nat.and_two_pow_sub_one_eq_mod]

theorem mullhi_eq {x y : ℕ} (hx : x < 2 ^ 64) (hy : y < 2 ^ 64) : mullhi x y = Libdivide.mullhi x y := by
  unfold mullhi Libdivide.mullhi mullhi32
  dsimp only
  simp only [mask_eq, Nat.shiftRight_eq_div_pow]
  have hx1 : x / 2 ^ 32 < 2 ^ 32 := by omega
  have hy1 : y / 2 ^ 32 < 2 ^ 32 := by omega
  rw [Nat.mod_eq_of_lt hx1, Nat.mod_eq_of_lt hy1]
  have hxe := Nat.div_add_mod x (2 ^ 32)
  have hye := Nat.div_add_mod y (2 ^ 32)
  have hx0 := Nat.mod_lt x (show 0 < 2 ^ 32 by norm_num)
  have hy0 := Nat.mod_lt y (show 0 < 2 ^ 32 by norm_num)
  generalize x / 2 ^ 32 = a at *
  generalize x % 2 ^ 32 = b at *
  generalize y / 2 ^ 32 = c at *
  generalize y % 2 ^ 32 = d at *
  have e : x * y = 2 ^ 64 * (a * c) + 2 ^ 32 * (a * d) + 2 ^ 32 * (b * c) + b * d := by
    rw [← hxe, ← hye]; ring
  have m : ∀ {u v : ℕ}, u < 2 ^ 32 → v < 2 ^ 32 → u * v ≤ (2 ^ 32 - 1) * (2 ^ 32 - 1) := fun hu hv =>
    Nat.mul_le_mul (by omega) (by omega)
  have m1 := m hx1 hy1
  have m2 := m hx1 hy0
  have m3 := m hx0 hy1
  have m4 := m hx0 hy0
  rw [e]
  generalize a * c = p at *
  generalize a * d = q at *
  generalize b * c = r at *
  generalize b * d = s at *
  clear e hxe hye m
  norm_num at *
  omega

theorem clz32_ok {v : ℕ} (h0 : 0 < v) (hv : v < 2 ^ 32) : clz32 v = .ok (31 - Nat.log2 v) := by
  have h : Ok (clz32 v) (fun r => r = 31 - Nat.log2 v) := by
    have hl : Nat.log2 v < 32 := (Nat.log2_lt (by omega)).mpr hv
    have hle : 2 ^ Nat.log2 v ≤ v := Nat.log2_self_le (by omega)
    have hlt : v < 2 ^ (Nat.log2 v + 1) := Nat.lt_log2_self
    generalize Nat.log2 v = k at *
    unfold clz32
    refine loop_ok (fun s => s.1 ≤ 31 - k ∧ s.2 = 2 ^ (31 - s.1)) (fun s => 31 - s.1) _ ⟨by simp, by simp⟩ (by simp) ?_
    rintro ⟨r, hi⟩ ⟨h1, h2⟩
    dsimp only at h1 h2 ⊢
    subst h2
    have hb : ((2 ^ 32 - 1 - v) &&& 2 ^ (31 - r) ≠ 0) ↔ r < 31 - k := by
      rw [Nat.and_two_pow]
      have : (2 ^ 32 - 1 - v).testBit (31 - r) = !(v.testBit (31 - r)) := by
        rw [show 2 ^ 32 - 1 - v = 2 ^ 32 - (v + 1) by omega, Nat.testBit_two_pow_sub_succ hv]
        simp; omega
      rw [this]
      by_cases hr : r < 31 - k
      · have : v.testBit (31 - r) = false := Nat.testBit_lt_two_pow (lt_of_lt_of_le hlt (Nat.pow_le_pow_right (by norm_num) (by omega)))
        simp [this, hr]
      · have hk : 31 - r = k := by omega
        have : v.testBit k = true := by
          rw [Nat.testBit_eq_decide_div_mod_eq, decide_eq_true_eq]
          have : v / 2 ^ k = 1 := by
            apply Nat.div_eq_of_lt_le <;> rw [pow_succ] at * <;> omega
          rw [this]
        simp [hk, this, hr]
    by_cases hr : r < 31 - k
    · rw [if_pos (hb.mpr hr)]
      refine Ok.ok ⟨⟨by omega, ?_⟩, by dsimp only; omega⟩
      dsimp only
      rw [Nat.shiftRight_eq_div_pow, Nat.pow_div (by omega) (by norm_num)]
      congr 1
    · rw [if_neg (fun h => hr (hb.mp h))]
      exact Ok.ok (by omega)
  obtain ⟨r, hr, rfl⟩ := h
  exact hr

theorem clz64_ok {v : ℕ} (h0 : 0 < v) (hv : v < 2 ^ 64) : clz64 v = .ok (63 - Nat.log2 v) := by
  unfold clz64
  dsimp only
  rw [mask_eq, Nat.shiftRight_eq_div_pow, Nat.mod_eq_of_lt (show v / 2 ^ 32 < 2 ^ 32 by omega)]
  by_cases h : v / 2 ^ 32 = 0
  · have hl : v < 2 ^ 32 := by omega
    rw [if_neg (by simp only [not_not]; exact h), Nat.mod_eq_of_lt hl, clz32_ok h0 hl]
    have : Nat.log2 v < 32 := (Nat.log2_lt (by omega)).mpr hl
    simp only [ok_bind, pure_eq_ok]
    exact congrArg Except.ok (by omega)
  · rw [if_pos h, clz32_ok (by omega) (by omega)]
    have : Nat.log2 (v / 2 ^ 32) = Nat.log2 v - 32 := by
      rw [Nat.log2_eq_log_two, Nat.log2_eq_log_two]
      exact Nat.log_div_base_pow 2 v 32
    have h2 : 32 ≤ Nat.log2 v := (Nat.le_log2 (by omega)).mpr (by omega)
    rw [this]
    exact congrArg Except.ok (by omega)

/-- One step of the long division. -/
theorem digit_ok {un64 un vn1 vn0 v : ℕ} (hv : v = vn1 * 2 ^ 32 + vn0) (h0 : vn0 < 2 ^ 32) (h1 : vn1 < 2 ^ 32)
    (hn : 2 ^ 31 ≤ vn1) (hu : un64 < v) (hun : un < 2 ^ 32) :
    digit (un64 / vn1) vn0 vn1 (un64 - un64 / vn1 * vn1) un = .ok ((un64 * 2 ^ 32 + un) / v) := by
  have hvpos : 0 < v := by omega
  set N := un64 * 2 ^ 32 + un with hN
  have hQ := Nat.div_add_mod N v
  have hR := Nat.mod_lt N hvpos
  have hQb : N / v < 2 ^ 32 := by
    rw [Nat.div_lt_iff_lt_mul hvpos]; nlinarith
  have hq0 : un64 / vn1 ≤ 2 ^ 32 + 1 := by
    rw [← Nat.lt_succ_iff, Nat.div_lt_iff_lt_mul (by omega)]
    nlinarith
  obtain ⟨Q, hQd⟩ : ∃ Q, Q = N / v := ⟨_, rfl⟩
  rw [← hQd] at hQ hQb ⊢
  have hdm := Nat.div_add_mod un64 vn1
  have hml := Nat.mod_lt un64 (show 0 < vn1 by omega)
  have hsub : un64 - un64 / vn1 * vn1 = un64 % vn1 := by
    rw [Nat.mul_comm]; omega
  rw [hsub]
  have key : Ok (digit (un64 / vn1) vn0 vn1 (un64 % vn1) un) (fun q => q = Q) := by
    unfold digit
    refine loop_ok (fun s => Q ≤ s.1 ∧ s.1 * vn1 + s.2 = un64 ∧ s.2 < 2 ^ 32 ∧ s.1 ≤ 2 ^ 32 + 1 ∧
        (s.2 / vn1) ≤ 1) (fun s => 1 - s.2 / vn1) _
      ⟨?_, by rw [Nat.mul_comm]; exact hdm, by dsimp only; omega, hq0, by dsimp only; rw [Nat.div_eq_of_lt hml]; omega⟩ (by dsimp only; rw [Nat.div_eq_of_lt hml]; omega) ?_
    · dsimp only
      rw [Nat.le_div_iff_mul_le (by omega)]
      have : v * (Q) ≤ N := by omega
      have h2 : Q * vn1 * 2 ^ 32 ≤ v * (Q) := by
        rw [hv, show Q * vn1 * 2 ^ 32 = vn1 * 2 ^ 32 * Q by ring]
        exact Nat.mul_le_mul_right _ (by omega)
      have h3 : Q * vn1 * 2 ^ 32 < (un64 + 1) * 2 ^ 32 := by
        have h4 : N < (un64 + 1) * 2 ^ 32 := by rw [hN]; omega
        exact lt_of_le_of_lt (h2.trans this) h4
      have := Nat.lt_of_mul_lt_mul_right h3
      omega
    · rintro ⟨q, r⟩ ⟨hq, he, hr, hqb, hr2⟩
      dsimp only at hq he hr hqb hr2 ⊢
      have hcond : (q ≥ 2 ^ 32 ∨ (q * vn0) % 2 ^ 64 > (2 ^ 32 * r % 2 ^ 64 + un) % 2 ^ 64) ↔ N < q * v := by
        have e : q * v = (un64 - r) * 2 ^ 32 + q * vn0 := by
          rw [hv, ← he, Nat.add_sub_cancel]; ring
        by_cases hb : q ≥ 2 ^ 32
        · simp only [hb, true_or, true_iff]
          have : 2 ^ 32 * v ≤ q * v := Nat.mul_le_mul_right _ hb
          nlinarith
        · have h5 : q * vn0 ≤ (2 ^ 32 - 1) * (2 ^ 32 - 1) := Nat.mul_le_mul (by omega) (by omega)
          rw [Nat.mod_eq_of_lt (show q * vn0 < 2 ^ 64 by norm_num at h5 ⊢; omega), Nat.mod_eq_of_lt (show 2 ^ 32 * r < 2 ^ 64 by omega),
            Nat.mod_eq_of_lt (show 2 ^ 32 * r + un < 2 ^ 64 by omega), e]
          have hrle : r ≤ un64 := by rw [← he]; omega
          simp only [hb, false_or]
          omega
      by_cases hc : N < q * v
      · rw [if_pos (hcond.mpr hc)]
        have hqpos : Q < q := by
          rw [hQd, Nat.div_lt_iff_lt_mul hvpos]; exact hc
        rw [show (q + 2 ^ 64 - 1) % 2 ^ 64 = q - 1 by omega, Nat.mod_eq_of_lt (show r + vn1 < 2 ^ 64 by omega)]
        have he' : (q - 1) * vn1 + (r + vn1) = un64 := by
          obtain ⟨q', rfl⟩ : ∃ q', q = q' + 1 := ⟨q - 1, by omega⟩
          rw [← he]; simp only [Nat.add_sub_cancel]; ring
        by_cases hb : r + vn1 ≥ 2 ^ 32
        · rw [if_pos hb]
          refine Ok.ok ?_
          refine le_antisymm ?_ (by omega)
          rw [hQd, Nat.le_div_iff_mul_le hvpos, hv, hN, ← he']
          have : (q - 1) * vn0 ≤ 2 ^ 32 * 2 ^ 32 := Nat.mul_le_mul (by omega) (by omega)
          nlinarith
        · rw [if_neg hb]
          have hrl : r < vn1 := by omega
          have e0 : r / vn1 = 0 := Nat.div_eq_of_lt hrl
          have e1 : (r + vn1) / vn1 = 1 := by
            rw [Nat.add_div_right _ (by omega), e0]
          refine Ok.ok ⟨⟨by dsimp only; omega, he', by dsimp only; omega, by dsimp only; omega, ?_⟩, ?_⟩
          · dsimp only; rw [e1]
          · dsimp only; rw [e0, e1]; omega
      · rw [if_neg (fun h => hc (hcond.mp h))]
        refine Ok.ok ?_
        refine le_antisymm ?_ hq
        rw [hQd, Nat.le_div_iff_mul_le hvpos]; omega
  obtain ⟨r, hr, hq⟩ := key
  rw [hr, hq]

theorem mod_sub {a b : ℕ} (h : b ≤ a) (hl : a - b < 2 ^ 64) :
    (a % 2 ^ 64 + 2 ^ 64 - b % 2 ^ 64) % 2 ^ 64 = a - b := by omega

theorem mod_sub' {a c b : ℕ} (h : b ≤ a + c) (hl : a + c - b < 2 ^ 64) :
    (a % 2 ^ 64 + c + 2 ^ 64 - b % 2 ^ 64) % 2 ^ 64 = a + c - b := by omega

/-- The normalised division. -/
theorem div_norm {U u v : ℕ} (hv : v < 2 ^ 64) (hn : 2 ^ 63 ≤ v) (hU : U < v) (hu : u < 2 ^ 64) :
    digit (U / (v / 2 ^ 32)) (v % 2 ^ 32) (v / 2 ^ 32) (U - U / (v / 2 ^ 32) * (v / 2 ^ 32)) (u / 2 ^ 32) =
      .ok ((U * 2 ^ 32 + u / 2 ^ 32) / v) :=
  digit_ok (by have := Nat.div_add_mod v (2 ^ 32); omega) (Nat.mod_lt _ (by norm_num)) (by omega) (by omega) hU (by omega)

theorem div128_eq {u1 u0 v : ℕ} (h1 : u1 < v) (h0 : u0 < 2 ^ 64) (hv : v < 2 ^ 64) :
    div128 u1 u0 v = Libdivide.div128 u1 u0 v := by
  have hvpos : 0 < v := by omega
  have hlog : Nat.log2 v < 64 := (Nat.log2_lt (by omega)).mpr hv
  have hle : 2 ^ Nat.log2 v ≤ v := Nat.log2_self_le (by omega)
  have hlt : v < 2 ^ (Nat.log2 v + 1) := Nat.lt_log2_self
  unfold div128 Libdivide.div128
  dsimp only
  rw [if_neg (by omega), if_neg (by omega)]
  simp only [pure_eq_ok]
  rw [clz64_ok hvpos hv]
  simp only [ok_bind]
  generalize hs : 63 - Nat.log2 v = s
  rw [if_neg (by omega)]
  obtain ⟨V, U, u, hpair, hV, hVn, hVl, hUV, hul⟩ : ∃ V U u, (if s > 0 then ((v <<< s) % 2 ^ 64, ((u1 <<< s) % 2 ^ 64) ||| (u0 >>> (64 - s)), (u0 <<< s) % 2 ^ 64) else (v, u1, u0)) = (V, U, u) ∧ V = v * 2 ^ s ∧ 2 ^ 63 ≤ V ∧ V < 2 ^ 64 ∧ U * 2 ^ 64 + u = (u1 * 2 ^ 64 + u0) * 2 ^ s ∧ u < 2 ^ 64 := by
    have hp : 2 ^ Nat.log2 v * 2 ^ s = 2 ^ 63 := by rw [← pow_add]; congr 1; omega
    have hp2 : 2 ^ (Nat.log2 v + 1) * 2 ^ s = 2 ^ 64 := by rw [← pow_add]; congr 1; omega
    have hV1 : 2 ^ 63 ≤ v * 2 ^ s := by rw [← hp]; exact Nat.mul_le_mul_right _ hle
    have hV2 : v * 2 ^ s < 2 ^ 64 := by rw [← hp2]; exact Nat.mul_lt_mul_of_pos_right hlt (by positivity)
    by_cases hs0 : s > 0
    · rw [if_pos hs0]
      refine ⟨_, _, _, rfl, ?_, ?_, ?_, ?_, Nat.mod_lt _ (by norm_num)⟩
      · rw [Nat.shiftLeft_eq, Nat.mod_eq_of_lt hV2]
      · rw [Nat.shiftLeft_eq, Nat.mod_eq_of_lt hV2]; exact hV1
      · exact Nat.mod_lt _ (by norm_num)
      · have hu1 : u1 * 2 ^ s < 2 ^ 64 := lt_of_le_of_lt (Nat.mul_le_mul_right _ h1.le) hV2
        have hsp : (2 : ℕ) ^ 64 = 2 ^ (64 - s) * 2 ^ s := by rw [← pow_add]; congr 1; omega
        have hlow : u0 / 2 ^ (64 - s) < 2 ^ s := by
          rw [Nat.div_lt_iff_lt_mul (by positivity), Nat.mul_comm, ← hsp]; exact h0
        rw [Nat.shiftLeft_eq, Nat.shiftLeft_eq, Nat.mod_eq_of_lt hu1, Nat.shiftRight_eq_div_pow,
          Nat.mul_comm u1, ← Nat.two_pow_add_eq_or_of_lt hlow]
        have e := Nat.div_add_mod u0 (2 ^ (64 - s))
        have e2 : u0 * 2 ^ s % 2 ^ 64 = (u0 % 2 ^ (64 - s)) * 2 ^ s := by
          rw [hsp, Nat.mul_mod_mul_right]
        rw [e2]
        calc (2 ^ s * u1 + u0 / 2 ^ (64 - s)) * 2 ^ 64 + u0 % 2 ^ (64 - s) * 2 ^ s
            = (u1 * 2 ^ 64) * 2 ^ s + (u0 / 2 ^ (64 - s)) * 2 ^ 64 + u0 % 2 ^ (64 - s) * 2 ^ s := by ring
          _ = (u1 * 2 ^ 64) * 2 ^ s + (2 ^ (64 - s) * (u0 / 2 ^ (64 - s)) + u0 % 2 ^ (64 - s)) * 2 ^ s := by
              rw [hsp]; ring
          _ = _ := by rw [e]; ring
    · have : s = 0 := by omega
      rw [if_neg hs0]
      subst this
      exact ⟨_, _, _, rfl, by simp, by simpa using hV1, hv, by simp, h0⟩
  rw [hpair]
  dsimp only
  have hUl : U < V := by
    have : (u1 * 2 ^ 64 + u0) * 2 ^ s < (v * 2 ^ 64) * 2 ^ s := Nat.mul_lt_mul_of_pos_right (by omega) (by positivity)
    have h3 : U * 2 ^ 64 < V * 2 ^ 64 := by rw [hV]; nlinarith
    exact Nat.lt_of_mul_lt_mul_right h3
  simp only [mask_eq, Nat.shiftRight_eq_div_pow]
  rw [cdiv_ok (by omega), ok_bind]
  have hr1 : (U + 2 ^ 64 - U / (V / 2 ^ 32) * (V / 2 ^ 32) % 2 ^ 64) % 2 ^ 64 = U - U / (V / 2 ^ 32) * (V / 2 ^ 32) := by
    have := Nat.div_mul_le_self U (V / 2 ^ 32)
    omega
  rw [hr1, div_norm hVl hVn hUl hul, ok_bind]
  have hdm := Nat.div_add_mod (U * 2 ^ 32 + u / 2 ^ 32) V
  have hml := Nat.mod_lt (U * 2 ^ 32 + u / 2 ^ 32) (show 0 < V by omega)
  obtain ⟨q1, hq1⟩ : ∃ q, q = (U * 2 ^ 32 + u / 2 ^ 32) / V := ⟨_, rfl⟩
  rw [← hq1] at hdm ⊢
  obtain ⟨U', hU'⟩ : ∃ q, q = (U * 2 ^ 32 + u / 2 ^ 32) % V := ⟨_, rfl⟩
  rw [← hU'] at hdm hml
  have hr2 : (U * 2 ^ 32 % 2 ^ 64 + u / 2 ^ 32 + 2 ^ 64 - q1 * V % 2 ^ 64) % 2 ^ 64 = U' := by
    have hc := Nat.mul_comm q1 V
    rw [mod_sub' (by omega) (by omega)]; omega
  rw [hr2, cdiv_ok (by omega), ok_bind]
  have hr3 : (U' + 2 ^ 64 - U' / (V / 2 ^ 32) * (V / 2 ^ 32) % 2 ^ 64) % 2 ^ 64 = U' - U' / (V / 2 ^ 32) * (V / 2 ^ 32) := by
    have := Nat.div_mul_le_self U' (V / 2 ^ 32)
    omega
  rw [hr3, digit_ok (v := V) (by have := Nat.div_add_mod V (2 ^ 32); omega) (Nat.mod_lt _ (by norm_num)) (by omega)
    (by omega) hml (Nat.mod_lt _ (by norm_num)), ok_bind]
  have hdm2 := Nat.div_add_mod (U' * 2 ^ 32 + u % 2 ^ 32) V
  have hml2 := Nat.mod_lt (U' * 2 ^ 32 + u % 2 ^ 32) (show 0 < V by omega)
  have hq0b : (U' * 2 ^ 32 + u % 2 ^ 32) / V < 2 ^ 32 := by
    rw [Nat.div_lt_iff_lt_mul (by omega)]; omega
  have hq1b : q1 < 2 ^ 32 := by
    rw [hq1, Nat.div_lt_iff_lt_mul (by omega)]; omega
  obtain ⟨q0, hq0⟩ : ∃ q, q = (U' * 2 ^ 32 + u % 2 ^ 32) / V := ⟨_, rfl⟩
  rw [← hq0] at hdm2 hq0b ⊢
  obtain ⟨R, hR⟩ : ∃ q, q = (U' * 2 ^ 32 + u % 2 ^ 32) % V := ⟨_, rfl⟩
  rw [← hR] at hdm2 hml2
  have hr4 : (U' * 2 ^ 32 % 2 ^ 64 + u % 2 ^ 32 + 2 ^ 64 - q0 * V % 2 ^ 64) % 2 ^ 64 = R := by
    have hc := Nat.mul_comm q0 V
    rw [mod_sub' (by omega) (by omega)]; omega
  rw [hr4, Nat.mod_eq_of_lt (show q1 * 2 ^ 32 < 2 ^ 64 by omega), Nat.mod_eq_of_lt (show q1 * 2 ^ 32 + q0 < 2 ^ 64 by omega)]
  have tot : (u1 * 2 ^ 64 + u0) * 2 ^ s = (v * (q1 * 2 ^ 32 + q0)) * 2 ^ s + R := by
    rw [← hUV]
    have e1 := Nat.div_add_mod u (2 ^ 32)
    have : v * (q1 * 2 ^ 32 + q0) * 2 ^ s = V * q1 * 2 ^ 32 + V * q0 := by rw [hV]; ring
    rw [this]
    nlinarith
  have hRdvd : 2 ^ s ∣ R := by
    have h5 : 2 ^ s ∣ (v * (q1 * 2 ^ 32 + q0)) * 2 ^ s + R := tot ▸ Dvd.intro_left _ rfl
    exact (Nat.dvd_add_right (Dvd.intro_left _ rfl)).mp h5
  obtain ⟨R', hRe⟩ := hRdvd
  rw [hRe] at hml2 tot ⊢
  have hps : 0 < 2 ^ s := by positivity
  have hR' : R' < v := by
    rw [hV, Nat.mul_comm v] at hml2
    exact Nat.lt_of_mul_lt_mul_left hml2
  have tot2 : u1 * 2 ^ 64 + u0 = v * (q1 * 2 ^ 32 + q0) + R' := by
    apply Nat.eq_of_mul_eq_mul_right hps
    rw [tot]; ring
  rw [Nat.mul_div_cancel_left _ hps, tot2]
  refine congrArg Except.ok (Prod.ext ?_ ?_)
  · dsimp only
    rw [Nat.mul_add_div (by omega), Nat.div_eq_of_lt hR', Nat.add_zero]
  · dsimp only
    rw [Nat.mul_add_mod, Nat.mod_eq_of_lt hR']

theorem gen_eq {d : ℕ} (hd : d < 2 ^ 64) : gen d = Libdivide.gen d := by
  unfold gen Libdivide.gen
  by_cases h1 : d = 1
  · rw [if_pos h1, if_pos h1]
  by_cases h0 : d = 0
  · rw [if_neg h1, if_neg h1, if_pos h0, if_pos h0]
  rw [if_neg h1, if_neg h1, if_neg h0, if_neg h0, clz64_ok (by omega) hd]
  have hlog : Nat.log2 d < 64 := (Nat.log2_lt (by omega)).mpr hd
  have hle : 2 ^ Nat.log2 d ≤ d := Nat.log2_self_le (by omega)
  simp only [ok_bind]
  rw [show 63 - (63 - Nat.log2 d) = Nat.log2 d by omega]
  by_cases hp : d &&& (d - 1) = 0
  · rw [if_pos hp, if_pos hp]; rfl
  · rw [if_neg hp, if_neg hp]
    have hlt : 2 ^ Nat.log2 d < d := by
      refine lt_of_le_of_ne hle (fun he => hp ?_)
      rw [← he]
      exact Nat.and_two_pow_sub_one_eq_mod _ _ |>.trans (by simp)
    rw [div128_eq hlt (by norm_num) hd]

end PS.Libdivide.Port
