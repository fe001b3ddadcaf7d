import Verif.Model.Dbl
import Verif.Proof.Ieee
import Verif.Proof.Width
import Mathlib.Tactic.Positivity
import Mathlib.Tactic.NormNum

/-! # Facts about `double` operations -/

namespace PS
namespace Dbl

/-- `d` is a number or infinity that is at least `c`. -/
def AtLeast (c : ℚ) : Dbl → Prop
  | .fin q => c ≤ q
  | .inf neg => neg = false
  | .nan => False

theorem atLeast_iff {c : ℚ} {d : Dbl} : AtLeast c d ↔ d = .inf false ∨ ∃ q, d = .fin q ∧ c ≤ q := by
  cases d <;> simp [AtLeast]

theorem AtLeast.mono {c c' : ℚ} {d : Dbl} (h : AtLeast c d) (hc : c' ≤ c) : AtLeast c' d := by
  cases d with
  | fin q => exact le_trans hc h
  | inf n => exact h
  | nan => exact h

theorem AtLeast.max_left {c : ℚ} {a : Dbl} (h : AtLeast c a) (b : Dbl) : AtLeast c (max a b) := by
  unfold max
  split
  · rename_i hl
    cases a with
    | fin q =>
      cases b with
      | fin r => exact le_trans h (le_of_lt (of_decide_eq_true hl))
      | inf n => simpa [lt, AtLeast] using hl
      | nan => simp [lt] at hl
    | inf n =>
      have : n = false := h
      subst this
      cases b <;> simp [lt] at hl
    | nan => exact h.elim
  · exact h

theorem pow53_lt : (2 : ℚ) ^ 53 < 2 ^ 1024 := pow_lt_pow_right₀ (by norm_num) (by norm_num)

theorem not_le_neg {b B : ℚ} (h : 0 ≤ b) (hB : 0 < B) : ¬ b ≤ -B := by intro hc; linarith

theorem binary64_ge_of {q : ℚ} {k : ℤ} (hk : -1074 ≤ k) (h : 2 ^ k ≤ q) : 2 ^ k ≤ binary64 q := by
  have := binary64_mono h
  rwa [binary64_zpow hk] at this

theorem round_of_lt {q : ℚ} (h0 : 0 ≤ q) (h : binary64 q < 2 ^ 1024) : round q = .fin (binary64 q) := by
  unfold round
  rw [if_neg (not_le.2 h), if_neg (not_le_neg (binary64_nonneg h0) (by positivity))]

theorem round_atLeast {q : ℚ} {c : ℚ} (h0 : 0 ≤ q) (h : c ≤ binary64 q) : AtLeast c (round q) := by
  unfold round
  split
  · rfl
  · rw [if_neg (not_le_neg (binary64_nonneg h0) (by positivity))]
    exact h

theorem ofInt_nat (n : ℕ) (hn : n ≤ 2 ^ 53) : ofInt n = .fin n := by
  unfold ofInt
  have e : ((n : ℤ) : ℚ) = (n : ℚ) := by norm_cast
  have hb := binary64_nat n hn
  rw [e, round_of_lt (by positivity) (by
    rw [hb]
    have : (n : ℚ) ≤ 2 ^ 53 := by exact_mod_cast hn
    exact lt_of_le_of_lt this pow53_lt), hb]

theorem ofInt_atLeast {n : ℕ} (hn : 1 ≤ n) : AtLeast 1 (ofInt n) := by
  refine round_atLeast (by positivity) ?_
  have := binary64_mono (show ((1 : ℕ) : ℚ) ≤ ((n : ℤ) : ℚ) by exact_mod_cast hn)
  rwa [binary64_nat 1 (by norm_num), Nat.cast_one] at this

theorem mul_atLeast {k l : ℤ} (hkl : -1074 ≤ k + l) {a b : Dbl} (ha : AtLeast (2 ^ k) a) (hb : AtLeast (2 ^ l) b) :
    AtLeast (2 ^ (k + l)) (mul a b) := by
  have pk : (0 : ℚ) < 2 ^ k := by positivity
  have pl : (0 : ℚ) < 2 ^ l := by positivity
  cases a with
  | fin q =>
    cases b with
    | fin r =>
      have hq : (2 : ℚ) ^ k ≤ q := ha
      have hr : (2 : ℚ) ^ l ≤ r := hb
      have h1 : (2 : ℚ) ^ (k + l) ≤ q * r := by
        rw [zpow_add₀ (by norm_num)]
        exact mul_le_mul hq hr pl.le (by linarith)
      exact round_atLeast (le_trans (by positivity) h1) (binary64_ge_of hkl h1)
    | inf n =>
      have : n = false := hb
      subst this
      have hq : (2 : ℚ) ^ k ≤ q := ha
      simp only [mul]
      rw [if_neg (by linarith)]
      show (false ^^ decide (q < 0)) = false
      rw [decide_eq_false (by linarith)]; rfl
    | nan => exact hb.elim
  | inf n =>
    have : n = false := ha
    subst this
    cases b with
    | fin r =>
      have hr : (2 : ℚ) ^ l ≤ r := hb
      simp only [mul]
      rw [if_neg (by linarith)]
      show (false ^^ decide (r < 0)) = false
      rw [decide_eq_false (by linarith)]; rfl
    | inf n =>
      have : n = false := hb
      subst this
      rfl
    | nan => exact hb.elim
  | nan => exact ha.elim

theorem add_one_atLeast {a : Dbl} (ha : AtLeast 0 a) : AtLeast 1 (add a (.fin 1)) := by
  cases a with
  | fin q =>
    have hq : (0 : ℚ) ≤ q := ha
    have := binary64_mono (show ((1 : ℕ) : ℚ) ≤ q + 1 by push_cast; linarith)
    rw [binary64_nat 1 (by norm_num), Nat.cast_one] at this
    exact round_atLeast (by linarith) this
  | inf n => exact ha
  | nan => exact ha.elim

theorem div_ok {c : ℚ} (hc : 0 < c) (a : Dbl) {b : Dbl} (hb : AtLeast c b) : ∃ d, div a b = .ok d := by
  cases b with
  | fin q =>
    have hq : c ≤ q := hb
    cases a <;> simp only [div]
    · rw [if_neg (by linarith)]; exact ⟨_, rfl⟩
    · rw [if_neg (by linarith)]; exact ⟨_, rfl⟩
    · exact ⟨_, rfl⟩
  | inf n => cases a <;> exact ⟨_, rfl⟩
  | nan => exact hb.elim

theorem div_ok' (a : Dbl) {b : Dbl} (hb : b.isZero = false) : ∃ d, div a b = .ok d := by
  cases b with
  | fin q =>
    have hq : q ≠ 0 := of_decide_eq_false hb
    cases a <;> simp only [div]
    · rw [if_neg hq]; exact ⟨_, rfl⟩
    · rw [if_neg hq]; exact ⟨_, rfl⟩
    · exact ⟨_, rfl⟩
  | inf n => cases a <;> exact ⟨_, rfl⟩
  | nan => cases a <;> exact ⟨_, rfl⟩

/-- The quotient of an integer by a number that is not below 1. -/
theorem div_nat {n : ℕ} (hn : n ≤ 2 ^ 53) {b : Dbl} (hb : AtLeast 1 b) :
    ∃ q, div (ofInt n) b = .ok (.fin q) ∧ 0 ≤ q ∧ q ≤ n := by
  rw [ofInt_nat n hn]
  cases b with
  | fin r =>
    have hr : 1 ≤ r := hb
    have h1 : (n : ℚ) / r ≤ n := div_le_self (by positivity) hr
    have h0 : 0 ≤ (n : ℚ) / r := div_nonneg (by positivity) (by linarith)
    have h2 := binary64_mono h1
    rw [binary64_nat n hn] at h2
    have h3 : (n : ℚ) ≤ 2 ^ 53 := by exact_mod_cast hn
    refine ⟨binary64 (n / r), ?_, binary64_nonneg h0, h2⟩
    simp only [div]
    rw [if_neg (by linarith), round_of_lt h0 (lt_of_le_of_lt (h2.trans h3) pow53_lt)]
  | inf m => exact ⟨0, rfl, le_rfl, by positivity⟩
  | nan => exact hb.elim

theorem toInt64_ok {q : ℚ} (h0 : 0 ≤ q) (h : q < 2 ^ 63) : toInt64 (.fin q) = .ok ⌊q⌋ := by
  show fitI 63 (if 0 ≤ q then ⌊q⌋ else ⌈q⌉) = _
  rw [if_pos h0]
  have h1 : 0 ≤ ⌊q⌋ := Int.floor_nonneg.2 h0
  exact fitI_ok (by linarith) (Int.floor_lt.2 (by push_cast; exact h))

/-- What `in_between(0.5, factor, 2)` can be. -/
theorem inBetween_cases (d : Dbl) : inBetween (.fin (1 / 2)) d (.fin 2) = .nan ∨
    ∃ q, inBetween (.fin (1 / 2)) d (.fin 2) = .fin q ∧ 1 / 2 ≤ q ∧ q ≤ 2 := by
  cases d with
  | fin q =>
    right
    unfold inBetween
    simp only [lt, decide_eq_true_eq]
    split
    · exact ⟨_, rfl, le_rfl, by norm_num⟩
    · split
      · exact ⟨_, rfl, by norm_num, le_rfl⟩
      · exact ⟨_, rfl, not_lt.1 ‹_›, not_lt.1 ‹_›⟩
  | inf n =>
    right
    cases n
    · exact ⟨2, rfl, by norm_num, le_rfl⟩
    · exact ⟨1 / 2, rfl, le_rfl, by norm_num⟩
  | nan => left; rfl

/-- The new number of segments: `max(1.0, n * factor)`. -/
theorem segments_ok {n : ℕ} (hn : n ≤ 2 ^ 53) (h1 : 1 ≤ n) (d : Dbl) :
    ∃ q, max (.fin 1) (mul (ofInt n) (inBetween (.fin (1 / 2)) d (.fin 2))) = .fin q ∧ 1 ≤ q ∧ q ≤ (2 * n : ℕ) := by
  rw [ofInt_nat n (by omega)]
  have hn1 : (1 : ℚ) ≤ n := by exact_mod_cast h1
  have hn' : (n : ℚ) ≤ 2 ^ 53 := by exact_mod_cast hn
  rcases inBetween_cases d with h | ⟨f, h, hf1, hf2⟩
  · rw [h]
    exact ⟨1, rfl, le_rfl, by push_cast; linarith⟩
  · rw [h]
    have h0 : 0 ≤ (n : ℚ) * f := by positivity
    have hb : binary64 (n * f) ≤ ((2 * n : ℕ) : ℚ) := by
      have := binary64_mono (show (n : ℚ) * f ≤ ((2 * n : ℕ) : ℚ) by push_cast; nlinarith)
      rwa [show ((2 * n : ℕ) : ℚ) = 2 * (n : ℚ) by push_cast; rfl, binary64_two_mul hn1, binary64_nat n hn,
        ← show ((2 * n : ℕ) : ℚ) = 2 * (n : ℚ) by push_cast; rfl] at this
    have hr : mul (.fin n) (.fin f) = .fin (binary64 (n * f)) :=
      round_of_lt h0 (lt_of_le_of_lt hb (by push_cast; refine lt_of_le_of_lt (show (2 : ℚ) * n ≤ 2 ^ 54 by linarith) (pow_lt_pow_right₀ (by norm_num) (by norm_num))))
    rw [hr]
    unfold max
    simp only [lt, decide_eq_true_eq]
    split
    · exact ⟨_, rfl, le_of_lt ‹_›, hb⟩
    · exact ⟨1, rfl, le_rfl, by push_cast; linarith⟩

/-- The rounded square root is at least half of the square root. -/
theorem sqrtQ_ge {q : ℚ} (h : 0 < q) : 0 < sqrtQ q ∧ q < 4 * sqrtQ q ^ 2 := by
  unfold sqrtQ
  dsimp only
  set e := Int.log 2 q / 2 - 52
  have h4 : (0 : ℚ) < 4 ^ e := by positivity
  have h2 : (0 : ℚ) < 2 ^ e := by positivity
  have e4 : (4 : ℚ) ^ e = 2 ^ e * 2 ^ e := by
    rw [← mul_zpow]; norm_num
  have hm : 1 ≤ q / 4 ^ e := by
    rw [le_div_iff₀ h4, one_mul]
    have h5 : (2 : ℚ) ^ Int.log 2 q ≤ q := by exact_mod_cast Int.zpow_log_le_self (b := 2) (by norm_num) h
    refine le_trans ?_ h5
    rw [e4, ← zpow_add₀ (by norm_num)]
    exact zpow_le_zpow_right₀ (by norm_num) (by omega)
  set m := q / 4 ^ e with hmd
  have hfl : 1 ≤ ⌊m⌋ := Int.le_floor.2 (by exact_mod_cast hm)
  set n := Nat.sqrt ⌊m⌋.toNat with hn
  have hn1 : 1 ≤ n := by
    rw [hn]; exact Nat.sqrt_pos.2 (by omega)
  have hlt : m < (n + 1) * (n + 1) := by
    have h6 : ⌊m⌋.toNat < (n + 1) * (n + 1) := Nat.lt_succ_sqrt _
    have h7 : ⌊m⌋ < (((n + 1) * (n + 1) : ℕ) : ℤ) := by omega
    have h8 := Int.floor_lt.1 h7
    push_cast at h8
    exact h8
  set r := if m < ((n : ℚ) + 1 / 2) ^ 2 ∨ m = ((n : ℚ) + 1 / 2) ^ 2 ∧ n % 2 = 0 then n else n + 1 with hr
  have hrn : n ≤ r := by rw [hr]; split <;> omega
  have hr1 : (1 : ℚ) ≤ r := by exact_mod_cast hn1.trans hrn
  have hrn' : (n : ℚ) ≤ r := by exact_mod_cast hrn
  refine ⟨by positivity, ?_⟩
  have hq : q = m * 4 ^ e := by rw [hmd]; field_simp
  rw [hq, show 4 * ((r : ℚ) * 2 ^ e) ^ 2 = (4 * r * r) * 4 ^ e by rw [e4]; ring]
  refine mul_lt_mul_of_pos_right (lt_of_lt_of_le hlt ?_) h4
  nlinarith

theorem sqrt_atLeast {c : ℚ} (hc : 0 < c) {a : Dbl} (ha : AtLeast c a) :
    ∃ s : ℚ, 0 < s ∧ c ≤ 4 * s ^ 2 ∧ AtLeast s (sqrt a) := by
  cases a with
  | fin q =>
    have hq : c ≤ q := ha
    have h := sqrtQ_ge (lt_of_lt_of_le hc hq)
    refine ⟨sqrtQ q, h.1, by linarith, ?_⟩
    simp only [sqrt]
    rw [if_neg (by linarith), if_neg (by linarith)]
    exact le_rfl
  | inf n =>
    have : n = false := ha
    subst this
    exact ⟨c + 1, by linarith, by nlinarith, rfl⟩
  | nan => exact ha.elim

theorem round_near {q : ℚ} (h : 1 / 2 ^ 1000 ≤ q) : AtLeast (q * (15 / 16)) (round q) :=
  round_atLeast (le_trans (by positivity) h) (binary64_near h).1

theorem small_le_one : (1 : ℚ) / 2 ^ 1000 ≤ 1 := by
  rw [div_le_one (by positivity)]; exact one_le_pow₀ (by norm_num)

theorem ofInt_near {n : ℕ} (h : 1 ≤ n) (hn : n < 2 ^ 127) :
    ∃ q, ofInt n = .fin q ∧ (n : ℚ) * (15 / 16) ≤ q ∧ q ≤ n * (17 / 16) := by
  have h1 : (1 : ℚ) ≤ ((n : ℤ) : ℚ) := by exact_mod_cast h
  have h2 : ((n : ℤ) : ℚ) < 2 ^ 127 := by exact_mod_cast hn
  have hb := binary64_near (small_le_one.trans h1)
  refine ⟨_, round_of_lt (by linarith) ?_, by exact_mod_cast hb.1, by exact_mod_cast hb.2⟩
  refine lt_of_le_of_lt hb.2 (lt_of_lt_of_le (show _ < (2 : ℚ) ^ 128 by linarith) (pow_le_pow_right₀ (by norm_num) (by norm_num)))

theorem mul_near {a b : Dbl} {c d : ℚ} (hc : 0 < c) (hd : 0 < d) (h : 1 / 2 ^ 1000 ≤ c * d) (ha : AtLeast c a)
    (hb : AtLeast d b) : AtLeast (c * d * (15 / 16)) (mul a b) := by
  cases a with
  | fin q =>
    have hq : c ≤ q := ha
    cases b with
    | fin r =>
      have hr : d ≤ r := hb
      have h1 : c * d ≤ q * r := mul_le_mul hq hr hd.le (by linarith)
      exact (round_near (h.trans h1)).mono (by linarith)
    | inf n =>
      have : n = false := hb
      subst this
      simp only [mul]
      rw [if_neg (by linarith)]
      show (false ^^ decide (q < 0)) = false
      rw [decide_eq_false (by linarith)]; rfl
    | nan => exact hb.elim
  | inf n =>
    have : n = false := ha
    subst this
    cases b with
    | fin r =>
      have hr : d ≤ r := hb
      simp only [mul]
      rw [if_neg (by linarith)]
      show (false ^^ decide (r < 0)) = false
      rw [decide_eq_false (by linarith)]; rfl
    | inf n =>
      have : n = false := hb
      subst this
      rfl
    | nan => exact hb.elim
  | nan => exact ha.elim

/-- A quotient with a known lower bound of the divisor. -/
theorem div_le {a c B : ℚ} {b : Dbl} (ha : 0 ≤ a) (hc : 0 < c) (hb : AtLeast c b) (hB1 : 1 ≤ B) (hB2 : B < 2 ^ 127)
    (h : a / c ≤ B) : ∃ q, div (.fin a) b = .ok (.fin q) ∧ 0 ≤ q ∧ q ≤ B * (17 / 16) := by
  cases b with
  | fin r =>
    have hr : c ≤ r := hb
    have h0 : 0 ≤ a / r := div_nonneg ha (by linarith)
    have h1 : a / r ≤ B := le_trans (div_le_div_of_nonneg_left ha hc hr) h
    have h2 := (binary64_mono h1).trans (binary64_near (small_le_one.trans hB1)).2
    refine ⟨binary64 (a / r), ?_, binary64_nonneg h0, h2⟩
    simp only [div]
    rw [if_neg (by linarith), round_of_lt h0]
    exact lt_of_le_of_lt h2 (lt_of_lt_of_le (show _ < (2 : ℚ) ^ 128 by linarith) (pow_le_pow_right₀ (by norm_num) (by norm_num)))
  | inf m => exact ⟨0, rfl, le_rfl, by linarith⟩
  | nan => exact hb.elim

theorem toUInt64_ok {q : ℚ} (h0 : 0 ≤ q) (h : q < 2 ^ 64) : toUInt64 (.fin q) = .ok ⌊q⌋.toNat := by
  unfold toUInt64
  dsimp only
  rw [if_neg (by linarith), fit_ok]
  have h1 : 0 ≤ ⌊q⌋ := Int.floor_nonneg.2 h0
  have h2 : ⌊q⌋ < 2 ^ 64 := by
    rw [Int.floor_lt]
    push_cast
    exact h
  omega

/-- The product of an integer and a factor in `[0, 1]`, converted to `uint64_t`. -/
theorem mul_toUInt64 {n : ℕ} {c : ℚ} (hn : n ≤ 2 ^ 53) (h0 : 0 ≤ c) (h1 : c ≤ 1) :
    Ok ((mul (ofInt n) (.fin c)).toUInt64) (fun r => r ≤ n) := by
  rw [ofInt_nat n hn]
  have hb : binary64 ((n : ℚ) * c) ≤ n := by
    have h := binary64_mono (mul_le_of_le_one_right (Nat.cast_nonneg n) h1 : (n : ℚ) * c ≤ n)
    rwa [binary64_nat n hn] at h
  have hn0 : 0 ≤ binary64 ((n : ℚ) * c) := binary64_nonneg (mul_nonneg (Nat.cast_nonneg n) h0)
  have hn' : (n : ℚ) ≤ 2 ^ 53 := by exact_mod_cast hn
  show Ok (toUInt64 (round ((n : ℚ) * c))) _
  rw [round_of_lt (mul_nonneg (Nat.cast_nonneg n) h0) (lt_of_le_of_lt (hb.trans hn') pow53_lt), toUInt64_ok hn0 (by linarith [show (2:ℚ)^53 < 2^64 by norm_num])]
  refine Ok.ok ?_
  have : ⌊binary64 ((n : ℚ) * c)⌋ ≤ n := by
    rw [Int.floor_le_iff]
    push_cast
    linarith
  omega

theorem mul_nat_toUInt64 {n m : ℕ} (hn : n ≤ 2 ^ 53) (hm : n * m ≤ 2 ^ 53) :
    (mul (ofInt n) (.fin m)).toUInt64 = .ok (n * m) := by
  rw [ofInt_nat n hn]
  show toUInt64 (round ((n : ℚ) * m)) = _
  have e : (n : ℚ) * m = ((n * m : ℕ) : ℚ) := by push_cast; rfl
  have h2 : ((n * m : ℕ) : ℚ) ≤ 2 ^ 53 := by exact_mod_cast hm
  rw [e, round_of_lt (Nat.cast_nonneg _) (by rw [binary64_nat _ hm]; exact lt_of_le_of_lt h2 pow53_lt), binary64_nat _ hm,
    toUInt64_ok (Nat.cast_nonneg _) (by linarith [show (2:ℚ)^53 < 2^64 by norm_num])]
  rw [Int.floor_natCast, Int.toNat_natCast]

theorem round_unit {q : ℚ} (h0 : 0 ≤ q) (h1 : q ≤ 1) : ∃ c, round q = .fin c ∧ 0 ≤ c ∧ c ≤ 1 := by
  have hb : binary64 q ≤ 1 := by
    have := binary64_nat 1 (by norm_num)
    rw [Nat.cast_one] at this
    exact (binary64_mono h1).trans this.le
  exact ⟨_, round_of_lt h0 (lt_of_le_of_lt (hb.trans (by norm_num)) pow53_lt), binary64_nonneg h0, hb⟩

/-- Rounding a number of moderate size. -/
theorem round_bdd {q : ℚ} {N : ℕ} (hN : N ≤ 2 ^ 53) (h : |q| ≤ N) : ∃ c, round q = .fin c ∧ |c| ≤ N := by
  obtain ⟨h1, h2⟩ := abs_le.1 h
  have b1 := binary64_mono h1
  have b2 := binary64_mono h2
  rw [binary64_neg, binary64_nat N hN] at b1
  rw [binary64_nat N hN] at b2
  have hN' : (N : ℚ) ≤ 2 ^ 53 := by exact_mod_cast hN
  have h3 := pow53_lt
  refine ⟨binary64 q, ?_, abs_le.2 ⟨b1, b2⟩⟩
  unfold round
  rw [if_neg (not_le.2 (lt_of_le_of_lt (b2.trans hN') h3)), if_neg]
  intro hc
  generalize (2 : ℚ) ^ 1024 = B at *
  linarith

theorem add_bdd {a b : ℚ} {A B : ℕ} (hN : A + B ≤ 2 ^ 53) (ha : |a| ≤ A) (hb : |b| ≤ B) :
    ∃ c, add (.fin a) (.fin b) = .fin c ∧ |c| ≤ (A + B : ℕ) :=
  round_bdd hN (by push_cast; exact (abs_add_le a b).trans (add_le_add ha hb))

theorem mul_bdd {a b : ℚ} {A B : ℕ} (hN : A * B ≤ 2 ^ 53) (ha : |a| ≤ A) (hb : |b| ≤ B) :
    ∃ c, mul (.fin a) (.fin b) = .fin c ∧ |c| ≤ (A * B : ℕ) :=
  round_bdd hN (by push_cast; rw [abs_mul]; exact mul_le_mul ha hb (abs_nonneg b) (Nat.cast_nonneg A))

theorem toInt128_ok {q : ℚ} (h0 : 0 ≤ q) (h : q < 2 ^ 127) : toInt128 (.fin q) = .ok ⌊q⌋ := by
  show fitI 127 (if 0 ≤ q then ⌊q⌋ else ⌈q⌉) = _
  rw [if_pos h0]
  have h1 : 0 ≤ ⌊q⌋ := Int.floor_nonneg.2 h0
  exact fitI_ok (by linarith) (Int.floor_lt.2 (by push_cast; exact h))

end Dbl
end PS
