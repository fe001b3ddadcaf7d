import Verif.Proof.Alpha
import Mathlib.Analysis.SpecialFunctions.Log.Basic
import Mathlib.Analysis.Complex.ExponentialBounds

/-!
# The limit of `pi(x)` with the default tuning factor
-/

namespace PS.Pi

/-- `log` and the squares and cubes of `pow` are accurate (the C library has errors of about `10^-14`, `10^-12` and
`10^-10`). -/
structure Lib.Accurate (l : Lib) : Prop where
  log : ∀ n : ℕ, 1 ≤ n → n < 2 ^ 127 → ∃ v : ℚ, l.log (.ofInt n) = .fin v ∧ |(v : ℝ) - Real.log n| ≤ 1 / 10 ^ 6
  sq : ∀ v : ℚ, 0 ≤ v → v ≤ 100 → ∃ p, l.pow (.fin v) (.fin 2) = .fin p ∧ |p - v ^ 2| ≤ 1 / 10 ^ 3
  cube : ∀ v : ℚ, 0 ≤ v → v ≤ 100 → ∃ p, l.pow (.fin v) (.fin 3) = .fin p ∧ |p - v ^ 3| ≤ 1 / 10 ^ 3

/-- The polynomial of src/primesum.cpp:215-220. -/
def poly (v : ℚ) : ℚ := 356618 / 10 ^ 9 * v ^ 3 + 263762 / 10 ^ 8 * v ^ 2 - 125227 / 10 ^ 6 * v + 139952 / 10 ^ 5

theorem poly_mono {v w : ℚ} (h0 : 60 ≤ v) (h : v ≤ w) : poly v ≤ poly w := by
  have e : poly w - poly v = (w - v) * (356618 / 10 ^ 9 * (w ^ 2 + w * v + v ^ 2) + 263762 / 10 ^ 8 * (w + v) - 125227 / 10 ^ 6) := by
    unfold poly; ring
  have h1 : 60 * 60 ≤ v ^ 2 := by nlinarith
  have h2 : 0 ≤ w ^ 2 + w * v := by nlinarith
  have : 0 ≤ poly w - poly v := by
    rw [e]
    refine mul_nonneg (by linarith) ?_
    linarith
  linarith

/-- Rounding a number between 1 and 1000. -/
theorem round_err {q : ℚ} (h1 : 1 ≤ q) (h2 : q ≤ 1000) : ∃ c, Dbl.round q = .fin c ∧ |c - q| ≤ 1 / 10 ^ 10 := by
  obtain ⟨c, hc, -⟩ := Dbl.round_bdd (q := q) (N := 1000) (by norm_num) (by rw [abs_of_nonneg (by linarith)]; exact_mod_cast h2)
  have h3 := binary64_ge h1
  have h4 := binary64_le h1
  have hb : c = binary64 q := by
    unfold Dbl.round at hc
    split at hc
    · cases hc
    · split at hc
      · cases hc
      · exact (Dbl.fin.inj hc).symm
  refine ⟨c, hc, ?_⟩
  rw [hb, abs_le]
  norm_num at h3 h4 ⊢
  constructor <;> linarith

theorem round_err_neg {q : ℚ} (h1 : 1 ≤ q) (h2 : q ≤ 1000) : ∃ c, Dbl.round (-q) = .fin c ∧ |c - -q| ≤ 1 / 10 ^ 10 := by
  obtain ⟨c, hc, -⟩ := Dbl.round_bdd (q := -q) (N := 1000) (by norm_num)
    (by rw [abs_neg, abs_of_nonneg (by linarith)]; exact_mod_cast h2)
  have h3 := binary64_ge h1
  have h4 := binary64_le h1
  have hb : c = - binary64 q := by
    rw [← binary64_neg]
    unfold Dbl.round at hc
    split at hc
    · cases hc
    · split at hc
      · cases hc
      · exact (Dbl.fin.inj hc).symm
  refine ⟨c, hc, ?_⟩
  rw [hb, abs_le]
  norm_num at h3 h4 ⊢
  constructor <;> linarith

theorem coef_err {q : ℚ} (h : (match Dbl.round q with | .fin c => decide (|c - q| ≤ 1 / 10 ^ 15) | _ => false) = true) :
    ∃ c, Dbl.round q = .fin c ∧ |c - q| ≤ 1 / 10 ^ 15 := by
  split at h
  · exact ⟨_, ‹_›, of_decide_eq_true h⟩
  · cases h

/-- The default tuning factor is the polynomial in the logarithm, up to rounding. -/
theorem default_err {l : Lib} (hl : l.Accurate) {x : ℕ} {v : ℚ} (hv : l.log (.ofInt x) = .fin v) (h1 : 60 ≤ v) (h2 : v ≤ 90) :
    ∃ d, defaultDR l x = .fin d ∧ |d - poly v| ≤ 1 / 10 ^ 4 := by
  obtain ⟨p2, e2, b2⟩ := hl.sq v (by linarith) (by linarith)
  obtain ⟨p3, e3, b3⟩ := hl.cube v (by linarith) (by linarith)
  have v2 : 3600 ≤ v ^ 2 := by nlinarith
  have v2' : v ^ 2 ≤ 8100 := by nlinarith
  have v3 : 216000 ≤ v ^ 3 := by nlinarith
  have v3' : v ^ 3 ≤ 729000 := by nlinarith
  unfold defaultDR
  dsimp only
  rw [hv, e2, e3]
  obtain ⟨a, ea, ba⟩ := coef_err (q := 356618 / 10 ^ 9) (by decide +kernel)
  obtain ⟨b, eb, bb⟩ := coef_err (q := 263762 / 10 ^ 8) (by decide +kernel)
  obtain ⟨c, ec, bc⟩ := coef_err (q := -125227 / 10 ^ 6) (by decide +kernel)
  obtain ⟨d, ed, bd⟩ := coef_err (q := 139952 / 10 ^ 5) (by decide +kernel)
  rw [ea, eb, ec, ed]
  rw [abs_le] at b2 b3 ba bb bc bd
  norm_num at b2 b3 ba bb bc bd
  -- the products
  have q1 : |a * p3 - 356618 / 10 ^ 9 * v ^ 3| ≤ 1 / 10 ^ 6 := by
    have : a * p3 - 356618 / 10 ^ 9 * v ^ 3 = (a - 356618 / 10 ^ 9) * p3 + 356618 / 10 ^ 9 * (p3 - v ^ 3) := by ring
    rw [this]
    have t1 : |(a - 356618 / 10 ^ 9) * p3| ≤ 1 / 10 ^ 15 * 729001 := by
      rw [abs_mul]
      refine mul_le_mul (abs_le.2 ?_) (abs_le.2 ?_) (abs_nonneg _) (by norm_num)
      · norm_num; constructor <;> linarith [ba.1, ba.2]
      · constructor <;> linarith [b3.1, b3.2]
    have t2 : |356618 / 10 ^ 9 * (p3 - v ^ 3)| ≤ 356618 / 10 ^ 9 * (1 / 10 ^ 3) := by
      rw [abs_mul, abs_of_pos (by norm_num : (0:ℚ) < 356618 / 10 ^ 9)]
      refine mul_le_mul_of_nonneg_left (abs_le.2 ?_) (by norm_num)
      norm_num; constructor <;> linarith [b3.1, b3.2]
    refine (abs_add_le _ _).trans ((add_le_add t1 t2).trans (by norm_num))
  have q2 : |b * p2 - 263762 / 10 ^ 8 * v ^ 2| ≤ 1 / 10 ^ 5 := by
    have : b * p2 - 263762 / 10 ^ 8 * v ^ 2 = (b - 263762 / 10 ^ 8) * p2 + 263762 / 10 ^ 8 * (p2 - v ^ 2) := by ring
    rw [this]
    have t1 : |(b - 263762 / 10 ^ 8) * p2| ≤ 1 / 10 ^ 15 * 8101 := by
      rw [abs_mul]
      refine mul_le_mul (abs_le.2 ?_) (abs_le.2 ?_) (abs_nonneg _) (by norm_num)
      · norm_num; constructor <;> linarith [bb.1, bb.2]
      · constructor <;> linarith [b2.1, b2.2]
    have t2 : |263762 / 10 ^ 8 * (p2 - v ^ 2)| ≤ 263762 / 10 ^ 8 * (1 / 10 ^ 3) := by
      rw [abs_mul, abs_of_pos (by norm_num : (0:ℚ) < 263762 / 10 ^ 8)]
      refine mul_le_mul_of_nonneg_left (abs_le.2 ?_) (by norm_num)
      norm_num; constructor <;> linarith [b2.1, b2.2]
    refine (abs_add_le _ _).trans ((add_le_add t1 t2).trans (by norm_num))
  have q3 : |-c * v - 125227 / 10 ^ 6 * v| ≤ 1 / 10 ^ 10 := by
    have : -c * v - 125227 / 10 ^ 6 * v = -((c + 125227 / 10 ^ 6) * v) := by ring
    rw [this, abs_neg, abs_mul]
    refine (mul_le_mul (b := 1 / 10 ^ 15) (d := 90) (abs_le.2 ?_) (abs_le.2 ?_) (abs_nonneg _) (by norm_num)).trans (by norm_num)
    · norm_num; constructor <;> linarith [bc.1, bc.2]
    · constructor <;> linarith
  rw [abs_le] at q1 q2 q3
  norm_num at q1 q2 q3
  obtain ⟨m1, r1, s1⟩ := round_err (q := a * p3) (by linarith) (by linarith)
  obtain ⟨m2, r2, s2⟩ := round_err (q := b * p2) (by linarith) (by linarith)
  obtain ⟨m3, r3, s3⟩ := round_err_neg (q := -c * v) (by linarith) (by linarith)
  rw [abs_le] at s1 s2 s3
  norm_num at s1 s2 s3
  have n1 : (Dbl.fin a).mul (.fin p3) = .fin m1 := r1
  have n2 : (Dbl.fin b).mul (.fin p2) = .fin m2 := r2
  have n3 : (Dbl.fin c).mul (.fin v) = .fin m3 := by
    rw [← r3]
    show Dbl.round (c * v) = _
    congr 1
    ring
  rw [n1, n2, n3]
  obtain ⟨m4, r4, s4⟩ := round_err (q := m1 + m2) (by linarith) (by linarith)
  rw [abs_le] at s4
  norm_num at s4
  have n4 : (Dbl.fin m1).add (.fin m2) = .fin m4 := r4
  rw [n4]
  obtain ⟨m5, r5, s5⟩ := round_err (q := m4 + m3) (by linarith) (by linarith)
  rw [abs_le] at s5
  norm_num at s5
  have n5 : (Dbl.fin m4).add (.fin m3) = .fin m5 := r5
  rw [n5]
  obtain ⟨m6, r6, s6⟩ := round_err (q := m5 + d) (by linarith) (by linarith)
  rw [abs_le] at s6
  norm_num at s6
  have n6 : (Dbl.fin m5).add (.fin d) = .fin m6 := r6
  rw [n6]
  refine ⟨m6, rfl, ?_⟩
  unfold poly
  rw [abs_le]
  norm_num
  constructor <;> linarith

/-- Bounds of the computed logarithm. -/
theorem log_range {l : Lib} (hl : l.Accurate) {x a b : ℕ} (h1 : 1 ≤ x) (hx : x < 2 ^ 127) (ha : 2 ^ a ≤ x) (hb : x ≤ 2 ^ b) :
    ∃ v : ℚ, l.log (.ofInt x) = .fin v ∧ (a : ℚ) * (6931471 / 10 ^ 7) - 1 / 10 ^ 6 ≤ v ∧ v ≤ b * (6931472 / 10 ^ 7) + 1 / 10 ^ 6 := by
  obtain ⟨v, hv, he⟩ := hl.log x h1 hx
  have x0 : (0 : ℝ) < x := by exact_mod_cast h1
  have l1 : (a : ℝ) * Real.log 2 ≤ Real.log x := by
    rw [← Real.log_pow]
    exact Real.log_le_log (by positivity) (by exact_mod_cast ha)
  have l2 : Real.log x ≤ (b : ℝ) * Real.log 2 := by
    rw [← Real.log_pow]
    exact Real.log_le_log x0 (by exact_mod_cast hb)
  have t1 := Real.log_two_gt_d9
  have t2 := Real.log_two_lt_d9
  have u1 : (a : ℝ) * (6931471 / 10 ^ 7) ≤ a * Real.log 2 := mul_le_mul_of_nonneg_left (by norm_num at t1 ⊢; linarith) (by positivity)
  have u2 : (b : ℝ) * Real.log 2 ≤ b * (6931472 / 10 ^ 7) := mul_le_mul_of_nonneg_left (by norm_num at t2 ⊢; linarith) (by positivity)
  rw [abs_le] at he
  refine ⟨v, hv, ?_, ?_⟩
  · have : (((a : ℚ) * (6931471 / 10 ^ 7) - 1 / 10 ^ 6 : ℚ) : ℝ) ≤ v := by push_cast; linarith
    exact_mod_cast this
  · have : (v : ℝ) ≤ (((b : ℚ) * (6931472 / 10 ^ 7) + 1 / 10 ^ 6 : ℚ) : ℝ) := by push_cast; linarith
    exact_mod_cast this

/-- The default tuning factor, for `x` between two powers of 2. -/
theorem alpha_range {e : Env} (hl : e.lib.Accurate) {x a b : ℕ} (hd : e.alpha.lt (.fin 1) = true) (hx : x < 2 ^ 127)
    (ha : 2 ^ a ≤ x) (hb : x ≤ 2 ^ b) (ha1 : 88 ≤ a) (hb1 : b ≤ 127) {lo hi : ℚ} (h1 : lo ≤ poly (a * (6931471 / 10 ^ 7) - 1 / 10 ^ 6) - 1 / 10 ^ 4)
    (h2 : poly (b * (6931472 / 10 ^ 7) + 1 / 10 ^ 6) + 1 / 10 ^ 4 ≤ hi) (hlo : 1 ≤ lo) (hhi : hi ≤ 2 ^ 14) :
    lo ≤ toQ (e.alphaD x) ∧ toQ (e.alphaD x) ≤ hi := by
  have x1 : 1 ≤ x := le_trans Nat.one_le_two_pow ha
  obtain ⟨v, hv, v1, v2⟩ := log_range hl x1 hx ha hb
  have a1 : (88 : ℚ) ≤ a := by exact_mod_cast ha1
  have b1 : (b : ℚ) ≤ 127 := by exact_mod_cast hb1
  have w1 : 60 ≤ (a : ℚ) * (6931471 / 10 ^ 7) - 1 / 10 ^ 6 := by norm_num; linarith
  have w2 : (b : ℚ) * (6931472 / 10 ^ 7) + 1 / 10 ^ 6 ≤ 90 := by norm_num; linarith
  obtain ⟨d, he, h3⟩ := default_err hl hv (by linarith) (by linarith)
  rw [abs_le] at h3
  have m1 := poly_mono w1 v1
  have m2 := poly_mono (w1.trans v1) v2
  have d1 : lo ≤ d := by linarith [h3.1]
  have d2 : d ≤ hi := by linarith [h3.2]
  have r6 : 2 ^ 14 ≤ iroot 6 x := le_iroot (by norm_num) (by
    refine le_trans ?_ ha
    rw [← pow_mul]
    exact Nat.pow_le_pow_right (by norm_num) (by omega))
  have r6' : (2 : ℚ) ^ 14 ≤ iroot 6 x := by exact_mod_cast r6
  have hc : e.alphaD x = .fin d := by
    unfold Env.alphaD
    have := clamp_set (dflt := .fin 0) (hlo.trans d1) ((d2.trans hhi).trans r6') hx
    unfold clampAlpha at this ⊢
    rw [if_pos hd, he]
    rw [if_neg (by simp only [Dbl.lt, decide_eq_true_eq, not_lt]; exact hlo.trans d1)] at this
    exact this
  rw [hc]
  exact ⟨d1, d2⟩

/-- With the default tuning factor numbers up to `5 * 10^30` are accepted. -/
theorem le_limit_default {e : Env} (hf : e.FP) (hl : e.lib.Accurate) (hd : e.alpha.lt (.fin 1) = true) {x : ℕ} (hx1 : 1 ≤ x)
    (hx : x ≤ 5 * 10 ^ 30) : x ≤ e.limit x := by
  rcases Nat.lt_or_ge x (2 ^ 91) with h | h
  · exact le_limit hf hx1 h
  have hx2 : x < 2 ^ 127 := lt_of_le_of_lt hx (by norm_num)
  obtain ⟨-, h3, -⟩ := limit_ok hf hx1 hx2
  by_contra hc
  push Not at hc
  have h4 : (e.limit x : ℚ) + 1 ≤ x := by exact_mod_cast hc
  have h5 : ((e.limit x : ℚ) + 1) ^ 2 ≤ (x : ℚ) ^ 2 := by gcongr
  rcases Nat.lt_or_ge x (2 ^ 101) with h6 | h6
  · obtain ⟨h7, -⟩ := alpha_range hl (a := 91) (b := 101) (lo := 93) (hi := 200) hd hx2 h h6.le (by norm_num) (by norm_num)
      (by unfold poly; norm_num) (by unfold poly; norm_num) (by norm_num) (by norm_num)
    have h8 : (2 ^ 61 * 93 : ℚ) ^ 3 ≤ (2 ^ 61 * toQ (e.alphaD x)) ^ 3 := by gcongr
    have h9 : (x : ℚ) ≤ 2 ^ 101 := by exact_mod_cast h6.le
    have h10 : (x : ℚ) ^ 2 ≤ (2 ^ 101) ^ 2 := by gcongr
    norm_num at h3 h5 h8 h10
    linarith
  · obtain ⟨h7, -⟩ := alpha_range hl (a := 101) (b := 103) (lo := 1279 / 10) (hi := 200) hd hx2 h6 (hx.trans (by norm_num)) (by norm_num)
      (by norm_num) (by unfold poly; norm_num) (by unfold poly; norm_num) (by norm_num) (by norm_num)
    have h8 : (2 ^ 61 * (1279 / 10) : ℚ) ^ 3 ≤ (2 ^ 61 * toQ (e.alphaD x)) ^ 3 := by gcongr
    have h9 : (x : ℚ) ≤ 5 * 10 ^ 30 := by exact_mod_cast hx
    have h10 : (x : ℚ) ^ 2 ≤ (5 * 10 ^ 30) ^ 2 := by gcongr
    norm_num at h3 h5 h8 h10
    linarith

/-- With the default tuning factor numbers from `6 * 10^30` on are rejected. -/
theorem limit_lt_default {e : Env} (hf : e.FP) (hl : e.lib.Accurate) (hd : e.alpha.lt (.fin 1) = true) {x : ℕ}
    (hx1 : 6 * 10 ^ 30 ≤ x) (hx : x < 2 ^ 127) : e.limit x < x := by
  obtain ⟨-, -, h3⟩ := limit_ok hf (by omega) hx
  obtain ⟨a, ha, a1, -⟩ := alphaD_ok hf (by omega) hx
  have a0 : (0 : ℚ) ≤ toQ (e.alphaD x) := by
    rw [ha]
    exact zero_le_one.trans a1
  by_contra hc
  push Not at hc
  have h4 : (x : ℚ) ≤ e.limit x := by exact_mod_cast hc
  have h5 : (x : ℚ) ^ 2 ≤ (e.limit x : ℚ) ^ 2 := by gcongr
  rcases Nat.lt_or_ge x (2 ^ 103) with h6 | h6
  · obtain ⟨-, h7⟩ := alpha_range hl (a := 102) (b := 103) (lo := 100) (hi := 136) hd hx (le_trans (by norm_num) hx1) h6.le (by norm_num)
      (by norm_num) (by unfold poly; norm_num) (by unfold poly; norm_num) (by norm_num) (by norm_num)
    have h8 : (2 ^ 61 * toQ (e.alphaD x)) ^ 3 ≤ (2 ^ 61 * 136 : ℚ) ^ 3 := by gcongr
    have h9 : (6 * 10 ^ 30 : ℚ) ≤ x := by exact_mod_cast hx1
    have h10 : (6 * 10 ^ 30 : ℚ) ^ 2 ≤ (x : ℚ) ^ 2 := by gcongr
    norm_num at h3 h5 h8 h10
    linarith
  · rcases Nat.lt_or_ge x (2 ^ 105) with h6' | h6'
    · obtain ⟨-, h7⟩ := alpha_range hl (a := 103) (b := 105) (lo := 100) (hi := 150) hd hx h6 h6'.le (by norm_num)
        (by norm_num) (by unfold poly; norm_num) (by unfold poly; norm_num) (by norm_num) (by norm_num)
      have h8 : (2 ^ 61 * toQ (e.alphaD x)) ^ 3 ≤ (2 ^ 61 * 150 : ℚ) ^ 3 := by gcongr
      have h9 : (2 ^ 103 : ℚ) ≤ x := by exact_mod_cast h6
      have h10 : (2 ^ 103 : ℚ) ^ 2 ≤ (x : ℚ) ^ 2 := by gcongr
      norm_num at h3 h5 h8 h10
      linarith
    · obtain ⟨-, h7⟩ := alpha_range hl (a := 105) (b := 127) (lo := 100) (hi := 260) hd hx h6' hx.le (by norm_num)
        (by norm_num) (by unfold poly; norm_num) (by unfold poly; norm_num) (by norm_num) (by norm_num)
      have h8 : (2 ^ 61 * toQ (e.alphaD x)) ^ 3 ≤ (2 ^ 61 * 260 : ℚ) ^ 3 := by gcongr
      have h9 : (2 ^ 105 : ℚ) ≤ x := by exact_mod_cast h6'
      have h10 : (2 ^ 105 : ℚ) ^ 2 ≤ (x : ℚ) ^ 2 := by gcongr
      norm_num at h3 h5 h8 h10
      linarith

/-- What the limit is for: an `x` up to the limit has `x / y` well below `2^62`. -/
theorem z_le_limit {e : Env} (hf : e.FP) {x : ℕ} (hx1 : 1 ≤ x) (hx : x < 2 ^ 127) (hlim : x ≤ e.limit x) :
    x / e.y x < 2 ^ 61 + 2 ^ 57 := by
  obtain ⟨a, ha, h1, h2⟩ := alphaD_ok hf hx1 hx
  obtain ⟨-, -, hl⟩ := limit_ok hf hx1 hx
  have hy1 : e.y x = ⌊binary64 (iroot 3 x * a)⌋.toNat := by
    unfold Env.y yq
    rw [ha]
    rfl
  rw [ha] at hl
  change _ ≤ (2 ^ 61 * a) ^ 3 * (101 / 100) at hl
  have ht1 : 1 ≤ iroot 3 x := le_iroot (by norm_num) (by simpa using hx1)
  have ht3 := lt_iroot_succ 3 x (by norm_num)
  generalize iroot 3 x = t at *
  have tq : (1 : ℚ) ≤ t := by exact_mod_cast ht1
  have hta : 1 ≤ (t : ℚ) * a := one_le_mul_of_one_le_of_one_le tq h1
  have hb := binary64_ge hta
  have hfl := Int.lt_floor_add_one (binary64 (t * a))
  have hb1 := binary64_mono (show ((t : ℕ) : ℚ) ≤ t * a by nlinarith)
  have f1 : 0 ≤ ⌊binary64 (t * a)⌋ := Int.floor_nonneg.2 (binary64_nonneg (by positivity))
  have hyq : ((e.y x : ℕ) : ℚ) = (⌊binary64 (t * a)⌋ : ℤ) := by
    rw [hy1]
    exact_mod_cast congrArg (Int.cast (R := ℚ)) (Int.toNat_of_nonneg f1)
  rw [← hyq] at hfl
  -- `y` is at least the product, up to a relative error of one per cent, if the cube root is not small
  rcases Nat.lt_or_ge t (2 ^ 20) with hs | hs
  · have : x < 2 ^ 60 + 2 ^ 57 := by
      have h3 : (t + 1) ^ 3 ≤ (2 ^ 20) ^ 3 := Nat.pow_le_pow_left (by omega) 3
      omega
    exact lt_of_le_of_lt (Nat.div_le_self _ _) (by omega)
  have tq' : (2 : ℚ) ^ 20 ≤ t := by exact_mod_cast hs
  have hy2 : (t : ℚ) * a * (9999 / 10000) ≤ e.y x := by
    have : (2 : ℚ) ^ 20 ≤ t * a := by nlinarith
    have e1 : (t : ℚ) * a * (1 / 2 ^ 53) ≤ t * a * (1 / 20000) := by gcongr; norm_num
    nlinarith
  have hxl : (x : ℚ) ^ 2 ≤ (2 ^ 61 * a) ^ 3 * (101 / 100) := by
    have : (x : ℚ) ≤ e.limit x := by exact_mod_cast hlim
    exact le_trans (by gcongr) hl
  have hxt : (x : ℚ) ≤ (t + 1) ^ 3 := by exact_mod_cast ht3.le
  have ht2 : (t : ℚ) + 1 ≤ t * (10001 / 10000) := by linarith
  have hx3 : (x : ℚ) ^ 3 ≤ (t * a * (2 ^ 61 * (1004 / 1000))) ^ 3 := by
    calc (x : ℚ) ^ 3 = x ^ 2 * x := by ring
      _ ≤ ((2 ^ 61 * a) ^ 3 * (101 / 100)) * (t * (10001 / 10000)) ^ 3 := by
        gcongr
        exact hxt.trans (by gcongr)
      _ = (t * a * 2 ^ 61) ^ 3 * ((101 / 100) * (10001 / 10000) ^ 3) := by ring
      _ ≤ (t * a * 2 ^ 61) ^ 3 * (1004 / 1000) ^ 3 := by
        exact mul_le_mul_of_nonneg_left (by norm_num) (by positivity)
      _ = _ := by ring
  have hx4 : (x : ℚ) ≤ t * a * (2 ^ 61 * (1004 / 1000)) := le_of_pow_le_pow_left₀ (by norm_num) (by positivity) hx3
  have hx5 : (x : ℚ) < e.y x * (2 ^ 61 + 2 ^ 57) := by
    have : (0 : ℚ) < t * a := by positivity
    calc (x : ℚ) ≤ t * a * (2 ^ 61 * (1004 / 1000)) := hx4
      _ < t * a * (9999 / 10000) * (2 ^ 61 + 2 ^ 57) := by
        rw [mul_assoc _ (9999 / 10000 : ℚ)]
        exact mul_lt_mul_of_pos_left (by norm_num) this
      _ ≤ _ := by gcongr
  have hx6 : x < e.y x * (2 ^ 61 + 2 ^ 57) := by exact_mod_cast hx5
  exact Nat.div_lt_of_lt_mul hx6

/-- A lower bound for `y`. -/
theorem y_ge_mul {e : Env} (hf : e.FP) {x k : ℕ} (hx1 : 1 ≤ x) (hx : x < 2 ^ 103) (hk : (k : ℚ) ≤ toQ (e.alphaD x)) :
    iroot 3 x * k ≤ e.y x := by
  obtain ⟨a, ha, h1, h2⟩ := alphaD_ok hf hx1 (by omega)
  unfold Env.y yq
  rw [ha] at hk ⊢
  change (k : ℚ) ≤ a at hk
  change _ ≤ ⌊binary64 (iroot 3 x * a)⌋.toNat
  have h3 : k ≤ iroot 6 x := by exact_mod_cast hk.trans h2
  have h4 := Nat.mul_le_mul_left (iroot 3 x) h3
  have l1 := binary64_mono (show ((iroot 3 x * k : ℕ) : ℚ) ≤ iroot 3 x * a by push_cast; gcongr)
  rw [binary64_nat _ (h4.trans (root_prod_lt (by omega)))] at l1
  have : ((iroot 3 x * k : ℕ) : ℤ) ≤ ⌊binary64 (iroot 3 x * a)⌋ := Int.le_floor.2 (by exact_mod_cast l1)
  omega

/-- A bound for `x / y`. -/
theorem div_lt_of_root {x y k B : ℕ} (h1 : 1 ≤ x) (hk : 1 ≤ k) (hy : iroot 3 x * k ≤ y) (hB : x < B ^ 3)
    (h59 : B * B + 3 * B + 4 + 130 * k ≤ 2 ^ 59 * k) : x / y + 129 < 2 ^ 59 := by
  have h4 : 1 ≤ iroot 3 x := le_iroot (by norm_num) (by simpa using h1)
  have h5 := lt_iroot_succ 3 x (by norm_num)
  have h6 := iroot_le 3 x (by norm_num)
  have h7 : x / y ≤ x / (iroot 3 x * k) := Nat.div_le_div_left hy (Nat.mul_pos h4 hk)
  rw [← Nat.div_div_eq_div_mul] at h7
  generalize iroot 3 x = t at *
  have ht : t < B := by
    by_contra hc
    push Not at hc
    have : B ^ 3 ≤ t ^ 3 := Nat.pow_le_pow_left hc 3
    omega
  have h9 : x / t ≤ t * t + 3 * t + 3 := by
    rw [Nat.div_le_iff_le_mul_add_pred h4]
    have : (t + 1) ^ 3 = t * (t * t + 3 * t + 3) + 1 := by ring
    omega
  have h10 : t * t ≤ B * B := Nat.mul_le_mul ht.le ht.le
  have h11 : x / t / k < 2 ^ 59 - 129 := by
    rw [Nat.div_lt_iff_lt_mul hk, Nat.sub_mul]
    omega
  omega

/-- The numbers for which `x / y` is below `2^59`, so that the sums of words in `S2_hard` fit 64 bits: all below `2^88`, and with
the default tuning factor those up to `5 * 10^29`. -/
def Env.Reach (e : Env) (x : ℕ) : Prop := x < 2 ^ 88 ∨ (x ≤ 5 * 10 ^ 29 ∧ e.alpha.lt (.fin 1) = true ∧ e.lib.Accurate)

theorem Env.Reach.lt {e : Env} {x : ℕ} (h : e.Reach x) : x < 2 ^ 99 := by
  rcases h with h | ⟨h, -⟩
  · omega
  · exact lt_of_le_of_lt h (by norm_num)

theorem Env.Reach.limit {e : Env} {x : ℕ} (h : e.Reach x) (hf : e.FP) (h1 : 1 ≤ x) : x ≤ e.limit x := by
  rcases h with h | ⟨h, hd, hl⟩
  · exact le_limit hf h1 (by omega)
  · exact le_limit_default hf hl hd h1 (h.trans (by norm_num))

theorem Env.Reach.z {e : Env} {x : ℕ} (h : e.Reach x) (hf : e.FP) (h1 : 1 ≤ x) : x / e.y x + 129 < 2 ^ 59 := by
  have hx := h.lt
  rcases Nat.lt_or_ge x (2 ^ 88) with h88 | h88
  · exact div_lt_of_root (k := 1) (B := 646 * 2 ^ 20) h1 le_rfl (by simpa using (y_range hf h1 (by omega)).1)
      (lt_of_lt_of_le h88 (by norm_num)) (by norm_num)
  obtain ⟨h5, hd, hl⟩ := h.resolve_left (by omega)
  rcases Nat.lt_or_ge x (2 ^ 98) with h98 | h98
  · obtain ⟨h7, -⟩ := alpha_range hl (a := 88) (b := 98) (lo := 84) (hi := 200) hd (by omega) h88 h98.le (by norm_num) (by norm_num)
      (by unfold poly; norm_num) (by unfold poly; norm_num) (by norm_num) (by norm_num)
    exact div_lt_of_root (k := 84) (B := 6503 * 2 ^ 20) h1 (by norm_num) (y_ge_mul hf h1 (by omega) (by exact_mod_cast h7))
      (lt_of_lt_of_le h98 (by norm_num)) (by norm_num)
  · obtain ⟨h7, -⟩ := alpha_range hl (a := 98) (b := 99) (lo := 116) (hi := 200) hd (by omega) h98 hx.le (by norm_num) (by norm_num)
      (by unfold poly; norm_num) (by unfold poly; norm_num) (by norm_num) (by norm_num)
    exact div_lt_of_root (k := 116) (B := 7938 * 10 ^ 6) h1 (by norm_num) (y_ge_mul hf h1 (by omega) (by exact_mod_cast h7))
      (lt_of_le_of_lt h5 (by norm_num)) (by norm_num)

end PS.Pi
