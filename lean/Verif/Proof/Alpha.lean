import Verif.Model.Pi
import Verif.Proof.Roots
import Verif.Proof.Dbl
import Mathlib.Tactic.Linarith
import Mathlib.Tactic.Positivity

/-!
# The tuning factor, the limit of `pi(x)` and `y`
-/

namespace PS.Pi

/-- What is assumed of `log` and `pow`: rough bounds of the logarithm of an `int128_t` and of its square and cube, and
one part in a thousand for `pow(2, 61)` and `pow(q, 1.5)`. -/
structure Lib.OK (l : Lib) : Prop where
  log : ∀ n : ℕ, 1 ≤ n → n < 2 ^ 127 → ∃ v, l.log (.ofInt n) = .fin v ∧ 0 ≤ v ∧ v ≤ 100
  sq : ∀ v : ℚ, 0 ≤ v → v ≤ 100 → ∃ p, l.pow (.fin v) (.fin 2) = .fin p ∧ 0 ≤ p ∧ p ≤ 10 ^ 5
  cube : ∀ v : ℚ, 0 ≤ v → v ≤ 100 → ∃ p, l.pow (.fin v) (.fin 3) = .fin p ∧ 0 ≤ p ∧ p ≤ 10 ^ 7
  pow61 : ∃ p, l.pow (.fin 2) (.fin 61) = .fin p ∧ 2 ^ 61 * (999 / 1000) ≤ p ∧ p ≤ 2 ^ 61 * (1001 / 1000)
  pow32 : ∀ q : ℚ, 2 ^ 60 ≤ q → q ≤ 2 ^ 90 →
    ∃ p, l.pow (.fin q) (.fin (3 / 2)) = .fin p ∧ 0 ≤ p ∧ q ^ 3 * (999 / 1000) ≤ p ^ 2 ∧ p ^ 2 ≤ q ^ 3 * (1001 / 1000)

/-- What is assumed of the computations with `double` values: the C library is accurate and no one has called
`set_alpha(NaN)`. -/
structure Env.FP (e : Env) : Prop where
  lib : e.lib.OK
  alpha : e.alpha ≠ .nan

/-- The number that a `double` value stands for. -/
def toQ : Dbl → ℚ
  | .fin q => q
  | _ => 0

/-- The tuning factor of a run of `pi`. -/
def Env.alphaD (e : Env) (x : ℕ) : Dbl := clampAlpha e.alpha (defaultDR e.lib x) (iroot 6 x)
/-- The tuning factor of a run of `pi_lmo*`. -/
def Env.alphaL (e : Env) (x : ℕ) : Dbl := clampAlpha e.alpha (defaultLmo e.lib x) (iroot 6 x)

/-- The integer part of the rounded product of the cube root and `a`. -/
def yq (x : ℕ) (a : ℚ) : ℕ := ⌊binary64 (iroot 3 x * a)⌋.toNat

/-- The `y` of a run of `pi`. -/
def Env.y (e : Env) (x : ℕ) : ℕ := yq x (toQ (e.alphaD x))
/-- The `y` of a run of `pi_lmo*`. -/
def Env.yL (e : Env) (x : ℕ) : ℕ := yq x (toQ (e.alphaL x))

/-- The largest `x` that `pi` accepts with the tuning factor of a run. -/
def Env.limit (e : Env) (x : ℕ) : ℕ :=
  match getMaxX e.lib (e.alphaD x) with
  | .ok m => m.toNat
  | .error _ => 0

theorem getAlpha_eq (e : Env) (x : ℕ) : getAlpha e x = .ok (e.alphaD x) := by
  unfold getAlpha
  rw [irootM_eq 6 _ _ (by norm_num)]
  rfl

theorem getAlphaLmo_eq (e : Env) (x : ℕ) : getAlphaLmo e x = .ok (e.alphaL x) := by
  unfold getAlphaLmo
  rw [irootM_eq 6 _ _ (by norm_num)]
  rfl

theorem sixth_lt {x : ℕ} (hx : x < 2 ^ 127) : iroot 6 x < 2 ^ 22 := by
  by_contra hc
  push Not at hc
  have h1 := iroot_le 6 x (by norm_num)
  have h2 : (2 ^ 22) ^ 6 ≤ iroot 6 x ^ 6 := Nat.pow_le_pow_left hc 6
  have h3 := h2.trans h1
  norm_num at h3 hx
  omega

/-- Between 1 and the sixth root, unless the value that is clamped is not a number. -/
theorem clamp_ok {set dflt : Dbl} {x : ℕ} (hx1 : 1 ≤ x) (hx : x < 2 ^ 127) (hs : set ≠ .nan) (hd : dflt ≠ .nan) :
    ∃ a, clampAlpha set dflt (iroot 6 x) = .fin a ∧ 1 ≤ a ∧ a ≤ iroot 6 x := by
  have h6 : 1 ≤ iroot 6 x := le_iroot (by norm_num) (by simpa using hx1)
  have h6' : (1 : ℚ) ≤ iroot 6 x := by exact_mod_cast h6
  unfold clampAlpha
  have ho := Dbl.ofInt_nat (iroot 6 x) (le_trans (sixth_lt hx).le (by norm_num))
  have h0 : (if set.lt (.fin 1) then dflt else set) ≠ .nan := by split <;> assumption
  generalize (if set.lt (.fin 1) then dflt else set) = d at *
  rw [ho]
  unfold Dbl.inBetween
  cases d with
  | fin q =>
    simp only [Dbl.lt, decide_eq_true_eq]
    split
    · exact ⟨_, rfl, le_rfl, h6'⟩
    · split
      · exact ⟨_, rfl, h6', le_rfl⟩
      · exact ⟨_, rfl, not_lt.1 ‹_›, not_lt.1 ‹_›⟩
  | inf n =>
    cases n
    · exact ⟨_, rfl, h6', le_rfl⟩
    · exact ⟨_, rfl, le_rfl, h6'⟩
  | nan => exact absurd rfl h0

/-- A tuning factor between 1 and the sixth root is the one that is used. -/
theorem clamp_set {a : ℚ} {dflt : Dbl} {x : ℕ} (h1 : 1 ≤ a) (h2 : a ≤ iroot 6 x) (hx : x < 2 ^ 127) :
    clampAlpha (.fin a) dflt (iroot 6 x) = .fin a := by
  have h4 : Dbl.lt (.fin a) (.fin 1) = false := by
    simp only [Dbl.lt, decide_eq_false_iff_not]
    exact not_lt.2 h1
  have h5 : Dbl.lt (.fin (iroot 6 x)) (.fin a) = false := by
    simp only [Dbl.lt, decide_eq_false_iff_not]
    exact not_lt.2 h2
  unfold clampAlpha
  rw [Dbl.ofInt_nat _ (le_trans (sixth_lt hx).le (by norm_num)), h4]
  unfold Dbl.inBetween
  simp only [h4, h5, Bool.false_eq_true, if_false]

theorem abs_le_of {v : ℚ} {N : ℕ} (h0 : 0 ≤ v) (h : v ≤ N) : |v| ≤ (N : ℚ) := by rwa [abs_of_nonneg h0]

theorem coef {q : ℚ} (h : |q| ≤ 2) : ∃ c, Dbl.round q = .fin c ∧ |c| ≤ (2 : ℕ) :=
  Dbl.round_bdd (N := 2) (by norm_num) (by exact_mod_cast h)

theorem defaultLmo_fin {l : Lib} (hl : l.OK) {x : ℕ} (hx1 : 1 ≤ x) (hx : x < 2 ^ 127) :
    ∃ q, defaultLmo l x = .fin q := by
  obtain ⟨v, hv, v0, v1⟩ := hl.log x hx1 hx
  obtain ⟨p, hp, p0, p1⟩ := hl.sq v v0 v1
  unfold defaultLmo
  dsimp only
  rw [hv, hp]
  obtain ⟨a, ha, a1⟩ := coef (q := 156512 / 10 ^ 8) (by rw [abs_le]; norm_num)
  obtain ⟨b, hb, b1⟩ := coef (q := -261411 / 10 ^ 7) (by rw [abs_le]; norm_num)
  obtain ⟨c, hc, c1⟩ := coef (q := 990948 / 10 ^ 6) (by rw [abs_le]; norm_num)
  rw [ha, hb, hc]
  obtain ⟨m1, e1, b2⟩ := Dbl.mul_bdd (A := 2) (B := 10 ^ 5) (by norm_num) a1 (abs_le_of p0 (by push_cast; exact p1))
  obtain ⟨m2, e2, b3⟩ := Dbl.mul_bdd (A := 2) (B := 100) (by norm_num) b1 (abs_le_of v0 (by push_cast; exact v1))
  rw [e1, e2]
  obtain ⟨m3, e3, b4⟩ := Dbl.add_bdd (by norm_num) b2 b3
  rw [e3]
  obtain ⟨m4, e4, -⟩ := Dbl.add_bdd (by norm_num) b4 c1
  exact ⟨m4, e4⟩

/-- The default tuning factor of the LMO algorithms is small. -/
theorem defaultLmo_le {l : Lib} (hl : l.OK) {x : ℕ} (hx1 : 1 ≤ x) (hx : x < 2 ^ 127) :
    ∃ q, defaultLmo l x = .fin q ∧ q ≤ 402 := by
  obtain ⟨v, hv, v0, v1⟩ := hl.log x hx1 hx
  obtain ⟨p, hp, p0, p1⟩ := hl.sq v v0 v1
  unfold defaultLmo
  dsimp only
  rw [hv, hp]
  have e9 := binary64_zpow (k := -9) (by norm_num)
  have hm := binary64_mono (show (156512 / 10 ^ 8 : ℚ) ≤ (2 : ℚ) ^ (-9 : ℤ) by norm_num)
  rw [e9] at hm
  have h0 := binary64_nonneg (show (0 : ℚ) ≤ 156512 / 10 ^ 8 by norm_num)
  have ha : Dbl.round (156512 / 10 ^ 8) = .fin (binary64 (156512 / 10 ^ 8)) :=
    Dbl.round_of_lt (by norm_num) (lt_of_le_of_lt hm (lt_of_lt_of_le (by norm_num : (2 : ℚ) ^ (-9 : ℤ) < 1) (one_le_pow₀ (by norm_num))))
  generalize binary64 (156512 / 10 ^ 8) = a at *
  obtain ⟨b, hb, b1⟩ := coef (q := -261411 / 10 ^ 7) (by rw [abs_le]; norm_num)
  obtain ⟨c, hc, c1⟩ := coef (q := 990948 / 10 ^ 6) (by rw [abs_le]; norm_num)
  rw [ha, hb, hc]
  obtain ⟨m1, e1, b2⟩ : ∃ m, Dbl.mul (.fin a) (.fin p) = .fin m ∧ |m| ≤ (200 : ℕ) := by
    refine Dbl.round_bdd (N := 200) (by norm_num) ?_
    rw [abs_of_nonneg (mul_nonneg h0 p0)]
    calc a * p ≤ (2 : ℚ) ^ (-9 : ℤ) * 10 ^ 5 := mul_le_mul hm p1 p0 (by positivity)
      _ ≤ (200 : ℕ) := by norm_num
  obtain ⟨m2, e2, b3⟩ := Dbl.mul_bdd (A := 2) (B := 100) (by norm_num) b1 (abs_le_of v0 (by push_cast; exact v1))
  rw [e1, e2]
  obtain ⟨m3, e3, b4⟩ := Dbl.add_bdd (by norm_num) b2 b3
  rw [e3]
  obtain ⟨m4, e4, b5⟩ := Dbl.add_bdd (by norm_num) b4 c1
  refine ⟨m4, e4, (le_abs_self m4).trans (b5.trans ?_)⟩
  norm_num

theorem defaultDR_fin {l : Lib} (hl : l.OK) {x : ℕ} (hx1 : 1 ≤ x) (hx : x < 2 ^ 127) :
    ∃ q, defaultDR l x = .fin q := by
  obtain ⟨v, hv, v0, v1⟩ := hl.log x hx1 hx
  obtain ⟨p, hp, p0, p1⟩ := hl.sq v v0 v1
  obtain ⟨p', hp', p0', p1'⟩ := hl.cube v v0 v1
  unfold defaultDR
  dsimp only
  rw [hv, hp, hp']
  obtain ⟨a, ha, a1⟩ := coef (q := 356618 / 10 ^ 9) (by rw [abs_le]; norm_num)
  obtain ⟨b, hb, b1⟩ := coef (q := 263762 / 10 ^ 8) (by rw [abs_le]; norm_num)
  obtain ⟨c, hc, c1⟩ := coef (q := -125227 / 10 ^ 6) (by rw [abs_le]; norm_num)
  obtain ⟨d, hd, d1⟩ := coef (q := 139952 / 10 ^ 5) (by rw [abs_le]; norm_num)
  rw [ha, hb, hc, hd]
  obtain ⟨m0, e0, b0⟩ := Dbl.mul_bdd (A := 2) (B := 10 ^ 7) (by norm_num) a1 (abs_le_of p0' (by push_cast; exact p1'))
  obtain ⟨m1, e1, b2⟩ := Dbl.mul_bdd (A := 2) (B := 10 ^ 5) (by norm_num) b1 (abs_le_of p0 (by push_cast; exact p1))
  obtain ⟨m2, e2, b3⟩ := Dbl.mul_bdd (A := 2) (B := 100) (by norm_num) c1 (abs_le_of v0 (by push_cast; exact v1))
  rw [e0, e1, e2]
  obtain ⟨m3, e3, b4⟩ := Dbl.add_bdd (by norm_num) b0 b2
  rw [e3]
  obtain ⟨m4, e4, b5⟩ := Dbl.add_bdd (by norm_num) b4 b3
  rw [e4]
  obtain ⟨m5, e5, -⟩ := Dbl.add_bdd (by norm_num) b5 d1
  exact ⟨m5, e5⟩

theorem alphaD_ok {e : Env} (hf : e.FP) {x : ℕ} (hx1 : 1 ≤ x) (hx : x < 2 ^ 127) :
    ∃ a, e.alphaD x = .fin a ∧ 1 ≤ a ∧ a ≤ iroot 6 x := by
  obtain ⟨q, hq⟩ := defaultDR_fin hf.lib hx1 hx
  exact clamp_ok hx1 hx hf.alpha (by rw [hq]; simp)

theorem alphaL_ok {e : Env} (hf : e.FP) {x : ℕ} (hx1 : 1 ≤ x) (hx : x < 2 ^ 127) :
    ∃ a, e.alphaL x = .fin a ∧ 1 ≤ a ∧ a ≤ iroot 6 x := by
  obtain ⟨q, hq⟩ := defaultLmo_fin hf.lib hx1 hx
  exact clamp_ok hx1 hx hf.alpha (by rw [hq]; simp)

/-- The product of the cube root and the sixth root is at most the square root. -/
theorem root_prod (x : ℕ) : (iroot 3 x * iroot 6 x) ^ 2 ≤ x := by
  have h1 := iroot_le 3 x (by norm_num)
  have h2 := iroot_le 6 x (by norm_num)
  have : ((iroot 3 x * iroot 6 x) ^ 2) ^ 3 ≤ x ^ 3 := by
    calc ((iroot 3 x * iroot 6 x) ^ 2) ^ 3 = (iroot 3 x ^ 3) ^ 2 * iroot 6 x ^ 6 := by ring
      _ ≤ x ^ 2 * x := by gcongr
      _ = x ^ 3 := by ring
  exact (Nat.pow_le_pow_iff_left (by norm_num)).1 this

theorem root_prod_lt {x : ℕ} (hx : x < 2 ^ 106) : iroot 3 x * iroot 6 x ≤ 2 ^ 53 := by
  have hsq := root_prod x
  by_contra hc
  push Not at hc
  have : (2 ^ 53) ^ 2 ≤ (iroot 3 x * iroot 6 x) ^ 2 := by gcongr
  norm_num at this hsq hx ⊢
  omega

theorem cube_lt {x : ℕ} (hx : x < 2 ^ 127) : iroot 3 x < 2 ^ 43 := by
  by_contra hc
  push Not at hc
  have h1 := iroot_le 3 x (by norm_num)
  have h2 : (2 ^ 43) ^ 3 ≤ iroot 3 x ^ 3 := Nat.pow_le_pow_left hc 3
  have h3 := h2.trans h1
  norm_num at h3 hx
  omega

/-- The conversion to `int64_t` is defined, and `y` is at least the cube root. -/
theorem yq_ge {a : ℚ} {x : ℕ} (ha : 1 ≤ a) (hb : a ≤ iroot 6 x) (hx : x < 2 ^ 123) :
    yOf (iroot 3 x) (.fin a) = .ok (yq x a) ∧ iroot 3 x ≤ yq x a := by
  have h3 : iroot 3 x ≤ 2 ^ 53 := le_trans (cube_lt (by omega)).le (by norm_num)
  have l1 := binary64_mono (show ((iroot 3 x : ℕ) : ℚ) ≤ iroot 3 x * a from le_mul_of_one_le_right (by positivity) ha)
  rw [binary64_nat _ h3] at l1
  have l4 : (iroot 3 x : ℚ) * a ≤ 2 ^ 62 := by
    have h1 : iroot 3 x * iroot 6 x ≤ 2 ^ 62 := by
      by_contra hc
      push Not at hc
      have : (2 ^ 62) ^ 2 ≤ (iroot 3 x * iroot 6 x) ^ 2 := by gcongr
      have hsq := root_prod x
      norm_num at this hsq hx ⊢
      omega
    have h2 : (iroot 3 x : ℚ) * iroot 6 x ≤ 2 ^ 62 := by exact_mod_cast h1
    exact le_trans (mul_le_mul_of_nonneg_left hb (by positivity)) h2
  have l2 := binary64_mono l4
  have e62 := binary64_zpow (k := 62) (by norm_num)
  rw [show ((2 : ℚ) ^ (62 : ℤ)) = 2 ^ 62 by norm_cast] at e62
  rw [e62] at l2
  have l0 : (0 : ℚ) ≤ iroot 3 x * a := mul_nonneg (by positivity) (by linarith)
  refine ⟨?_, ?_⟩
  · unfold yOf
    rw [Dbl.ofInt_nat _ h3]
    show (Dbl.toInt64 (Dbl.round (iroot 3 x * a)) >>= fun y => pure y.toNat) = _
    rw [Dbl.round_of_lt l0 (lt_of_le_of_lt l2 (pow_lt_pow_right₀ (by norm_num) (by norm_num))),
      Dbl.toInt64_ok (binary64_nonneg l0) (lt_of_le_of_lt l2 (by norm_num))]
    rfl
  · have : ((iroot 3 x : ℕ) : ℤ) ≤ ⌊binary64 (iroot 3 x * a)⌋ := Int.le_floor.2 (by exact_mod_cast l1)
    unfold yq
    omega

/-- `y` lies between the cube root and the product of cube root and sixth root. -/
theorem yq_range {a : ℚ} {x : ℕ} (ha : 1 ≤ a) (hb : a ≤ iroot 6 x) (hx : x < 2 ^ 106) :
    yOf (iroot 3 x) (.fin a) = .ok (yq x a) ∧ iroot 3 x ≤ yq x a ∧ yq x a ≤ iroot 3 x * iroot 6 x := by
  obtain ⟨g1, g2⟩ := yq_ge ha hb (by omega : x < 2 ^ 123)
  have h53 := root_prod_lt hx
  have l2 := binary64_mono (show (iroot 3 x : ℚ) * a ≤ ((iroot 3 x * iroot 6 x : ℕ) : ℚ) by
    push_cast
    exact mul_le_mul_of_nonneg_left hb (by positivity))
  rw [binary64_nat _ h53] at l2
  refine ⟨g1, g2, ?_⟩
  · have h2 := Int.floor_le_floor l2
    rw [Int.floor_natCast] at h2
    unfold yq
    omega

theorem yq_facts {a : ℚ} {x : ℕ} (ha : 1 ≤ a) (hb : a ≤ iroot 6 x) (hx1 : 1 ≤ x) (hx : x < 2 ^ 106) :
    1 ≤ yq x a ∧ yq x a * yq x a ≤ x ∧ x < (yq x a + 1) ^ 3 := by
  obtain ⟨-, h1, h2⟩ := yq_range ha hb hx
  have h3 : 1 ≤ iroot 3 x := le_iroot (by norm_num) (by simpa using hx1)
  refine ⟨by omega, ?_, ?_⟩
  · refine le_trans (Nat.mul_le_mul h2 h2) ?_
    rw [← sq]
    exact root_prod x
  · exact lt_of_lt_of_le (lt_iroot_succ 3 x (by norm_num)) (Nat.pow_le_pow_left (by omega) 3)

/-- With the default tuning factor the `y` of the LMO algorithms fits in 31 bits. -/
theorem yL_default {e : Env} {x : ℕ} (hf : e.FP) (hd : e.alpha.lt (.fin 1) = true) (hx1 : 1 ≤ x) (hx : x < 2 ^ 63) :
    e.yL x < 2 ^ 31 := by
  obtain ⟨a, ha, h1, h2⟩ := alphaL_ok hf hx1 (by omega)
  obtain ⟨q, hq, hq1⟩ := defaultLmo_le hf.lib hx1 (by omega)
  have h402 : a ≤ 402 := by
    unfold Env.alphaL clampAlpha at ha
    rw [if_pos hd, hq, Dbl.ofInt_nat _ (le_trans (sixth_lt (by omega)).le (by norm_num))] at ha
    unfold Dbl.inBetween at ha
    simp only [Dbl.lt, decide_eq_true_eq] at ha
    split at ha
    · injection ha with ha; rw [← ha]; norm_num
    · split at ha
      · rename_i h3
        injection ha with ha
        rw [← ha]
        exact h3.le.trans hq1
      · injection ha with ha
        rw [← ha]
        exact hq1
  have h3 : iroot 3 x ≤ 2 ^ 21 := by
    by_contra hc
    push Not at hc
    have h3 := iroot_le 3 x (by norm_num)
    have h4 : (2 ^ 21) ^ 3 ≤ iroot 3 x ^ 3 := Nat.pow_le_pow_left hc.le 3
    have h5 := h4.trans h3
    norm_num at h5 hx
    omega
  have h3' : (iroot 3 x : ℚ) ≤ 2 ^ 21 := by exact_mod_cast h3
  unfold Env.yL
  rw [ha]
  show yq x a < _
  have hb := binary64_mono (show (iroot 3 x : ℚ) * a ≤ ((2 ^ 21 * 402 : ℕ) : ℚ) by
    calc (iroot 3 x : ℚ) * a ≤ 2 ^ 21 * 402 := mul_le_mul h3' h402 (by linarith) (by norm_num)
      _ = _ := by norm_num)
  rw [binary64_nat _ (by norm_num)] at hb
  have h6 := Int.floor_le_floor hb
  rw [Int.floor_natCast] at h6
  unfold yq
  omega

theorem y_range {e : Env} {x : ℕ} (hf : e.FP) (hx1 : 1 ≤ x) (hx : x < 2 ^ 106) :
    iroot 3 x ≤ e.y x ∧ e.y x ≤ iroot 3 x * iroot 6 x := by
  obtain ⟨a, ha, h1, h2⟩ := alphaD_ok hf hx1 (by omega)
  unfold Env.y
  rw [ha]
  exact (yq_range h1 h2 hx).2

theorem y_facts {e : Env} {x : ℕ} (hf : e.FP) (hx1 : 1 ≤ x) (hx : x < 2 ^ 106) :
    1 ≤ e.y x ∧ e.y x * e.y x ≤ x ∧ x < (e.y x + 1) ^ 3 := by
  obtain ⟨a, ha, h1, h2⟩ := alphaD_ok hf hx1 (by omega)
  unfold Env.y
  rw [ha]
  exact yq_facts h1 h2 hx1 hx

theorem y_eq {e : Env} {x : ℕ} (hf : e.FP) (hx1 : 1 ≤ x) (hx : x < 2 ^ 106) :
    yOf (iroot 3 x) (e.alphaD x) = .ok (e.y x) := by
  obtain ⟨a, ha, h1, h2⟩ := alphaD_ok hf hx1 (by omega)
  unfold Env.y
  rw [ha]
  exact (yq_range h1 h2 hx).1

theorem yL_range {e : Env} {x : ℕ} (hf : e.FP) (hx1 : 1 ≤ x) (hx : x < 2 ^ 106) :
    iroot 3 x ≤ e.yL x ∧ e.yL x ≤ iroot 3 x * iroot 6 x := by
  obtain ⟨a, ha, h1, h2⟩ := alphaL_ok hf hx1 (by omega)
  unfold Env.yL
  rw [ha]
  exact (yq_range h1 h2 hx).2

theorem yL_facts {e : Env} {x : ℕ} (hf : e.FP) (hx1 : 1 ≤ x) (hx : x < 2 ^ 106) :
    1 ≤ e.yL x ∧ e.yL x * e.yL x ≤ x ∧ x < (e.yL x + 1) ^ 3 := by
  obtain ⟨a, ha, h1, h2⟩ := alphaL_ok hf hx1 (by omega)
  unfold Env.yL
  rw [ha]
  exact yq_facts h1 h2 hx1 hx

theorem yL_eq {e : Env} {x : ℕ} (hf : e.FP) (hx1 : 1 ≤ x) (hx : x < 2 ^ 106) :
    yOf (iroot 3 x) (e.alphaL x) = .ok (e.yL x) := by
  obtain ⟨a, ha, h1, h2⟩ := alphaL_ok hf hx1 (by omega)
  unfold Env.yL
  rw [ha]
  exact (yq_range h1 h2 hx).1

theorem y_ge {e : Env} {x : ℕ} (hf : e.FP) (hx1 : 1 ≤ x) (hx : x < 2 ^ 123) :
    yOf (iroot 3 x) (e.alphaD x) = .ok (e.y x) ∧ iroot 3 x ≤ e.y x := by
  obtain ⟨a, ha, h1, h2⟩ := alphaD_ok hf hx1 (by omega)
  unfold Env.y
  rw [ha]
  exact yq_ge h1 h2 hx

/-- `get_max_x(a)` is near `(2^61 a)^(3/2)`. -/
theorem getMaxX_ok {l : Lib} (hl : l.OK) {a : ℚ} (h1 : 1 ≤ a) (h2 : a ≤ 2 ^ 22) :
    ∃ m : ℕ, getMaxX l (.fin a) = .ok (m : ℤ) ∧ (2 ^ 61 * a) ^ 3 * (99 / 100) ≤ (m + 1 : ℚ) ^ 2 ∧
      (m : ℚ) ^ 2 ≤ (2 ^ 61 * a) ^ 3 * (101 / 100) := by
  obtain ⟨p, hp, p1, p2⟩ := hl.pow61
  have a0 : 0 < a := by linarith
  set t : ℚ := 2 ^ 61 * a with ht
  have t1 : 2 ^ 61 ≤ t := by rw [ht]; nlinarith
  have t2 : t ≤ 2 ^ 83 := by rw [ht]; nlinarith
  have q1 : t * (999 / 1000) ≤ p * a := by rw [ht]; nlinarith
  have q2 : p * a ≤ t * (1001 / 1000) := by rw [ht]; nlinarith
  have q3 : 1 ≤ p * a := by norm_num at t1 ⊢; linarith
  have b1 := binary64_ge q3
  have b2 := binary64_le q3
  set q := binary64 (p * a) with hq
  have r1 : t * (998 / 1000) ≤ q := by norm_num at b1; linarith
  have r2 : q ≤ t * (1002 / 1000) := by norm_num at b2; linarith
  have e1 : Dbl.mul (.fin p) (.fin a) = .fin q :=
    Dbl.round_of_lt (by linarith) (lt_of_le_of_lt (show q ≤ 2 ^ 84 by norm_num at t2 ⊢; linarith)
      (pow_lt_pow_right₀ (by norm_num) (by norm_num)))
  obtain ⟨s, hs, s0, s1, s2⟩ := hl.pow32 q (by norm_num at t1 ⊢; linarith) (by norm_num at t2 ⊢; linarith)
  have t0 : 0 < t := by norm_num at t1; linarith
  have q0 : 0 < q := by nlinarith
  have c1 : t ^ 3 * (994 / 1000) ≤ q ^ 3 := by
    have : (t * (998 / 1000)) ^ 3 ≤ q ^ 3 := by gcongr
    have t3 : 0 < t ^ 3 := by positivity
    rw [mul_pow] at this
    norm_num at this
    linarith
  have c2 : q ^ 3 ≤ t ^ 3 * (1007 / 1000) := by
    have : q ^ 3 ≤ (t * (1002 / 1000)) ^ 3 := by gcongr
    have t3 : 0 < t ^ 3 := by positivity
    rw [mul_pow] at this
    norm_num at this
    linarith
  have t3 : 0 < t ^ 3 := by positivity
  have sl : s < 2 ^ 127 := by
    have : t ^ 3 ≤ (2 ^ 83) ^ 3 := by gcongr
    have h5 : s ^ 2 < (2 ^ 127) ^ 2 := by norm_num at this ⊢; linarith
    exact lt_of_pow_lt_pow_left₀ 2 (by positivity) h5
  have hm : getMaxX l (.fin a) = .ok ⌊s⌋ := by
    unfold getMaxX
    rw [hp, e1, hs]
    exact Dbl.toInt128_ok s0 sl
  have f0 : 0 ≤ ⌊s⌋ := Int.floor_nonneg.2 s0
  refine ⟨⌊s⌋.toNat, by rw [hm, Int.toNat_of_nonneg f0], ?_, ?_⟩
  · have h6 : ((⌊s⌋.toNat : ℕ) : ℚ) = (⌊s⌋ : ℚ) := by
      exact_mod_cast congrArg (Int.cast (R := ℚ)) (Int.toNat_of_nonneg f0)
    have h7 := Int.lt_floor_add_one s
    rw [h6]
    have : s ^ 2 ≤ (⌊s⌋ + 1 : ℚ) ^ 2 := by gcongr
    linarith
  · have h6 : ((⌊s⌋.toNat : ℕ) : ℚ) = (⌊s⌋ : ℚ) := by
      exact_mod_cast congrArg (Int.cast (R := ℚ)) (Int.toNat_of_nonneg f0)
    have h7 := Int.floor_le s
    rw [h6]
    have f0' : (0 : ℚ) ≤ ⌊s⌋ := by exact_mod_cast f0
    have : (⌊s⌋ : ℚ) ^ 2 ≤ s ^ 2 := by gcongr
    linarith

theorem limit_ok {e : Env} (hf : e.FP) {x : ℕ} (hx1 : 1 ≤ x) (hx : x < 2 ^ 127) :
    getMaxX e.lib (e.alphaD x) = .ok (e.limit x : ℤ) ∧
      (2 ^ 61 * toQ (e.alphaD x)) ^ 3 * (99 / 100) ≤ (e.limit x + 1 : ℚ) ^ 2 ∧
      (e.limit x : ℚ) ^ 2 ≤ (2 ^ 61 * toQ (e.alphaD x)) ^ 3 * (101 / 100) := by
  obtain ⟨a, ha, h1, h2⟩ := alphaD_ok hf hx1 hx
  have h3 : (iroot 6 x : ℚ) ≤ 2 ^ 22 := by exact_mod_cast (sixth_lt hx).le
  obtain ⟨m, hm, h4, h5⟩ := getMaxX_ok hf.lib h1 (h2.trans h3)
  have hl : e.limit x = m := by
    unfold Env.limit
    rw [ha, hm]
    rfl
  rw [hl, ha]
  exact ⟨hm, h4, h5⟩

/-- Every number below `2^91` is accepted. -/
theorem le_limit {e : Env} (hf : e.FP) {x : ℕ} (hx1 : 1 ≤ x) (hx : x < 2 ^ 91) : x ≤ e.limit x := by
  obtain ⟨-, h, -⟩ := limit_ok hf hx1 (by omega)
  obtain ⟨a, ha, h1, -⟩ := alphaD_ok hf hx1 (by omega : x < 2 ^ 127)
  rw [ha] at h
  change (2 ^ 61 * a) ^ 3 * (99 / 100) ≤ _ at h
  by_contra hc
  push Not at hc
  have h2 : (e.limit x : ℚ) + 1 ≤ 2 ^ 91 := by
    have : e.limit x + 1 ≤ 2 ^ 91 := by omega
    exact_mod_cast this
  have h3 : ((e.limit x : ℚ) + 1) ^ 2 ≤ (2 ^ 91) ^ 2 := by gcongr
  have h4 : (2 ^ 61 * 1 : ℚ) ^ 3 ≤ (2 ^ 61 * a) ^ 3 := by gcongr
  norm_num at h h3 h4
  linarith

/-- Every number from `2^123` on is rejected. -/
theorem limit_lt {e : Env} (hf : e.FP) {x : ℕ} (hx1 : 2 ^ 123 ≤ x) (hx : x < 2 ^ 127) : e.limit x < x := by
  obtain ⟨-, -, h⟩ := limit_ok hf (by omega) hx
  obtain ⟨a, ha, h1, h2⟩ := alphaD_ok hf (by omega) hx
  rw [ha] at h
  change _ ≤ (2 ^ 61 * a) ^ 3 * (101 / 100) at h
  by_contra hc
  push Not at hc
  have h3 : a ≤ 2 ^ 22 := le_trans h2 (by exact_mod_cast (sixth_lt hx).le)
  have hq : (x : ℚ) ≤ e.limit x := by exact_mod_cast hc
  have a6 : a ^ 6 ≤ x := by
    have h5 : (iroot 6 x : ℚ) ^ 6 ≤ x := by exact_mod_cast iroot_le 6 x (by norm_num)
    exact le_trans (by gcongr) h5
  have h4 : (x : ℚ) ^ 2 ≤ (2 ^ 61 * a) ^ 3 * (101 / 100) := le_trans (by gcongr) h
  have h5 : ((x : ℚ) ^ 2) ^ 2 ≤ ((2 ^ 61 * a) ^ 3 * (101 / 100)) ^ 2 := by gcongr
  have h6 : ((2 ^ 61 * a) ^ 3 * (101 / 100)) ^ 2 = ((2 ^ 183) ^ 2 * (101 / 100) ^ 2) * a ^ 6 := by ring
  have h7 : (x : ℚ) ^ 3 * x ≤ ((2 ^ 183) ^ 2 * (101 / 100) ^ 2) * x := by
    calc (x : ℚ) ^ 3 * x = (x ^ 2) ^ 2 := by ring
      _ ≤ _ := h5
      _ = _ := h6
      _ ≤ _ := by gcongr
  have x0 : (0 : ℚ) < x := by
    have : 0 < x := by omega
    exact_mod_cast this
  have h8 := le_of_mul_le_mul_right h7 x0
  have h9 : ((2 : ℚ) ^ 123) ^ 3 ≤ x ^ 3 := by
    have : (2 : ℚ) ^ 123 ≤ x := by exact_mod_cast hx1
    gcongr
  norm_num at h8 h9
  linarith

end PS.Pi
