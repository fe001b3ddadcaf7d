import Verif.Props.Main

/-!
# Properties C56 and C68: the settings of the user are the settings in force, the tuning factor
-/

namespace PS
namespace Main
open Res

/-- The precision of the status output: a value set by the user is used for every `x`, limited to 0 … 5. -/
theorem C56_status_precision_set (s : Settings) (n x : ℤ) :
    getStatusPrecision (setStatusPrecision s n) x = max 0 (min n 5) := by
  unfold getStatusPrecision setStatusPrecision inBetween
  dsimp only
  split_ifs <;> omega

/-- A bound given as a `double`, compared with an integer that is converted to `double`: the integers that pass are
those from the first one whose rounded value passes. -/
theorem le_ofInt_iff {T x : ℤ} {b : ℚ} (hT : b ≤ binary64 T) (hT' : binary64 (T - 1 : ℤ) < b) (hx0 : -2 ^ 127 ≤ x)
    (hx : x < 2 ^ 127) : Dbl.le (.fin b) (.ofInt x) = true ↔ T ≤ x := by
  have h1 : (x : ℚ) ≤ 2 ^ 127 := by exact_mod_cast hx.le
  have h2 : -(2 : ℚ) ^ 127 ≤ x := by exact_mod_cast hx0
  have hf : Dbl.ofInt x = .fin (binary64 x) := by
    have hz : binary64 ((2 : ℚ) ^ 127) = 2 ^ 127 := by
      have := binary64_zpow (k := 127) (by norm_num)
      exact_mod_cast this
    have hu := binary64_mono h1
    have hl := binary64_mono h2
    rw [binary64_neg, hz] at hl
    rw [hz] at hu
    have hp : (2 : ℚ) ^ 127 < 2 ^ 1024 := pow_lt_pow_right₀ (by norm_num) (by norm_num)
    unfold Dbl.ofInt Dbl.round
    rw [if_neg (not_le.2 (lt_of_le_of_lt hu hp)), if_neg (not_le.2 (lt_of_lt_of_le (neg_lt_neg hp) hl))]
  rw [hf]
  simp only [Dbl.le, decide_eq_true_eq]
  constructor
  · intro h
    by_contra hc
    have : binary64 x ≤ binary64 (T - 1 : ℤ) := binary64_mono (by exact_mod_cast (by omega : x ≤ T - 1))
    linarith
  · intro h
    exact hT.trans (binary64_mono (by exact_mod_cast h))

/-- Without a value set by the user the precision grows with `x`.  The comparisons with `1e23` and `1e21` are made in
`double` and so succeed a little below `10^23` and `10^21`. -/
theorem C56_status_precision_default (x : ℤ) (hx0 : -2 ^ 127 ≤ x) (hx : x < 2 ^ 127) :
    getStatusPrecision {} x = if 10 ^ 23 - 2 ^ 24 ≤ x then 2 else if 10 ^ 21 - 2 ^ 16 ≤ x then 1 else 0 := by
  have h23 : Dbl.round (10 ^ 23) = .fin (binary64 (10 ^ 23)) := by decide +kernel
  have h21 : Dbl.round (10 ^ 21) = .fin (binary64 (10 ^ 21)) := by decide +kernel
  have g23 := le_ofInt_iff (T := 10 ^ 23 - 2 ^ 24) (b := binary64 (10 ^ 23)) (by decide +kernel) (by decide +kernel) hx0 hx
  have g21 := le_ofInt_iff (T := 10 ^ 21 - 2 ^ 16) (b := binary64 (10 ^ 21)) (by decide +kernel) (by decide +kernel) hx0 hx
  unfold getStatusPrecision
  rw [h23, h21]
  simp only [g23, g21]
  split_ifs <;> simp_all <;> omega

/-- Non-vacuity: `--status=3`, and the default for `x = 10^22`. -/
example : getStatusPrecision (setStatusPrecision {} 3) 100 = 3 ∧ getStatusPrecision {} (10 ^ 22) = 1 := by
  decide +kernel

/-- A tuning factor `1 ≤ a ≤ x^(1/6)` set by the user (`--alpha`) is the one the algorithms use. -/
theorem C56_alpha_set (e : Env) (set : Settings) (o : Opt) (x : ℕ) (a : ℚ) (hx : x < 2 ^ 127) (hs : set.alpha = .fin a)
    (h1 : 1 ≤ a) (h2 : a ≤ (iroot 6 x : ℕ)) :
    Pi.getAlpha (algEnv e set o) x = .ok (.fin a) ∧ Pi.getAlphaLmo (algEnv e set o) x = .ok (.fin a) := by
  rw [Pi.getAlpha_eq, Pi.getAlphaLmo_eq]
  unfold Pi.Env.alphaD Pi.Env.alphaL algEnv
  dsimp only
  rw [hs, Pi.clamp_set h1 h2 hx, Pi.clamp_set h1 h2 hx]
  exact ⟨rfl, rfl⟩

/-- Whatever the user or the default formula ask for, the tuning factor used lies between 1 and `max(1, x^(1/6))`. -/
theorem C56_alpha_range (e : Env) (set : Settings) (o : Opt) (x : ℕ) (hx1 : 1 ≤ x) (hx : x < 2 ^ 127)
    (hl : (e.alg o).lib.OK) (hs : set.alpha ≠ .nan) :
    (∃ a, Pi.getAlpha (algEnv e set o) x = .ok (.fin a) ∧ 1 ≤ a ∧ a ≤ (iroot 6 x : ℕ)) ∧
    (∃ a, Pi.getAlphaLmo (algEnv e set o) x = .ok (.fin a) ∧ 1 ≤ a ∧ a ≤ (iroot 6 x : ℕ)) := by
  have hf : (algEnv e set o).FP := ⟨hl, hs⟩
  obtain ⟨a, h1, h2, h3⟩ := Pi.alphaD_ok hf hx1 hx
  obtain ⟨b, g1, g2, g3⟩ := Pi.alphaL_ok hf hx1 hx
  exact ⟨⟨a, by rw [Pi.getAlpha_eq, h1], h2, h3⟩, ⟨b, by rw [Pi.getAlphaLmo_eq, g1], g2, g3⟩⟩

/-- A tuning factor that was set below 1 has the same effect as none. -/
theorem C56_alpha_default (e : Env) (set : Settings) (o : Opt) (x : ℕ) (hs : set.alpha.lt (.fin 1) = true) :
    Pi.getAlpha (algEnv e set o) x = Pi.getAlpha (algEnv e { set with alpha := .fin (-1) } o) x ∧
    Pi.getAlphaLmo (algEnv e set o) x = Pi.getAlphaLmo (algEnv e { set with alpha := .fin (-1) } o) x := by
  have h : Dbl.lt (.fin (-1)) (.fin 1) = true := by simp [Dbl.lt]
  rw [Pi.getAlpha_eq, Pi.getAlpha_eq, Pi.getAlphaLmo_eq, Pi.getAlphaLmo_eq]
  unfold Pi.Env.alphaD Pi.Env.alphaL algEnv Pi.clampAlpha
  dsimp only
  rw [hs, h]
  exact ⟨rfl, rfl⟩

/-- The sieve limit `y` that the algorithms derive from the tuning factor `a` is the integer part of `a * x^(1/3)`, up to the
rounding of one multiplication, and exactly `a * x^(1/3)` for an integer `a`. -/
theorem C56_y (x : ℕ) (a : ℚ) (hx1 : 1 ≤ x) (hx : x < 2 ^ 106) (h1 : 1 ≤ a) (h2 : a ≤ (iroot 6 x : ℕ)) :
    Ok (Pi.yOf (iroot 3 x) (.fin a)) (fun y => (y : ℚ) ≤ a * iroot 3 x * (1 + 1 / 2 ^ 53) ∧ a * iroot 3 x * (1 - 1 / 2 ^ 53) < y + 1 ∧
      ∀ n : ℕ, a = n → y = n * iroot 3 x) := by
  refine ⟨_, (Pi.yq_range h1 h2 hx).1, ?_⟩
  have h3 : (1 : ℚ) ≤ iroot 3 x := by exact_mod_cast le_iroot (N := 3) (r := 1) (by norm_num) (by simpa using hx1)
  have h4 : (1 : ℚ) ≤ iroot 3 x * a := by nlinarith
  have h5 := binary64_ge h4
  have h6 := binary64_le h4
  have h7 : (0 : ℤ) ≤ ⌊binary64 (iroot 3 x * a)⌋ := Int.floor_nonneg.2 (binary64_nonneg (by linarith))
  have h8 : ((Pi.yq x a : ℕ) : ℚ) = ((⌊binary64 (iroot 3 x * a)⌋ : ℤ) : ℚ) := by
    unfold Pi.yq
    exact_mod_cast congrArg (fun z : ℤ => (z : ℚ)) (Int.toNat_of_nonneg h7)
  have h9 := Int.floor_le (binary64 (iroot 3 x * a))
  have h10 := Int.lt_floor_add_one (binary64 (iroot 3 x * a))
  rw [mul_comm a]
  refine ⟨by rw [h8]; linarith, by rw [h8]; linarith, ?_⟩
  rintro n rfl
  have h11 : iroot 3 x * n ≤ 2 ^ 53 := by
    have h12 : n ≤ iroot 6 x := by exact_mod_cast h2
    exact (Nat.mul_le_mul_left _ h12).trans (Pi.root_prod_lt hx)
  have h13 : binary64 ((iroot 3 x : ℚ) * n) = ((iroot 3 x * n : ℕ) : ℚ) := by
    rw [← binary64_nat _ h11]
    push_cast
    rfl
  unfold Pi.yq
  rw [h13, Int.floor_natCast, Int.toNat_natCast, mul_comm]

/-- `--alpha=2` for `x = 10^6`: `y = 200`. -/
example (x : ℕ) (hx : x = 10 ^ 6) : Ok (Pi.yOf (iroot 3 x) (.fin 2)) (fun y => y = 200) := by
  have h : 10 ≤ iroot 6 x := le_iroot (by norm_num) (by rw [hx])
  have h' : ((10 : ℕ) : ℚ) ≤ (iroot 6 x : ℕ) := by exact_mod_cast h
  have h3 : iroot 3 x = 100 := by
    apply le_antisymm
    · by_contra hc
      have e1 := Nat.pow_le_pow_left (show 101 ≤ iroot 3 x by omega) 3
      have e2 := iroot_le 3 x (by norm_num)
      omega
    · exact le_iroot (by norm_num) (by omega)
  refine (C56_y x 2 (by omega) (by omega) (by norm_num) (le_trans (by norm_num) h')).mono (fun y hy => ?_)
  rw [hy.2.2 2 (by norm_num), h3]

/-- Non-vacuity: `--alpha=2` for `x = 10^6`, where `x^(1/6) = 10`. -/
example (e : Env) (x : ℕ) (hx : x = 10 ^ 6) : Pi.getAlpha (algEnv e { alpha := .fin 2 } .pi) x = .ok (.fin 2) := by
  have h : 10 ≤ iroot 6 x := le_iroot (by norm_num) (by rw [hx])
  have h' : ((10 : ℕ) : ℚ) ≤ (iroot 6 x : ℕ) := by exact_mod_cast h
  exact (C56_alpha_set e { alpha := .fin 2 } .pi x 2 (by omega) rfl (by norm_num) (le_trans (by norm_num) h')).1

/-- Non-vacuity: `--alpha=0.5` and an infinite tuning factor. -/
example : Pi.getAlpha (algEnv exampleMainEnv { alpha := .fin (1 / 2) } .pi) 1000 =
      Pi.getAlpha (algEnv exampleMainEnv {} .pi) 1000 ∧
    ∃ a, Pi.getAlpha (algEnv exampleMainEnv { alpha := .inf false } .pi) 1000 = .ok (.fin a) ∧ 1 ≤ a ∧
      a ≤ (iroot 6 1000 : ℕ) :=
  ⟨(C56_alpha_default exampleMainEnv { alpha := .fin (1 / 2) } .pi 1000 (by simp [Dbl.lt]; norm_num)).1,
    (C56_alpha_range exampleMainEnv { alpha := .inf false } .pi 1000 (by norm_num) (by norm_num) exampleLib_ok
      (by simp)).1⟩

/-! ### C68 -/

/-- The conversion `(int64_t) (iroot<3>(x) * alpha)` is defined for every tuning factor that is set, also a negative or an
infinite one, and its result is between the cube root and the square root of `x`; `get_max_x` is defined as well. -/
theorem C68_defined (e : Pi.Env) (x : ℕ) (hf : e.FP) (hx1 : 1 ≤ x) (hx : x < 2 ^ 106) :
    (∃ m : ℕ, Pi.getMaxX e.lib (e.alphaD x) = .ok (m : ℤ)) ∧
    (∃ y, Pi.yOf (iroot 3 x) (e.alphaD x) = .ok y ∧ iroot 3 x ≤ y ∧ y * y ≤ x) ∧
    (∃ y, Pi.yOf (iroot 3 x) (e.alphaL x) = .ok y ∧ iroot 3 x ≤ y ∧ y * y ≤ x) :=
  ⟨⟨_, (Pi.limit_ok hf hx1 (by omega)).1⟩, ⟨_, Pi.y_eq hf hx1 hx, (Pi.y_range hf hx1 hx).1, (Pi.y_facts hf hx1 hx).2.1⟩,
    ⟨_, Pi.yL_eq hf hx1 hx, (Pi.yL_range hf hx1 hx).1, (Pi.yL_facts hf hx1 hx).2.1⟩⟩

/-- `set_alpha(NaN)`: no comparison excludes the value, and `pi(x)` converts it to an integer, which is undefined.  `pow`
of NaN is NaN. -/
theorem C68_nan (e : Pi.Env) (x : ℕ) (threads : ℤ) (ha : e.alpha = .nan) (hp : e.lib.pow .nan (.fin (3 / 2)) = .nan)
    (hx : 2 ≤ x) : runPi e x threads = .error .overflow := by
  obtain ⟨tiny, ht, _⟩ := PhiTiny.build_ok
  show (do let tiny ← PhiTiny.build; Pi.pi e tiny x threads) = _
  rw [ht, ok_bind]
  unfold Pi.pi
  rw [if_neg (by omega)]
  dsimp only
  have h1 : ∀ d n, Pi.clampAlpha .nan d n = .nan := by
    intro d n
    unfold Pi.clampAlpha Dbl.inBetween
    cases Dbl.ofInt (n : ℤ) <;> simp [Dbl.lt]
  have h2 : ∀ d : Dbl, d.mul .nan = .nan := by intro d; cases d <;> rfl
  rw [Int.toNat_natCast, Pi.getAlpha_eq, ok_bind]
  unfold Pi.Env.alphaD
  rw [ha, h1]
  unfold Pi.getMaxX
  rw [h2, hp]
  rfl

/-- Non-vacuity. -/
example : ∃ y, Pi.yOf (iroot 3 1000) (Pi.Env.alphaD { exampleEnv 1 true with alpha := .inf true } 1000) = .ok y ∧
    iroot 3 1000 ≤ y ∧ y * y ≤ 1000 :=
  (C68_defined { exampleEnv 1 true with alpha := .inf true } 1000 ⟨exampleLib_ok, by simp⟩ (by norm_num) (by norm_num)).2.1

example : runPi { exampleEnv 1 true with alpha := .nan } (100 : ℕ) 1 = .error .overflow :=
  C68_nan _ _ _ rfl rfl (by norm_num)

end Main
end PS
