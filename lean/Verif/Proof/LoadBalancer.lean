import Verif.Model.S2LoadBalancer
import Verif.Model.S2Hard
import Verif.Proof.Imath
import Verif.Proof.Width
import Verif.Proof.Dbl
import Verif.Proof.Roots

/-! # The load balancer keeps the segment size valid -/

namespace PS
namespace LB

/-- What holds after every update for `z`: `min_size` and the segment size are powers of two `≥ 512`, the former is not
larger than the latter. -/
structure Ok' (z : ℕ) (lb : LB) (segmentSize : ℕ) : Prop where
  sqrtz : lb.sqrtz = Nat.sqrt z
  minP : ∃ k, lb.minSize = 2 ^ k ∧ 9 ≤ k
  minB : lb.minSize < 2 * max (Nat.sqrt z) 512
  segP : ∃ k, segmentSize = 2 ^ k ∧ 9 ≤ k
  segB : segmentSize < 2 * max (Nat.sqrt z) 512
  le : lb.minSize ≤ segmentSize
  minSec : lb.minSeconds.AtLeast (2 ^ (-7 : ℤ))
  cnt : lb.count.AtLeast 0

/-- `size` is the result of the conversion in line 180. -/
theorem minSize_ok {z size : ℕ} (hz : z < 2 ^ 63) (hs : size ≤ Nat.sqrt z) :
    (∃ k, (nextPowerOf2 (BitVec.ofInt 64 (max (size : ℤ) (1 <<< 9 : ℕ)))).toNat = 2 ^ k ∧ 9 ≤ k) ∧
      (nextPowerOf2 (BitVec.ofInt 64 (max (size : ℤ) (1 <<< 9 : ℕ)))).toNat < 2 * max (Nat.sqrt z) 512 := by
  have hsq : Nat.sqrt z < 2 ^ 32 := by
    rw [Nat.sqrt_lt']; omega
  rw [show (1 <<< 9 : ℕ) = 512 from rfl]
  obtain ⟨m, hm, hmz⟩ : ∃ m : ℕ, m = max size 512 ∧ max (size : ℤ) ((512 : ℕ) : ℤ) = m := ⟨max size 512, rfl, by omega⟩
  rw [hmz, BitVec.ofInt_natCast]
  have hto : (BitVec.ofNat 64 m).toNat = m := by
    rw [BitVec.toNat_ofNat]
    apply Nat.mod_eq_of_lt
    omega
  have h0 : BitVec.ofNat 64 m ≠ 0#64 := by
    intro h
    have := congrArg BitVec.toNat h
    rw [hto] at this
    simp at this
    omega
  rw [nextPowerOf2_eq _ h0 (by rw [hto]; omega), hto]
  have h9 : 9 ≤ Nat.size (m - 1) := by
    have : 511 < 2 ^ Nat.size (m - 1) := lt_of_le_of_lt (show 511 ≤ m - 1 by omega) (Nat.lt_size_self _)
    by_contra hc
    have : 2 ^ Nat.size (m - 1) ≤ 2 ^ 8 := Nat.pow_le_pow_right (by omega) (by omega)
    omega
  refine ⟨⟨_, rfl, h9⟩, ?_⟩
  have h1 : 2 ^ (Nat.size (m - 1) - 1) ≤ m - 1 := Nat.lt_size.1 (by omega)
  have h2 : 2 ^ Nat.size (m - 1) = 2 * 2 ^ (Nat.size (m - 1) - 1) := by
    rw [← pow_succ']; congr 1; omega
  omega

/-- `update_min_size`, for every divisor. -/
theorem updateMinSize_ok {z : ℕ} {lb : LB} (hz : z < 2 ^ 63) (hlb : lb.sqrtz = Nat.sqrt z) (divisor : Dbl) :
    Ok (updateMinSize lb divisor) (fun r => ∃ m, r = { lb with minSize := m } ∧ (∃ k, m = 2 ^ k ∧ 9 ≤ k) ∧
      m < 2 * max (Nat.sqrt z) 512) := by
  have hsq : Nat.sqrt z < 2 ^ 32 := by
    rw [Nat.sqrt_lt']; omega
  unfold updateMinSize
  obtain ⟨q, h1, h2, h3⟩ := Dbl.div_nat (n := Nat.sqrt z) (by omega)
    (Dbl.AtLeast.max_left (c := 1) (a := .fin 1) (show (1 : ℚ) ≤ 1 from le_rfl) divisor)
  have h4 : q < 2 ^ 63 := by
    have : ((Nat.sqrt z : ℕ) : ℚ) < 2 ^ 32 := by exact_mod_cast hsq
    linarith
  rw [hlb, h1, ok_bind, Dbl.toInt64_ok h2 h4, ok_bind]
  obtain ⟨size, hsize⟩ : ∃ n : ℕ, ⌊q⌋ = n := ⟨⌊q⌋.toNat, by have := Int.floor_nonneg.2 h2; omega⟩
  have h5 : size ≤ Nat.sqrt z := by
    have : ⌊q⌋ ≤ ((Nat.sqrt z : ℕ) : ℤ) := by
      have := Int.floor_mono h3
      rwa [Int.floor_natCast] at this
    omega
  rw [hsize]
  have h6 := minSize_ok hz h5
  exact Ok.pure ⟨_, rfl, h6.1, h6.2⟩

theorem half_pow : (2 : ℚ) ^ (-7 : ℤ) ≤ 1 / 100 := by norm_num

theorem tenth_pow : (2 : ℚ) ^ (-4 : ℤ) ≤ 1 / 10 := by norm_num

/-- `get_alpha(x, y)` is a positive number. -/
theorem getAlphaXY_ok {x y : ℕ} (hx1 : 1 ≤ x) (hy : 1 ≤ y) (hx : x < 2 ^ 127) (hy' : y < 2 ^ 63) :
    ∃ alpha, getAlphaXY x y = .ok alpha ∧ alpha.AtLeast ((y : ℚ) / iroot 3 x * (3 / 4)) := by
  have h3 : 1 ≤ iroot 3 x := le_iroot (by norm_num) (by simpa using hx1)
  have h3' : iroot 3 x < 2 ^ 127 := lt_of_le_of_lt (le_trans (Nat.le_self_pow (by norm_num) _) (iroot_le 3 x (by norm_num))) hx
  obtain ⟨Y, hY, hY1, hY2⟩ := Dbl.ofInt_near hy (by omega)
  obtain ⟨I, hI, hI1, hI2⟩ := Dbl.ofInt_near h3 h3'
  have y1 : (1 : ℚ) ≤ y := by exact_mod_cast hy
  have i1 : (1 : ℚ) ≤ iroot 3 x := by exact_mod_cast h3
  have i2 : ((iroot 3 x : ℕ) : ℚ) < 2 ^ 127 := by exact_mod_cast h3'
  have hI0 : 0 < I := by linarith
  have hq : (y : ℚ) / iroot 3 x * (15 / 17) ≤ Y / I := by
    rw [div_mul_div_comm, div_le_div_iff₀ (by positivity) hI0]
    nlinarith
  have hsm : (1 : ℚ) / 2 ^ 1000 ≤ Y / I := by
    refine le_trans ?_ hq
    rw [div_mul_div_comm, div_le_div_iff₀ (by positivity) (by positivity)]
    have : (2 : ℚ) ^ 200 ≤ 2 ^ 1000 := pow_le_pow_right₀ (by norm_num) (by norm_num)
    generalize (2 : ℚ) ^ 1000 = B at this
    nlinarith
  refine ⟨Dbl.round (Y / I), ?_, (Dbl.round_near hsm).mono (by
    have : (0 : ℚ) < y / iroot 3 x := by positivity
    linarith)⟩
  unfold getAlphaXY
  rw [hY, hI]
  simp only [Dbl.div]
  rw [if_neg (by linarith)]

/-- The value of `x / (y * sqrt(alpha) * iroot<6>(x))` can be converted to `int64_t`. -/
theorem leaf_ok {x y z : ℕ} (hx1 : 1 ≤ x) (hy : 1 ≤ y) (hxz : x / y ≤ z) (hz : z < 2 ^ 59 ∨ (z < 2 ^ 62 ∧ 1024 ≤ y)) (hx : x < 2 ^ 127)
    (hy' : y < 2 ^ 63) : ∃ alpha q, getAlphaXY x y = .ok alpha ∧
      (Dbl.ofInt x).div (((Dbl.ofInt y).mul alpha.sqrt).mul (.ofInt (iroot 6 x))) = .ok (.fin q) ∧ 0 ≤ q ∧ q < 2 ^ 63 := by
  obtain ⟨alpha, ha, ha1⟩ := getAlphaXY_ok hx1 hy hx hy'
  have h3 : 1 ≤ iroot 3 x := le_iroot (by norm_num) (by simpa using hx1)
  have h6 : 1 ≤ iroot 6 x := le_iroot (by norm_num) (by simpa using hx1)
  have h3' : iroot 3 x < 2 ^ 127 := lt_of_le_of_lt (le_trans (Nat.le_self_pow (by norm_num) _) (iroot_le 3 x (by norm_num))) hx
  have h6' : iroot 6 x < 2 ^ 127 := lt_of_le_of_lt (le_trans (Nat.le_self_pow (by norm_num) _) (iroot_le 6 x (by norm_num))) hx
  have h36 : iroot 3 x ≤ 4 * iroot 6 x ^ 2 := by
    have h1 : (iroot 3 x) ^ 3 < ((iroot 6 x + 1) ^ 2) ^ 3 := by
      rw [← pow_mul]
      exact lt_of_le_of_lt (iroot_le 3 x (by norm_num)) (lt_iroot_succ 6 x (by norm_num))
    have h2 : iroot 3 x < (iroot 6 x + 1) ^ 2 := lt_of_pow_lt_pow_left₀ 3 (by positivity) h1
    nlinarith
  have y1 : (1 : ℚ) ≤ y := by exact_mod_cast hy
  have i1 : (1 : ℚ) ≤ iroot 3 x := by exact_mod_cast h3
  have i2 : ((iroot 3 x : ℕ) : ℚ) < 2 ^ 127 := by exact_mod_cast h3'
  have j1 : (1 : ℚ) ≤ iroot 6 x := by exact_mod_cast h6
  have ij : ((iroot 3 x : ℕ) : ℚ) ≤ 4 * (iroot 6 x : ℚ) ^ 2 := by exact_mod_cast h36
  obtain ⟨X, hX, hX1, hX2⟩ := Dbl.ofInt_near hx1 hx
  obtain ⟨Y, hY, hY1, hY2⟩ := Dbl.ofInt_near hy (by omega)
  obtain ⟨J, hJ, hJ1, hJ2⟩ := Dbl.ofInt_near h6 h6'
  obtain ⟨s, s0, s1, s2⟩ := Dbl.sqrt_atLeast (by positivity) ha1
  have s3 : (y : ℚ) * 3 ≤ 16 * s ^ 2 * iroot 3 x := by
    have : (y : ℚ) / iroot 3 x * (3 / 4) = y * 3 / (4 * iroot 3 x) := by rw [div_mul_div_comm, mul_comm (4 : ℚ)]
    rw [this, div_le_iff₀ (by positivity)] at s1
    linarith
  have s4 : (1 : ℚ) / 2 ^ 65 ≤ s := by
    by_contra hc
    push Not at hc
    have h1 : s ^ 2 < (1 / 2 ^ 65) ^ 2 := pow_lt_pow_left₀ hc s0.le (by norm_num)
    have h2 : 16 * s ^ 2 * iroot 3 x < 16 * (1 / 2 ^ 65) ^ 2 * 2 ^ 127 :=
      mul_lt_mul'' (by linarith) i2 (by positivity) (by positivity)
    norm_num at h2
    linarith
  have s5 : 1 / 5 ≤ s * iroot 6 x := by
    by_contra hc
    push Not at hc
    have h1 : (s * iroot 6 x) ^ 2 < (1 / 5) ^ 2 := pow_lt_pow_left₀ hc (by positivity) (by norm_num)
    have h2 : 16 * s ^ 2 * iroot 3 x ≤ 16 * s ^ 2 * (4 * (iroot 6 x : ℚ) ^ 2) := mul_le_mul_of_nonneg_left ij (by positivity)
    nlinarith
  have sm : (1 : ℚ) / 2 ^ 1000 ≤ 1 / 2 ^ 100 := by
    exact one_div_le_one_div_of_le (by positivity) (pow_le_pow_right₀ (by norm_num) (by norm_num))
  have ys : (1 : ℚ) / 2 ^ 65 ≤ y * s := by nlinarith
  have d1 : (((Dbl.ofInt y).mul alpha.sqrt).mul (.ofInt (iroot 6 x))).AtLeast
      ((y * (15 / 16)) * s * (15 / 16) * (iroot 6 x * (15 / 16)) * (15 / 16)) := by
    rw [hY, hJ]
    refine Dbl.mul_near (by positivity) (by positivity) (sm.trans ?_)
      (Dbl.mul_near (by positivity) s0 (sm.trans ?_) hY1 s2) hJ1
    · have : (1 : ℚ) / 2 ^ 65 ≤ y * s * iroot 6 x := by nlinarith
      norm_num at this ⊢
      linarith
    · norm_num at ys ⊢
      linarith
  have xyz : x < y * (z + 1) := by
    have := Nat.lt_mul_div_succ x hy
    exact lt_of_lt_of_le this (Nat.mul_le_mul_left _ (by omega))
  -- `y` times the square root of `y`, roughly
  have xy : (x : ℚ) * (3 / 8) ≤ y * (s * iroot 6 x) * 2 ^ 60 := by
    rcases hz with hz | ⟨hz, hy1⟩
    · have h2 : (x : ℚ) < y * 2 ^ 59 := by
        exact_mod_cast lt_of_lt_of_le xyz (Nat.mul_le_mul_left _ (by omega))
      have h1 : (y : ℚ) * (1 / 5) ≤ y * (s * iroot 6 x) := mul_le_mul_of_nonneg_left s5 (by positivity)
      linarith
    · have h2 : (x : ℚ) < y * 2 ^ 62 := by
        exact_mod_cast lt_of_lt_of_le xyz (Nat.mul_le_mul_left _ (by omega))
      have s6 : (2 : ℚ) ≤ s * iroot 6 x := by
        by_contra hc
        push Not at hc
        have h1 : (s * iroot 6 x) ^ 2 < 2 ^ 2 := pow_lt_pow_left₀ hc (by positivity) (by norm_num)
        have h2 : 16 * s ^ 2 * iroot 3 x ≤ 16 * s ^ 2 * (4 * (iroot 6 x : ℚ) ^ 2) := mul_le_mul_of_nonneg_left ij (by positivity)
        have h3 : (1024 : ℚ) ≤ y := by exact_mod_cast hy1
        nlinarith
      have h1 : (y : ℚ) * 2 ≤ y * (s * iroot 6 x) := mul_le_mul_of_nonneg_left s6 (by positivity)
      linarith
  obtain ⟨q, hq, hq0, hq1⟩ := Dbl.div_le (a := X) (B := 2 ^ 62) (by nlinarith) (by positivity) d1 (by norm_num) (by norm_num) (by
    rw [div_le_iff₀ (by positivity)]
    nlinarith)
  refine ⟨alpha, q, ha, by rw [hX]; exact hq, hq0, by linarith⟩

theorem init_ok {log : Dbl → Dbl} {x y z threads : ℕ} (hx1 : 1 ≤ x) (hy : 1 ≤ y) (hxz : x / y ≤ z) (hz : z < 2 ^ 59 ∨ (z < 2 ^ 62 ∧ 1024 ≤ y)) (hx : x < 2 ^ 127)
    (hy' : y < 2 ^ 63) :
    Ok (init log x y z threads) (fun lb => Ok' z lb lb.minSize) := by
  obtain ⟨alpha, q, ha, hq, q0, q1⟩ := leaf_ok hx1 hy hxz hz hx hy'
  unfold init
  obtain ⟨third, hthird⟩ := Dbl.div_ok (c := 3) (by norm_num) (Dbl.max (.fin 1) (log (.ofInt threads))) (b := .fin 3) (show (3 : ℚ) ≤ 3 from le_rfl)
  dsimp only
  rw [hthird, ok_bind]
  refine Ok.bind (updateMinSize_ok (z := z) (by omega) rfl _) ?_
  rintro lb ⟨m, rfl, hm1, hm2⟩
  rw [ha, ok_bind, hq, ok_bind, Dbl.toInt64_ok q0 q1, ok_bind]
  refine Ok.pure ⟨rfl, hm1, hm2, hm1, hm2, le_rfl, ?_, ?_⟩
  · have h1 : Dbl.AtLeast (2 ^ (-7 : ℤ)) (Dbl.round (1 / 100)) :=
      Dbl.round_atLeast (by norm_num) (Dbl.binary64_ge_of (by norm_num) half_pow)
    have h2 : Dbl.AtLeast (2 ^ (0 : ℤ)) (Dbl.max (.fin 1) (log (.ofInt threads))) :=
      Dbl.AtLeast.max_left (a := .fin 1) (show (2 : ℚ) ^ (0 : ℤ) ≤ 1 by norm_num) _
    exact Dbl.mul_atLeast (by norm_num) h1 h2
  · exact le_rfl

/-- Whatever the constructor returns satisfies the invariant. -/
theorem init_inv {log : Dbl → Dbl} {x y z threads : ℕ} (hz : z < 2 ^ 63) {lb : LB} (h : init log x y z threads = .ok lb) :
    Ok' z lb lb.minSize := by
  unfold init at h
  obtain ⟨third, hthird⟩ := Dbl.div_ok (c := 3) (by norm_num) (Dbl.max (.fin 1) (log (.ofInt threads))) (b := .fin 3) (show (3 : ℚ) ≤ 3 from le_rfl)
  dsimp only at h
  rw [hthird, ok_bind] at h
  obtain ⟨r, hr, m, rfl, hm1, hm2⟩ := updateMinSize_ok (z := z) (lb := {
    y := .ofInt y
    rsd := .fin 40
    count := .fin 0
    totalSeconds := .fin 0
    minSeconds := (Dbl.round (1 / 100)).mul (Dbl.max (.fin 1) (log (.ofInt threads)))
    decreaseDividend := .max (.fin (1 / 2)) third
    minSize := 0
    sqrtz := Nat.sqrt z
    smallestHardLeaf := 0 }) hz rfl ((log (log (Dbl.ofInt x))).mul (log (Dbl.ofInt x)))
  rw [hr, ok_bind] at h
  rcases ha : getAlphaXY x y with _ | alpha
  · rw [ha] at h; cases h
  rw [ha, ok_bind] at h
  rcases hq : (Dbl.ofInt x).div (((Dbl.ofInt y).mul alpha.sqrt).mul (.ofInt (iroot 6 x))) with _ | q
  · rw [hq] at h; cases h
  rw [hq, ok_bind] at h
  rcases hl : q.toInt64 with _ | leaf
  · rw [hl] at h; cases h
  rw [hl, ok_bind] at h
  cases h
  refine ⟨rfl, hm1, hm2, hm1, hm2, le_rfl, ?_, ?_⟩
  · have h1 : Dbl.AtLeast (2 ^ (-7 : ℤ)) (Dbl.round (1 / 100)) :=
      Dbl.round_atLeast (by norm_num) (Dbl.binary64_ge_of (by norm_num) half_pow)
    have h2 : Dbl.AtLeast (2 ^ (0 : ℤ)) (Dbl.max (.fin 1) (log (.ofInt threads))) :=
      Dbl.AtLeast.max_left (a := .fin 1) (show (2 : ℚ) ^ (0 : ℤ) ≤ 1 by norm_num) _
    exact Dbl.mul_atLeast (by norm_num) h1 h2
  · exact le_rfl

theorem getAvg_ok {ts : List Dbl} (h : ts ≠ []) : ∃ d, getAvg ts = .ok d := by
  have : 1 ≤ ts.length := List.length_pos_of_ne_nil h
  exact Dbl.div_ok (c := 1) (by norm_num) _ (Dbl.ofInt_atLeast this)

theorem relStdDev_ok {ts : List Dbl} (h : ts ≠ []) : ∃ d, relStdDev ts = .ok d := by
  unfold relStdDev
  obtain ⟨avg, ha⟩ := getAvg_ok h
  rw [ha, ok_bind]
  by_cases hz : avg.isZero
  · rw [if_pos hz]; exact ⟨_, rfl⟩
  · rw [if_neg hz]
    dsimp only
    obtain ⟨d, hd⟩ := Dbl.div_ok (c := 1) (by norm_num) (ts.foldl (fun (sum t : Dbl) => sum.add ((t.sub avg).mul (t.sub avg))) (.fin 0))
      (Dbl.AtLeast.max_left (c := 1) (a := .fin 1) (show (1 : ℚ) ≤ 1 from le_rfl) ((Dbl.ofInt ts.length).sub (.fin 1)))
    rw [hd, ok_bind]
    exact Dbl.div_ok' _ (by simpa using hz)

theorem getPivot_ok (log : Dbl → Dbl) {lb : LB} (h : Dbl.AtLeast (2 ^ (-7 : ℤ)) lb.minSeconds) (seconds : Dbl) :
    ∃ d, getPivot log lb seconds = .ok d := by
  unfold getPivot
  dsimp only
  obtain ⟨d, hd⟩ := Dbl.div_ok (c := 2 ^ (-7 + -7 : ℤ)) (by positivity) lb.decreaseDividend
    (Dbl.mul_atLeast (by norm_num) (h.max_left seconds) (h.max_left (log (lb.minSeconds.max seconds))))
  rw [hd, ok_bind]
  exact ⟨_, rfl⟩

/-- The start of `update`: only the time keeping changes. -/
theorem measure_ok (log : Dbl → Dbl) {z : ℕ} {lb : LB} {ss : ℕ} (h : Ok' z lb ss) {ts : List Dbl} (hts : ts ≠ []) :
    Ok (measure log lb ts) (fun r => Ok' z r.1 ss ∧ Dbl.AtLeast 1 r.1.count ∧ Dbl.AtLeast (2 ^ (-4 : ℤ)) r.1.rsd) := by
  unfold measure
  obtain ⟨avg, ha⟩ := getAvg_ok hts
  dsimp only
  rw [ha, ok_bind]
  obtain ⟨p, hp⟩ := getPivot_ok log
    (lb := { lb with count := lb.count.add (.fin 1), totalSeconds := lb.totalSeconds.add avg }) h.minSec avg
  rw [hp, ok_bind]
  obtain ⟨r, hr⟩ := relStdDev_ok hts
  rw [hr, ok_bind]
  have hc := Dbl.add_one_atLeast h.cnt
  refine Ok.pure ⟨⟨h.sqrtz, h.minP, h.minB, h.segP, h.segB, h.le, h.minSec, hc.mono (by norm_num)⟩, hc, ?_⟩
  exact Dbl.AtLeast.max_left (Dbl.round_atLeast (by norm_num) (Dbl.binary64_ge_of (by norm_num) tenth_pow)) _

theorem isIncrease_ok {lb : LB} (h : Dbl.AtLeast 1 lb.count) (seconds pivot : Dbl) :
    ∃ b, isIncrease lb seconds pivot = .ok b := by
  unfold isIncrease
  split
  · exact ⟨_, rfl⟩
  · unfold getAvgSeconds
    obtain ⟨d, hd⟩ := Dbl.div_ok (c := 1) (by norm_num) lb.totalSeconds h
    rw [hd]
    exact ⟨_, rfl⟩

theorem updateSegments_ok {lb : LB} {spt : ℕ} (hc : Dbl.AtLeast 1 lb.count) (hr : Dbl.AtLeast (2 ^ (-4 : ℤ)) lb.rsd)
    (seconds pivot : Dbl) (h1 : 1 ≤ spt) (h : spt ≤ 2 ^ 53) :
    Ok (updateSegments lb seconds pivot spt) (fun r => 1 ≤ r ∧ r ≤ 2 * spt) := by
  unfold updateSegments
  obtain ⟨b, hb⟩ := isIncrease_ok hc seconds pivot
  rw [hb, ok_bind]
  refine Ok.ite (fun _ => Ok.ite (fun _ => ?_) (fun _ => ?_)) (fun _ => Ok.pure ⟨h1, by omega⟩)
  · rw [fit_ok (by omega)]; exact Ok.ok ⟨by omega, by omega⟩
  · obtain ⟨d, hd⟩ := Dbl.div_ok (c := 2 ^ (-4 : ℤ)) (by positivity) pivot hr
    rw [hd, ok_bind]
    dsimp only
    obtain ⟨q, hq, q1, q2⟩ := Dbl.segments_ok h h1 d
    have q3 : ((2 * spt : ℕ) : ℚ) ≤ 2 ^ 54 := by exact_mod_cast (show 2 * spt ≤ 2 ^ 54 by omega)
    rw [hq, Dbl.toInt64_ok (by linarith) (by linarith), ok_bind]
    have a1 : 1 ≤ ⌊q⌋ := Int.le_floor.2 (by exact_mod_cast q1)
    have a2 : ⌊q⌋ ≤ ((2 * spt : ℕ) : ℤ) := by
      have := Int.floor_mono q2
      rwa [Int.floor_natCast] at this
    exact Ok.pure ⟨by omega, by omega⟩

theorem decide_ok {z : ℕ} {lb : LB} {ss spt low : ℕ} (hz : z < 2 ^ 63) (h : Ok' z lb ss) (hc : Dbl.AtLeast 1 lb.count)
    (hr : Dbl.AtLeast (2 ^ (-4 : ℤ)) lb.rsd) (h1 : 1 ≤ spt) (seconds pivot : Dbl) (h52 : spt ≤ 2 ^ 53) :
    Ok (decide' lb seconds pivot low ss spt) (fun r => Ok' z lb r.1 ∧ 1 ≤ r.2 ∧ r.1 * r.2 ≤ 2 * (ss * spt)) := by
  have hsq : Nat.sqrt z < 2 ^ 32 := by
    rw [Nat.sqrt_lt']; omega
  obtain ⟨k, hk, hk9⟩ := h.segP
  have hb := h.segB
  have hq := h.sqrtz
  have hm := h.le
  have same : Ok' z lb ss ∧ 1 ≤ spt ∧ ss * spt ≤ 2 * (ss * spt) := ⟨h, h1, by omega⟩
  unfold decide'
  refine Ok.ite (fun hlt => ?_) (fun _ => ?_)
  · obtain ⟨b, hb'⟩ := isIncrease_ok hc seconds pivot
    rw [hb', ok_bind]
    refine Ok.ite (fun _ => ?_) (fun _ => ?_)
    · rw [Nat.shiftLeft_eq, pow_one, fit_ok (by omega), ok_bind]
      refine Ok.pure ⟨⟨h.sqrtz, h.minP, h.minB, ⟨k + 1, by rw [hk]; ring, by omega⟩, by omega, by omega, h.minSec, h.cnt⟩, h1, ?_⟩
      show ss * 2 * spt ≤ _
      rw [Nat.mul_assoc, Nat.mul_comm ss, Nat.mul_assoc, Nat.mul_comm spt]
    · refine Ok.ite (fun _ => ?_) (fun _ => Ok.pure same)
      refine Ok.ite (fun hmin => ?_) (fun _ => Ok.pure same)
      obtain ⟨m, hm', hm9⟩ := h.minP
      have hk10 : m < k := by
        rw [hm', hk] at hmin
        exact (Nat.pow_lt_pow_iff_right (by omega)).1 hmin
      have e : ss >>> 1 = 2 ^ (k - 1) := by
        rw [Nat.shiftRight_eq_div_pow, hk, Nat.pow_div (by omega) (by omega)]
      have e2 : ss >>> 1 ≤ ss := by rw [Nat.shiftRight_eq_div_pow]; omega
      refine Ok.pure ⟨⟨h.sqrtz, h.minP, h.minB, ⟨k - 1, e, by omega⟩, by dsimp only; omega, ?_, h.minSec, h.cnt⟩, h1, ?_⟩
      · dsimp only
        rw [e, hm']
        exact Nat.pow_le_pow_right (by omega) (by omega)
      · have := Nat.mul_le_mul_right spt e2
        dsimp only
        omega
  · refine Ok.ite (fun _ => ?_) (fun _ => Ok.pure same)
    refine Ok.bind (updateSegments_ok hc hr seconds pivot h1 h52) (fun r hr => Ok.pure ⟨h, hr.1, ?_⟩)
    dsimp only
    calc ss * r ≤ ss * (2 * spt) := Nat.mul_le_mul_left _ hr.2
      _ = _ := by ring

theorem newHigh_ok {low threads ss spt : ℕ} (hT : 1 ≤ threads) (h : low + ss * spt * threads < 2 ^ 63) :
    newHigh low threads ss spt = .ok (low + ss * spt * threads) := by
  have h2 := Nat.le_mul_of_pos_right (ss * spt) hT
  unfold newHigh
  rw [fit_ok (by omega), ok_bind, fit_ok (by omega), ok_bind, fit_ok h]

theorem update_ok (log : Dbl → Dbl) {z : ℕ} {lb : LB} {ss spt : ℕ} (hz : z < 2 ^ 63) (h : Ok' z lb ss) (h1 : 1 ≤ spt)
    {ts : List Dbl} (hts : ts ≠ []) {low threads : ℕ} (hT : 1 ≤ threads) (h63 : low + 2 * (ss * spt * threads) < 2 ^ 63) :
    Ok (update log lb ts low threads ss spt) (fun r => Ok' z r.1 r.2.1 ∧ 1 ≤ r.2.2) := by
  have hss1 : 512 ≤ ss := by
    obtain ⟨k, hk, hk9⟩ := h.segP
    rw [hk]
    exact le_trans (show 512 ≤ 2 ^ 9 by norm_num) (Nat.pow_le_pow_right (by omega) hk9)
  have h2 := Nat.le_mul_of_pos_right (ss * spt) hT
  have h3 := Nat.mul_le_mul_right spt hss1
  unfold update
  refine Ok.bind (measure_ok log h hts) ?_
  rintro ⟨lb, seconds, pivot⟩ ⟨h, hc, hr⟩
  dsimp only at h hc hr ⊢
  refine Ok.bind (decide_ok hz h hc hr h1 seconds pivot (by omega)) ?_
  rintro ⟨ss', spt'⟩ ⟨a1, a2, a3⟩
  dsimp only at a1 a2 a3 ⊢
  have a4 : ss' * spt' * threads ≤ 2 * (ss * spt * threads) := by
    calc ss' * spt' * threads ≤ 2 * (ss * spt) * threads := Nat.mul_le_mul_right _ a3
      _ = _ := by ring
  rw [newHigh_ok hT (by omega), ok_bind]
  refine Ok.bind (P := fun (q : ℕ × ℕ) => Ok' z lb q.1) ?_ ?_
  · unfold nearLeaf
    refine Ok.ite (fun _ => ?_) (fun _ => Ok.pure a1)
    have a5 : lb.minSize * spt' * threads ≤ ss' * spt' * threads :=
      Nat.mul_le_mul_right _ (Nat.mul_le_mul_right _ a1.le)
    rw [newHigh_ok hT (by omega), ok_bind]
    exact Ok.pure ⟨a1.sqrtz, a1.minP, a1.minB, a1.minP, a1.minB, le_rfl, a1.minSec, a1.cnt⟩
  · rintro ⟨ss'', high⟩ b1
    dsimp only at b1 ⊢
    refine Ok.ite (fun _ => ?_) (fun _ => Ok.pure ⟨b1, a2⟩)
    refine Ok.bind (updateMinSize_ok hz h.sqrtz (log lb.y)) ?_
    rintro lb' ⟨m, rfl, hm1, hm2⟩
    refine Ok.pure ⟨⟨h.sqrtz, hm1, hm2, ?_, max_lt hm2 b1.segB, le_max_left _ _, h.minSec, h.cnt⟩, a2⟩
    dsimp only
    rcases le_total m ss'' with hc | hc
    · rw [max_eq_right hc]; exact b1.segP
    · rw [max_eq_left hc]; exact hm1

end LB

namespace S2Hard

theorem range_map_ne {α : Type} {n : ℕ} {f : ℕ → α} (h : 1 ≤ n) : (List.range n).map f ≠ [] := by
  intro hc
  have := congrArg List.length hc
  simp at this
  omega

theorem shares_ok {limit low threads ss spt : ℕ} (hss : 0 < ss) (hl : low < limit) (h63 : 2 * (limit + ss) < 2 ^ 63) :
    Ok (shares limit low threads ss spt) (fun r => 1 ≤ r.1 ∧ 1 ≤ r.2 ∧ ss * r.2 * r.1 ≤ 2 * (limit + ss) ∧ r.1 ≤ max 1 threads ∧
      ss * r.2 * r.1 ≤ limit - low + ss + ss * r.1) := by
  unfold shares
  rw [fit_ok (by omega), ok_bind, ceilDiv_ok _ _ hss, ok_bind]
  have hseg : 1 ≤ (limit - low + ss - 1) / ss := by
    rw [Nat.le_div_iff_mul_le hss]; omega
  have hsegU := Nat.div_mul_le_self (limit - low + ss - 1) ss
  generalize (limit - low + ss - 1) / ss = segs at *
  have hs2 := Nat.le_mul_of_pos_right segs hss
  obtain ⟨T, hT, hT1, hTs, hTm⟩ : ∃ T : ℕ, (inBetween 1 (threads : ℤ) (segs : ℤ)).toNat = T ∧ 1 ≤ T ∧ T ≤ segs ∧ T ≤ max 1 threads := by
    refine ⟨_, rfl, ?_⟩
    unfold inBetween
    split
    · omega
    · split <;> omega
  dsimp only
  rw [hT, fit_ok (by omega), ok_bind, ceilDiv_ok _ _ (by omega), ok_bind]
  have hq : 1 ≤ (segs + T - 1) / T := by
    rw [Nat.le_div_iff_mul_le (by omega)]; omega
  have hqU := Nat.div_mul_le_self (segs + T - 1) T
  generalize (segs + T - 1) / T = q at *
  obtain ⟨n, hn, hn1, hnq⟩ : ∃ n : ℕ, (inBetween 1 (spt : ℤ) (q : ℤ)).toNat = n ∧ 1 ≤ n ∧ n ≤ q := by
    refine ⟨_, rfl, ?_⟩
    unfold inBetween
    split
    · omega
    · split <;> omega
  rw [hn]
  have hnT := Nat.mul_le_mul_right T hnq
  refine Ok.pure ⟨hT1, hn1, ?_, hTm, ?_⟩
  · dsimp only
    calc ss * n * T = ss * (n * T) := by ring
      _ ≤ ss * (2 * segs) := Nat.mul_le_mul_left _ (by omega)
      _ = 2 * (segs * ss) := by ring
      _ ≤ _ := by omega
  · dsimp only
    calc ss * n * T = ss * (n * T) := by ring
      _ ≤ ss * (segs + T) := Nat.mul_le_mul_left _ (by omega)
      _ = segs * ss + ss * T := by ring
      _ ≤ _ := by omega

theorem nextLow_ok {low threads ss spt : ℕ} (hss : 0 < ss) (h63 : low + ss * spt * threads < 2 ^ 63) :
    nextLow low threads ss spt = .ok (low + ss * spt * threads) := by
  have h2 := Nat.le_mul_of_pos_right (spt * threads) hss
  have e : spt * threads * ss = ss * spt * threads := by ring
  unfold nextLow
  rw [fit_ok (by omega), ok_bind, fit_ok (by omega), ok_bind, fit_ok (by omega), e]

theorem interval_ok {ss spt i low limit : ℕ} (h63 : low + ss * spt * i + ss * spt < 2 ^ 63) :
    interval ss spt i low limit = .ok (low + ss * spt * i, min (low + ss * spt * i + ss * spt) limit) := by
  unfold interval
  rw [fit_ok (by omega), ok_bind, fit_ok (by omega), ok_bind, fit_ok (by omega), ok_bind, fit_ok (by omega), ok_bind]
  rfl

end S2Hard
end PS
