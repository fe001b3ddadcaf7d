import Verif.Proof.LmoSegC
import Verif.Proof.LmoB
import Verif.Props.Pi
import Mathlib.NumberTheory.Chebyshev

/-!
# The entry points of src/lmo
-/

namespace PS
open LawfulRes
local notation "π" => Nat.primeCounting

/-- Like `combine`, if `S2` is off by `E`. -/
theorem combine' {x y c : ℕ} {E : ℤ} {s1 s2 p2 : I256} {t : ℕ} (hx : 1 ≤ x) (hy : 1 ≤ y) (hyx : y ≤ x)
    (hxy : x < (y + 1) ^ 3) (hc : c ≤ π y) (h1 : Rep s1 (S1Sum x y c)) (h2 : Rep s2 (S2Sum x y c + E))
    (h3 : Rep p2 (P2Sum x y)) (ht : t = primeSum y) (hy62 : y < 2 ^ 62) :
    Rep (I256.sub (I256.sub (I256.add (I256.add s1 s2) (I256.ofInt t)) (I256.ofInt 1)) p2) (primeSum x + E) := by
  have ht1 : t ≤ 2 ^ 62 * 2 ^ 62 := by
    rw [ht]
    exact le_trans (primeSum_le_sq y) (Nat.mul_le_mul (by omega) (by omega))
  have r1 : Rep (I256.ofInt (t : ℤ)) (t : ℤ) := rep_ofInt (R := I256) _ (by omega) (by omega)
  have r2 : Rep (I256.ofInt 1) 1 := rep_ofInt (R := I256) 1 (by norm_num) (by norm_num)
  have h := rep_sub _ _ _ _ (rep_sub _ _ _ _ (rep_add _ _ _ _ (rep_add _ _ _ _ h1 h2) r1) r2) h3
  have he := primeSum_eq x y c hx hy hyx hxy hc
  have : S1Sum x y c + (S2Sum x y c + E) + (t : ℤ) - 1 - P2Sum x y = primeSum x + E := by
    rw [he, ht]; ring
  rw [this] at h
  exact h

namespace Lmo

/-- What is assumed of the environment of `pi_lmo*`. -/
structure EnvValid (e : Pi.Env) : Prop where
  schedP2 : e.schedP2.Valid
  schedS1 : e.schedS1.Valid
  schedHard : e.hard.sched.Valid
  fp : e.FP

/-- The tables of the Möbius function and the least prime factors. -/
theorem tables_ok (y : ℕ) {mu : Vec ℤ} {lpf : Vec ℕ}
    (h1 : mu.size = y + 1 ∧ ∀ k, 1 ≤ k → k ≤ y → mu.get k = PS.mu k)
    (h2 : lpf.size = y + 1 ∧ (∀ k, 2 ≤ k → k ≤ y → lpf.get k = k.minFac) ∧ (1 ≤ y → lpf.get 1 = 2 ^ 31 - 1)) :
    Tab y mu lpf := ⟨h1.1, h2.1, h1.2, h2.2.1⟩

theorem y_lt_31 {x y : ℕ} (h : y * y ≤ x) (hx : x < 2 ^ 62) : y < 2 ^ 31 := by nlinarith

theorem limit_sq {x y : ℕ} (hy : 1 ≤ y) (hx : x < 2 ^ 38) (h3 : x < (y + 1) ^ 3) : (x / y + 1) * (x / y + 1) < 2 ^ 63 := by
  have h : x / y + 1 ≤ 2 ^ 31 := by
    rcases Nat.lt_or_ge y 128 with h | h
    · have h1 : x / y ≤ x := Nat.div_le_self _ _
      have h2 : (y + 1) ^ 3 ≤ 128 ^ 3 := Nat.pow_le_pow_left (by omega) 3
      omega
    · have h1 : x / y ≤ x / 128 := Nat.div_le_div_left h (by norm_num)
      omega
  calc (x / y + 1) * (x / y + 1) ≤ 2 ^ 31 * 2 ^ 31 := Nat.mul_le_mul h h
    _ < 2 ^ 63 := by norm_num

theorem limit_sq' {x y : ℕ} (hx : x < 2 ^ 29) : (x / y + 1) * (x / y + 1) < 2 ^ 63 := by
  have h1 : x / y ≤ x := Nat.div_le_self _ _
  calc (x / y + 1) * (x / y + 1) ≤ 2 ^ 29 * 2 ^ 29 := Nat.mul_le_mul (by omega) (by omega)
    _ < 2 ^ 63 := by norm_num

/-- If `S2` is off by `E`, so is the result. -/
theorem piLmo_off {e : Pi.Env} {x : ℕ} (hv : EnvValid e) (hx2 : 2 ≤ x) (hx : x < 2 ^ 63) (hy31 : e.yL x < 2 ^ 31) {threads : ℤ} (hth : 1 ≤ threads)
    {tiny : Vec PhiTiny.Tab} (ht : PhiTiny.Valid tiny 6) {s2 : ℕ → ℕ → ℕ → Vec ℕ → Vec ℕ → Vec ℤ → M I256}
    {P : ℤ → Prop}
    (hs2 : ∀ primes lpf mu, Tab (e.yL x) mu lpf → PrimeTable primes (π (e.yL x)) →
      Ok (s2 x (e.yL x) (min 6 (π (e.yL x))) primes lpf mu)
        (fun r => ∃ E, P E ∧ Rep r (S2Sum x (e.yL x) (min 6 (π (e.yL x))) + E))) :
    Ok (piLmo e tiny threads s2 x) (fun r => ∃ E, P E ∧ Rep r (primeSum x + E)) := by
  obtain ⟨h1, h2, h3⟩ := Pi.yL_facts hv.fp (by omega : 1 ≤ x) (by omega)
  unfold piLmo
  rw [if_neg (by omega)]
  dsimp only
  rw [Int.toNat_natCast, Pi.getAlphaLmo_eq, ok_bind, irootM_eq 3 _ _ (by norm_num), ok_bind,
    Pi.yL_eq hv.fp (by omega) (by omega), ok_bind]
  generalize e.yL x = y at *
  have hy32 : y < 2 ^ 32 := by nlinarith
  obtain ⟨c1, c2, c3⟩ := c_cases y
  rw [PhiTiny.getC_ok, ok_bind]
  have hP := P2_val ht hv.schedP2 e.timeP2 hth (y := y) (show x < 2 ^ 124 by omega) (by omega)
    (z62_of_lt (by omega) h1 h3)
  refine Ok.bind hP (fun p2 hp2 => ?_)
  refine Ok.bind (generateMoebius_ok hy31) (fun mu hmu => ?_)
  refine Ok.bind (generateLpf_ok hy31) (fun lpf hlpf => ?_)
  rw [generatePrimesT_eq hy31, ok_bind]
  refine Ok.bind (C12_S1_64_fits_partial _ hv.schedS1 x y _ hx h1 (by omega) (prm_small (by omega)) c2) (fun s1 hs1 => ?_)
  refine Ok.bind (hs2 _ lpf mu (tables_ok y hmu hlpf) (generatePrimes_table y)) (fun s2 hs2 => ?_)
  obtain ⟨E, hE, hs2⟩ := hs2
  rw [P2.primeSumTiny_ok (by omega)]
  simp only [ok_bind]
  refine Ok.pure ⟨E, hE, ?_⟩
  exact combine' (by omega) h1 (by nlinarith) h3 (by omega) (rep_of_val hs1) hs2 (rep_of_val hp2) rfl (by omega)

theorem piLmo_small (e : Pi.Env) (tiny : Vec PhiTiny.Tab) (threads : ℤ)
    (s2 : ℕ → ℕ → ℕ → Vec ℕ → Vec ℕ → Vec ℤ → M I256) {x : ℤ} (hx : x < 2) :
    piLmo e tiny threads s2 x = .ok (I256.ofInt 0) := by
  unfold piLmo
  rw [if_pos hx]
  rfl

/-- The final conversion to `int64_t`. -/
theorem toI64_ok {r : M I256} {s : ℕ} (h : Ok r (fun r => ∃ E : ℤ, (2 ^ 64 : ℤ) ∣ E ∧ Rep r (s + E))) (hs : s < 2 ^ 63) :
    Ok (toI64 r) (fun v => v = s) := by
  unfold toI64
  refine Ok.bind h (fun r hr => ?_)
  obtain ⟨E, ⟨k, hk⟩, hr⟩ := hr
  have hmod : r.val % 2 ^ 64 = s := by
    change r.val = I256.wrap (s + E) at hr
    rw [hr, hk]
    unfold I256.wrap
    rw [Int.bmod_def]
    split <;> omega
  rw [I256.C37_toSigned r 64 (by norm_num) (by norm_num) (by rintro ⟨_, _, h3⟩; norm_num at h3; omega)]
  simp only [ok_bind]
  refine Ok.pure ?_
  rw [BitVec.toInt_ofInt, Int.bmod_def]
  norm_num
  split <;> omega

theorem toI64_small : toI64 (.ok (I256.ofInt 0)) = .ok 0 := by decide

theorem rep_w64 {r : W64} {z : ℤ} (h : AccSpec.w64.Rep r z) : ∃ E : ℤ, (2 ^ 64 : ℤ) ∣ E ∧ Rep (R := I256) (Res.toI256 r) (z + E) := by
  change (r.toInt - z) % 2 ^ 64 = 0 at h
  refine ⟨r.toInt - z, Int.dvd_of_emod_eq_zero h, ?_⟩
  rw [show z + (r.toInt - z) = r.toInt by ring]
  have h1 := BitVec.toInt_lt (x := r)
  have h2 := BitVec.le_toInt r
  exact rep_ofInt (R := I256) _ (by norm_num at h1 h2 ⊢; omega) (by norm_num at h1 h2 ⊢; omega)

theorem rep_w128 {r : W128} {z : ℤ} (h : AccSpec.w128.Rep r z) : ∃ E : ℤ, (2 ^ 64 : ℤ) ∣ E ∧ Rep (R := I256) (Res.toI256 r) (z + E) := by
  change (r.toInt - z) % 2 ^ 128 = 0 at h
  refine ⟨r.toInt - z, Int.dvd_of_emod_eq_zero (by omega), ?_⟩
  rw [show z + (r.toInt - z) = r.toInt by ring]
  have h1 := BitVec.toInt_lt (x := r)
  have h2 := BitVec.le_toInt r
  exact rep_ofInt (R := I256) _ (by norm_num at h1 h2 ⊢; omega) (by norm_num at h1 h2 ⊢; omega)

theorem w64_hyp (g : Cfg) (L0 limit : ℕ) : AccHyp AccSpec.w64 g L0 limit :=
  ⟨fun _ _ => trivial, fun _ _ _ => trivial, Or.inl (fun _ => trivial)⟩

theorem w128_hyp (g : Cfg) (L0 limit : ℕ) : AccHyp AccSpec.w128 g L0 limit :=
  ⟨fun _ _ => trivial, fun _ _ _ => trivial, Or.inl (fun _ => trivial)⟩

/-- No sum over special leaves exceeds 64 bits if `x < 2^29`. -/
theorem checked64_hyp {x y c S : ℕ} (hy : 1 ≤ y) (hyx : y * y ≤ x) (hx : x < 2 ^ 29) :
    AccHyp (AccSpec.checked 64) (cfg x y c S) 1 (x / y + 1) := by
  have hz : x / y ≤ x := Nat.div_le_self _ _
  refine ⟨fun z h => ?_, fun z h1 h2 => ?_, Or.inr ⟨rfl, fun D hD => ?_⟩⟩
  · show |z| < 2 ^ 63
    have : ((y * y : ℕ) : ℤ) ≤ x := by exact_mod_cast hyx
    push_cast at this
    change |z| ≤ (y : ℤ) * y at h
    omega
  · show |z| < 2 ^ 63
    rw [abs_of_nonneg h1]
    have : (x / y + 1) * (x / y + 1) ≤ 2 ^ 29 * 2 ^ 29 := Nat.mul_le_mul (by omega) (by omega)
    have h3 : (((x / y + 1) * (x / y + 1) : ℕ) : ℤ) ≤ ((2 ^ 29 * 2 ^ 29 : ℕ) : ℤ) := by exact_mod_cast this
    push_cast at h3 h2
    omega
  · show |_| < 2 ^ 63
    have hN : ∀ bm ∈ D, bm.2 * prm bm.1 ≤ x := by
      rintro ⟨b, m⟩ hbm
      have h1 := Cfg.leaf_gt (g := cfg x y c S) (hD hbm)
      have h2 : prm b < m := h1.1
      have h3 : m ≤ y := h1.2.1
      exact le_trans (Nat.mul_le_mul h3 (show prm b ≤ y by omega)) hyx
    have h := abs_leaf_sum_crude (x := x) hD hN
    have h3 : Nat.log 2 x < 29 := Nat.log_lt_of_lt_pow (by nlinarith) hx
    have h4 : x * (x * (Nat.log 2 x + 1) + x) ≤ 2 ^ 29 * (2 ^ 29 * 29 + 2 ^ 29) := by gcongr; omega
    have h5 : ((x * (x * (Nat.log 2 x + 1) + x) : ℕ) : ℤ) ≤ ((2 ^ 29 * (2 ^ 29 * 29 + 2 ^ 29) : ℕ) : ℤ) := by
      exact_mod_cast h4
    have h6 : ((2 ^ 29 * (2 ^ 29 * 29 + 2 ^ 29) : ℕ) : ℤ) < 2 ^ 64 := by norm_num
    change |∑ bm ∈ D, leafTerm x bm| < 2 ^ 63
    omega

/-- No sum over special leaves exceeds 128 bits if `x < 2^48`. -/
theorem checked128_hyp {x y c S : ℕ} (hyx : y * y ≤ x) (hc : 6 ≤ c ∨ π y ≤ c) (hx : x < 2 ^ 48) :
    AccHyp (AccSpec.checked 128) (cfg x y c S) 1 (x / y + 1) := by
  have hz : x / y ≤ x := Nat.div_le_self _ _
  refine ⟨fun z h => ?_, fun z h1 h2 => ?_, Or.inr ⟨rfl, fun D hD => ?_⟩⟩
  · show |z| < 2 ^ 127
    have : ((y * y : ℕ) : ℤ) ≤ x := by exact_mod_cast hyx
    push_cast at this
    change |z| ≤ (y : ℤ) * y at h
    omega
  · show |z| < 2 ^ 127
    rw [abs_of_nonneg h1]
    have : (x / y + 1) * (x / y + 1) ≤ 2 ^ 48 * 2 ^ 48 := Nat.mul_le_mul (by omega) (by omega)
    have h3 : (((x / y + 1) * (x / y + 1) : ℕ) : ℤ) ≤ ((2 ^ 48 * 2 ^ 48 : ℕ) : ℤ) := by exact_mod_cast this
    push_cast at h3 h2
    omega
  · show |_| < 2 ^ 127
    refine abs_leaf_sum_fits (c := c) hD hc (show x < 2 ^ 63 by omega) ?_
    rintro ⟨b, m⟩ hbm
    have h1 := Cfg.leaf_gt (g := cfg x y c S) (hD hbm)
    have h2 : prm b < m := h1.1
    have h3 : m ≤ y := h1.2.1
    exact le_trans (le_trans (Nat.mul_le_mul h3 (show prm b ≤ y by omega)) hyx) hx.le

end Lmo

/-- The sum of the primes `≤ 2^38` exceeds `2^63`. -/
theorem lt_of_primeSum_lt {x : ℕ} (h : primeSum x < 2 ^ 63) : x < 2 ^ 38 := by
  by_contra hc
  push Not at hc
  have h1 : primeSum (2 ^ 38) ≤ primeSum x := primeSum_mono hc
  have h2 : π (2 ^ 38) * (π (2 ^ 38) + 1) ≤ 2 * primeSum (2 ^ 38) := by
    rw [primeSum_eq_sum_prm]
    generalize π (2 ^ 38) = n
    induction n with
    | zero => simp
    | succ n ih =>
      rw [Finset.sum_Icc_succ_top (by omega), mul_add]
      have : n + 2 ≤ prm (n + 1) := Nat.add_two_le_nth_prime n
      nlinarith
  have h3 := Chebyshev.pi_ge (2 ^ 38)
  generalize π (2 ^ 38) = n at h2 h3
  have h4 : (7200000000 : ℝ) ≤ n := by
    refine le_trans ?_ h3
    have hl : Real.log ((2 ^ 38 : ℕ) : ℝ) = 38 * Real.log 2 := by
      rw [Nat.cast_pow, Nat.cast_ofNat, Real.log_pow]; norm_num
    have e : ((2 ^ 38 : ℕ) : ℝ) = 274877906944 := by norm_num
    have hl2 : Real.log ((274877906944 : ℝ) + 1) ≤ 39 * Real.log 2 := by
      have : (39 : ℝ) * Real.log 2 = Real.log (2 ^ 39) := by rw [Real.log_pow]; norm_num
      rw [this]
      exact Real.log_le_log (by positivity) (by norm_num)
    have hpos : 0 < Real.log 2 := Real.log_pos (by norm_num)
    rw [hl, le_div_iff₀ (by positivity), e]
    linarith
  have h5 : 7200000000 ≤ n := by exact_mod_cast h4
  have h6 : 7200000000 * 7200000000 ≤ n * (n + 1) := Nat.mul_le_mul h5 (by omega)
  omega

end PS
