import Verif.Proof.Leaves

/-!
# Splitting the contribution of a set of special leaves into intervals

Common to S2_hard and all versions of the Lagarias-Miller-Odlyzko algorithm: the leaves are processed in
the order of `x / (m p_b)`, interval by interval, and for every `b` the sum of the numbers `n` without
prime factor among the first `b - 1` primes is carried from one interval to the next.
-/

namespace PS
open Finset
open scoped Classical
local notation "π" => Nat.primeCounting

/-- Parameters: the leaves `(b, m)` considered are the special leaves with `b ≤ S` or `m p_b ≤ K`. -/
structure Cfg where
  x : ℕ
  y : ℕ
  c : ℕ
  S : ℕ
  K : ℕ

namespace Cfg
variable (g : Cfg)

/-- Side conditions. -/
structure Good : Prop where
  y1 : 1 ≤ g.y
  yx : g.y * g.y ≤ g.x
  S1 : π (Nat.sqrt g.y) ≤ g.S + 1

noncomputable def H : Finset (ℕ × ℕ) :=
  (specialLeaves g.y g.c).filter (fun bm => bm.1 ≤ g.S ∨ bm.2 * prm bm.1 ≤ g.K)

noncomputable def xn (b m : ℕ) : ℕ := g.x / (m * prm b)

/-- The leaves `m` of `b` with `lo ≤ x / (m p_b) < hi`. -/
noncomputable def Lv (b lo hi : ℕ) : Finset ℕ :=
  (Icc 1 g.y).filter (fun m => (b, m) ∈ g.H ∧ lo ≤ g.xn b m ∧ g.xn b m < hi)

noncomputable def coef (b m : ℕ) : ℤ := -(mu m) * (m * prm b)

/-- The sum of the `n` in `[lo, hi)` without prime factor among the first `b - 1` primes. -/
noncomputable def Rs (b lo hi : ℕ) : ℤ := ∑ n ∈ (Ico lo hi).filter (Rough (b - 1)), (n : ℤ)

/-- The absolute value of the coefficient of a leaf, for bounds of the intermediate results. -/
noncomputable def acoef (b m : ℕ) : ℤ := |coef b m|

/-- The contribution of the leaves of `b` with coefficients `k`. -/
noncomputable def A (k : ℕ → ℕ → ℤ) (L0 b lo hi : ℕ) : ℤ := ∑ m ∈ g.Lv b lo hi, k b m * Rs b L0 (g.xn b m + 1)

noncomputable def Mu (k : ℕ → ℕ → ℤ) (b lo hi : ℕ) : ℤ := ∑ m ∈ g.Lv b lo hi, k b m

/-- There may be a leaf of `b` with `x / (m p_b) ≥ low`: the condition tested by the program. -/
def Live (low b : ℕ) : Prop :=
  g.c < b ∧ b ≤ π g.y ∧
    if b ≤ g.S then prm b < min (g.x / prm b / low) g.y
    else ∃ q, q.Prime ∧ prm b < q ∧ q ≤ min (g.x / prm b / low) g.y ∧ q * prm b ≤ g.K

variable {g} {k : ℕ → ℕ → ℤ}

theorem Live.anti {low low' b : ℕ} (h1 : 1 ≤ low) (hl : low ≤ low') (h : g.Live low' b) : g.Live low b := by
  obtain ⟨h2, h3, h4⟩ := h
  refine ⟨h2, h3, ?_⟩
  have := Nat.div_le_div_left (a := g.x / prm b) hl h1
  split at h4
  · rename_i hS; rw [if_pos hS]; omega
  · rename_i hS; rw [if_neg hS]
    obtain ⟨q, h5, h6, h7, h8⟩ := h4
    exact ⟨q, h5, h6, by omega, h8⟩

theorem Live.down {low b b' : ℕ} (hc : g.c < b') (hb : b' ≤ b) (h : g.Live low b) : g.Live low b' := by
  obtain ⟨h2, h3, h4⟩ := h
  refine ⟨hc, by omega, ?_⟩
  have hp : prm b' ≤ prm b := prm_le_prm (i := b') (j := b) (by omega)
  have := Nat.div_le_div_right (c := low) (Nat.div_le_div_left (a := g.x) hp (prm_pos b'))
  split at h4
  · rename_i hS; rw [if_pos (by omega)]; omega
  · rename_i hS
    obtain ⟨q, h5, h6, h7, h8⟩ := h4
    split
    · omega
    · exact ⟨q, h5, by omega, by omega, (Nat.mul_le_mul_left q hp).trans h8⟩

theorem Live.lt_y {low b : ℕ} (h : g.Live low b) : prm b < g.y := by
  obtain ⟨_, _, h4⟩ := h
  split at h4
  · omega
  · obtain ⟨q, h5, h6, h7, h8⟩ := h4; omega

theorem Live.sq_le {low b : ℕ} (h : g.Live low b) : prm b * prm b ≤ g.x / low := by
  have h2 : prm b ≤ g.x / prm b / low := by
    obtain ⟨_, _, h4⟩ := h
    split at h4
    · omega
    · obtain ⟨q, h5, h6, h7, h8⟩ := h4; omega
  rw [Nat.div_div_eq_div_mul, Nat.mul_comm, ← Nat.div_div_eq_div_mul] at h2
  exact (Nat.le_div_iff_mul_le (prm_pos b)).1 h2

/-- A special leaf has `m > p_b`; with `b > S` it is a prime. -/
theorem leaf_gt {b m : ℕ} (h : (b, m) ∈ specialLeaves g.y g.c) : prm b < m ∧ m ≤ g.y ∧ g.c < b ∧ b ≤ π g.y := by
  unfold specialLeaves at h
  simp only [Finset.mem_filter, Finset.mem_product, Finset.mem_Icc] at h
  obtain ⟨⟨⟨h1, h2⟩, h3, h4⟩, h5, h6, h7⟩ := h
  have hb : prm b ≤ g.y := (prm_le_iff_le_pi (by omega)).2 h2
  have hm1 : m ≠ 1 := by rintro rfl; omega
  refine ⟨?_, h4, by omega, h2⟩
  have hq := Nat.minFac_prime hm1
  have hd := Nat.minFac_le (n := m) (by omega)
  by_contra hc
  have hqi : π m.minFac ≤ b := by
    have := pi_mono (show m.minFac ≤ prm b by omega)
    rwa [pi_prm (by omega)] at this
  have := h7 (π m.minFac) (pi_pos hq.two_le) hqi
  rw [prm_pi hq] at this
  exact this (Nat.minFac_dvd m)

theorem leaf_prime' (hg : g.Good) {b m : ℕ} (h : (b, m) ∈ specialLeaves g.y g.c) (hS : g.S < b) : m.Prime := by
  obtain ⟨h1, h2, h3, h4⟩ := leaf_gt h
  unfold specialLeaves at h
  simp only [Finset.mem_filter, Finset.mem_product, Finset.mem_Icc] at h
  obtain ⟨_, _, _, h7⟩ := h
  have hgt : Nat.sqrt g.y < prm (b + 1) := by
    rw [lt_prm_iff_pi_lt (by omega)]
    have := hg.S1; omega
  have hm1 : m ≠ 1 := by have := prm_pos b; omega
  by_contra hc
  have hsq := Nat.minFac_sq_le_self (n := m) (by omega) hc
  have hq := Nat.minFac_prime hm1
  have hge : prm (b + 1) ≤ m.minFac := by
    by_contra hlt
    push Not at hlt
    have hqi : π m.minFac < b + 1 := (lt_prm_iff_pi_lt (by omega)).1 hlt
    have := h7 (π m.minFac) (pi_pos hq.two_le) (by omega)
    rw [prm_pi hq] at this
    exact this (Nat.minFac_dvd m)
  have h8 : Nat.sqrt g.y < m.minFac := by omega
  rw [Nat.sqrt_lt'] at h8
  omega

theorem mem_H {b m : ℕ} : (b, m) ∈ g.H ↔ (b, m) ∈ specialLeaves g.y g.c ∧ (b ≤ g.S ∨ m * prm b ≤ g.K) := by
  simp [H]

theorem mem_Lv {b lo hi m : ℕ} : m ∈ g.Lv b lo hi ↔ (b, m) ∈ g.H ∧ lo ≤ g.xn b m ∧ g.xn b m < hi := by
  simp only [Lv, Finset.mem_filter, Finset.mem_Icc, and_iff_right_iff_imp]
  intro h
  have := leaf_gt (mem_H.1 h.1).1
  have := prm_pos b
  omega

theorem le_xn_iff {b m low : ℕ} (hm : 1 ≤ m) (hl : 1 ≤ low) : low ≤ g.xn b m ↔ m ≤ g.x / prm b / low := by
  unfold xn
  have hp := prm_pos b
  rw [Nat.le_div_iff_mul_le (Nat.mul_pos hm hp), Nat.le_div_iff_mul_le hl, Nat.le_div_iff_mul_le hp]
  rw [show low * (m * prm b) = m * low * prm b by ring]

theorem xn_lt_iff {b m high : ℕ} (hm : 1 ≤ m) (hl : 1 ≤ high) : g.xn b m < high ↔ g.x / prm b / high < m := by
  rw [← not_le, le_xn_iff hm hl, not_le]

theorem xn_eq {b m : ℕ} : g.x / prm b / m = g.xn b m := by
  unfold xn; rw [Nat.div_div_eq_div_mul, Nat.mul_comm]

theorem xn_anti {b m m' : ℕ} (h1 : 1 ≤ m) (h : m ≤ m') : g.xn b m' ≤ g.xn b m :=
  Nat.div_le_div_left (Nat.mul_le_mul_right _ h) (Nat.mul_pos h1 (prm_pos b))

theorem live_of_mem (hg : g.Good) {b lo hi m : ℕ} (hl : 1 ≤ lo) (h : m ∈ g.Lv b lo hi) : g.Live lo b := by
  obtain ⟨h1, h2, h3⟩ := mem_Lv.1 h
  obtain ⟨h4, h5⟩ := mem_H.1 h1
  obtain ⟨h6, h7, h8, h9⟩ := leaf_gt h4
  have := prm_pos b
  rw [le_xn_iff (by omega) hl] at h2
  refine ⟨h8, h9, ?_⟩
  split
  · omega
  · rename_i hS
    exact ⟨m, leaf_prime' hg h4 (by omega), h6, by omega, by omega⟩

theorem Lv_eq_empty (hg : g.Good) {b lo hi : ℕ} (hl : 1 ≤ lo) (h : ¬ g.Live lo b) : g.Lv b lo hi = ∅ := by
  by_contra hc
  obtain ⟨m, hm⟩ := Finset.nonempty_iff_ne_empty.2 hc
  exact h (live_of_mem hg hl hm)

theorem sum_Lv_add {b lo mid hi : ℕ} (h1 : lo ≤ mid) (h2 : mid ≤ hi) (f : ℕ → ℤ) :
    ∑ m ∈ g.Lv b lo mid, f m + ∑ m ∈ g.Lv b mid hi, f m = ∑ m ∈ g.Lv b lo hi, f m := by
  rw [← Finset.sum_union]
  · apply Finset.sum_congr _ (fun _ _ => rfl)
    ext m
    simp only [Finset.mem_union, mem_Lv]
    by_cases hm : (b, m) ∈ g.H <;> simp only [hm, true_and, false_and, or_false] <;> omega
  · rw [Finset.disjoint_left]
    intro m h3 h4
    have := mem_Lv.1 h3
    have := mem_Lv.1 h4
    omega

theorem Lv_self {b lo : ℕ} : g.Lv b lo lo = ∅ := by
  rw [Finset.eq_empty_iff_forall_notMem]
  intro m hm
  have := mem_Lv.1 hm
  omega

theorem A_add {L0 b lo mid hi : ℕ} (h1 : lo ≤ mid) (h2 : mid ≤ hi) :
    g.A k L0 b lo mid + g.A k L0 b mid hi = g.A k L0 b lo hi := sum_Lv_add h1 h2 _

theorem Mu_add {b lo mid hi : ℕ} (h1 : lo ≤ mid) (h2 : mid ≤ hi) :
    g.Mu k b lo mid + g.Mu k b mid hi = g.Mu k b lo hi := sum_Lv_add h1 h2 _

@[simp] theorem A_self {L0 b lo : ℕ} : g.A k L0 b lo lo = 0 := by simp [A, Lv_self]
@[simp] theorem Mu_self {b lo : ℕ} : g.Mu k b lo lo = 0 := by simp [Mu, Lv_self]

theorem A_dead (hg : g.Good) {L0 b lo hi : ℕ} (hl : 1 ≤ lo) (h : ¬ g.Live lo b) : g.A k L0 b lo hi = 0 := by
  simp [A, Lv_eq_empty hg hl h]

theorem Mu_dead (hg : g.Good) {b lo hi : ℕ} (hl : 1 ≤ lo) (h : ¬ g.Live lo b) : g.Mu k b lo hi = 0 := by
  simp [Mu, Lv_eq_empty hg hl h]

theorem Rs_add {b lo mid hi : ℕ} (h1 : lo ≤ mid) (h2 : mid ≤ hi) : Rs b lo mid + Rs b mid hi = Rs b lo hi := by
  unfold Rs
  rw [Finset.sum_filter, Finset.sum_filter, Finset.sum_filter]
  exact Finset.sum_Ico_consecutive _ h1 h2

@[simp] theorem Rs_self {b lo : ℕ} : Rs b lo lo = 0 := by simp [Rs]

/-- All numbers of an interval. -/
noncomputable def Tot (lo hi : ℕ) : ℤ := ∑ n ∈ Ico lo hi, (n : ℤ)

theorem Rs_nonneg {b lo hi : ℕ} : 0 ≤ Rs b lo hi := Finset.sum_nonneg (fun _ _ => by positivity)

theorem Rs_le_Tot {b lo hi : ℕ} : Rs b lo hi ≤ Tot lo hi :=
  Finset.sum_le_sum_of_subset_of_nonneg (Finset.filter_subset _ _) (fun _ _ _ => by positivity)

theorem Tot_nonneg {lo hi : ℕ} : 0 ≤ Tot lo hi := Finset.sum_nonneg (fun _ _ => by positivity)

theorem Tot_add {lo mid hi : ℕ} (h1 : lo ≤ mid) (h2 : mid ≤ hi) : Tot lo mid + Tot mid hi = Tot lo hi :=
  Finset.sum_Ico_consecutive _ h1 h2

theorem Tot_mono {lo mid hi : ℕ} (h2 : mid ≤ hi) : Tot lo mid ≤ Tot lo hi :=
  Finset.sum_le_sum_of_subset_of_nonneg (Finset.Ico_subset_Ico_right h2) (fun _ _ _ => by positivity)

theorem Tot_lt {lo hi : ℕ} : Tot lo hi ≤ (hi : ℤ) * hi := by
  unfold Tot
  have h : ∀ n ∈ Ico lo hi, (n : ℤ) ≤ hi := by
    intro n hn
    rw [Finset.mem_Ico] at hn
    exact_mod_cast hn.2.le
  refine (Finset.sum_le_card_nsmul _ _ _ h).trans ?_
  rw [Nat.card_Ico, nsmul_eq_mul]
  gcongr
  omega

/-- Moving the start of the interval. -/
theorem A_shift {L0 L1 b lo hi : ℕ} (h1 : L0 ≤ L1) (h2 : L1 ≤ lo) :
    g.A k L0 b lo hi = g.A k L1 b lo hi + g.Mu k b lo hi * Rs b L0 L1 := by
  unfold A Mu
  rw [Finset.sum_mul, ← Finset.sum_add_distrib]
  apply Finset.sum_congr rfl
  intro m hm
  have := mem_Lv.1 hm
  rw [← Rs_add (b := b) h1 (show L1 ≤ g.xn b m + 1 by omega)]
  ring

theorem Rs_one {b n : ℕ} : Rs b 1 (n + 1) = phiSum n (b - 1) := by
  unfold Rs phiSum
  push_cast
  rfl

/-- The contributions of all intervals. -/
theorem total' (hg : g.Good) {limit : ℕ} (hl : g.x / g.y < limit) :
    ∑ b ∈ Ioc g.c (π g.y), g.A k 1 b 1 limit =
      ∑ bm ∈ g.H, k bm.1 bm.2 * (phiSum (g.x / (bm.2 * prm bm.1)) (bm.1 - 1) : ℕ) := by
  unfold A
  rw [Finset.sum_sigma']
  refine Finset.sum_bij' (fun bm _ => (bm.1, bm.2)) (fun bm _ => ⟨bm.1, bm.2⟩) ?_ ?_ ?_ ?_ ?_
  · rintro ⟨b, m⟩ h
    rw [Finset.mem_sigma] at h
    exact (mem_Lv.1 h.2).1
  · rintro ⟨b, m⟩ h
    have h1 := (mem_H.1 h).1
    obtain ⟨h6, h7, h8, h9⟩ := leaf_gt h1
    rw [Finset.mem_sigma, Finset.mem_Ioc]
    refine ⟨⟨h8, h9⟩, mem_Lv.2 ⟨h, ?_, ?_⟩⟩
    · unfold xn
      have hp := prm_pos b
      rw [Nat.le_div_iff_mul_le (Nat.mul_pos (by dsimp only; omega) hp), one_mul]
      refine le_trans (Nat.mul_le_mul h7 ?_) hg.yx
      omega
    · unfold specialLeaves at h1
      simp only [Finset.mem_filter] at h1
      refine lt_of_le_of_lt ?_ hl
      exact Nat.div_le_div_left h1.2.1.le hg.y1
  · rintro ⟨b, m⟩ h; rfl
  · rintro ⟨b, m⟩ h; rfl
  · rintro ⟨b, m⟩ h
    dsimp only
    rw [Rs_one]
    rfl

theorem total (hg : g.Good) {limit : ℕ} (hl : g.x / g.y < limit) :
    ∑ b ∈ Ioc g.c (π g.y), g.A coef 1 b 1 limit = ∑ bm ∈ g.H, leafTerm g.x bm := by
  rw [total' hg hl]
  rfl

theorem total_abs (hg : g.Good) {limit : ℕ} (hl : g.x / g.y < limit) :
    ∑ b ∈ Ioc g.c (π g.y), g.A acoef 1 b 1 limit = ∑ bm ∈ g.H, |leafTerm g.x bm| := by
  rw [total' hg hl]
  refine Finset.sum_congr rfl (fun bm _ => ?_)
  unfold acoef
  rw [← Nat.abs_cast (phiSum _ _), ← abs_mul]
  rfl

/-! ### The state while the intervals are processed -/

/-- `h b` is the end of the interval already processed for `b`; `N` is the size of the vectors. -/
structure SegInv (k : ℕ → ℕ → ℤ) (g : Cfg) (L0 : ℕ) (h : ℕ → ℕ) (N : ℕ) (s2 : ℤ) (muS phi : ℕ → ℤ) : Prop where
  s2E : s2 = ∑ b ∈ Ioc g.c (π g.y), g.A k L0 b L0 (h b)
  muE : ∀ b, b < N → muS b = g.Mu k b L0 (h b)
  phiE : ∀ b, b < N → g.Live (h b) b → phi b = Rs b L0 (h b)
  nonneg : ∀ b, b < N → 0 ≤ phi b
  le : ∀ b, b < N → phi b ≤ Tot L0 (h b)

theorem SegInv.step {L0 low high N b : ℕ} {h : ℕ → ℕ} {s2 : ℤ} {muS phi muS' phi' : ℕ → ℤ} (hi : SegInv k g L0 h N s2 muS phi)
    (hb : h b = low) (hbN : b < N) (h0 : L0 ≤ low) (hl : low ≤ high) (hlive : g.Live low b)
    (hmu : ∀ j, j < N → muS' j = if j = b then muS b + g.Mu k b low high else muS j)
    (hphi : ∀ j, j < N → phi' j = if j = b then phi b + Rs b low high else phi j) :
    SegInv k g L0 (Function.update h b high) N
      (s2 + ∑ m ∈ g.Lv b low high, k b m * (phi b + Rs b low (g.xn b m + 1))) muS' phi' := by
  have hphib : phi b = Rs b L0 low := by
    have := hi.phiE b hbN (by rw [hb]; exact hlive)
    rwa [hb] at this
  constructor
  · rw [hi.s2E]
    have hmem : b ∈ Ioc g.c (π g.y) := Finset.mem_Ioc.2 ⟨hlive.1, hlive.2.1⟩
    rw [← Finset.add_sum_erase _ _ hmem, ← Finset.add_sum_erase (Ioc g.c (π g.y)) _ hmem]
    have : ∑ j ∈ (Ioc g.c (π g.y)).erase b, g.A k L0 j L0 (Function.update h b high j) =
        ∑ j ∈ (Ioc g.c (π g.y)).erase b, g.A k L0 j L0 (h j) := by
      apply Finset.sum_congr rfl
      intro j hj
      rw [Function.update_of_ne (Finset.ne_of_mem_erase hj)]
    rw [this, Function.update_self, hb, ← A_add h0 hl]
    have : g.A k L0 b low high = ∑ m ∈ g.Lv b low high, k b m * (phi b + Rs b low (g.xn b m + 1)) := by
      unfold A
      apply Finset.sum_congr rfl
      intro m hm
      have := mem_Lv.1 hm
      rw [hphib, Rs_add h0 (by omega)]
    rw [this]; ring
  · intro j hN
    rw [hmu j hN]
    by_cases h1 : j = b
    · subst h1
      rw [if_pos rfl, Function.update_self, hi.muE j hN, hb, Mu_add h0 hl]
    · rw [if_neg h1, Function.update_of_ne h1, hi.muE j hN]
  · intro j hN hj
    rw [hphi j hN]
    by_cases h1 : j = b
    · subst h1
      rw [if_pos rfl, Function.update_self, hphib, Rs_add h0 hl]
    · rw [Function.update_of_ne h1] at hj ⊢
      rw [if_neg h1, hi.phiE j hN hj]
  · intro j hN
    rw [hphi j hN]
    have h2 := hi.nonneg j hN
    have := Rs_nonneg (b := b) (lo := low) (hi := high)
    split
    · rename_i h3; subst h3; omega
    · exact h2
  · intro j hN
    rw [hphi j hN]
    have h2 := hi.le j hN
    by_cases h1 : j = b
    · subst h1
      rw [if_pos rfl, Function.update_self, ← Tot_add h0 hl]
      rw [hb] at h2
      have := Rs_le_Tot (b := j) (lo := low) (hi := high)
      omega
    · rw [if_neg h1, Function.update_of_ne h1]; exact h2

theorem SegInv.skip (hg : g.Good) {L0 low high N b : ℕ} {h : ℕ → ℕ} {s2 : ℤ} {muS phi : ℕ → ℤ}
    (hi : SegInv k g L0 h N s2 muS phi)
    (h1 : ∀ j, j < b → h j = high) (h2 : ∀ j, b ≤ j → h j = low) (h01 : 1 ≤ L0) (h0 : L0 ≤ low) (hl : low ≤ high)
    (hdead : ∀ j, b ≤ j → j < N → ¬ g.Live low j) (hN : ∀ j, N ≤ j → ¬ g.Live low j) :
    SegInv k g L0 (fun _ => high) N s2 muS phi := by
  have hdead : ∀ j, b ≤ j → ¬ g.Live low j := by
    intro j h1
    by_cases h : j < N
    · exact hdead j h1 h
    · exact hN j (by omega)
  constructor
  · rw [hi.s2E]
    apply Finset.sum_congr rfl
    intro j _
    by_cases hj : j < b
    · rw [h1 j hj]
    · rw [h2 j (by omega), ← A_add h0 hl, A_dead hg (by omega) (hdead j (by omega)), add_zero]
  · intro j hN
    rw [hi.muE j hN]
    by_cases hj : j < b
    · rw [h1 j hj]
    · rw [h2 j (by omega), ← Mu_add h0 hl, Mu_dead hg (by omega) (hdead j (by omega)), add_zero]
  · intro j hN hj
    by_cases hjb : j < b
    · rw [hi.phiE j hN (by rw [h1 j hjb]; exact hj), h1 j hjb]
    · exact absurd (hj.anti (by omega) hl) (hdead j (by omega))
  · exact hi.nonneg
  · intro j hN
    refine (hi.le j hN).trans ?_
    by_cases hj : j < b
    · rw [h1 j hj]
    · rw [h2 j (by omega)]; exact Tot_mono hl

/-- The same state for other coefficients. -/
theorem SegInv.change (k' : ℕ → ℕ → ℤ) {L0 N : ℕ} {h : ℕ → ℕ} {s2 : ℤ} {muS phi : ℕ → ℤ} (hi : SegInv k g L0 h N s2 muS phi) :
    SegInv k' g L0 h N (∑ b ∈ Ioc g.c (π g.y), g.A k' L0 b L0 (h b)) (fun b => g.Mu k' b L0 (h b)) phi :=
  ⟨rfl, fun _ _ => rfl, hi.phiE, hi.nonneg, hi.le⟩

theorem SegInv.init {L0 N : ℕ} {muS phi : ℕ → ℤ} (hmu : ∀ j, j < N → muS j = 0) (hphi : ∀ j, j < N → phi j = 0) :
    SegInv k g L0 (fun _ => L0) N 0 muS phi := by
  constructor
  · simp
  · intro j hj; rw [hmu j hj]; simp
  · intro j hj _; rw [hphi j hj]; simp
  · intro j hj; rw [hphi j hj]
  · intro j hj; rw [hphi j hj]; exact Tot_nonneg

end Cfg
end PS
