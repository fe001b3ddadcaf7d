import Verif.Proof.S2Hard
import Verif.Proof.LoadBalancer
import Verif.Proof.Omp

/-!
# The loop that distributes the intervals over the threads
-/

namespace PS
open Finset Cfg
open scoped Classical
open Res
local notation "π" => Nat.primeCounting

namespace S2Hard

set_option linter.unusedSectionVars false

variable {R : Type} [Res R] [Inhabited R] {S : BRes R} {g : Cfg}

theorem TPost.s2' {L hi M : ℕ} {r : ThreadRes R} (h : TPost S g L hi M r) :
    S.Rep r.s2 (∑ b ∈ Ioc g.c (π g.y), g.A coef L b L hi) (∑ b ∈ Ioc g.c (π g.y), g.A acoef L b L hi) := by
  obtain ⟨s, a, m, ma, p, h1, h1', h2, h3⟩ := h.inv
  rw [← h1.s2E, ← h1'.s2E]; exact h2

theorem TPost.mu' {L hi M j : ℕ} {r : ThreadRes R} (h : TPost S g L hi M r) (hj : j < r.phi.size) :
    S.Rep (r.muSum.get j) (g.Mu coef j L hi) (g.Mu acoef j L hi) := by
  obtain ⟨s, a, m, ma, p, h1, h1', h2, h3⟩ := h.inv
  rw [← h1.muE j hj, ← h1'.muE j hj]; exact h3.1 j hj

/-- The sums of the thread stand for `phz`. -/
theorem TPost.phi' {L hi M : ℕ} {r : ThreadRes R} (h : TPost S g L hi M r) : ∃ phz : ℕ → ℤ, ∀ j, j < r.phi.size →
    (g.Live hi j → phz j = Rs j L hi) ∧ (0 ≤ phz j ∧ phz j ≤ Tot L hi) ∧ Near S.mod (r.phi.get j) (phz j) (Tot L hi) := by
  obtain ⟨s, a, m, ma, p, h1, h1', h2, h3⟩ := h.inv
  exact ⟨p, fun j hj => ⟨h1.phiE j hj, ⟨h1.nonneg j hj, h1.le j hj⟩, h3.2 j hj⟩⟩

/-- The factors of the products of lines 368-373 fit. -/
def MuOk (S : BRes R) (g : Cfg) : Prop :=
  ∀ b lo hi, (-2 ^ 127 ≤ g.Mu coef b lo hi ∧ g.Mu coef b lo hi < 2 ^ 127) ∧ S.Lim (g.Mu acoef b lo hi)

/-- `phi_total` when everything below `lo` is processed: its entries stand for `ptz`. -/
structure PT (m : ℤ) (g : Cfg) (M lo : ℕ) (pt : Vec ℤ) (ptz : ℕ → ℤ) : Prop where
  size : pt.size = M
  live : ∀ j, j < M → g.Live lo j → ptz j = Rs j 1 lo
  nonneg : ∀ j, j < M → 0 ≤ ptz j
  le : ∀ j, j < M → ptz j ≤ Tot 1 lo
  near : ∀ j, j < M → Near m (pt.get j) (ptz j) (Tot 1 lo)

/-- Lines 368-373. -/
theorem inner_ok {w : ℕ} (hw : 127 ≤ w) {L hi M lo : ℕ} {r : ThreadRes R} {pt : Vec ℤ} {ptz : ℕ → ℤ} {s2 : R} {z a : ℤ} (h : TPost S g L hi M r)
    (hpt : PT S.mod g M lo pt ptz) (hlo : lo < 2 ^ 62) (hhi : Tot L hi < 2 ^ 124) (hMu : MuOk S g) (hs : S.Rep s2 z a) :
    Ok (forUp 1 r.phi.size (s2, pt) (fun j ((s2, phiTotal) : R × Vec ℤ) => do
      let m ← r.muSum.rd j
      let t ← phiTotal.rd j
      let p ← r.phi.rd j
      let u ← fitI w (t + p)
      let phiTotal ← phiTotal.wr j u
      pure (add s2 (mul m (ofInt t)), phiTotal))) (fun q => 
        S.Rep q.1 (z + ∑ j ∈ Ico 1 r.phi.size, g.Mu coef j L hi * ptz j)
          (a + ∑ j ∈ Ico 1 r.phi.size, g.Mu acoef j L hi * ptz j) ∧ q.2.size = M ∧
        ∀ j, j < M → q.2.get j = pt.get j + if 1 ≤ j ∧ j < r.phi.size then r.phi.get j else 0) := by
  have hsz := h.size
  have hTot := Tot_lt_124 (lo := 1) hlo
  obtain ⟨phz, hph⟩ := h.phi'
  have hw' : (2:ℤ) ^ 127 ≤ 2 ^ w := pow_le_pow_right₀ (by norm_num) hw
  refine (forUp_ok' (fun i (q : R × Vec ℤ) => S.Rep q.1 (z + ∑ j ∈ Ico 1 i, g.Mu coef j L hi * ptz j)
          (a + ∑ j ∈ Ico 1 i, g.Mu acoef j L hi * ptz j) ∧ q.2.size = M ∧
        ∀ j, j < M → q.2.get j = pt.get j + if 1 ≤ j ∧ j < i then r.phi.get j else 0) ?_ ?_).mono ?_
  · refine ⟨by simpa using hs, hpt.size, fun j hj => ?_⟩
    rw [if_neg (by omega), add_zero]
  · rintro j ⟨s2, pt'⟩ h1 h2 ⟨h3, h4, h5⟩
    dsimp only at h3 h4 h5 ⊢
    rw [Vec.rd_ok (by rw [h.msz]; exact h2)]
    simp only [ok_bind]
    rw [Vec.rd_ok (by rw [h4]; omega)]
    simp only [ok_bind]
    rw [Vec.rd_ok h2]
    simp only [ok_bind]
    have e : pt'.get j = pt.get j := by
      rw [h5 j (by omega), if_neg (by omega), add_zero]
    have h6 := hpt.nonneg j (by omega)
    have h7 := hpt.le j (by omega)
    have hp0 := hpt.near j (by omega)
    have hp1 := hp0.2
    have hp2 := (hph j h2).2.1
    have hp3 := (hph j h2).2.2.2
    rw [fitI_ok (by omega) (by omega), ok_bind, Vec.wr_ok (by rw [h4]; omega)]
    simp only [ok_bind]
    refine Ok.pure ⟨?_, by dsimp only; rw [Vec.size_set]; exact h4, fun k hk => ?_⟩
    · dsimp only
      rw [Finset.sum_Ico_succ_top h1, Finset.sum_Ico_succ_top h1, ← add_assoc, ← add_assoc, e]
      have h8 := hMu j L hi
      have h9 := S.rep_near (pt.get j) (ptz j) (by omega) (by omega) hp0.1
      rw [abs_of_nonneg h6] at h9
      exact S.rep_add _ _ _ _ _ _ h3 (S.rep_mul _ _ _ _ _ _ (h.mu' h2) h9 h8.1.1 (by omega) (by omega) (by omega) h8.2
        (S.lim_small _ (by omega)))
    · dsimp only
      rw [Vec.get_set]
      by_cases hjk : j = k
      · subst hjk
        rw [if_pos ⟨rfl, by omega⟩, if_pos ⟨h1, by omega⟩, e]
      · rw [if_neg (by omega), h5 k hk]
        congr 1
        by_cases hk : 1 ≤ k ∧ k < j
        · rw [if_pos hk, if_pos (by omega)]
        · rw [if_neg hk, if_neg (by omega)]
  · rintro q ⟨h1, h2, h3⟩
    refine ⟨?_, h2, fun j hj => ?_⟩
    · have e : Ico 1 (max 1 r.phi.size) = Ico 1 r.phi.size := by
        by_cases h0 : 1 ≤ r.phi.size
        · rw [max_eq_right h0]
        · rw [Finset.Ico_eq_empty (a := 1) (b := r.phi.size) (by omega), max_eq_left (by omega), Finset.Ico_self]
      rw [e] at h1
      exact h1
    · rw [h3 j hj]
      congr 1
      by_cases hk : 1 ≤ j ∧ j < r.phi.size
      · rw [if_pos hk, if_pos (by omega)]
      · rw [if_neg hk, if_neg (by omega)]

/-- The contribution of the numbers below the interval of the thread. -/
theorem sum_Mu_pt (hg : g.Good) {k : ℕ → ℕ → ℤ} {L hi M : ℕ} {r : ThreadRes R} {pt : Vec ℤ} {ptz : ℕ → ℤ} (h : TPost S g L hi M r)
    (hpt : PT S.mod g M L pt ptz) (hL : 1 ≤ L) :
    ∑ b ∈ Ioc g.c (π g.y), g.A k 1 b L hi = ∑ b ∈ Ioc g.c (π g.y), g.A k L b L hi + ∑ j ∈ Ico 1 r.phi.size, g.Mu k j L hi * ptz j := by
  have hsz := h.size
  have h1 : ∑ j ∈ Ico 1 r.phi.size, g.Mu k j L hi * ptz j = ∑ b ∈ Ioc g.c (π g.y), g.Mu k b L hi * Rs b 1 L := by
    have e1 : ∑ j ∈ Ico 1 r.phi.size, g.Mu k j L hi * ptz j =
        ∑ j ∈ (Ico 1 r.phi.size).filter (g.Live L), g.Mu k j L hi * Rs j 1 L := by
      rw [Finset.sum_filter]
      apply Finset.sum_congr rfl
      intro j hj
      rw [Finset.mem_Ico] at hj
      split
      · rename_i hl
        rw [hpt.live j (by omega) hl]
      · rename_i hl
        rw [Mu_dead hg hL hl, zero_mul]
    have e2 : ∑ b ∈ Ioc g.c (π g.y), g.Mu k b L hi * Rs b 1 L = ∑ j ∈ (Ioc g.c (π g.y)).filter (g.Live L), g.Mu k j L hi * Rs j 1 L := by
      rw [Finset.sum_filter]
      apply Finset.sum_congr rfl
      intro j hj
      split
      · rfl
      · rename_i hl
        rw [Mu_dead hg hL hl, zero_mul]
    rw [e1, e2]
    apply Finset.sum_congr _ (fun _ _ => rfl)
    ext j
    simp only [Finset.mem_filter, Finset.mem_Ico, Finset.mem_Ioc]
    constructor
    · rintro ⟨-, hl⟩; exact ⟨⟨hl.1, hl.2.1⟩, hl⟩
    · rintro ⟨-, hl⟩
      refine ⟨⟨by have := hl.1; omega, ?_⟩, hl⟩
      by_contra hc
      exact h.dead j (by omega) hl
  rw [h1, ← Finset.sum_add_distrib]
  apply Finset.sum_congr rfl
  intro b _
  exact A_shift hL le_rfl

theorem PT.next {L hi M : ℕ} {r : ThreadRes R} {pt pt' : Vec ℤ} {ptz : ℕ → ℤ} (h : TPost S g L hi M r) (hpt : PT S.mod g M L pt ptz) (hL : 1 ≤ L)
    (hhi : L ≤ hi) (hsz : pt'.size = M)
    (hget : ∀ j, j < M → pt'.get j = pt.get j + if 1 ≤ j ∧ j < r.phi.size then r.phi.get j else 0) : ∃ ptz', PT S.mod g M hi pt' ptz' := by
  obtain ⟨phz, hph⟩ := h.phi'
  have h2 := Tot_add (lo := 1) (mid := L) (hi := hi) hL hhi
  have h3 := Tot_nonneg (lo := L) (hi := hi)
  refine ⟨fun j => ptz j + if 1 ≤ j ∧ j < r.phi.size then phz j else 0, hsz, fun j hj hl => ?_, fun j hj => ?_, fun j hj => ?_, fun j hj => ?_⟩
  · have hlL := hl.anti hL hhi
    have hj2 : j < r.phi.size := by
      by_contra hc
      exact h.dead j (by omega) hlL
    rw [if_pos ⟨by have := hl.1; omega, hj2⟩, hpt.live j hj hlL, (hph j hj2).1 hl, Rs_add hL hhi]
  · have h1 := hpt.nonneg j hj
    split
    · rename_i hc
      have := (hph j hc.2).2.1
      omega
    · omega
  · have h1 := hpt.le j hj
    split
    · rename_i hc
      have := (hph j hc.2).2.1
      omega
    · omega
  · rw [hget j hj, ← h2]
    refine (hpt.near j hj).add ?_
    split
    · rename_i hc
      exact (hph j hc.2).2.2
    · exact Near.refl h3

/-- A thread whose interval is empty changes nothing. -/
theorem PT.same {L M lo : ℕ} {r : ThreadRes R} {pt pt' : Vec ℤ} {ptz : ℕ → ℤ} (h : TPost S g L L M r) (hpt : PT S.mod g M lo pt ptz) (hsz : pt'.size = M)
    (hget : ∀ j, j < M → pt'.get j = pt.get j + if 1 ≤ j ∧ j < r.phi.size then r.phi.get j else 0) : PT S.mod g M lo pt' ptz := by
  obtain ⟨phz, hph⟩ := h.phi'
  have e : ∀ j, j < M → pt'.get j = pt.get j := by
    intro j hj
    rw [hget j hj]
    split
    · rename_i hc
      have h1 := (hph j hc.2).2
      have h2 := h1.2.2
      have : Tot L L = 0 := by simp [Tot]
      omega
    · omega
  exact ⟨hsz, hpt.live, hpt.nonneg, hpt.le, fun j hj => by rw [e j hj]; exact hpt.near j hj⟩

/-- The end of the interval of thread `i`. -/
def hiOf (low D limit i : ℕ) : ℕ := max (low + D * i) (min (low + D * i + D) limit)

/-- The contributions of the threads. -/
noncomputable def fT (g : Cfg) (k : ℕ → ℕ → ℤ) (low D limit i : ℕ) : ℤ :=
  ∑ b ∈ Ioc g.c (π g.y), g.A k (low + D * i) b (low + D * i) (hiOf low D limit i)

/-- The contribution of everything below. -/
noncomputable def fA (g : Cfg) (k : ℕ → ℕ → ℤ) (lo hi : ℕ) : ℤ := ∑ b ∈ Ioc g.c (π g.y), g.A k 1 b lo hi

theorem fT_next {k : ℕ → ℕ → ℤ} (hg : g.Good) {low D limit M i T : ℕ} {r : ThreadRes R} {pt : Vec ℤ} {ptz : ℕ → ℤ} (hlow1 : 1 ≤ low) {S0 : ℤ} (hi : i < T)
    (hc : low + D * i ≤ limit) (hp : TPost S g (low + D * i) (hiOf low D limit i) M r) (h2 : PT S.mod g M (low + D * i) pt ptz) :
    S0 + fA g k low (low + D * i) + ∑ i ∈ Ico i T, fT g k low D limit i +
      ∑ j ∈ Ico 1 r.phi.size, g.Mu k j (low + D * i) (min (low + D * (i + 1)) limit) * ptz j =
    S0 + fA g k low (min (low + D * (i + 1)) limit) + ∑ i ∈ Ico (i + 1) T, fT g k low D limit i := by
  have hDi : D * (i + 1) = D * i + D := by ring
  have hle : low ≤ low + D * i := by omega
  have hhi : hiOf low D limit i = min (low + D * (i + 1)) limit := by unfold hiOf; omega
  have hL : low + D * i ≤ min (low + D * (i + 1)) limit := by omega
  rw [Finset.sum_eq_sum_Ico_succ_bot hi (fT g k low D limit)]
  rw [hhi] at hp
  have e1 := sum_Mu_pt (k := k) hg hp h2 (by omega)
  have e2 : fA g k low (min (low + D * (i + 1)) limit) =
      fA g k low (low + D * i) +
      ∑ b ∈ Ioc g.c (π g.y), g.A k 1 b (low + D * i) (min (low + D * (i + 1)) limit) := by
    unfold fA
    rw [← Finset.sum_add_distrib]
    exact Finset.sum_congr rfl (fun b _ => (A_add hle hL).symm)
  have e3 : fT g k low D limit i = ∑ b ∈ Ioc g.c (π g.y), g.A k (low + D * i) b (low + D * i) (min (low + D * (i + 1)) limit) := by
    unfold fT
    rw [hhi]
  rw [e2, e1, e3]; ring

theorem fT_zero {k : ℕ → ℕ → ℤ} {low D limit i : ℕ} (hc : limit < low + D * i) : fT g k low D limit i = 0 := by
  have hhi : hiOf low D limit i = low + D * i := by unfold hiOf; omega
  simp only [fT, hhi, A_self, Finset.sum_const_zero]

/-- Lines 367-374. -/
theorem reconstruct_ok {w : ℕ} (hw : 127 ≤ w) (hg : g.Good) {low D limit T M : ℕ} {res : Vec (ThreadRes R)} {pt : Vec ℤ} {s2 : R} {S0 Sa : ℤ}
    (hMu : MuOk S g) (hlim : limit < 2 ^ 62) (hlow : low < limit) (hlow1 : 1 ≤ low)
    (hsz : res.size = T) (hres : ∀ i, i < T → TPost S g (low + D * i) (hiOf low D limit i) M (res.get i))
    (hpt : ∃ ptz, PT S.mod g M low pt ptz)
    (hs : S.Rep s2 (S0 + ∑ i ∈ Ico 0 T, fT g coef low D limit i) (Sa + ∑ i ∈ Ico 0 T, fT g acoef low D limit i)) :
    Ok (reconstruct w res T s2 pt) (fun q =>
      S.Rep q.1 (S0 + fA g coef low (min (low + D * T) limit)) (Sa + fA g acoef low (min (low + D * T) limit)) ∧
      ∃ ptz, PT S.mod g M (min (low + D * T) limit) q.2 ptz) := by
  unfold reconstruct
  have z0 : ∀ k, fA g k low low = 0 := by intro k; simp [fA]
  refine (forUp_ok (fun i (q : R × Vec ℤ) =>
      S.Rep q.1 (S0 + fA g coef low (min (low + D * i) limit) + ∑ i ∈ Ico i T, fT g coef low D limit i)
        (Sa + fA g acoef low (min (low + D * i) limit) + ∑ i ∈ Ico i T, fT g acoef low D limit i) ∧
      ∃ ptz, PT S.mod g M (min (low + D * i) limit) q.2 ptz) ⟨?_, ?_⟩ (Nat.zero_le _) ?_).mono ?_
  · rw [Nat.mul_zero, Nat.add_zero, min_eq_left hlow.le, z0, z0, add_zero, add_zero]
    exact hs
  · rw [Nat.mul_zero, Nat.add_zero, min_eq_left hlow.le]
    exact hpt
  · rintro i ⟨s2, pt⟩ - hi ⟨h1, ptz, h2⟩
    dsimp only at h1 h2 ⊢
    rw [Vec.rd_ok (by omega)]
    simp only [ok_bind]
    have hp := hres i hi
    have hTot : Tot (low + D * i) (hiOf low D limit i) < 2 ^ 124 := by
      rcases Nat.lt_or_ge limit (low + D * i) with hc | hc
      · have hhi : hiOf low D limit i = low + D * i := by unfold hiOf; omega
        rw [hhi, Tot, Finset.Ico_self]; norm_num
      · have hhi : hiOf low D limit i ≤ limit := by unfold hiOf; omega
        exact Tot_lt_124 (by omega)
    refine (inner_ok hw hp h2 (by omega) hTot hMu h1).mono ?_
    rintro ⟨s2', pt'⟩ ⟨a1, a2, a3⟩
    dsimp only at a1 a2 a3 ⊢
    have hDi : D * (i + 1) = D * i + D := by ring
    rcases Nat.lt_or_ge limit (low + D * i) with hc | hc
    · have hhi : hiOf low D limit i = low + D * i := by unfold hiOf; omega
      have hlo : min (low + D * i) limit = min (low + D * (i + 1)) limit := by omega
      rw [hlo] at a1 h2
      rw [hhi] at hp
      refine ⟨?_, ptz, h2.same hp a2 a3⟩
      rw [hhi, Finset.sum_eq_sum_Ico_succ_bot hi (fT g coef low D limit), Finset.sum_eq_sum_Ico_succ_bot hi (fT g acoef low D limit),
        fT_zero hc, fT_zero hc] at a1
      simpa using a1
    · have hhi : hiOf low D limit i = min (low + D * (i + 1)) limit := by unfold hiOf; omega
      have hlo : min (low + D * i) limit = low + D * i := by omega
      rw [hlo] at a1 h2
      have e1 := fT_next (k := coef) hg hlow1 (S0 := S0) hi hc hp h2
      have e2 := fT_next (k := acoef) hg hlow1 (S0 := Sa) hi hc hp h2
      rw [hhi] at hp a1
      rw [e1, e2] at a1
      exact ⟨a1, PT.next hp h2 (by omega) (by omega) a2 a3⟩
  · rintro ⟨s2', pt'⟩ ⟨a1, a2⟩
    refine ⟨?_, a2⟩
    simpa using a1

/-- The master loop, for every behaviour of the load balancer. -/
theorem masterLoop_ok {w : ℕ} (hw : 127 ≤ w) (hg : g.Good) {sched : Scheduler} {log : Dbl → Dbl} {times : ℕ → ℕ → Dbl} {limit Mx z threads : ℕ}
    {th : ℕ → ℕ → ℕ → ℕ → M (ThreadRes R)} {lb : LB}
    (hsch : sched.Valid) (hz : z < 2 ^ 62) (hlb : LB.Ok' z lb lb.minSize)
    (hMu : MuOk S g) (hlim : limit < 2 ^ 59 ∨ limit < 2 ^ 61 + 2 ^ 58 ∧ threads ≤ 2 ^ 26)
    (hth : ∀ ss spt i low, 0 < ss → ss % 2 = 0 → low % 2 = 1 → low + ss * spt * i + ss * spt < 2 ^ 62 → ss < 2 ^ 32 →
      Ok (th ss spt i low) (TPost S g (low + ss * spt * i) (hiOf low (ss * spt) limit i) Mx)) :
    Ok (masterLoop w sched log times limit th ⟨0, 1, threads, lb.minSize, 1, lb, ofInt 0, Vec.mk' Mx 0⟩)
      (fun r => S.Rep r (fA g coef 1 (max 1 limit)) (fA g acoef 1 (max 1 limit))) := by
  have hsq : Nat.sqrt z < 2 ^ 31 := by rw [Nat.sqrt_lt']; omega
  unfold masterLoop
  refine loop_ok (fun (ms : MasterSt R) => 1 ≤ ms.low ∧ ms.low % 2 = 1 ∧ LB.Ok' z ms.lb ms.segmentSize ∧ 1 ≤ ms.segmentsPerThread ∧
      S.Rep ms.s2 (fA g coef 1 (max 1 (min ms.low limit))) (fA g acoef 1 (max 1 (min ms.low limit))) ∧ (∃ ptz, PT S.mod g Mx (max 1 (min ms.low limit)) ms.phiTotal ptz) ∧
      ms.threads ≤ max 1 threads)
    (fun ms => limit - ms.low) _ ?_ (by dsimp only; omega) ?_
  · refine ⟨le_rfl, rfl, hlb, le_rfl, ?_, ?_, le_max_right _ _⟩
    · rw [show max 1 (min 1 limit) = 1 by omega]
      have z0 : ∀ k, fA g k 1 1 = 0 := by intro k; simp [fA]
      rw [z0, z0]
      exact S.rep_zero
    · rw [show max 1 (min 1 limit) = 1 by omega]
      refine ⟨fun _ => 0, by simp, fun j hj _ => by simp, fun j hj => le_rfl, fun j hj => Tot_nonneg, fun j hj => ?_⟩
      rw [Vec.get_mk' _ _ _ hj]; exact Near.refl Tot_nonneg
  · rintro ms ⟨h1, h2, h3, h4, h5, h6, h7⟩
    refine Ok.ite (fun hc => ?_) (fun hc => ?_)
    · obtain ⟨k, hk, hk9⟩ := h3.segP
      have hss : 0 < ms.segmentSize := by rw [hk]; positivity
      have hsse : ms.segmentSize % 2 = 0 := by
        rw [hk]
        obtain ⟨k', rfl⟩ : ∃ k', k = k' + 1 := ⟨k - 1, by omega⟩
        rw [pow_succ]; omega
      rw [show max 1 (min ms.low limit) = ms.low by omega] at h5 h6
      have hssB := h3.segB
      refine Ok.bind (shares_ok hss hc (by omega)) ?_
      rintro ⟨T, spt⟩ ⟨hT1, hspt1, hprod, hTm, hprod'⟩
      dsimp only at hT1 hspt1 hprod hTm hprod' ⊢
      have hbig : ms.low + ms.segmentSize * spt * T < 2 ^ 62 ∧ ms.low + 3 * (ms.segmentSize * spt * T) < 2 ^ 63 := by
        rcases hlim with hlim | ⟨hlim, hthr⟩
        · omega
        · have : ms.segmentSize * T ≤ 2 ^ 32 * 2 ^ 26 := Nat.mul_le_mul (by omega) (by omega)
          omega
      obtain ⟨hbig1, hbig2⟩ := hbig
      refine Ok.bind (P := fun (res : Vec (ThreadRes R)) => res.size = T ∧ ∀ i, i < T →
        TPost S g (ms.low + ms.segmentSize * spt * i) (hiOf ms.low (ms.segmentSize * spt) limit i) Mx (res.get i)) ?_ ?_
      · refine forUp_ok (fun k (res : Vec (ThreadRes R)) => res.size = k ∧ ∀ i, i < k →
          TPost S g (ms.low + ms.segmentSize * spt * i) (hiOf ms.low (ms.segmentSize * spt) limit i) Mx (res.get i))
          ⟨rfl, fun i hi => by omega⟩ (Nat.zero_le _) ?_
        rintro i res - hi ⟨a1, a2⟩
        have hover : ms.segmentSize * spt * i + ms.segmentSize * spt ≤ ms.segmentSize * spt * T := by
          rw [← Nat.mul_succ]; exact Nat.mul_le_mul_left _ hi
        refine Ok.bind (hth _ spt i ms.low hss hsse h2 (by omega) (by omega)) (fun r hr => Ok.pure ⟨by rw [Vec.size_push, a1], fun j hj => ?_⟩)
        rw [Vec.get_push]
        by_cases hji : j = i
        · rw [if_pos (by omega)]; subst hji; exact hr
        · rw [if_neg (by omega)]; exact a2 j (by omega)
      rintro res ⟨a1, a2⟩
      refine Ok.bind (ompFor_ok (fun r (za : ℤ × ℤ) => S.Rep r za.1 za.2) (fun _ => True)
        (fun i => (fT g coef ms.low (ms.segmentSize * spt) limit i, fT g acoef ms.low (ms.segmentSize * spt) limit i))
        (fun r r' x y h h' => S.rep_add _ _ _ _ _ _ h h') S.rep_zero
        (z0 := (fA g coef 1 ms.low, fA g acoef 1 ms.low)) h5 trivial (hsch _ _ _)
        (fun i _ r z _ hi _ hr => ?_)) (fun s2 hs2 => ?_)
      · rw [Vec.rd_ok (by omega)]
        simp only [ok_bind]
        exact Ok.pure ⟨trivial, S.rep_add _ _ _ _ _ _ hr (a2 i hi).s2'⟩
      dsimp only [Prod.fst_add, Prod.snd_add] at hs2
      rw [Prod.fst_sum, Prod.snd_sum] at hs2
      refine Ok.bind (reconstruct_ok hw hg hMu (by omega) hc h1 a1 a2 h6 hs2) ?_
      rintro ⟨s2', pt'⟩ ⟨b1, b2⟩
      dsimp only at b1 b2 ⊢
      rw [nextLow_ok hss (by omega), ok_bind]
      refine Ok.bind (LB.update_ok log (by omega) h3 hspt1 (range_map_ne hT1) hT1 (by omega)) ?_
      rintro ⟨lb', ss', spt'⟩ hup
      dsimp only at hup ⊢
      have hpos : 1 ≤ ms.segmentSize * spt * T := Nat.mul_pos (Nat.mul_pos hss hspt1) hT1
      refine Ok.pure ⟨⟨?_, ?_, hup.1, hup.2, ?_, ?_, ?_⟩, ?_⟩
      · show 1 ≤ ms.low + ms.segmentSize * spt * T; omega
      · show (ms.low + ms.segmentSize * spt * T) % 2 = 1
        obtain ⟨u, hu⟩ : ∃ u, ms.segmentSize = 2 * u := ⟨ms.segmentSize / 2, by omega⟩
        rw [hu, show ms.low + 2 * u * spt * T = ms.low + 2 * (spt * T * u) by ring]
        omega
      · dsimp only
        rw [show max 1 (min (ms.low + ms.segmentSize * spt * T) limit) = min (ms.low + ms.segmentSize * spt * T) limit by omega]
        have e : ∀ k, fA g k 1 (min (ms.low + ms.segmentSize * spt * T) limit) =
            fA g k 1 ms.low + fA g k ms.low (min (ms.low + ms.segmentSize * spt * T) limit) := by
          intro k
          unfold fA
          rw [← Finset.sum_add_distrib]
          refine Finset.sum_congr rfl (fun b _ => (A_add h1 ?_).symm)
          omega
        rw [e, e]
        exact b1
      · dsimp only
        rw [show max 1 (min (ms.low + ms.segmentSize * spt * T) limit) = min (ms.low + ms.segmentSize * spt * T) limit by omega]
        exact b2
      · dsimp only; omega
      · show limit - (ms.low + ms.segmentSize * spt * T) < limit - ms.low
        omega
    · rw [show max 1 (min ms.low limit) = max 1 limit by omega] at h5
      exact Ok.pure h5

end S2Hard
end PS
