import Verif.Proof.LmoSegC
import Verif.Proof.S2HardTop

/-!
# pi_lmo5 and pi_lmo_parallel1: the bit sieve
-/

namespace PS
open Finset BitSieve FactorTable Cfg
open scoped Classical
open Res
local notation "π" => Nat.primeCounting

namespace Lmo

set_option linter.unusedSectionVars false

variable {R : Type} [Res R] [Inhabited R] {S : AccSpec R} {g : Cfg}

theorem svR_of_svOk {low high b : ℕ} {s : BitSieve} (h : SvOk low high b s) (hb : 2 ≤ b) : SvR 2 low low high b s.at_ := by
  refine ⟨fun i hi _ h2 => ?_, fun i hi hr => ?_, Or.inr rfl⟩
  · obtain ⟨k, rfl⟩ : ∃ k, i = 2 * k := ⟨i / 2, by omega⟩
    refine ⟨bit s k, at_ok (by have := h.size; omega), h.bits k h2⟩
  · have h1 := hr 1 (by omega) (by omega)
    rw [prm_one] at h1
    have := h.odd
    omega

theorem crossB_ok {s : BitSieve} {low high b i : ℕ} {w : Wheel.Item} (h : SvOk low high b s) (hb : 5 ≤ b)
    (hat : Wheel.At (prm b) i w) (hf : Wheel.First (prm b) low i) (hlh : low ≤ high)
    (h63 : high + 10 * prm b < 2 ^ 63) :
    Ok (crossB s low high (prm b) w) (fun r => SvOk low high (b + 1) r.1 ∧
      r.1.sieve.size = s.sieve.size ∧ ∃ j, Wheel.At (prm b) j r.2 ∧ Wheel.First (prm b) high j) := by
  unfold crossB
  refine loop_ok (fun (st : BitSieve × Wheel.Item) => ∃ j, i ≤ j ∧ Wheel.At (prm b) j st.2 ∧ Cr low high b j st.1 ∧
      (∀ t, t < j → prm b * num t < high) ∧ st.1.sieve.size = s.sieve.size)
    (fun st => high - st.2.nextMultiple) _ ?_ (by dsimp only; omega) ?_
  · refine ⟨i, le_rfl, hat, Cr.init h hf, fun t ht => ?_, rfl⟩
    have := hf.2 t ht
    omega
  · rintro ⟨s', w'⟩ ⟨j, hij, hat', hcr, hlt, hs2⟩
    dsimp only at hat' hcr hs2 ⊢
    have hj : low ≤ prm b * num j := hf.1.trans (Nat.mul_le_mul_left _ (num_le_num.2 hij))
    refine Ok.ite (fun hc => ?_) (fun hc => ?_)
    · rw [hat'.1] at hc ⊢
      rw [csub_ok hj]
      simp only [ok_bind]
      obtain ⟨k, hk1, hk2⟩ := pos_even (by omega) h.odd hj
      have hk64 : k / 64 < s'.sieve.size := by
        rw [hs2]; have := h.size; omega
      rw [hk2]
      refine Ok.bind (unset_ok hk64) (fun s'' hs'' => ?_)
      refine Ok.bind (Wheel.step_ok hat' (by omega)) (fun w'' hw'' => Ok.pure ⟨⟨j + 1, by omega, hw'', hcr.step hk1 hs''.2.2, ?_, ?_⟩, ?_⟩)
      · intro t ht
        by_cases htj : t = j
        · subst htj; exact hc
        · exact hlt t (by omega)
      · exact hs''.2.1.trans hs2
      · show high - w''.nextMultiple < high - prm b * num j
        rw [hw''.1]
        have := num_lt_num (a := j) (b := j + 1)
        have := Nat.mul_lt_mul_of_pos_left (show num j < num (j + 1) by omega) (prm_pos b)
        omega
    · rw [hat'.1] at hc
      exact Ok.pure ⟨hcr.done hb (by omega) h.odd (by rw [hs2]; exact h.size), hs2, ⟨j, hat', by omega, hlt⟩⟩

/-- Conditions for a segment. -/
structure SegB (g : Cfg) (L0 limit low high Sz : ℕ) : Prop where
  good : g.Good
  c4 : 4 ≤ g.c
  c10 : g.c < 10
  Sy : g.S + 1 = π (Nat.sqrt g.y)
  hK : g.K = g.y * g.y
  L01 : 1 ≤ L0
  hL : L0 ≤ low
  lt : low < high
  odd : low % 2 = 1
  sz : high - low ≤ Sz
  lim : high ≤ limit
  b63 : limit + 10 * g.y < 2 ^ 63

/-- The tables. -/
structure CtxB (g : Cfg) (n N : ℕ) (primes lpf : Vec ℕ) (mu : Vec ℤ) (pi : Vec ℕ) : Prop where
  hT : Tab g.y mu lpf
  hP : PrimeTable primes n
  hn : π g.y ≤ n
  hN : N ≤ n + 1
  piS : pi.size = g.y + 1
  pi : ∀ k, k ≤ g.y → pi.get k = π k

/-- The state in the loops over `b`; `N` is the size of the vectors. -/
structure InvB (S : AccSpec R) (g : Cfg) (par : Bool) (L0 low high Sz N b : ℕ) (st : StB R) : Prop where
  sv : SvOk low high b st.sieve
  ssz : Sz ≤ 128 * st.sieve.sieve.size
  wsz : st.wheel.size = N
  psz : st.phi.size = N
  msz : par = true → st.muSum.size = N
  wh : ∀ j, j < N → g.Live (hS b low high j) j →
    ∃ i, Wheel.At (prm j) i (st.wheel.get j) ∧ Wheel.First (prm j) (hS b low high j) i
  inv : ∃ s2z muz, SegInv coef g L0 (hS b low high) N s2z muz (fun j => st.phi.get j) ∧ S.Rep st.s2 s2z ∧
    (par = true → ∀ j, j < N → S.Rep (st.muSum.get j) (muz j))

theorem finishB_ok {par : Bool} {w L0 limit low high Sz N b cur : ℕ} {st : StB R} {s2z : ℤ} {muz : ℕ → ℤ} {t : ℕ × ℤ} {a : Acc R}
    (hS : SegB g L0 limit low high Sz) (hW : W63 g w limit) (hI : InvB S g par L0 low high Sz N b st) (hbN : b < N)
    (hlive : g.Live low b)
    (hi : SegInv coef g L0 (PS.hS b low high) N s2z muz (fun j => st.phi.get j))
    (hmu : par = true → ∀ j, j < N → S.Rep (st.muSum.get j) (muz j))
    (hl : LInv S g par (JS 2 low low b (st.phi.get b)) low b low high (st.phi.get b) s2z (muz b) cur (g.Lv b low high) (t, a)) :
    Ok (finishB par w low high (prm b) b st t a) (InvB S g par L0 low high Sz N (b + 1)) := by
  have hlt := hS.lt
  have hb5 : 5 ≤ b := by have := hS.c4; have := hlive.1; omega
  obtain ⟨i, hat, hf⟩ := hI.wh b hbN (by rw [hS_self]; exact hlive)
  rw [hS_self] at hf
  unfold finishB
  have hst := hW.st
  have hlim := hS.lim
  have hF := phiFit_of hi hS_self hbN hS.hL hS.lim hW.ll
  refine Ok.bind (sumTo_ok (hi := high - low) (svR_of_svOk hI.sv (by omega)) (by omega) hF hl.top (by omega) (by omega)) ?_
  rintro ⟨i', phi⟩ ⟨-, hphi⟩
  dsimp only at hphi ⊢
  rw [show low + (high - low) = high by omega] at hphi
  rw [Vec.wr_ok (by rw [hI.psz]; exact hbN)]
  simp only [ok_bind]
  refine Ok.bind (P := fun v => par = true → v = st.muSum.set b a.mu) ?_ (fun v hv => ?_)
  · unfold muWr
    refine Ok.ite (fun hp => ?_) (fun hp => Ok.pure (fun h => absurd h hp))
    rw [Vec.wr_ok (by rw [hI.msz hp]; exact hbN)]
    exact Ok.ok (fun _ => rfl)
  rw [Vec.rd_ok (by rw [hI.wsz]; exact hbN)]
  simp only [ok_bind]
  refine Ok.bind (crossB_ok hI.sv hb5 hat hf hlt.le (by have := hS.b63; have := hS.lim; have := hlive.lt_y; omega)) ?_
  rintro ⟨s', w'⟩ ⟨a1, a2, a3⟩
  dsimp only at a1 a2 a3 ⊢
  rw [Vec.wr_ok (by rw [hI.wsz]; exact hbN)]
  simp only [ok_bind]
  refine Ok.pure ⟨a1, by dsimp only; rw [a2]; exact hI.ssz, ?_, ?_, ?_, ?_, ?_⟩
  · dsimp only; rw [Vec.size_set]; exact hI.wsz
  · dsimp only; rw [Vec.size_set]; exact hI.psz
  · intro h
    dsimp only
    rw [hv h, Vec.size_set]; exact hI.msz h
  · intro j hj hlj
    dsimp only
    rw [Vec.get_set]
    by_cases h : b = j
    · subst h
      rw [if_pos ⟨rfl, by rw [hI.wsz]; exact hbN⟩]
      rw [show PS.hS (b + 1) low high b = high by simp [PS.hS]]
      exact a3
    · rw [if_neg (by omega)]
      have e : PS.hS (b + 1) low high j = PS.hS b low high j := by
        rw [← hS_update, Function.update_of_ne (by omega)]
      rw [e] at hlj ⊢
      exact hI.wh j hj hlj
  · refine ⟨_, fun j => if j = b then muz b + g.Mu coef b low high else muz j, ?_, hl.s2, fun h j hj => ?_⟩
    · rw [← hS_update]
      refine hi.step hS_self hbN hS.hL hlt.le hlive (fun j hj => rfl) (fun j hj => ?_)
      dsimp only
      rw [Vec.get_set]
      by_cases h : b = j
      · subst h
        rw [if_pos ⟨rfl, by rw [hI.psz]; exact hbN⟩, if_pos rfl, hphi]
      · rw [if_neg (by omega), if_neg (by omega)]
    · dsimp only
      rw [hv h, Vec.get_set]
      by_cases hb : b = j
      · subst hb
        rw [if_pos ⟨rfl, by rw [hI.msz h]; exact hbN⟩, if_pos rfl]
        exact hl.mu h
      · rw [if_neg (by omega), if_neg (by omega)]
        exact hmu h j hj

theorem JS_init {low b t : ℕ} {phib : ℤ} : JS 2 low low b phib (0, phib) t := by
  refine ⟨rfl, by simp, ?_, by simp⟩
  show 0 < t + 2
  omega

theorem muRd_ok {par : Bool} {N b : ℕ} {v : Vec R} {muz : ℕ → ℤ} (hsz : par = true → v.size = N) (hbN : b < N)
    (hmu : par = true → ∀ j, j < N → S.Rep (v.get j) (muz j)) : Ok (muRd par v b) (fun r => par = true → S.Rep r (muz b)) := by
  unfold muRd
  refine Ok.ite (fun h => ?_) (fun h => Ok.pure (fun h' => absurd h' h))
  rw [Vec.rd_ok (by rw [hsz h]; exact hbN)]
  exact Ok.ok (fun _ => hmu h b hbN)

theorem bodyA_ok {par : Bool} {w L0 limit low high Sz N n b : ℕ} {st : StB R} {primes lpf pi : Vec ℕ} {mu : Vec ℤ}
    (hS : SegB g L0 limit low high Sz) (hW : W63 g w limit) (hA : AccHyp S g L0 limit) (hpar : par = true → ∀ z, S.Acc z)
    (hC : CtxB g n N primes lpf mu pi) (hI : InvB S g par L0 low high Sz N b st) (hc : g.c < b) (hbN : b < N)
    (hbS : b ≤ g.S) (hby' : b < π g.y) :
    Ok (bodyA par w g.x g.y low high primes lpf mu b st) (fun r =>
      (r.1 = true → ¬ g.Live low b ∧ InvB S g par L0 low high Sz N b r.2) ∧
      (r.1 = false → InvB S g par L0 low high Sz N (b + 1) r.2)) := by
  have hp := prm_pos b
  have hlt := hS.lt
  have hl1 : 1 ≤ low := hS.L01.trans hS.hL
  have hc4 := hS.c4
  have hby := hby'.le
  have hst := hW.st
  have hlim := hS.lim
  have hpy := prm_lt_y (g := g) (b := b) (by omega) hby'
  unfold bodyA
  rw [hC.hP.rd (by omega) (by have := hC.hn; omega)]
  simp only [ok_bind]
  rw [fit_ok (hW.mul hS.good hpy hS.lim), ok_bind, cdiv_ok (Nat.mul_pos hp (by omega))]
  simp only [ok_bind]
  rw [cdiv_ok hp]
  simp only [ok_bind]
  rw [fit_ok (hW.mul hS.good hpy (hlt.le.trans hS.lim)), ok_bind, cdiv_ok (Nat.mul_pos hp (by omega))]
  simp only [ok_bind]
  have hlv := live_iff (g := g) (low := low) hbS hc hby
  refine Ok.ite (fun hj => Ok.pure ⟨fun _ => ⟨by rw [hlv]; omega, hI⟩, fun h => by simp at h⟩) (fun hj => ?_)
  have hlive : g.Live low b := by rw [hlv]; omega
  obtain ⟨s2z, muz, hi, hs2, hmu⟩ := hI.inv
  have hH := leafHyp_of hA hS.good hi hS_self hbN hS.L01 hS.hL hS.lim hlive
  have hF := phiFit_of hi hS_self hbN hS.hL hS.lim hW.ll
  rw [Vec.rd_ok (by rw [hI.psz]; omega)]
  simp only [ok_bind]
  refine Ok.bind (muRd_ok hI.msz hbN hmu) (fun mub hmub => ?_)
  have hR := range_A (g := g) (low := low) (high := high) (by omega) hbS hc hby hl1 hlt
  refine Ok.bind (leavesA_ok (par := par) (S := S) (muz := muz b) (advance_ok (phib := st.phi.get b) (by omega) hF (svR_of_svOk hI.sv (by omega)))
    hC.hT hR hH le_rfl hpar (hW.yy hS.good) (s := (((0, st.phi.get b), ⟨st.s2, mub⟩) : (ℕ × ℤ) × Acc R)) JS_init (fun t => JS_init) hs2 hmub) ?_
  rintro ⟨t, a⟩ hl
  dsimp only
  exact Ok.bind (finishB_ok hS hW hI hbN hlive hi hmu hl) (fun st' h => Ok.pure ⟨fun h => by simp at h, fun _ => h⟩)

/-- The leaves found by the loop over the primes. -/
theorem range_B {b low high : ℕ} (hg : g.Good) (hK : g.K = g.y * g.y) (hb1 : 1 ≤ b) (hbS : g.S < b) (hc : g.c < b) (hb : b ≤ π g.y)
    (hl : 1 ≤ low) (hlh : low < high) (hlive : b < π (min (g.x / (prm b * low)) g.y)) :
    RangeB g b low high (max (g.x / (prm b * high)) (max (g.y / prm b) (prm b))) (min (g.x / (prm b * low)) g.y) := by
  have hp := prm_pos b
  have hpy : prm b ≤ g.y := (prm_le_iff_le_pi hb1).2 hb
  refine ⟨fun q => ?_, hlive.le, (le_max_right _ _).trans (le_max_right _ _)⟩
  rw [S2Hard.mem_Lv_B hg hb1 hbS hc hb hl hlh, ← Nat.div_div_eq_div_mul, ← Nat.div_div_eq_div_mul]
  have hKp : g.y ≤ g.K / prm b := by
    rw [hK, Nat.le_div_iff_mul_le hp]
    exact Nat.mul_le_mul_left _ hpy
  rw [min_eq_left ((min_le_right _ _).trans hKp)]
  refine and_congr_right (fun hq => ?_)
  rw [and_comm]
  refine and_congr_left (fun h => ?_)
  have hqy := h.trans (min_le_right _ _)
  rw [max_lt_iff, max_lt_iff (b := g.x / prm b / high), min_lt_iff]
  refine and_congr_left (fun _ => ⟨fun h => h.resolve_right (by omega), Or.inl⟩)

theorem live_iff_B {b low : ℕ} (hK : g.K = g.y * g.y) (hb1 : 1 ≤ b) (hbS : g.S < b) (hc : g.c < b) (hb : b ≤ π g.y) :
    g.Live low b ↔ b < π (min (g.x / (prm b * low)) g.y) := by
  have hp := prm_pos b
  have hpy : prm b ≤ g.y := (prm_le_iff_le_pi hb1).2 hb
  rw [← Nat.div_div_eq_div_mul]
  set up := min (g.x / prm b / low) g.y with hup
  unfold Live
  rw [if_neg (by omega)]
  constructor
  · rintro ⟨-, -, q, h1, h2, h3, h4⟩
    have h6 := pi_mono (show q ≤ up from h3)
    have h7 : π (prm b) < π q := by
      rw [pi_prm hb1]
      by_contra hcon
      push Not at hcon
      have := (prm_le_prm (i := π q) (j := b) (by omega))
      rw [prm_pi h1] at this
      omega
    rw [pi_prm hb1] at h7
    omega
  · intro h
    have h5 : prm (π up) ≤ up := (prm_le_iff_le_pi (by omega)).2 le_rfl
    refine ⟨hc, hb, prm (π up), prm_prime _, prm_lt_prm (by omega) h, h5, ?_⟩
    rw [hK]
    exact Nat.mul_le_mul (h5.trans (min_le_right _ _)) hpy

theorem bodyB_ok {par : Bool} {w L0 limit low high Sz N n b : ℕ} {st : StB R} {primes lpf pi : Vec ℕ} {mu : Vec ℤ}
    (hS : SegB g L0 limit low high Sz) (hW : W63 g w limit) (hA : AccHyp S g L0 limit) (hpar : par = true → ∀ z, S.Acc z)
    (hC : CtxB g n N primes lpf mu pi) (hI : InvB S g par L0 low high Sz N b st) (hc : g.c < b) (hbN : b < N)
    (hbS : g.S < b) (hby' : b < π g.y) :
    Ok (bodyB par w g.x g.y low high primes pi b st) (fun r =>
      (r.1 = true → ¬ g.Live low b ∧ InvB S g par L0 low high Sz N b r.2) ∧
      (r.1 = false → InvB S g par L0 low high Sz N (b + 1) r.2)) := by
  have hp := prm_pos b
  have hlt := hS.lt
  have hl1 : 1 ≤ low := hS.L01.trans hS.hL
  have hc4 := hS.c4
  have hn := hC.hn
  have hby := hby'.le
  have hst := hW.st
  have hlim := hS.lim
  have hpy := prm_lt_y (g := g) (b := b) (by omega) hby'
  unfold bodyB
  rw [hC.hP.rd (by omega) (by omega)]
  simp only [ok_bind]
  rw [fit_ok (hW.mul hS.good hpy (hlt.le.trans hS.lim)), ok_bind, cdiv_ok (Nat.mul_pos hp (by omega))]
  simp only [ok_bind]
  have hlv := live_iff_B (g := g) (low := low) hS.hK (by omega) hbS hc hby
  have hupy : min (g.x / (prm b * low)) g.y ≤ g.y := min_le_right _ _
  rw [Vec.rd_ok (by rw [hC.piS]; omega), hC.pi _ hupy]
  simp only [ok_bind]
  rw [fit_ok (hW.mul hS.good hpy hS.lim), ok_bind, cdiv_ok (Nat.mul_pos hp (by omega))]
  simp only [ok_bind]
  rw [cdiv_ok hp]
  simp only [ok_bind]
  have hln : π (min (g.x / (prm b * low)) g.y) ≤ n := (pi_mono hupy).trans hn
  rw [S2Hard.rd_zero_or hC.hP.pre hln]
  simp only [ok_bind]
  refine Ok.ite (fun hj => Ok.pure ⟨fun _ => ⟨?_, hI⟩, fun h => by simp at h⟩) (fun hj => ?_)
  · rw [hlv]
    intro hcon
    rw [if_neg (by omega)] at hj
    have := prm_lt_prm (i := b) (by omega) hcon
    omega
  have hlive : g.Live low b := by
    rw [hlv]
    by_contra hcon
    push Not at hcon
    apply hj
    split
    · omega
    · exact prm_le_prm (j := b) (by omega)
  have hbl := hlv.1 hlive
  obtain ⟨s2z, muz, hi, hs2, hmu⟩ := hI.inv
  have hH := leafHyp_of hA hS.good hi hS_self hbN hS.L01 hS.hL hS.lim hlive
  have hF := phiFit_of hi hS_self hbN hS.hL hS.lim hW.ll
  rw [Vec.rd_ok (by rw [hI.psz]; omega)]
  simp only [ok_bind]
  refine Ok.bind (muRd_ok hI.msz hbN hmu) (fun mub hmub => ?_)
  have hR := range_B (g := g) (low := low) (high := high) hS.good hS.hK (by omega) hbS hc hby hl1 hlt hbl
  refine Ok.bind (leavesB_ok (par := par) (S := S) (muz := muz b) (advance_ok (phib := st.phi.get b) (by omega) hF (svR_of_svOk hI.sv (by omega)))
    hC.hP hln hR hH (by omega) le_rfl hpar (hW.yy hS.good) (s := (((0, st.phi.get b), ⟨st.s2, mub⟩) : (ℕ × ℤ) × Acc R)) JS_init (fun t => JS_init) hs2 hmub) ?_
  rintro ⟨t, a⟩ ⟨cur, hl⟩
  dsimp only
  exact Ok.bind (finishB_ok hS hW hI hbN hlive hi hmu hl) (fun st' h => Ok.pure ⟨fun h => by simp at h, fun _ => h⟩)

/-- The state between two segments. -/
structure InvTB (S : AccSpec R) (g : Cfg) (par : Bool) (L0 low Sz N : ℕ) (st : StB R) : Prop where
  ssz : Sz ≤ 128 * st.sieve.sieve.size
  wsz : st.wheel.size = N
  psz : st.phi.size = N
  msz : par = true → st.muSum.size = N
  wh : ∀ j, j < N → g.Live low j → ∃ i, Wheel.At (prm j) i (st.wheel.get j) ∧ Wheel.First (prm j) low i
  inv : ∃ s2z muz, SegInv coef g L0 (fun _ => low) N s2z muz (fun j => st.phi.get j) ∧ S.Rep st.s2 s2z ∧
    (par = true → ∀ j, j < N → S.Rep (st.muSum.get j) (muz j))

theorem segB_start {par : Bool} {L0 limit low high Sz N : ℕ} {st : StB R} {s' : BitSieve}
    (hS : SegB g L0 limit low high Sz) (hI : InvTB S g par L0 low Sz N st)
    (h2 : s'.sieve.size = st.sieve.sieve.size)
    (h3 : ∀ k, k < 64 * st.sieve.sieve.size → (bit s' k = true ↔ ∀ j, 2 ≤ j → j ≤ g.c → ¬ BitSieve.primes.get j ∣ low + 2 * k)) :
    InvB S g par L0 low high Sz N (g.c + 1) { st with sieve := s' } := by
  have hlt := hS.lt
  have hsz := hS.sz
  have hodd := hS.odd
  have hc10 := hS.c10
  have hssz := hI.ssz
  refine ⟨⟨hodd, ?_, ?_⟩, by dsimp only; rw [h2]; exact hI.ssz, hI.wsz, hI.psz, hI.msz, ?_, ?_⟩
  · dsimp only; rw [h2]; omega
  · intro k hk
    rw [h3 k (by omega), Nat.add_sub_cancel]
    constructor
    · intro h j hj1 hj2
      rcases Nat.lt_or_ge j 2 with hj | hj
      · have : j = 1 := by omega
        subst this
        rw [prm_one]; omega
      · rw [← primes_prm hj1 (by omega)]
        exact h j hj hj2
    · intro h j hj1 hj2
      rw [primes_prm (by omega) (by omega)]
      exact h j (by omega) hj2
  · intro j hj hl
    have e : PS.hS (g.c + 1) low high j = low := by unfold PS.hS; rw [if_neg (by have := hl.1; omega)]
    rw [e] at hl ⊢
    exact hI.wh j hj hl
  · obtain ⟨s2z, muz, hi, hs2, hmu⟩ := hI.inv
    exact ⟨s2z, muz, hi.start hS.good hS.L01 hlt.le, hs2, hmu⟩

theorem segB_end {par : Bool} {L0 limit low high Sz N b : ℕ} {st : StB R}
    (hS : SegB g L0 limit low high Sz) (hI : InvB S g par L0 low high Sz N b st)
    (hd : ∀ j, b ≤ j → ¬ g.Live low j) (hN : ∀ j, N ≤ j → ¬ g.Live low j) : InvTB S g par L0 high Sz N st := by
  have hlt := hS.lt
  have hL1 : 1 ≤ low := hS.L01.trans hS.hL
  refine ⟨hI.ssz, hI.wsz, hI.psz, hI.msz, ?_, ?_⟩
  · intro j hj hl
    have hjb : j < b := by
      by_contra hcon
      exact hd j (by omega) (hl.anti hL1 hlt.le)
    have := hI.wh j hj
    unfold PS.hS at this
    rw [if_pos hjb] at this
    exact this hl
  · obtain ⟨s2z, muz, hi, hs2, hmu⟩ := hI.inv
    refine ⟨s2z, muz, hi.skip hS.good ?_ ?_ hS.L01 hS.hL hlt.le (fun j h _ => hd j h) (b := b) (low := low) hN, hs2, hmu⟩
    · intro j hj; unfold PS.hS; rw [if_pos hj]
    · intro j hj; unfold PS.hS; rw [if_neg (by omega)]

theorem segmentB_ok {par : Bool} {w L0 limit low high Sz N n endA endB : ℕ} {st : StB R} {primes lpf pi : Vec ℕ} {mu : Vec ℤ}
    (hS : SegB g L0 limit low high Sz) (hW : W63 g w limit) (hA : AccHyp S g L0 limit) (hpar : par = true → ∀ z, S.Acc z)
    (hC : CtxB g n N primes lpf mu pi) (hI : InvTB S g par L0 low Sz N st)
    (hEA : endA ≤ g.S + 1) (hEAN : endA ≤ N) (hEB : endB ≤ N) (hEy : endB ≤ π g.y) (hAB : endA = g.S + 1 ∨ endB ≤ endA)
    (hdead : ∀ j, endB ≤ j → ¬ g.Live low j) :
    Ok (segmentB par w g.x g.y g.c endA endB primes lpf mu pi low high st) (InvTB S g par L0 high Sz N) := by
  have hSy := hS.Sy
  have hsy := pi_mono (Nat.sqrt_le_self g.y)
  unfold segmentB
  refine Ok.bind (preSieve_ok (by have := hS.b63; have := hS.lim; have := hS.lt; omega) hS.c10 hS.odd) (fun s' hs' => ?_)
  obtain ⟨h1, h2, h3⟩ := hs'
  have hst0 := segB_start hS hI h2 h3
  have hdown : ∀ b, g.c < b → ¬ g.Live low b → ∀ j, b ≤ j → ¬ g.Live low j := fun b hb h j hj hl => h (hl.down hb hj)
  have hdN : ∀ j, N ≤ j → ¬ g.Live low j := fun j hj => hdead j (by omega)
  refine Ok.bind (forBrk_ok (fun b st => InvB S g par L0 low high Sz N b st)
    (fun b st => ¬ g.Live low b ∧ InvB S g par L0 low high Sz N b st) hst0 (fun b st h4 h5 h6 => ?_)) ?_
  · exact bodyA_ok hS hW hA hpar hC h6 (by omega) (by omega) (by omega) (by omega)
  rintro ⟨jump, b, st1⟩ ⟨hj1, hj2⟩
  dsimp only at hj1 hj2 ⊢
  refine Ok.ite (fun hj => ?_) (fun hj => ?_)
  · obtain ⟨a1, a2, a3, a4⟩ := hj1 hj
    exact Ok.pure (segB_end hS a4 (hdown b (by omega) a3) hdN)
  · obtain ⟨a1, a2⟩ := hj2 (by simpa using hj)
    refine Ok.bind (forBrk_ok (fun b st => InvB S g par L0 low high Sz N b st)
      (fun b st => ¬ g.Live low b ∧ InvB S g par L0 low high Sz N b st) a2 (fun b' st h4 h5 h6 => ?_)) ?_
    · exact bodyB_ok hS hW hA hpar hC h6 (by omega) (by omega) (by omega) (by omega)
    rintro ⟨jump', b', st2⟩ ⟨hj3, hj4⟩
    dsimp only at hj3 hj4 ⊢
    cases jump' with
    | true =>
      obtain ⟨a3, a4, a5, a6⟩ := hj3 rfl
      exact Ok.pure (segB_end hS a6 (hdown b' (by omega) a5) hdN)
    | false =>
      obtain ⟨a3, a4⟩ := hj4 rfl
      refine Ok.pure (segB_end hS a4 (fun j hj => hdead j ?_) hdN)
      omega

theorem dead_top' {low j : ℕ} (hS : g.S < π g.y) (hj : π g.y ≤ j) : ¬ g.Live low j := by
  rintro ⟨h1, h2, h3⟩
  have hj' : j = π g.y := by omega
  rw [if_neg (by omega)] at h3
  obtain ⟨q, h4, h5, h6, -⟩ := h3
  have h8 := pi_mono (h6.trans (min_le_right _ _))
  have h9 := prm_le_prm (i := π q) (j := j) (by omega)
  rw [prm_pi h4] at h9
  omega

theorem preSieve_total {b : BitSieve} {c low : ℕ} (h64 : low + 46 ≤ 2 ^ 64) (hc : c < 10) (h : low % 2 = 1 ∨ c ≤ 1) :
    Ok (preSieve b c low) (fun _ => True) := by
  rcases h with h | h
  · exact (preSieve_ok h64 hc h).mono (fun _ _ => trivial)
  · have e : preSieve b c low = preSieve b c 1 := by
      unfold preSieve forUp
      simp only [if_neg (show ¬ 2 < c + 1 by omega)]
    rw [e]
    exact (preSieve_ok (by norm_num) hc (by norm_num)).mono (fun _ _ => trivial)

theorem S2Sum_empty {x y c : ℕ} (h : π y ≤ c) : S2Sum x y c = 0 := by
  unfold S2Sum
  have : specialLeaves y c = ∅ := by
    rw [Finset.eq_empty_iff_forall_notMem]
    rintro ⟨b, m⟩ hm
    have := leaf_gt (g := cfg x y c 0) hm
    have h1 := this.2.2.1
    have h2 := this.2.2.2
    change c < b at h1
    change b ≤ π y at h2
    omega
  rw [this, Finset.sum_empty]

theorem sqrt_pi_two {y : ℕ} (h : 5 ≤ π y) : 2 ≤ π (Nat.sqrt y) := by
  have h11 : 11 ≤ y := by
    by_contra hcon
    have h4 : π y ≤ π 10 := pi_mono (by omega)
    have : π 10 = 4 := by decide +kernel
    omega
  have h3 : 3 ≤ Nat.sqrt y := by rw [Nat.le_sqrt]; omega
  have h4 := pi_mono h3
  have : π 3 = 2 := by decide +kernel
  omega

/-- `S2` of pi_lmo5. -/
theorem s2Lmo5_ok {w x y c : ℕ} {primes lpf : Vec ℕ} {mu : Vec ℤ} (hy : 1 ≤ y) (hy31 : y < 2 ^ 31) (hyx : y * y ≤ x) (hx : x < 2 ^ 63)
    (hz62 : x / y < 2 ^ 62) (hll : (x / y + 1) * (x / y + 1) < 2 ^ w) (hc : 4 ≤ c ∨ π y ≤ c) (hcy : c ≤ π y) (hc10 : c < 10)
    (hA : AccHyp S (cfg x y c (π (Nat.sqrt y) - 1)) 1 (x / y + 1)) (hT : Tab y mu lpf) (hP : PrimeTable primes (π y)) :
    Ok (s2Lmo5 R w x y c primes lpf mu) (fun r => S.Rep r (S2Sum x y c)) := by
  have h0 : S.Rep (ofInt 0 : R) 0 := S.ofInt 0 (hA.phi 0 le_rfl (by positivity))
  have hyz : y ≤ x / y := (Nat.le_div_iff_mul_le hy).2 hyx
  have hzx : x / y ≤ x := Nat.div_le_self _ _
  have hsy := pi_mono (Nat.sqrt_le_self y)
  have hW : W63 (cfg x y c (π (Nat.sqrt y) - 1)) w (x / y + 1) :=
    ⟨show x < _ by omega, le_rfl, by show x / y + 1 + 2 * y + 2 < _; omega, hll⟩
  unfold s2Lmo5
  rw [cdiv_ok hy]
  simp only [ok_bind]
  rw [fit_ok (by omega), ok_bind]
  generalize hz : x / y = z at *
  have hsq1 : 1 ≤ Nat.sqrt (z + 1) := Nat.sqrt_pos.2 (by omega)
  have hsq2 : Nat.sqrt (z + 1) ≤ z + 1 := Nat.sqrt_le_self _
  obtain ⟨hpos, heven⟩ := nextPow2_pos hsq1 (by omega)
  have hSzU : nextPow2 (Nat.sqrt (z + 1)) < 2 ^ 33 := by
    have h1 := nextPow2_le hsq1 (by omega)
    have h2 : Nat.sqrt (z + 1) < 2 ^ 32 := by rw [Nat.sqrt_lt']; omega
    omega
  have heven' : 2 ≤ y → nextPow2 (Nat.sqrt (z + 1)) % 2 = 0 ∨ y = 2 := by
    intro h
    rcases Nat.lt_or_ge z 3 with h3 | h3
    · right; omega
    · left
      apply heven
      rw [Nat.le_sqrt]; omega
  have heven3 : 3 ≤ y → nextPow2 (Nat.sqrt (z + 1)) % 2 = 0 := fun h => (heven' (by omega)).resolve_right (by omega)
  generalize nextPow2 (Nat.sqrt (z + 1)) = Sz at *
  refine Ok.bind (C28_constructor Sz) (fun sv hsv => ?_)
  refine Ok.bind (Wheel.build_ok (size := primes.size) (low := 1) hP.pre (by rw [hP.1]) (by rw [hP.1]; omega)
    (fun b h1 h2 => by rw [hP.1] at h2; have := (prm_le_iff_le_pi (n := y) h1).2 (by omega); omega)) (fun w hw => ?_)
  refine Ok.bind (generatePi_ok (lt_of_le_of_lt (pi_le_self' y) hy31)) (fun pi hpi => ?_)
  rw [Vec.rd_ok (by rw [hpi.1]; have := Nat.sqrt_le_self y; omega), hpi.2 _ (Nat.sqrt_le_self y)]
  simp only [ok_bind]
  rw [Vec.rd_ok (by rw [hpi.1]; omega), hpi.2 _ le_rfl]
  simp only [ok_bind]
  rw [hP.1] at hw
  have hy3 : 2 ≤ π y → 3 ≤ y := by
    intro h
    by_contra hcon
    have h4 : π y ≤ π 2 := pi_mono (by omega)
    have : π 2 = 1 := by decide +kernel
    omega
  rcases Nat.lt_or_ge c (π y) with hcase | hcase
  · have hc4 : 4 ≤ c := by omega
    set g := cfg x y c (π (Nat.sqrt y) - 1) with hgd
    have hsp := sqrt_pi_two (y := y) (by omega)
    have hgS : g.S + 1 = π (Nat.sqrt g.y) := by
      show π (Nat.sqrt y) - 1 + 1 = π (Nat.sqrt y)
      omega
    have hg : g.Good := ⟨hy, hyx, hgS.ge⟩
    have hgS' : g.S < π g.y := by
      show π (Nat.sqrt y) - 1 < π y
      omega
    have he := heven3 (hy3 (by omega))
    have hC : CtxB g (π y) (π y + 1) primes lpf mu pi := ⟨hT, hP, le_rfl, le_rfl, hpi.1, hpi.2⟩
    refine Ok.bind (forStep_ok (fun low st => low % 2 = 1 ∧ InvTB S g false 1 (min low (z + 1)) Sz (π y + 1) st)
      (fun st => S.Rep st.s2 (S2Sum x y c)) hpos ?_ (fun low st h1 h2 h3 => ?_) (fun low st h1 h2 h3 => ?_)) (fun st hst => Ok.pure hst)
    · refine ⟨rfl, ?_⟩
      rw [show min 1 (z + 1) = 1 by omega]
      refine ⟨by dsimp only; rw [← hsv.1]; exact hsv.2, hw.1, by simp [hP.1], by simp, fun j h1 h2 => ?_, 0, fun _ => 0, ?_, h0, by simp⟩
      · exact hw.2 j (by have := h2.1; omega) h1
      · refine SegInv.init (fun _ _ => rfl) (fun j hj => ?_)
        dsimp only
        exact Vec.get_mk' _ _ _ (by rw [hP.1]; exact hj)
    · rw [show min low (z + 1) = low by omega] at h3
      rw [fit_ok (by omega), ok_bind]
      have hseg : SegB g 1 (z + 1) low (min (low + Sz) (z + 1)) Sz :=
        ⟨hg, hc4, hc10, hgS, rfl, le_rfl, h1, by omega, h3.1, by omega, by omega, by show z + 1 + 10 * y < _; omega⟩
      refine (segmentB_ok (par := false) hseg hW hA (by simp) hC h3.2 (endA := π (Nat.sqrt y)) (endB := π y) hgS.ge (by omega) (by omega) le_rfl
        (Or.inl hgS.symm) (fun j hj => dead_top' hgS' hj)).mono (fun st' h4 => ⟨by omega, ?_⟩)
      exact h4
    · rw [show min low (z + 1) = z + 1 by omega] at h3
      obtain ⟨s2z, muz, hi, hs2, -⟩ := h3.2.inv
      have h5 : s2z = S2Sum x y c := by
        rw [hi.s2E, ← cfg_total hg, hz]
        rfl
      rw [← h5]; exact hs2
  · rw [S2Sum_empty hcase]
    refine Ok.bind (forStep_ok (fun low (st : StB R) => (2 ≤ c → low % 2 = 1) ∧ S.Rep st.s2 0)
      (fun st => S.Rep st.s2 0) hpos ⟨fun _ => rfl, h0⟩ (fun low st h1 h2 h3 => ?_) (fun low st h1 h2 h3 => h3.2)) (fun st hst => Ok.pure hst)
    rw [fit_ok (by omega), ok_bind]
    unfold segmentB
    refine Ok.bind (preSieve_total (c := c) (low := low) (by omega) hc10 (by have := h3.1; omega)) (fun s' _ => ?_)
    refine Ok.bind (forBrk_ok (fun b (st : StB R) => S.Rep st.s2 0) (fun b st => False) h3.2 (fun b st h4 h5 h6 => by omega)) ?_
    rintro ⟨jump, b, st1⟩ ⟨hj1, hj2⟩
    dsimp only at hj1 hj2 ⊢
    refine Ok.ite (fun hj => absurd (hj1 hj).2.2 (by simp)) (fun hj => ?_)
    obtain ⟨a1, a2⟩ := hj2 (by simpa using hj)
    refine Ok.bind (forBrk_ok (fun b (st : StB R) => S.Rep st.s2 0) (fun b st => False) a2 (fun b' st h4 h5 h6 => by omega)) ?_
    rintro ⟨jump', b', st2⟩ ⟨hj3, hj4⟩
    dsimp only at hj3 hj4 ⊢
    cases jump' with
    | true => exact absurd (hj3 rfl).2.2 (by simp)
    | false =>
      refine Ok.pure ⟨fun h => ?_, (hj4 rfl).2⟩
      have := heven3 (hy3 (by omega))
      have := h3.1 h
      omega

/-! ### pi_lmo_parallel1 -/

theorem thread_ok {x y c ss spt i low limit : ℕ} {primes lpf pi : Vec ℕ} {mu : Vec ℤ} (hy : 1 ≤ y) (hyx : y * y ≤ x)
    (hc : 4 ≤ c ∨ π y ≤ c) (hc10 : c < 10) (hy63 : y * y < 2 ^ 127) (hlim : limit * limit < 2 ^ 127)
    (hT : Tab y mu lpf) (hP : PrimeTable primes (π y)) (hpi : pi.size = y + 1 ∧ ∀ k, k ≤ y → pi.get k = π k)
    (hss : 0 < ss) (hsse : ss % 2 = 0) (hlow : low % 2 = 1)
    (hD : low + ss * spt * i + ss * spt < 2 ^ 62) (hss32 : ss < 2 ^ 32) (hlim58 : limit < 2 ^ 58) (hy31 : y < 2 ^ 31)
    (hx : x < 2 ^ 63) (hlimz : limit ≤ x / y + 1) :
    Ok (thread I256 x y c pi primes lpf mu ss spt i low limit)
      (S2Hard.TPost (BRes.lawful I256) (cfg x y c (π (Nat.sqrt y) - 1)) (low + ss * spt * i)
        (max (low + ss * spt * i) (min (low + ss * spt * i + ss * spt) limit)) (π y + 1)) := by
  set g := cfg x y c (π (Nat.sqrt y) - 1) with hgd
  have hsy := pi_mono (Nat.sqrt_le_self y)
  have hg : g.Good := ⟨hy, hyx, by show π (Nat.sqrt y) ≤ π (Nat.sqrt y) - 1 + 1; omega⟩
  unfold thread
  rw [S2Hard.interval_ok (by omega), ok_bind]
  dsimp only
  have hodd : (low + ss * spt * i) % 2 = 1 := by
    obtain ⟨k, rfl⟩ : ∃ k, ss = 2 * k := ⟨ss / 2, by omega⟩
    rw [show low + 2 * k * spt * i = low + 2 * (k * spt * i) by ring]
    omega
  generalize low + ss * spt * i = L0 at *
  generalize hli : min (L0 + ss * spt) limit = lim
  have hL1 : 1 ≤ L0 := by omega
  rw [cdiv_ok hL1]
  simp only [ok_bind]
  have hmin : min (Nat.sqrt (x / L0)) y ≤ y := min_le_right _ _
  rw [Vec.rd_ok (by rw [hpi.1]; omega), hpi.2 _ hmin]
  simp only [ok_bind]
  rw [Vec.rd_ok (by rw [hpi.1]; have := Nat.sqrt_le_self y; omega), hpi.2 _ (Nat.sqrt_le_self y)]
  simp only [ok_bind]
  rw [Vec.rd_ok (by rw [hpi.1]; omega), hpi.2 _ le_rfl]
  simp only [ok_bind]
  set mx := min (Nat.sqrt (x / L0)) y with hmx
  have hdead0 : ∀ j, π mx + 1 ≤ j → ¬ g.Live L0 j := by
    intro j hj hl
    have hj1 : 1 ≤ j := by omega
    have : prm j ≤ mx := le_min (Nat.le_sqrt.2 hl.sq_le) hl.lt_y.le
    have := (prm_le_iff_le_pi hj1).1 this
    omega
  have hsize : π mx ≤ π y := pi_mono hmin
  have hrep0 : LawfulRes.Rep (ofInt 0 : I256) 0 := LawfulRes.rep_ofInt _ (by norm_num) (by norm_num)
  refine Ok.ite (fun hc => ?_) (fun hc' => ?_)
  · have hall : ∀ j, ¬ g.Live L0 j := fun j hl => hdead0 j (by have := hl.1; change c < j at this; omega) hl
    have h0 := SegInv.init (k := coef) (g := g) (L0 := L0) (N := 0) (muS := fun _ => 0) (phi := fun j => (⟨#[]⟩ : Vec ℤ).get j)
      (fun _ _ => rfl) (fun j hj => absurd hj (by omega))
    have h1 := h0.skip hg (b := 0) (low := L0) (high := max L0 lim) (fun j hj => absurd hj (by omega)) (fun _ _ => rfl) hL1 le_rfl (le_max_left _ _)
      (fun j _ _ => hall j) (fun j _ => hall j)
    exact Ok.pure ⟨rfl, by show 0 ≤ _; omega, fun j _ => hall j, 0, _, fun _ => 0, _, _, h1, h1.change acoef, hrep0,
      fun j hj => absurd hj (by show ¬ j < 0; omega), fun j hj => absurd hj (by show ¬ j < 0; omega)⟩
  have hc4 : 4 ≤ c := by omega
  have hsp := sqrt_pi_two (y := y) (by omega)
  have hgS : g.S + 1 = π (Nat.sqrt g.y) := by
    show π (Nat.sqrt y) - 1 + 1 = π (Nat.sqrt y)
    omega
  have hgS' : g.S < π g.y := by
    show π (Nat.sqrt y) - 1 < π y
    omega
  have hC : CtxB g (π y) (π mx + 1) primes lpf mu pi := ⟨hT, hP, le_rfl, by omega, hpi.1, hpi.2⟩
  have hAcc : AccHyp AccSpec.i256 g L0 limit := by
    refine ⟨fun z hz => ?_, fun z h1 h2 => ?_, Or.inl (fun z => trivial)⟩
    · rw [abs_le] at hz
      have h3 : ((g.y : ℤ) * g.y) < 2 ^ 127 := by
        have : ((y * y : ℕ) : ℤ) < 2 ^ 127 := by exact_mod_cast hy63
        push_cast at this; exact this
      show -2 ^ 127 ≤ z ∧ z < 2 ^ 127
      omega
    · have h3 : ((limit : ℤ) * limit) < 2 ^ 127 := by
        have : ((limit * limit : ℕ) : ℤ) < 2 ^ 127 := by exact_mod_cast hlim
        push_cast at this; exact this
      show -2 ^ 127 ≤ z ∧ z < 2 ^ 127
      omega
  have hW : W63 g 255 limit :=
    ⟨hx, hlimz, by show limit + 2 * y + 2 < _; omega, by show limit * limit < 2 ^ 255; omega⟩
  refine Ok.bind (C28_constructor ss) (fun sv hsv => ?_)
  refine Ok.bind (Wheel.build_ok (size := π mx + 1) (low := L0) hP.pre (by omega) (by omega)
    (fun b h1 h2 => by have := (prm_le_iff_le_pi (n := mx) h1).2 (by omega); omega)) (fun w hw => ?_)
  refine Ok.bind (P := InvTB AccSpec.i256 g true L0 (max L0 lim) ss (π mx + 1)) ?_ (fun st hst => Ok.pure ⟨?_, ?_, ?_, ?_⟩)
  · refine forStep_ok (fun i st => i % 2 = 1 ∧ InvTB AccSpec.i256 g true L0 (min i (max L0 lim)) ss (π mx + 1) st) _ hss ⟨hodd, ?_⟩ ?_ ?_
    · rw [min_eq_left (le_max_left _ _)]
      refine ⟨by dsimp only; rw [← hsv.1]; exact hsv.2, hw.1, by simp, by simp, ?_, ?_⟩
      · intro j hj hl
        exact hw.2 j (by have := hl.1; omega) hj
      · refine ⟨0, fun _ => 0, SegInv.init (fun _ _ => rfl) (fun j hj => ?_), hrep0, fun _ j hj => ?_⟩
        · dsimp only; rw [Vec.get_mk' _ _ _ hj]
        · dsimp only; rw [Vec.get_mk' _ _ _ hj]; exact hrep0
    · rintro i st h1 h2 ⟨h3, h4⟩
      rw [min_eq_left (by omega)] at h4
      rw [fit_ok (by omega), ok_bind]
      have hseg : SegB g L0 limit i (min (i + ss) lim) ss :=
        ⟨hg, hc4, hc10, hgS, rfl, hL1, h1, by omega, h3, by omega, by omega, by show limit + 10 * y < _; omega⟩
      have hgS2 : g.S + 1 = π (Nat.sqrt y) := hgS
      refine (segmentB_ok (par := true) hseg hW hAcc (fun _ z => trivial) hC h4 (endA := min (π (Nat.sqrt y)) (π mx + 1))
        (endB := min (π y) (π mx + 1)) (by omega) (by omega) (by omega) (by show _ ≤ π y; omega) (by omega) ?_).mono (fun st' h => ⟨by omega, ?_⟩)
      · intro j hj hl
        rcases Nat.lt_or_ge j (π y) with h5 | h5
        · exact hdead0 j (by omega) (hl.anti hL1 h1)
        · exact dead_top' hgS' h5 hl
      · rw [max_eq_right (by omega)]; exact h
    · rintro i st h1 h2 ⟨h3, h4⟩
      rwa [min_eq_right (by omega)] at h4
  · show st.muSum.size = st.phi.size
    rw [hst.psz, hst.msz rfl]
  · show st.phi.size ≤ _
    rw [hst.psz]; omega
  · show ∀ j, st.phi.size ≤ j → _
    rw [hst.psz]; exact hdead0
  · dsimp only
    rw [hst.psz]
    obtain ⟨s2z, muz, h1, h2, h3⟩ := hst.inv
    exact ⟨s2z, _, muz, _, _, h1, h1.change acoef, h2, h3 rfl, fun j _ => S2Hard.Near.refl Tot_nonneg⟩

theorem cfg_Mu {x y c T b lo hi : ℕ} (hy : y * (y * y) < 2 ^ 127) :
    -2 ^ 127 ≤ (cfg x y c T).Mu coef b lo hi ∧ (cfg x y c T).Mu coef b lo hi < 2 ^ 127 := by
  have h1 : |(cfg x y c T).Mu coef b lo hi| ≤ ((y * (y * y) : ℕ) : ℤ) := by
    unfold Mu
    refine (Finset.abs_sum_le_sum_abs _ _).trans ?_
    refine (Finset.sum_le_card_nsmul _ _ ((y : ℤ) * y) (fun m hm => abs_coef_le hm)).trans ?_
    have h2 : ((cfg x y c T).Lv b lo hi).card ≤ y := by
      refine (Finset.card_filter_le _ _).trans ?_
      show (Icc 1 y).card ≤ y
      simp
    rw [nsmul_eq_mul]
    push_cast
    exact mul_le_mul_of_nonneg_right (by exact_mod_cast h2) (by positivity)
  have h3 : ((y * (y * y) : ℕ) : ℤ) < 2 ^ 127 := by exact_mod_cast hy
  rw [abs_le] at h1
  omega

/-- `S2` of pi_lmo_parallel1. -/
theorem s2Par_ok {e : S2Hard.Env} {x y c : ℕ} {primes lpf : Vec ℕ} {mu : Vec ℤ} {threads : ℤ} (hs : e.sched.Valid)
    (hy : 1 ≤ y) (hyx : y * y ≤ x) (hc : 4 ≤ c ∨ π y ≤ c) (hc10 : c < 10) (hy31 : y < 2 ^ 31) (hx : x < 2 ^ 63) (hz : x / y + 1 < 2 ^ 58)
    (hT : Tab y mu lpf) (hP : PrimeTable primes (π y)) :
    Ok (s2Par e x y c primes lpf mu threads) (fun r => LawfulRes.Rep r (S2Sum x y c)) := by
  have hy42 : y < 2 ^ 42 := by omega
  have hyy : y * y < 2 ^ 84 := by
    calc y * y < 2 ^ 42 * 2 ^ 42 := Nat.mul_lt_mul'' hy42 hy42
      _ = _ := by norm_num
  have hyyy : y * (y * y) < 2 ^ 126 := by
    calc y * (y * y) < 2 ^ 42 * 2 ^ 84 := Nat.mul_lt_mul'' hy42 hyy
      _ = _ := by norm_num
  have hg : (cfg x y c (π (Nat.sqrt y) - 1)).Good := ⟨hy, hyx, by show π (Nat.sqrt y) ≤ π (Nat.sqrt y) - 1 + 1; omega⟩
  unfold s2Par
  rw [cdiv_ok hy]
  simp only [ok_bind]
  rw [fit_ok (by omega), ok_bind]
  obtain ⟨n, hn, -⟩ : ∃ n : ℤ, idealNumThreads threads (x / y + 1 : ℕ) (10 ^ 5) = .ok n ∧ True := by
    unfold idealNumThreads
    dsimp only
    rw [if_neg (by norm_num)]
    simp only [pure_eq_ok, ok_bind]
    exact ⟨_, rfl, trivial⟩
  rw [hn]
  simp only [ok_bind]
  have hx1 : 1 ≤ x := le_trans (Nat.mul_pos hy hy) hyx
  refine Ok.bind (LB.init_ok (log := e.log) (threads := n.toNat) hx1 hy (Nat.le_succ _) (by omega) (by omega) (by omega)) (fun lb hlb => ?_)
  refine Ok.bind (generatePi_ok (lt_of_le_of_lt (pi_le_self' y) hy31)) (fun pi hpi => ?_)
  rw [hP.1]
  have hll : (x / y + 1) * (x / y + 1) < 2 ^ 116 := by
    calc (x / y + 1) * (x / y + 1) < 2 ^ 58 * 2 ^ 58 := Nat.mul_lt_mul'' hz hz
      _ = _ := by norm_num
  have hk := S2Hard.masterLoop_ok (w := 255) (by norm_num) (R := I256) (S := BRes.lawful I256) hg (limit := x / y + 1) (Mx := π y + 1) (threads := n.toNat) (z := x / y + 1)
    (th := fun ss spt i low => thread I256 x y c pi primes lpf mu ss spt i low (x / y + 1))
    (log := e.log) (times := e.times) hs (by omega) hlb (fun b lo hi => ⟨cfg_Mu (by omega), trivial⟩) (by omega) ?_
  · refine hk.mono (fun r hr => ?_)
    rw [max_eq_right (Nat.le_add_left 1 _)] at hr
    have h5 := cfg_total hg
    rw [← h5]
    exact hr
  · intro ss spt i low h1 h2 h3 h4 h5
    exact thread_ok hy hyx hc hc10 (by omega) (by omega) hT hP hpi h1 h2 h3 h4 h5 hz hy31 hx le_rfl

end Lmo
end PS
