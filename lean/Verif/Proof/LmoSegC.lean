import Verif.Proof.LmoC

/-!
# pi_lmo3 and pi_lmo4: the segmented sieves of single bytes
-/

namespace PS
open Finset Cfg
open scoped Classical
open Res
local notation "π" => Nat.primeCounting

namespace Lmo

set_option linter.unusedSectionVars false

variable {R : Type} [Res R] {S : AccSpec R} {g : Cfg}

/-- The tree holds the sieve. -/
def TreeC (low size : ℕ) (s : Vec Bool) (t : BIT) : Prop :=
  low + 2 * size ≤ 2 ^ 63 ∧ BIT.Rep (fun i => if s.get (2 * i) then ((low + 2 * i : ℕ) : ℤ) else 0) size t

theorem treeC_sum {s : Vec Bool} {low high b Sz t : ℕ} {T : BIT} (h : SvC low low high b s) (hb : 2 ≤ b) (hodd : low % 2 = 1)
    (hT : TreeC low Sz s T) (ht : low + t < high) (hSz : high - low ≤ 2 * Sz) : T.sum t = .ok (Rs b low (low + t + 1)) := by
  rw [BIT.sum_ok (BIT.small_sieve hT.1) hT.2 (by omega)]
  congr 1
  have key : ∀ t, low + t ≤ high →
      ∑ i ∈ range ((t + 1) / 2), (if s.get (2 * i) = true then ((low + 2 * i : ℕ) : ℤ) else 0) = Rs b low (low + t) := by
    intro t
    induction t with
    | zero => intro _; simp
    | succ t ih =>
      intro ht
      rw [← Nat.add_assoc, Rs_succ (by omega), ← ih (by omega)]
      by_cases he : t % 2 = 0
      · obtain ⟨k, rfl⟩ : ∃ k, t = 2 * k := ⟨t / 2, by omega⟩
        rw [show (2 * k + 1 + 1) / 2 = k + 1 by omega, show (2 * k + 1) / 2 = k by omega, Finset.sum_range_succ]
        congr 1
        have hbit := h.bits (low + 2 * k) (by omega) (by omega)
        rw [Nat.add_sub_cancel_left] at hbit
        by_cases hr : Rough (b - 1) (low + 2 * k)
        · rw [if_pos hr, if_pos (hbit.2 hr)]
        · rw [if_neg hr, if_neg (fun hc => hr (hbit.1 hc))]
      · rw [show (t + 1 + 1) / 2 = (t + 1) / 2 by omega, if_neg, add_zero]
        intro hr
        have := hr 1 (by omega) (by omega)
        rw [prm_one] at this
        omega
  have h2 := key (t + 1) (by omega)
  rw [show (t + 1 + 1) / 2 = t / 2 + 1 by omega, ← Nat.add_assoc] at h2
  exact h2

theorem crossT_ok {low high b k Sz : ℕ} {s : Vec Bool} {t : BIT} (hb : 2 ≤ b) (hsz : high - low ≤ s.size)
    (hlh : low ≤ high) (hk : Next (prm b) (prm b * 2) low k) (hodd : low % 2 = 1) (hT : TreeC low Sz s t)
    (hSz : high - low ≤ 2 * Sz) (h63 : high + prm b * 2 < 2 ^ 63) :
    Ok (crossT low high (prm b * 2) k s t) (fun r => r.2.1.size = s.size ∧ Next (prm b) (prm b * 2) high r.1 ∧
      (∀ n, low ≤ n → n < high → (r.2.1.get (n - low) = true ↔ s.get (n - low) = true ∧ n % (prm b * 2) ≠ prm b % (prm b * 2))) ∧
      TreeC low Sz r.2.1 r.2.2) := by
  have hp := prm_pos b
  have hpo := prm_odd hb
  unfold crossT
  generalize hstep : prm b * 2 = step at *
  have hst : 0 < step := by omega
  have hpm : prm b % step = prm b := Nat.mod_eq_of_lt (by omega)
  refine loop_ok (fun (st : ℕ × Vec Bool × BIT) => low ≤ st.1 ∧ st.1 % step = prm b % step ∧ st.2.1.size = s.size ∧
      (∀ n, high ≤ n → n < st.1 → n % step ≠ prm b % step) ∧
      (∀ n, low ≤ n → n < high → (st.2.1.get (n - low) = true ↔ s.get (n - low) = true ∧ (n < st.1 → n % step ≠ prm b % step))) ∧
      TreeC low Sz st.2.1 st.2.2)
    (fun st => high - st.1) _ ⟨hk.1, hk.2.1, rfl, fun n h1 h2 => hk.2.2 n (by omega) h2, fun n h1 h2 => ?_, hT⟩ (by omega) ?_
  · exact ⟨fun h => ⟨h, fun h3 => hk.2.2 n h1 h3⟩, fun h => h.1⟩
  · rintro ⟨k', s', t'⟩ ⟨h1, h2, h3, h4, h5, h6⟩
    dsimp only at h1 h2 h3 h4 h5 h6 ⊢
    refine Ok.ite (fun hc => ?_) (fun hc => ?_)
    · have hkodd : k' % 2 = 1 := by
        have h7 := Nat.div_add_mod k' step
        rw [h2, hpm, ← hstep, show prm b * 2 * (k' / (prm b * 2)) = 2 * (prm b * (k' / (prm b * 2))) by ring] at h7
        omega
      obtain ⟨i, hi⟩ : ∃ i, k' = low + 2 * i := ⟨(k' - low) / 2, by omega⟩
      rw [csub_ok h1]
      simp only [ok_bind]
      rw [Vec.rd_ok (by rw [h3]; omega)]
      simp only [ok_bind]
      refine Ok.bind (P := fun (r : Vec Bool × BIT) => r.1.size = s.size ∧
        (∀ j, r.1.get j = (s'.get j && decide (j ≠ 2 * i))) ∧ TreeC low Sz r.1 r.2) ?_ ?_
      · refine Ok.ite (fun hbit => ?_) (fun hbit => ?_)
        · rw [Vec.wr_ok (by rw [h3]; omega)]
          simp only [ok_bind]
          have hget : ∀ j, (s'.set (k' - low) false).get j = (s'.get j && decide (j ≠ 2 * i)) := by
            intro j
            rw [Vec.get_set]
            by_cases hj : j = 2 * i
            · rw [if_pos ⟨by omega, by rw [h3]; omega⟩]; simp [hj]
            · rw [if_neg (by omega)]; simp [hj]
          refine Ok.bind (BIT.update_ok (a' := fun i' => if (s'.set (k' - low) false).get (2 * i') then ((low + 2 * i' : ℕ) : ℤ) else 0)
            (BIT.small_sieve h6.1) h6.2 h1 (by omega) ?_) (fun t'' ht'' => Ok.pure ⟨by rw [Vec.size_set]; exact h3, hget, h6.1, ht''⟩)
          intro i'
          have e : (k' - low) / 2 = i := by omega
          rw [e, hget]
          by_cases hii : i' = i
          · subst hii
            have e2 : k' - low = 2 * i' := by omega
            rw [e2] at hbit
            rw [hi]; simp [hbit]
          · have : ¬ 2 * i' = 2 * i := by omega
            simp [hii]
        · refine Ok.pure ⟨h3, fun j => ?_, h6⟩
          by_cases hj : j = 2 * i
          · subst hj
            have e2 : k' - low = 2 * i := by omega
            rw [e2] at hbit
            simpa using hbit
          · simp [hj]
      · rintro ⟨s'', t''⟩ ⟨a1, a2, a3⟩
        dsimp only at a1 a2 a3 ⊢
        rw [fit_ok (by omega), ok_bind]
        refine Ok.pure ⟨⟨?_, ?_, a1, ?_, ?_, a3⟩, ?_⟩
        · show low ≤ k' + step; omega
        · show (k' + step) % step = _
          rw [Nat.add_mod_right]; exact h2
        · intro n h6 h7
          rw [← h2]
          exact mod_ne_between (by omega) h7
        · intro n h6 h7
          dsimp only
          rw [a2]
          by_cases hn : n = k'
          · have e2 : n - low = 2 * i := by omega
            rw [e2]
            subst hn
            constructor
            · intro h; simp at h
            · rintro ⟨-, h8⟩; exact absurd h2 (h8 (by omega))
          · have e2 : n - low ≠ 2 * i := by omega
            rw [show (s'.get (n - low) && decide (n - low ≠ 2 * i)) = s'.get (n - low) by simp [e2], h5 n h6 h7]
            refine and_congr_right (fun _ => ⟨fun h8 h9 => ?_, fun h8 h9 => h8 (by omega)⟩)
            rcases Nat.lt_or_ge n k' with h10 | h10
            · exact h8 h10
            · rw [← h2]; exact mod_ne_between (by omega) h9
        · show high - (k' + step) < high - k'; omega
    · refine Ok.pure ⟨h3, ⟨by omega, h2, h4⟩, fun n h6 h7 => ?_, h6⟩
      rw [h5 n h6 h7]
      exact and_congr_right (fun _ => ⟨fun h8 => h8 (by omega), fun h8 _ => h8⟩)

/-- Conditions for a segment. -/
structure SegC (g : Cfg) (tree : Bool) (w limit low high Sz : ℕ) : Prop where
  good : g.Good
  gS : g.S + 1 = π g.y ∨ π g.y ≤ g.c
  c1 : 1 ≤ g.c ∨ π g.y ≤ g.c
  cy : g.c ≤ π g.y
  l1 : 1 ≤ low
  lt : low < high
  sz : high - low ≤ Sz
  lim : high ≤ limit
  fit : low + Sz < 2 ^ 63
  w63 : W63 g w limit
  odd : tree = true → g.c + 1 < π g.y → low % 2 = 1 ∧ Sz % 2 = 0

/-- The state in the loop over `b`; `N` is the size of the vectors. -/
structure InvC (S : AccSpec R) (g : Cfg) (tree : Bool) (low high Sz N b : ℕ) (st : StC R) : Prop where
  sv : SvC low low high b st.sieve
  ssz : st.sieve.size = Sz
  nsz : st.next.size = N
  psz : st.phi.size = N
  nx : ∀ j, 1 ≤ j → j ≤ g.c → Next (prm j) (prm j) high (st.next.get j)
  nx2 : ∀ j, j < N → g.Live (hS b low high j) j → Next (prm j) (prm j * 2) (hS b low high j) (st.next.get j)
  tr : tree = true → TreeC low (Sz / 2) st.sieve st.tree
  inv : ∃ s2z muz, SegInv coef g 1 (hS b low high) N s2z muz (fun j => st.phi.get j) ∧ S.Rep st.s2 s2z

/-- Common end of `body3` and `body4`. -/
theorem InvC.next {tree : Bool} {w limit low high Sz N b k : ℕ} {st : StC R} {s' : Vec Bool} {t' : BIT} {s2' : R} {s2z : ℤ} {muz : ℕ → ℤ}
    (hS : SegC g tree w limit low high Sz) (hI : InvC S g tree low high Sz N b st) (hb : 2 ≤ b) (hbN : b < N) (hc : g.c < b)
    (hlive : g.Live low b)
    (hi : SegInv coef g 1 (PS.hS b low high) N s2z muz (fun j => st.phi.get j))
    (hs2 : S.Rep s2' (s2z + ∑ m ∈ g.Lv b low high, coef b m * (st.phi.get b + Rs b low (g.xn b m + 1))))
    (h1 : s'.size = st.sieve.size) (h2 : Next (prm b) (prm b * 2) high k)
    (h3 : ∀ n, low ≤ n → n < high → (s'.get (n - low) = true ↔ st.sieve.get (n - low) = true ∧ n % (prm b * 2) ≠ prm b % (prm b * 2)))
    (h4 : tree = true → TreeC low (Sz / 2) s' t') :
    InvC S g tree low high Sz N (b + 1)
      ⟨s', st.next.set b k, st.phi.set b (st.phi.get b + Rs b low high), s2', t'⟩ := by
  refine ⟨hI.sv.next_odd hb h1 h3, h1.trans hI.ssz, ?_, ?_, ?_, ?_, h4, ?_⟩
  · dsimp only; rw [Vec.size_set]; exact hI.nsz
  · dsimp only; rw [Vec.size_set]; exact hI.psz
  · intro j hj1 hj2
    dsimp only
    rw [Vec.get_set, if_neg (by omega)]
    exact hI.nx j hj1 hj2
  · intro j hj hlj
    dsimp only
    rw [Vec.get_set]
    by_cases h : b = j
    · subst h
      rw [if_pos ⟨rfl, by rw [hI.nsz]; exact hbN⟩]
      rw [show PS.hS (b + 1) low high b = high by simp [PS.hS]]
      exact h2
    · rw [if_neg (by omega)]
      have e : PS.hS (b + 1) low high j = PS.hS b low high j := by
        rw [← hS_update, Function.update_of_ne (by omega)]
      rw [e] at hlj ⊢
      exact hI.nx2 j hj hlj
  · refine ⟨_, fun j => if j = b then muz b + g.Mu coef b low high else muz j, ?_, hs2⟩
    rw [← hS_update]
    refine hi.step hS_self hbN hS.l1 hS.lt.le hlive (fun j hj => rfl) (fun j hj => ?_)
    dsimp only
    rw [Vec.get_set]
    by_cases h : b = j
    · subst h
      rw [if_pos ⟨rfl, by rw [hI.psz]; exact hbN⟩, if_pos rfl]
    · rw [if_neg (by omega), if_neg (by omega)]

theorem body3_ok {w limit low high Sz N n b : ℕ} {st : StC R} {primes lpf : Vec ℕ} {mu : Vec ℤ}
    (hS : SegC g false w limit low high Sz) (hA : AccHyp S g 1 limit)
    (hT : Tab g.y mu lpf) (hP : PrimeTable primes n) (hn : π g.y ≤ n) (hN : N = π g.y + 1) (hc : g.c < b)
    (hb : b < π g.y) (hI : InvC S g false low high Sz N b st) :
    Ok (body3 w g.x g.y low high primes lpf mu b st) (fun r =>
      (r.1 = true → ¬ g.Live low b ∧ InvC S g false low high Sz N b r.2) ∧
      (r.1 = false → InvC S g false low high Sz N (b + 1) r.2)) := by
  have hp := prm_pos b
  have hl1 := hS.l1
  have hlt := hS.lt
  have hW := hS.w63
  have hst := hW.st
  have hlim := hS.lim
  have hpy := prm_lt_y (g := g) (b := b) (by omega) hb
  have hc1 : 1 ≤ g.c := by have := hS.c1; omega
  have hbS : b ≤ g.S := by have := hS.gS; omega
  unfold body3
  rw [hP.rd (by omega) (by omega)]
  simp only [ok_bind]
  rw [fit_ok (hW.mul hS.good hpy hS.lim), ok_bind, cdiv_ok (Nat.mul_pos hp (by omega))]
  simp only [ok_bind]
  rw [cdiv_ok hp]
  simp only [ok_bind]
  rw [fit_ok (hW.mul hS.good hpy (hlt.le.trans hS.lim)), ok_bind, cdiv_ok (Nat.mul_pos hp (by omega))]
  simp only [ok_bind]
  have hlv := live_iff (g := g) (low := low) hbS hc hb.le
  refine Ok.ite (fun hj => Ok.pure ⟨fun _ => ⟨by rw [hlv]; omega, hI⟩, fun h => by simp at h⟩) (fun hj => ?_)
  have hlive : g.Live low b := by rw [hlv]; omega
  obtain ⟨s2z, muz, hi, hs2⟩ := hI.inv
  have hH := leafHyp_of hA hS.good hi hS_self (by omega) le_rfl hl1 hS.lim hlive
  have hF := phiFit_of hi hS_self (by omega) hl1 hS.lim hW.ll
  rw [Vec.rd_ok (by rw [hI.psz]; omega)]
  simp only [ok_bind]
  have hR := range_A (g := g) (low := low) (high := high) (by omega) hbS hc hb.le hl1 hlt
  have hJ : ∀ t, JS 1 low low b (st.phi.get b) (0, st.phi.get b) (t + 1) := fun t => ⟨rfl, by simp, by dsimp only; omega, by simp⟩
  refine Ok.bind (leavesA_ok (par := false) (S := S) (muz := 0) (advance_ok (phib := st.phi.get b) (by omega) hF hI.sv.svR) hT hR hH le_rfl (by simp) (hW.yy hS.good)
    (s := (((0, st.phi.get b), ⟨st.s2, ofInt 0⟩) : (ℕ × ℤ) × Acc R)) ?_ hJ hs2 (by simp)) ?_
  · obtain ⟨t, ht⟩ : ∃ t, high - low = t + 1 := ⟨high - low - 1, by omega⟩
    rw [ht]; exact hJ t
  rintro ⟨s, a⟩ hl
  dsimp only
  refine Ok.bind (sumTo_ok (hi := high - low) hI.sv.svR (by omega) hF hl.top (by omega) (by omega)) ?_
  rintro ⟨i, phi⟩ ⟨-, hphi⟩
  dsimp only at hphi ⊢
  rw [show low + (high - low) = high by omega] at hphi
  rw [Vec.wr_ok (by rw [hI.psz]; omega)]
  simp only [ok_bind]
  rw [Vec.rd_ok (by rw [hI.nsz]; omega)]
  simp only [ok_bind]
  rw [fit_ok (by omega), ok_bind]
  have hnx := hI.nx2 b (by omega) (by rw [hS_self]; exact hlive)
  rw [hS_self] at hnx
  refine Ok.bind (crossC_ok (p := prm b) le_rfl hI.sv.size (by omega) hlt.le (by omega) hnx) ?_
  rintro ⟨k, s'⟩ ⟨a1, a2, a3⟩
  dsimp only at a1 a2 a3 ⊢
  rw [Vec.wr_ok (by rw [hI.nsz]; omega)]
  simp only [ok_bind]
  refine Ok.pure ⟨fun h => by simp at h, fun _ => ?_⟩
  rw [hphi]
  exact hI.next hS (by omega) (by omega) hc hlive hi hl.s2 a1 a2 a3 (by simp)

theorem body4_ok {w limit low high Sz N n b : ℕ} {st : StC R} {primes lpf : Vec ℕ} {mu : Vec ℤ}
    (hS : SegC g true w limit low high Sz) (hA : AccHyp S g 1 limit)
    (hT : Tab g.y mu lpf) (hP : PrimeTable primes n) (hn : π g.y ≤ n) (hN : N = π g.y + 1) (hc : g.c < b)
    (hb : b < π g.y) (hI : InvC S g true low high Sz N b st) :
    Ok (body4 w g.x g.y low high primes lpf mu b st) (fun r =>
      (r.1 = true → ¬ g.Live low b ∧ InvC S g true low high Sz N b r.2) ∧
      (r.1 = false → InvC S g true low high Sz N (b + 1) r.2)) := by
  have hp := prm_pos b
  have hl1 := hS.l1
  have hlt := hS.lt
  have hsz := hS.sz
  have hW := hS.w63
  have hst := hW.st
  have hlim := hS.lim
  have hpy := prm_lt_y (g := g) (b := b) (by omega) hb
  have hc1 : 1 ≤ g.c := by have := hS.c1; omega
  have hbS : b ≤ g.S := by have := hS.gS; omega
  obtain ⟨hodd, heven⟩ := hS.odd rfl (by omega)
  have hT4 := hI.tr rfl
  unfold body4
  rw [hP.rd (by omega) (by omega)]
  simp only [ok_bind]
  rw [fit_ok (hW.mul hS.good hpy hS.lim), ok_bind, cdiv_ok (Nat.mul_pos hp (by omega))]
  simp only [ok_bind]
  rw [cdiv_ok hp]
  simp only [ok_bind]
  rw [fit_ok (hW.mul hS.good hpy (hlt.le.trans hS.lim)), ok_bind, cdiv_ok (Nat.mul_pos hp (by omega))]
  simp only [ok_bind]
  have hlv := live_iff (g := g) (low := low) hbS hc hb.le
  refine Ok.ite (fun hj => Ok.pure ⟨fun _ => ⟨by rw [hlv]; omega, hI⟩, fun h => by simp at h⟩) (fun hj => ?_)
  have hlive : g.Live low b := by rw [hlv]; omega
  obtain ⟨s2z, muz, hi, hs2⟩ := hI.inv
  have hH := leafHyp_of hA hS.good hi hS_self (by omega) le_rfl hl1 hS.lim hlive
  have hF := phiFit_of hi hS_self (by omega) hl1 hS.lim hW.ll
  rw [Vec.rd_ok (by rw [hI.psz]; omega)]
  simp only [ok_bind]
  have hR := range_A (g := g) (low := low) (high := high) (by omega) hbS hc hb.le hl1 hlt
  have hAdv : AdvOk (fun (_ : Unit) _ => True) (fun stop s => do
      let sum ← st.tree.sum stop
      let phi ← fitI w (st.phi.get b + sum)
      pure (phi, s)) low b low high (st.phi.get b) := by
    refine ⟨fun _ _ _ _ _ => trivial, fun stop s _ h2 _ => ?_⟩
    have hf := hF (low + stop + 1) (by omega) (by omega)
    rw [treeC_sum hI.sv (by omega) hodd hT4 h2 (by omega), ok_bind, fitI_ok (le_trans (neg_nonpos.2 (by positivity)) hf.1) hf.2, ok_bind]
    exact Ok.pure ⟨rfl, trivial⟩
  refine Ok.bind (leavesA_ok (par := false) (S := S) (muz := 0) hAdv hT hR hH le_rfl (by simp) (hW.yy hS.good)
    (s := (((), ⟨st.s2, ofInt 0⟩) : Unit × Acc R)) trivial (fun _ => trivial) hs2 (by simp)) ?_
  rintro ⟨s, a⟩ hl
  dsimp only
  rw [csub_ok (by omega)]
  simp only [ok_bind]
  have hf := hF high hlt.le le_rfl
  rw [treeC_sum hI.sv (by omega) hodd hT4 (by omega) (by omega), ok_bind,
    show low + (high - 1 - low) + 1 = high by omega, fitI_ok (le_trans (neg_nonpos.2 (by positivity)) hf.1) hf.2, ok_bind, Vec.wr_ok (by rw [hI.psz]; omega)]
  simp only [ok_bind]
  rw [Vec.rd_ok (by rw [hI.nsz]; omega)]
  simp only [ok_bind]
  rw [fit_ok (by omega), ok_bind]
  have hnx := hI.nx2 b (by omega) (by rw [hS_self]; exact hlive)
  rw [hS_self] at hnx
  refine Ok.bind (crossT_ok (by omega) hI.sv.size hlt.le hnx hodd hT4 (by omega) (by omega)) ?_
  rintro ⟨k, s', t'⟩ ⟨a1, a2, a3, a4⟩
  dsimp only at a1 a2 a3 a4 ⊢
  rw [Vec.wr_ok (by rw [hI.nsz]; omega)]
  simp only [ok_bind]
  refine Ok.pure ⟨fun h => by simp at h, fun _ => ?_⟩
  exact hI.next hS (by omega) (by omega) hc hlive hi hl.s2 a1 a2 a3 (fun _ => a4)

/-- The state between two segments. -/
structure InvTC (S : AccSpec R) (g : Cfg) (low Sz N : ℕ) (st : StC R) : Prop where
  ssz : st.sieve.size = Sz
  nsz : st.next.size = N
  psz : st.phi.size = N
  nx : ∀ j, 1 ≤ j → j ≤ g.c → Next (prm j) (prm j) low (st.next.get j)
  nx2 : ∀ j, j < N → g.Live low j → Next (prm j) (prm j * 2) low (st.next.get j)
  inv : ∃ s2z muz, SegInv coef g 1 (fun _ => low) N s2z muz (fun j => st.phi.get j) ∧ S.Rep st.s2 s2z

theorem preC_ok {low high n N : ℕ} {next primes : Vec ℕ} {s : Vec Bool} (hP : PrimeTable primes n) (hcn : g.c ≤ n) (hlh : low < high)
    (hN : next.size = N) (hcN : g.c < N) (hsz : high - low ≤ s.size) (hs : ∀ i, i < s.size → s.get i = true)
    (hnx : ∀ j, 1 ≤ j → j ≤ g.c → Next (prm j) (prm j) low (next.get j))
    (h63 : ∀ j, 1 ≤ j → j ≤ g.c → high + prm j < 2 ^ 63) :
    Ok (preC g.c low high primes (next, s)) (fun r => SvC low low high (g.c + 1) r.2 ∧ r.2.size = s.size ∧ r.1.size = N ∧
      (∀ j, 1 ≤ j → j ≤ g.c → Next (prm j) (prm j) high (r.1.get j)) ∧ ∀ j, g.c < j → r.1.get j = next.get j) := by
  unfold preC
  refine (forUp_ok (fun b (st : Vec ℕ × Vec Bool) => SvC low low high b st.2 ∧ st.2.size = s.size ∧ st.1.size = N ∧
      (∀ j, 1 ≤ j → j < b → Next (prm j) (prm j) high (st.1.get j)) ∧ ∀ j, b ≤ j → st.1.get j = next.get j) ?_ (by omega) ?_).mono ?_
  · refine ⟨⟨hsz, le_rfl, fun n h1 h2 => ?_⟩, rfl, hN, fun j h1 h2 => by omega, fun _ _ => rfl⟩
    dsimp only
    rw [hs _ (by omega)]
    exact ⟨fun _ i hi hi' => by omega, fun _ => rfl⟩
  · rintro b ⟨next', s'⟩ h1 h2 ⟨b1, b2, b3, b4, b5⟩
    dsimp only at b1 b2 b3 b4 b5 ⊢
    rw [Vec.rd_ok (by omega)]
    simp only [ok_bind]
    rw [hP.rd h1 (by omega)]
    simp only [ok_bind]
    have h3 := hnx b h1 (by omega)
    rw [← b5 b le_rfl] at h3
    refine Ok.bind (crossC_ok (p := prm b) le_rfl b1.size (prm_pos b) hlh.le (h63 b h1 (by omega)) h3) ?_
    rintro ⟨k, s''⟩ ⟨a1, a2, a3⟩
    dsimp only at a1 a2 a3 ⊢
    rw [Vec.wr_ok (by omega)]
    simp only [ok_bind]
    refine Ok.pure ⟨b1.next_all h1 a1 a3, a1.trans b2, ?_, ?_, ?_⟩
    · dsimp only; rw [Vec.size_set]; exact b3
    · intro j hj1 hj2
      dsimp only
      rw [Vec.get_set]
      by_cases h : b = j
      · subst h; rw [if_pos ⟨rfl, by omega⟩]; exact a2
      · rw [if_neg (by omega)]; exact b4 j hj1 (by omega)
    · intro j hj
      dsimp only
      rw [Vec.get_set, if_neg (by omega)]
      exact b5 j (by omega)
  · rintro ⟨next', s'⟩ ⟨b1, b2, b3, b4, b5⟩
    exact ⟨b1, b2, b3, fun j h1 h2 => b4 j h1 (by omega), fun j h => b5 j (by omega)⟩

/-- No leaf belongs to the largest prime. -/
theorem dead_top {low j : ℕ} (hS : g.S + 1 = π g.y ∨ π g.y ≤ g.c) (hj : π g.y ≤ j) : ¬ g.Live low j := by
  rintro ⟨h1, h2, h3⟩
  have hj' : j = π g.y := by omega
  rw [if_neg (by omega)] at h3
  obtain ⟨q, h4, h5, h6, -⟩ := h3
  have h8 := pi_mono (h6.trans (min_le_right _ _))
  have h9 := prm_le_prm (i := π q) (j := j) (by omega)
  rw [prm_pi h4] at h9
  omega

theorem segmentC_ok {tree : Bool} {w limit low Sz N n : ℕ} {st : StC R} {primes lpf : Vec ℕ} {mu : Vec ℤ}
    (hS : SegC g tree w limit low (min (low + Sz) limit) Sz) (hA : AccHyp S g 1 limit)
    (hT : Tab g.y mu lpf) (hP : PrimeTable primes n) (hn : π g.y ≤ n) (hN : N = π g.y + 1) (hI : InvTC S g low Sz N st) :
    Ok (segmentC tree w g.x g.y g.c (π g.y) Sz limit primes lpf mu low st) (InvTC S g (min (low + Sz) limit) Sz N) := by
  unfold segmentC
  rw [fit_ok hS.fit, ok_bind]
  dsimp only
  set high := min (low + Sz) limit with hhigh
  have hlt := hS.lt
  have hl1 := hS.l1
  have hcy := hS.cy
  refine Ok.bind (preC_ok (g := g) hP (by omega) hlt hI.nsz (by omega) (s := Vec.mk' st.sieve.size true) ?_ ?_ hI.nx ?_) ?_
  · rw [Vec.size_mk', hI.ssz]; exact hS.sz
  · intro i hi
    rw [Vec.size_mk'] at hi
    exact Vec.get_mk' _ _ _ hi
  · intro j hj1 hj2
    have h1 := (prm_le_iff_le_pi (n := g.y) hj1).2 (by omega)
    have h2 := hS.w63.st
    have h3 := hS.lim
    omega
  rintro ⟨next, s⟩ ⟨h1, h2, h3, h4, h5⟩
  dsimp only at h1 h2 h3 h4 h5 ⊢
  rw [Vec.size_mk', hI.ssz] at h2
  refine Ok.bind (P := fun t => tree = true → TreeC low (Sz / 2) s t) ?_ (fun t ht => ?_)
  · refine Ok.ite (fun h => ?_) (fun h => Ok.pure (fun h' => absurd h' h))
    have hfit := hS.fit
    refine (BIT.init_ok (b := fun i => s.get (2 * i)) (by omega) (fun i hi => Vec.rd_ok (by omega))).mono (fun t ht _ => ?_)
    rw [h2] at ht
    exact ⟨by omega, ht⟩
  · obtain ⟨s2z, muz, hi, hs2⟩ := hI.inv
    have hinit : InvC S g tree low high Sz N (g.c + 1) ({ st with sieve := s, next := next, tree := t } : StC R) := by
      refine ⟨h1, h2, h3, hI.psz, h4, fun j hj hlv => ?_, ht, s2z, muz, hi.start hS.good le_rfl hlt.le, hs2⟩
      have e : PS.hS (g.c + 1) low high j = low := by unfold PS.hS; rw [if_neg (by have := hlv.1; omega)]
      rw [e] at hlv ⊢
      dsimp only
      rw [h5 j hlv.1]
      exact hI.nx2 j hj hlv
    refine Ok.bind (forBrk_ok (fun b st => InvC S g tree low high Sz N b st)
      (fun b st => ¬ g.Live low b ∧ InvC S g tree low high Sz N b st) hinit (fun b st' b1 b2 b3 => ?_)) ?_
    · cases tree
      · exact body3_ok hS hA hT hP hn hN (by omega) b2 b3
      · exact body4_ok hS hA hT hP hn hN (by omega) b2 b3
    · rintro ⟨brk, b, st'⟩ ⟨h6, h7⟩
      dsimp only at h6 h7 ⊢
      refine Ok.pure ?_
      have hend : InvC S g tree low high Sz N b st' ∧ ∀ j, b ≤ j → ¬ g.Live low j := by
        cases hbrk : brk
        · have h8 := h7 hbrk
          exact ⟨h8.2, fun j hj => dead_top hS.gS (by omega)⟩
        · have h8 := h6 hbrk
          exact ⟨h8.2.2.2, fun j hj hl => h8.2.2.1 (hl.down (by omega) hj)⟩
      obtain ⟨hE, hd⟩ := hend
      refine ⟨hE.ssz, hE.nsz, hE.psz, hE.nx, fun j hj hl => ?_, ?_⟩
      · have hjb : j < b := by
          by_contra hcon
          exact hd j (by omega) (hl.anti hl1 hlt.le)
        have := hE.nx2 j hj
        unfold PS.hS at this
        rw [if_pos hjb] at this
        exact this hl
      · obtain ⟨s2z, muz, hi, hs2⟩ := hE.inv
        refine ⟨s2z, muz, hi.skip hS.good ?_ ?_ le_rfl hl1 hlt.le (fun j h _ => hd j h) (b := b) (low := low)
          (fun j hj => dead_top hS.gS (by omega)), hs2⟩
        · intro j hj; unfold PS.hS; rw [if_pos hj]
        · intro j hj; unfold PS.hS; rw [if_neg (by omega)]

theorem nextPow2_eq {n : ℕ} (h1 : 1 ≤ n) (h2 : n ≤ 2 ^ 63) : nextPow2 n = 2 ^ Nat.size (n - 1) := by
  have h3 : (BitVec.ofNat 64 n).toNat = n := by
    rw [BitVec.toNat_ofNat]; exact Nat.mod_eq_of_lt (by omega)
  unfold nextPow2
  rw [nextPowerOf2_eq _ (by intro h; rw [h] at h3; simp at h3; omega) (by rw [h3]; exact h2), h3]

theorem nextPow2_le {n : ℕ} (h1 : 1 ≤ n) (h2 : n ≤ 2 ^ 63) : nextPow2 n ≤ 2 * n := by
  rw [nextPow2_eq h1 h2]
  rcases Nat.eq_zero_or_pos (n - 1) with h0 | h0
  · rw [h0]; simp; omega
  · have h4 : 0 < Nat.size (n - 1) := Nat.size_pos.2 h0
    have h5 : 2 ^ (Nat.size (n - 1) - 1) ≤ n - 1 := Nat.lt_size.1 (by omega)
    have h6 : 2 ^ Nat.size (n - 1) = 2 * 2 ^ (Nat.size (n - 1) - 1) := by
      rw [← pow_succ']; congr 1; omega
    omega

theorem nextPow2_pos {n : ℕ} (h1 : 1 ≤ n) (h2 : n ≤ 2 ^ 63) : 0 < nextPow2 n ∧ (2 ≤ n → nextPow2 n % 2 = 0) := by
  rw [nextPow2_eq h1 h2]
  refine ⟨by positivity, fun h => ?_⟩
  obtain ⟨k, hk⟩ : ∃ k, Nat.size (n - 1) = k + 1 := by
    refine ⟨Nat.size (n - 1) - 1, ?_⟩
    have : 0 < Nat.size (n - 1) := Nat.size_pos.2 (by omega)
    omega
  rw [hk, pow_succ]; omega

theorem s2LmoC_ok {tree : Bool} {w x y c : ℕ} {primes lpf : Vec ℕ} {mu : Vec ℤ} (hy : 1 ≤ y) (hyx : y * y ≤ x) (hx : x < 2 ^ 63)
    (hy31 : y < 2 ^ 31) (hz62 : x / y < 2 ^ 62)
    (hll : (x / y + 1) * (x / y + 1) < 2 ^ w)
    (hc : 1 ≤ c ∨ π y ≤ c) (hcy : c ≤ π y)
    (hA : AccHyp S (cfg x y c (π y - 1)) 1 (x / y + 1)) (hT : Tab y mu lpf) (hP : PrimeTable primes (π y)) :
    Ok (s2LmoC R tree w x y c primes lpf mu) (fun r => S.Rep r (S2Sum x y c)) := by
  have h0 : S.Rep (ofInt 0 : R) 0 := S.ofInt 0 (hA.phi 0 le_rfl (by positivity))
  set g := cfg x y c (π y - 1) with hgd
  have hg : g.Good := ⟨hy, hyx, by
    have h1 := pi_mono (Nat.sqrt_le_self y)
    show π (Nat.sqrt y) ≤ π y - 1 + 1
    omega⟩
  have hgS : g.S + 1 = π g.y ∨ π g.y ≤ g.c := by
    show π y - 1 + 1 = π y ∨ π y ≤ c
    omega
  have hyz : y ≤ x / y := (Nat.le_div_iff_mul_le hy).2 hyx
  have hzx : x / y ≤ x := Nat.div_le_self _ _
  have hW : W63 g w (x / y + 1) := ⟨show x < _ by omega, le_rfl, by show x / y + 1 + 2 * y + 2 < _; omega, hll⟩
  unfold s2LmoC
  rw [cdiv_ok hy]
  simp only [ok_bind]
  rw [fit_ok (by omega), ok_bind]
  have hyprm : y < prm (π y + 1) := (lt_prm_iff_pi_lt (by omega)).2 (Nat.lt_succ_self _)
  rw [piBsearch_ok hP y hyprm]
  simp only [ok_bind]
  generalize hz : x / y = z at *
  have hsq1 : 1 ≤ Nat.sqrt (z + 1) := Nat.sqrt_pos.2 (by omega)
  have hsq2 : Nat.sqrt (z + 1) ≤ z + 1 := Nat.sqrt_le_self _
  obtain ⟨hpos, heven⟩ := nextPow2_pos hsq1 (by omega)
  have hSzU : nextPow2 (Nat.sqrt (z + 1)) < 2 ^ 33 := by
    have h1 := nextPow2_le hsq1 (by omega)
    have h2 : Nat.sqrt (z + 1) < 2 ^ 32 := by rw [Nat.sqrt_lt']; omega
    omega
  have heven' : c + 1 < π y → nextPow2 (Nat.sqrt (z + 1)) % 2 = 0 := by
    intro h
    apply heven
    have h3 : 3 ≤ y := by
      by_contra hcon
      have h4 : π y ≤ π 2 := pi_mono (by omega)
      have : π 2 = 1 := by decide +kernel
      omega
    rw [Nat.le_sqrt]; omega
  generalize nextPow2 (Nat.sqrt (z + 1)) = Sz at *
  refine Ok.bind (forStep_ok (fun low st => (c + 1 < π y → low % 2 = 1) ∧ InvTC S g (min low (z + 1)) Sz (π y + 1) st)
    (fun st => S.Rep st.s2 (S2Sum x y c)) hpos ?_ (fun low st h1 h2 h3 => ?_) (fun low st h1 h2 h3 => ?_)) (fun st hst => Ok.pure hst)
  · refine ⟨fun _ => rfl, ?_⟩
    rw [show min 1 (z + 1) = 1 by omega]
    refine ⟨by simp, hP.1, by simp [hP.1], fun j h1 h2 => ?_, fun j h1 h2 => ?_, 0, fun _ => 0, ?_, h0⟩
    · dsimp only
      rw [hP.2.2 j h1 (h2.trans hcy)]
      exact next_first_all (prm_pos j)
    · dsimp only
      rw [hP.2.2 j (by have := h2.1; omega) (by omega)]
      exact next_first_odd (prm_pos j)
    · refine SegInv.init (fun _ _ => rfl) (fun j hj => ?_)
      dsimp only
      exact Vec.get_mk' _ _ _ (by rw [hP.1]; exact hj)
  · rw [show min low (z + 1) = low by omega] at h3
    have hseg : SegC g tree w (z + 1) low (min (low + Sz) (z + 1)) Sz := by
      refine ⟨hg, hgS, hc, hcy, h1, by omega, by omega, by omega, by omega, hW, fun _ h => ?_⟩
      exact ⟨h3.1 h, heven' h⟩
    refine (segmentC_ok hseg hA hT hP le_rfl rfl h3.2).mono (fun st' h4 => ⟨fun h => ?_, h4⟩)
    have := h3.1 h
    have := heven' h
    omega
  · rw [show min low (z + 1) = z + 1 by omega] at h3
    obtain ⟨s2z, muz, hi, hs2⟩ := h3.2.inv
    have h5 : s2z = S2Sum x y c := by
      rw [hi.s2E, ← cfg_total hg, hz]
      rfl
    rw [← h5]; exact hs2

end Lmo
end PS
