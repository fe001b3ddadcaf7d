import Verif.Proof.LoadBalancer
import Verif.Proof.Omp
import Verif.Model.S2Hard

/-!
# The loop of the master cuts `[1, limit)` into disjoint intervals

The loop is run with a thread function that only looks at its interval.
-/

namespace PS
open Finset
open S2Hard

namespace Trace

/-- Counters as a result type. -/
instance : Res ℤ where
  ofInt z := z
  add a b := a + b
  sub a b := a - b
  mul a b := a * b
  phiSumR _ _ := .error (.thrown "not used")
  toI256 := I256.ofInt

/-- A thread that computes its interval and reports whether `n` lies in it. -/
def thread (limit n segmentSize segmentsPerThread threadNum low : ℕ) : M (ThreadRes ℤ) := do
  let (low, limit) ← interval segmentSize segmentsPerThread threadNum low limit
  pure ⟨if low ≤ n ∧ n < limit then 1 else 0, ⟨#[]⟩, ⟨#[]⟩⟩

theorem count_intervals {low D limit n : ℕ} (T : ℕ) (hl : low < limit) :
    (∑ i ∈ Ico 0 T, if low + D * i ≤ n ∧ n < min (low + D * i + D) limit then (1:ℤ) else 0) =
      if low ≤ n ∧ n < min (low + D * T) limit then 1 else 0 := by
  induction T with
  | zero => rw [if_neg (by omega)]; simp
  | succ T ih =>
    rw [Finset.sum_Ico_succ_top (by omega), ih, Nat.mul_succ]
    generalize D * T = E
    split_ifs <;> omega

theorem masterLoop_trace {w : ℕ} {sched : Scheduler} {log : Dbl → Dbl} {times : ℕ → ℕ → Dbl} {limit Mx z threads n : ℕ} {lb : LB}
    (hsch : sched.Valid) (hz : z < 2 ^ 62) (hlb : LB.Ok' z lb lb.minSize)
    (hlim : limit ≤ 2 ^ 60 ∨ limit ≤ 2 ^ 61 ∧ threads ≤ 2 ^ 24) :
    masterLoop w sched log times limit (thread limit n) ⟨0, 1, threads, lb.minSize, 1, lb, (0 : ℤ), Vec.mk' Mx 0⟩ =
      .ok (if 1 ≤ n ∧ n < limit then 1 else 0) := by
  suffices h : Ok (masterLoop w sched log times limit (thread limit n) ⟨0, 1, threads, lb.minSize, 1, lb, (0 : ℤ), Vec.mk' Mx 0⟩)
      (fun r => r = if 1 ≤ n ∧ n < limit then 1 else 0) by
    obtain ⟨r, h1, h2⟩ := h
    rw [h1, h2]
  have hsq : Nat.sqrt z < 2 ^ 31 := by rw [Nat.sqrt_lt']; omega
  unfold masterLoop
  refine loop_ok (fun (ms : MasterSt ℤ) => 1 ≤ ms.low ∧ LB.Ok' z ms.lb ms.segmentSize ∧ 1 ≤ ms.segmentsPerThread ∧ ms.threads ≤ max 1 threads ∧
      ms.s2 = if 1 ≤ n ∧ n < min ms.low limit then 1 else 0)
    (fun ms => limit - ms.low) _ ?_ (by dsimp only; omega) ?_
  · refine ⟨le_rfl, hlb, le_rfl, le_max_right _ _, ?_⟩
    dsimp only
    rw [if_neg (by omega)]
  · rintro ms ⟨h1, h3, h4, h6, h5⟩
    refine Ok.ite (fun hc => ?_) (fun hc => ?_)
    · obtain ⟨k, hk, hk9⟩ := h3.segP
      have hss : 0 < ms.segmentSize := by rw [hk]; positivity
      have hssB := h3.segB
      refine Ok.bind (shares_ok hss hc (by omega)) ?_
      rintro ⟨T, spt⟩ ⟨hT1, hspt1, hprod, hTm, hprod'⟩
      dsimp only at hT1 hspt1 hprod hTm hprod' ⊢
      have h63 : ms.low + 3 * (ms.segmentSize * spt * T) < 2 ^ 63 := by
        rcases hlim with hl | ⟨hl, ht⟩
        · omega
        · have : ms.segmentSize * T ≤ 2 ^ 32 * 2 ^ 24 := Nat.mul_le_mul (by omega) (by omega)
          omega
      refine Ok.bind (P := fun (res : Vec (ThreadRes ℤ)) => res.size = T ∧ ∀ i, i < T →
        (res.get i).s2 = (if ms.low + ms.segmentSize * spt * i ≤ n ∧
          n < min (ms.low + ms.segmentSize * spt * i + ms.segmentSize * spt) limit then 1 else 0) ∧ (res.get i).phi.size = 0) ?_ ?_
      · refine forUp_ok (fun k (res : Vec (ThreadRes ℤ)) => res.size = k ∧ ∀ i, i < k →
          (res.get i).s2 = (if ms.low + ms.segmentSize * spt * i ≤ n ∧
          n < min (ms.low + ms.segmentSize * spt * i + ms.segmentSize * spt) limit then 1 else 0) ∧ (res.get i).phi.size = 0)
          ⟨rfl, fun i hi => by omega⟩ (Nat.zero_le _) ?_
        rintro i res - hi ⟨a1, a2⟩
        unfold thread
        have hover : ms.segmentSize * spt * i + ms.segmentSize * spt ≤ ms.segmentSize * spt * T := by
          rw [← Nat.mul_succ]; exact Nat.mul_le_mul_left _ hi
        rw [interval_ok (by omega), ok_bind]
        simp only [pure_eq_ok, ok_bind]
        refine Ok.pure ⟨by rw [Vec.size_push, a1], fun j hj => ?_⟩
        rw [Vec.get_push]
        by_cases hji : j = i
        · rw [if_pos (by omega)]; subst hji; exact ⟨rfl, rfl⟩
        · rw [if_neg (by omega)]; exact a2 j (by omega)
      rintro res ⟨a1, a2⟩
      refine Ok.bind (ompFor_ok (fun a b : ℤ => a = b) (fun _ => True) (fun i => if ms.low + ms.segmentSize * spt * i ≤ n ∧
          n < min (ms.low + ms.segmentSize * spt * i + ms.segmentSize * spt) limit then (1:ℤ) else 0)
        (fun a b x y h h' => by subst h h'; rfl) rfl rfl trivial (hsch _ _ _)
        (fun i _ r z _ hi _ hr => ?_)) (fun s2 hs2 => ?_)
      · rw [Vec.rd_ok (by omega)]
        simp only [ok_bind]
        refine Ok.pure ⟨trivial, ?_⟩
        show r + (res.get i).s2 = _
        rw [(a2 i hi).1, hr]
      refine Ok.bind (P := fun q : ℤ × Vec ℤ => q.1 = s2) ?_ ?_
      · unfold reconstruct
        refine forUp_ok (fun _ (q : ℤ × Vec ℤ) => q.1 = s2) rfl (Nat.zero_le _) ?_
        rintro i ⟨q1, q2⟩ - hi hq
        rw [Vec.rd_ok (by omega)]
        simp only [ok_bind]
        rw [(a2 i hi).2]
        exact (forUp_ok' (fun _ (q : ℤ × Vec ℤ) => q.1 = s2) hq (fun j _ h1 h2 _ => by omega))
      rintro ⟨s2', pt'⟩ b1
      dsimp only at b1 ⊢
      subst b1
      rw [nextLow_ok hss (by omega), ok_bind]
      refine Ok.bind (LB.update_ok log (by omega) h3 hspt1 (range_map_ne hT1) hT1 (by omega)) ?_
      rintro ⟨lb', ss', spt'⟩ hup
      dsimp only at hup ⊢
      have hpos : 1 ≤ ms.segmentSize * spt * T := Nat.mul_pos (Nat.mul_pos hss hspt1) hT1
      refine Ok.pure ⟨⟨?_, hup.1, hup.2, ?_, ?_⟩, ?_⟩
      · show 1 ≤ ms.low + ms.segmentSize * spt * T; omega
      · show T ≤ max 1 threads; omega
      · dsimp only
        rw [hs2, h5, count_intervals T hc]
        split_ifs <;> omega
      · show limit - (ms.low + ms.segmentSize * spt * T) < limit - ms.low
        omega
    · refine Ok.pure ?_
      rw [h5]
      split_ifs <;> omega

end Trace
end PS
