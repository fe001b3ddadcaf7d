import Verif.Model.PiIter
import Verif.Proof.P2Iter
import Verif.Proof.Pi

/-!
# `pi(x)` with the primesieve library computes what `pi(x)` with the primes computes
-/

namespace PS
open Psv Psv.Mem Res

variable {B F : Prop} {env : Psv.Env} {H : Heaps} {R : Type} [Res R]

theorem s1MasterIt_ref (h : H.Good F) (sched : Scheduler) (xb yb x : ℕ) {y : ℕ} (hy : y < 2 ^ 62) (c : ℕ) :
    Ref B F (s1MasterIt R env H sched xb yb x y c) (s1Master R sched xb yb x y c) := by
  unfold s1MasterIt s1Master
  exact (generatePrimesIt_ref h yb (by omega)).bind (fun _ _ => Ref.refl)

theorem s1It_ref (h : H.Good F) (sched : Scheduler) (x : ℕ) {y : ℕ} (hy : y < 2 ^ 62) (c : ℕ) :
    Ref B F (s1It env H sched x y c) (s1 sched x y c) := by
  unfold s1It s1
  exact Ref.ite
    (fun _ => Ref.ite (fun _ => (s1MasterIt_ref h sched _ _ x hy c).bind (fun _ _ => Ref.refl))
      (fun _ => (s1MasterIt_ref h sched _ _ x hy c).bind (fun _ _ => Ref.refl)))
    (fun _ => (s1MasterIt_ref h sched _ _ x hy c).bind (fun _ _ => Ref.refl))

theorem fitI_inv {b : ℕ} {z w : ℤ} (h : fitI b z = .ok w) : w = z ∧ z < 2 ^ b := by
  unfold fitI at h
  split at h
  · exact ⟨(Except.ok.inj h).symm, by omega⟩
  · cases h

namespace S2Trivial

theorem threadIt_ref (h : H.Good F) (x : ℕ) {y : ℕ} (hy : y < 2 ^ 62) (sqrtz primec : ℕ) (threads : ℤ) (pi : PiTable) (sums : Vec ℕ)
    (i : ℕ) (acc : R) :
    Ref B F (threadIt env H x y sqrtz primec threads pi sums i acc) (thread x y sqrtz primec threads pi sums i acc) := by
  unfold threadIt thread
  refine Ref.same (fun s _ => Ref.same (fun interval _ => Ref.same (fun d _ => Ref.same (fun start hs => Ref.same (fun e _ => ?_)))))
  have h1 := fitI_inv hs
  exact Ref.ite (fun _ => Ref.refl) (fun _ => pIterFor_ref h [] (by omega) (by omega) _ _ _)

theorem s2TrivialIt_ref (h : H.Good F) (sched : Scheduler) (x : ℕ) {y : ℕ} (hy : y < 2 ^ 62) (z c : ℕ) (threads : ℤ) :
    Ref True F (s2TrivialIt env H sched x y z c threads) (s2Trivial sched x y z c threads) := by
  unfold s2TrivialIt s2Trivial ompIt omp
  refine (generatePrimeSumsIt_ref (h.sub 0) _ (by omega)).bind (fun sums _ => Ref.same (fun th _ => ?_))
  refine (PiTable.buildIt_ref ((h.sub 1).sub 0) (by omega)).bind (fun pi _ => Ref.same (fun primec _ => ?_))
  exact Ref.ompFor trivial (fun i _ acc => (threadIt_ref (((h.sub 1).sub 1).sub i) x hy _ _ _ _ _ i acc).bind (fun _ _ => Ref.refl))

end S2Trivial

namespace S2Easy

theorem ompIt_ref (h : H.Good F) (sched : Scheduler) (w : ℕ) (dv : ℕ → ℕ → M ℕ) (x : ℕ) {y : ℕ} (hy : y < 2 ^ 62) (z c : ℕ)
    (primes sums : Vec ℕ) : Ref B F (ompIt R env H sched w dv x y z c primes sums) (omp R sched w dv x y z c primes sums) := by
  unfold ompIt omp
  exact (PiTable.buildIt_ref h (by omega)).bind (fun _ _ => Ref.refl)

theorem s2EasyIt_ref (h : H.Good F) (sched : Scheduler) (x : ℕ) {y : ℕ} (hy : y < 2 ^ 62) (z c : ℕ) :
    Ref B F (s2EasyIt env H sched x y z c) (s2Easy sched x y z c) := by
  unfold s2EasyIt s2Easy
  refine (generatePrimesIt_ref (h.sub 0) _ (by omega)).bind (fun primes _ => ?_)
  refine (generatePrimeSumsIt_ref (h.sub 1) _ (by omega)).bind (fun sums _ => ?_)
  exact Ref.ite
    (fun _ => Ref.ite (fun _ => (ompIt_ref (h.sub 2) sched _ _ x hy z c _ _).bind (fun _ _ => Ref.refl))
      (fun _ => (ompIt_ref (h.sub 2) sched _ _ x hy z c _ _).bind (fun _ _ => Ref.refl)))
    (fun _ => (ompIt_ref (h.sub 2) sched _ _ x hy z c _ _).bind (fun _ _ => Ref.refl))

theorem s2EasyLibIt_ref (h : H.Good F) (sched : Scheduler) (x : ℕ) {y : ℕ} (hy : y < 2 ^ 62) (z c : ℕ) :
    Ref B F (s2EasyLibIt env H sched x y z c) (s2EasyLib sched x y z c) := by
  unfold s2EasyLibIt s2EasyLib
  refine (generatePrimesIt_ref (h.sub 0) _ (by omega)).bind (fun primes _ => ?_)
  refine (generatePrimeSumsIt_ref (h.sub 1) _ (by omega)).bind (fun sums _ => Ref.same (fun fastdiv _ => ?_))
  exact Ref.ite
    (fun _ => Ref.ite (fun _ => (ompIt_ref (h.sub 2) sched _ _ x hy z c _ _).bind (fun _ _ => Ref.refl))
      (fun _ => (ompIt_ref (h.sub 2) sched _ _ x hy z c _ _).bind (fun _ _ => Ref.refl)))
    (fun _ => (ompIt_ref (h.sub 2) sched _ _ x hy z c _ _).bind (fun _ _ => Ref.refl))

end S2Easy

namespace S2Hard

theorem cdiv_le {a b q : ℕ} (h : cdiv a b = .ok q) : q ≤ a := by
  unfold cdiv at h
  split at h
  · cases h
  · rw [← Except.ok.inj h]
    exact Nat.div_le_self _ _

theorem masterIt_ref [Inhabited R] (h : H.Good F) (e : Env) (x y z c : ℕ) (primes factors : Vec ℕ) (threads : ℤ) :
    Ref B F (masterIt R env H e x y z c primes factors threads) (master R e x y z c primes factors threads) := by
  unfold masterIt master
  refine Ref.same (fun th _ => Ref.same (fun limit hl => Ref.same (fun maxPrime hm => Ref.same (fun lb _ => ?_))))
  have h1 := P2.fit_inv hl
  have h2 := cdiv_le hm
  exact (PiTable.buildIt_ref h (by omega)).bind (fun _ _ => Ref.refl)

theorem idealNumThreads_ok (threads : ℤ) (n : ℕ) : ∃ k, idealNumThreads threads n (10 ^ 5) = .ok k := by
  unfold idealNumThreads
  dsimp only
  rw [if_neg (by norm_num)]
  exact ⟨_, rfl⟩

/-- If `z + 1` does not fit, the model reports it. -/
theorem master_overflow [Inhabited R] (e : Env) (x y : ℕ) {z : ℕ} (hz : 2 ^ 63 ≤ z + 1) (c : ℕ) (primes factors : Vec ℕ) (threads : ℤ) :
    master R e x y z c primes factors threads = .error .overflow := by
  unfold master
  obtain ⟨k, hk⟩ := idealNumThreads_ok threads z
  rw [hk, ok_bind, fit_error hz]
  rfl

/-- `S2_hard` after the construction of the factor table. -/
theorem s2HardIt_ref (h : H.Good F) (e : Env) (x y z c : ℕ) (threads : ℤ) :
    Ref True F (s2HardIt env H e x y z c threads) (s2Hard e x y z c threads) := by
  unfold s2HardIt s2Hard
  refine Ref.ite (fun _ => ?_) (fun _ => ?_)
  · refine (FactorTable.buildIt_ref (h.sub 0) _ _ y threads).bind (fun factors _ => Ref.same (fun maxPrime hm => ?_))
    have h2 := cdiv_le hm
    by_cases hz : z + 1 < 2 ^ 63
    · refine Ref.bind (m' := .ok (generatePrimes maxPrime)) (g := fun p => _) (storePrimes_ref h [1] (by omega)) (fun p hp => ?_)
      have hp := Except.ok.inj hp
      subst hp
      exact Ref.ite (fun _ => (masterIt_ref (h.sub 2) e x y z c _ _ threads).bind (fun _ _ => Ref.refl))
        (fun _ => (masterIt_ref (h.sub 2) e x y z c _ _ threads).bind (fun _ _ => Ref.refl))
    · refine Ref.not_plain ?_
      dsimp only
      rw [master_overflow e x y (by omega), master_overflow e x y (by omega)]
      rintro (⟨_, h⟩ | ⟨_, h⟩) <;> split at h <;> cases h
  · refine (FactorTable.buildIt_ref (h.sub 0) _ _ y threads).bind (fun factors _ => Ref.same (fun maxPrime hm => ?_))
    have h2 := cdiv_le hm
    by_cases hz : z + 1 < 2 ^ 63
    · refine (generatePrimesIt_ref (h.sub 1) _ (by omega)).bind (fun p _ => ?_)
      exact (masterIt_ref (h.sub 2) e x y z c _ _ threads).bind (fun _ _ => Ref.refl)
    · refine Ref.not_plain ?_
      unfold generatePrimesT fitVec
      simp only [master_overflow e x y (by omega : 2 ^ 63 ≤ z + 1)]
      rintro (⟨_, h⟩ | ⟨_, h⟩) <;> split at h <;> cases h

end S2Hard

namespace Pi

theorem s2It_ref (h : H.Good F) (e : Env) (x : ℕ) {y : ℕ} (hy : y < 2 ^ 62) (z c : ℕ) (threads : ℤ) :
    Ref True F (s2It env H e x y z c threads) (s2 e x y z c threads) := by
  unfold s2It s2
  refine (S2Trivial.s2TrivialIt_ref (h.sub 0) _ x hy z c threads).bind (fun t _ => ?_)
  refine Ref.bind (Ref.ite (fun _ => S2Easy.s2EasyLibIt_ref (h.sub 1) _ x hy z c) (fun _ => S2Easy.s2EasyIt_ref (h.sub 1) _ x hy z c))
    (fun s _ => ?_)
  exact (S2Hard.s2HardIt_ref (h.sub 2) _ x y z c threads).bind (fun _ _ => Ref.refl)

theorem piIt_ref (h : H.Good F) {e : Env} (hf : e.FP) (tiny : Vec PhiTiny.Tab) {x : ℕ}
    (hx : ∀ limit, getMaxX e.lib (e.alphaD x) = .ok limit → x ≤ limit → x < 2 ^ 106) (threads : ℤ) : Ref True F (piIt env H e tiny x threads) (pi e tiny x threads) := by
  unfold piIt pi
  refine Ref.ite (fun _ => Ref.refl) (fun h2 => ?_)
  have hx2 : 2 ≤ x := by omega
  dsimp only
  rw [Int.toNat_natCast]
  refine Ref.same (fun alpha ha => Ref.same (fun limit hl => Ref.ite (fun _ => Ref.refl) (fun hle => ?_)))
  rw [getAlpha_eq] at ha
  obtain rfl := Except.ok.inj ha
  have hx := hx limit hl (by omega)
  obtain ⟨h1, h2, h3⟩ := y_facts hf (by omega : 1 ≤ x) hx
  rw [irootM_eq 3 _ _ (by norm_num), ok_bind, ok_bind, y_eq hf (by omega) hx, ok_bind, ok_bind]
  generalize e.y x = y at *
  have hy62 : y < 2 ^ 62 := by nlinarith
  rw [cdiv_ok (by omega), ok_bind, ok_bind]
  refine Ref.same (fun c _ => ?_)
  refine (P2.p2It_ref (h.sub 0) tiny _ _ threads (by omega) hy62).bind (fun p2 _ => ?_)
  refine (s1It_ref (h.sub 1) _ x hy62 c).bind (fun s1 _ => ?_)
  refine (s2It_ref (h.sub 2) e x hy62 _ c threads).bind (fun s2 _ => ?_)
  exact (Ref.of_sim (P2.primeSumTinyIt_sim env (h [3]) hy62)).bind (fun _ _ => Ref.refl)

end Pi
end PS
