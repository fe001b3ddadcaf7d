import Verif.Model.Pi
import Verif.Proof.Roots
import Verif.Proof.Alpha
import Verif.Props.S1
import Verif.Props.P2
import Verif.Props.S2Trivial
import Verif.Props.S2Easy
import Verif.Props.S2Hard

/-!
# `pi(x)`
-/

namespace PS
open LawfulRes
local notation "π" => Nat.primeCounting

theorem rep_of_val {r : I256} {z : ℤ} (h : r.val = z) : Rep r z := by
  show r.val = I256.wrap z
  rw [← h, I256.wrap_of_inRange (I256.val_range r)]

theorem primeSum_le_sq (x : ℕ) : primeSum x ≤ x * x := by
  induction x with
  | zero => rw [primeSum_lt_two (by omega)]
  | succ n ih =>
    rw [primeSum_succ]
    split <;> nlinarith

/-- The final formula: if `S1` is off by `E`, so is the result. -/
theorem combine {x y c : ℕ} {E : ℤ} {s1 s2 p2 : I256} {t : ℕ} (hx : 1 ≤ x) (hy : 1 ≤ y) (hyx : y ≤ x)
    (hxy : x < (y + 1) ^ 3) (hc : c ≤ π y) (h1 : Rep s1 (S1Sum x y c + E)) (h2 : Rep s2 (S2Sum x y c))
    (h3 : Rep p2 (P2Sum x y)) (ht : t = primeSum y) (hy62 : y < 2 ^ 62) :
    Rep (I256.sub (I256.sub (I256.add (I256.add s1 s2) (I256.ofInt t)) (I256.ofInt 1)) p2) (primeSum x + E) := by
  have ht1 : t ≤ 2 ^ 62 * 2 ^ 62 := by
    rw [ht]
    exact le_trans (primeSum_le_sq y) (Nat.mul_le_mul (by omega) (by omega))
  have r1 : Rep (I256.ofInt (t : ℤ)) (t : ℤ) := rep_ofInt (R := I256) _ (by omega) (by omega)
  have r2 : Rep (I256.ofInt 1) 1 := rep_ofInt (R := I256) 1 (by norm_num) (by norm_num)
  have h := rep_sub _ _ _ _ (rep_sub _ _ _ _ (rep_add _ _ _ _ (rep_add _ _ _ _ h1 h2) r1) r2) h3
  have he := primeSum_eq x y c hx hy hyx hxy hc
  have : S1Sum x y c + E + S2Sum x y c + (t : ℤ) - 1 - P2Sum x y = primeSum x + E := by
    rw [he, ht]; ring
  rw [this] at h
  exact h

/-- `S1` where it uses `int256_t`, if `phi_sum(x, c)` is off by `E`. -/
theorem s1_off {x y c : ℕ} {E : ℤ} (h1 : Ok (phiSumM x c) (fun r => r.val = phiSum x c + E))
    (hx : 2 ^ 63 ≤ x ∨ 2 ^ 32 ≤ y) (hw : ∀ n, 2 ≤ n → Rough c n → NoWindow (x / n) c) (hx2 : x < 2 ^ 127) (hc31 : prm c < 2 ^ 31)
    (hy : y < 2 ^ 63) (hy1 : 1 ≤ y) {sched : Scheduler} (hs : sched.Valid) :
    Ok (s1 sched x y c) (fun r => Rep r (S1Sum x y c + E)) := by
  have hyy : y * y < 2 ^ 127 := by nlinarith
  have key := fun yb hyb => s1Master_off (R := I256) (xb := 127) (yb := yb) (x := x) (y := y) (c := c) (E := E) (h1.mono (fun r hr => rep_of_val hr))
    (fun n hn hr => (⟨lt_of_le_of_lt (Nat.div_le_self _ _) hx2, hc31, hw n hn hr⟩ : (x / n) < 2 ^ 127 ∧ prm c < 2 ^ 31 ∧ NoWindow (x / n) c))
    (by omega) hyb hyy hy1 hs
  unfold s1
  refine Ok.ite (fun h => ?_) (fun _ => ?_)
  · rw [if_neg (by omega)]
    exact Ok.bind (key _ (by omega)) (fun r hr => Ok.pure hr)
  · exact Ok.bind (key _ hy) (fun r hr => Ok.pure hr)

theorem c_cases (y : ℕ) : (6 ≤ min 6 (π y) ∨ π y ≤ min 6 (π y)) ∧ (3 ≤ min 6 (π y) ∨ y < 8) ∧
    (1 ≤ min 6 (π y) ∨ y < 3) := by
  refine ⟨by omega, ?_, ?_⟩
  · by_contra hc
    push Not at hc
    have : π 8 ≤ π y := Nat.monotone_primeCounting hc.2
    have h8 : π 8 = 4 := by decide +kernel
    omega
  · by_contra hc
    push Not at hc
    have : π 3 ≤ π y := Nat.monotone_primeCounting hc.2
    have h8 : π 3 = 2 := by decide +kernel
    omega

namespace Pi

/-- What is assumed of the environment. -/
structure Env.Valid (e : Env) : Prop where
  schedP2 : e.schedP2.Valid
  schedS1 : e.schedS1.Valid
  schedTrivial : e.schedTrivial.Valid
  schedEasy : e.schedEasy.Valid
  schedHard : e.hard.sched.Valid
  merge : e.hard.merge.Valid
  fp : e.FP

theorem y_lt_63 {x y : ℕ} (h : y * y ≤ x) (hx : x < 2 ^ 126) : y < 2 ^ 63 := by nlinarith

theorem s2_ok {e : Env} {x : ℕ} (hv : e.Valid) (hx1 : 1 ≤ x) (hx : x < 2 ^ 103)
    (hz : x / e.y x + 129 < 2 ^ 59) (threads : ℤ) :
    Ok (s2 e x (e.y x) (x / e.y x) (min 6 (π (e.y x))) threads)
      (fun r => Rep r (S2Sum x (e.y x) (min 6 (π (e.y x))))) := by
  obtain ⟨h1, h2, h3⟩ := y_facts hv.fp hx1 (by omega)
  generalize e.y x = y at *
  obtain ⟨c1, c2, c3⟩ := c_cases y
  have hy63 : y < 2 ^ 63 := by nlinarith
  have hz1 : y ≤ x / y := by rw [Nat.le_div_iff_mul_le h1]; exact h2
  unfold s2
  refine Ok.bind (C13_S2_trivial _ hv.schedTrivial x y _ threads h1 (by nlinarith) (by omega) c3 (by omega)) (fun t ht => ?_)
  have he : Ok (s2Easy e x y (x / y) (min 6 (π y))) (fun r => r.val = S2EasySum x y (min 6 (π y))) :=
    Ok.ite (fun _ => C14_S2_easy_libdivide _ hv.schedEasy x y _ (by omega) h1 hy63 h3)
      (fun _ => C14_S2_easy _ hv.schedEasy x y _ (by omega) h1 hy63 h3)
  refine Ok.bind he (fun s hs => ?_)
  refine Ok.bind (C15_S2_hard_partial e.hard x y _ threads hv.schedHard hv.merge h1 h2 h3 c1 (by omega) hx hz)
    (fun h hh => Ok.pure ?_)
  rw [C15_all_leaves x y _ h1 hz1]
  exact rep_add _ _ _ _ (rep_add _ _ _ _ (rep_of_val ht) (rep_of_val hs)) (rep_of_val hh)

/-- `pi(x)`, if `S1` is off by `E`. -/
theorem pi_off {e : Env} {x : ℕ} {E : ℤ} (hv : e.Valid) (hx2 : 2 ≤ x) (hx : x < 2 ^ 103)
    (hz : x / e.y x + 129 < 2 ^ 59) {threads : ℤ} (hth : 1 ≤ threads)
    (hlim : x ≤ e.limit x)
    (hs1 : Ok (PS.s1 e.schedS1 x (e.y x) (min 6 (π (e.y x)))) (fun r => Rep r (S1Sum x (e.y x) (min 6 (π (e.y x))) + E))) :
    Ok (do let tiny ← PhiTiny.build; pi e tiny x threads) (fun r => Rep r (primeSum x + E)) := by
  obtain ⟨h1, h2, h3⟩ := y_facts hv.fp (by omega : 1 ≤ x) (by omega)
  have hs2 := s2_ok hv (by omega) hx hz threads
  refine Ok.bind PhiTiny.build_ok (fun tiny ht => ?_)
  unfold pi
  rw [if_neg (by omega)]
  dsimp only
  rw [Int.toNat_natCast, getAlpha_eq, ok_bind, (limit_ok hv.fp (by omega) (by omega)).1, ok_bind, if_neg (by omega),
    irootM_eq 3 _ _ (by norm_num), ok_bind, y_eq hv.fp (by omega) (by omega), ok_bind]
  generalize e.y x = y at *
  have hy62 : y < 2 ^ 62 := by nlinarith
  rw [cdiv_ok (by omega), ok_bind, PhiTiny.getC_ok, ok_bind]
  have hP := P2_val ht hv.schedP2 e.timeP2 hth (y := y) (show x < 2 ^ 124 by omega) hy62
    (by rw [Nat.max_eq_left (by omega)]; omega)
  refine Ok.bind hP (fun p2 hp2 => ?_)
  refine Ok.bind hs1 (fun s1 hs1 => ?_)
  refine Ok.bind hs2 (fun s2 hs2 => ?_)
  rw [P2.primeSumTiny_ok hy62]
  simp only [ok_bind]
  refine Ok.pure ?_
  exact combine (by omega) h1 (by nlinarith) h3 (by omega) hs1 hs2 (rep_of_val hp2) rfl hy62

end Pi
end PS
