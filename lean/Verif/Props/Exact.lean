import Verif.Props.Window
import Verif.Props.PiIter
import Verif.Props.Output

/-!
# Consequences of `C01_exact_partial`: order, `pi(string)`, the streams and the program with primesieve inside, below `7.8 * 10^20`
-/

namespace PS

/-- The results are in order and not negative below `782629069519966932720`, as long as the smaller number is not one of the 32 numbers
for which the result is too large (`excess x ≠ 0`).  Full claim: for all numbers; it is false (`C04_counterexample`). -/
theorem C04_mono_exact_partial (e e' : Pi.Env) (x x' : ℕ) (threads threads' : ℤ) (hv : e.Valid) (hv' : e'.Valid)
    (hth : 1 ≤ threads) (hth' : 1 ≤ threads') (hxx : x ≤ x') (hx : x' < 782629069519966932720) (h0 : excess x = 0) :
    Ok (runPi e x threads) (fun r => 0 ≤ r.val ∧ Ok (runPi e' x' threads') (fun r' => r.val ≤ r'.val)) := by
  refine (C01_exact_partial e x threads hv hth (by omega)).mono (fun r hr => ⟨by rw [hr]; positivity, ?_⟩)
  refine (C01_exact_partial e' x' threads' hv' hth' hx).mono (fun r' hr' => ?_)
  have h1 := primeSum_mono hxx
  rw [hr, hr', h0]
  have : (0 : ℤ) ≤ (excess x' : ℤ) * 2 ^ 128 := by positivity
  push_cast
  omega

/-- Non-vacuity: on both sides of the first wrong results. -/
example : Ok (runPi (exampleEnv 3 false) (52175271301331128847 : ℕ) 1) (fun r => 0 ≤ r.val ∧
    Ok (runPi (exampleEnv 2 true) (52175271301331128848 : ℕ) 5) (fun r' => r.val ≤ r'.val)) :=
  C04_mono_exact_partial _ _ _ _ _ _ (exampleEnv_valid _ _) (exampleEnv_valid _ _) (by norm_num) (by norm_num) (by norm_num) (by norm_num)
    (by decide +kernel)

/-- The result with the primes taken from the model of primesieve: below `782629069519966932720` it is the same, right or wrong, or a
memory pool failed to get memory. -/
theorem C74_exact_partial {env : Psv.Env} {H : Heaps} (hH : H.Valid) (e : Pi.Env) (x : ℕ) (threads : ℤ) (hv : e.Valid)
    (hth : 1 ≤ threads) (hx : x < 782629069519966932720) :
    (NoMem True (runPiIt env H e x threads) ∧ H.NoMemory) ∨
    Ok (runPiIt env H e x threads) (fun r => r.val = primeSum x + (excess x : ℤ) * 2 ^ 128) :=
  (runPiIt_ref hH e hv.fp x threads (by omega) (Or.inl (by omega))).ok (C01_exact_partial e x threads hv hth hx)

namespace Main
open Spec Calc.Spec

/-- `pi(const string&, int)` returns the result of `pi`. -/
theorem string_of_runPi {e : Pi.Env} {s : String} {t : Expr} {x k : ℕ} {threads : ℤ} (hp : Parses s t) (ht : t.eval = .ok (x : ℤ))
    (hk : k < 2 ^ 200) (hr : Ok (runPi e x threads) (fun r => r.val = k)) :
    (do let tiny ← PhiTiny.build; piString e tiny s threads) = .ok (decimal k) := by
  obtain ⟨tiny, h1, _⟩ := PhiTiny.build_ok
  obtain ⟨r, h2, h3⟩ := hr
  change (do let tiny ← PhiTiny.build; Pi.pi e tiny x threads) = _ at h2
  rw [h1, ok_bind] at h2 ⊢
  unfold piString
  rw [Calc.C39_eval hp, ht, ok_bind, h2, ok_bind, I256.C38_print256_partial r (by rw [h3]; omega), h3]

/-- `pi(const string&, int)` below `782629069519966932720`. -/
theorem C55_exact_partial (e : Pi.Env) (s : String) (t : Expr) (x : ℕ) (threads : ℤ) (hp : Parses s t)
    (ht : t.eval = .ok (x : ℤ)) (hv : e.Valid) (hth : 1 ≤ threads) (hx : x < 782629069519966932720) :
    (do let tiny ← PhiTiny.build; piString e tiny s threads) = .ok (decimal ((primeSum x + excess x * 2 ^ 128 : ℕ) : ℤ)) := by
  have h4 := primeSum_le_sq x
  have h5 : x * x ≤ 2 ^ 70 * 2 ^ 70 := Nat.mul_le_mul (by omega) (by omega)
  have h6 : excess x ≤ 6 := by unfold excess; split_ifs <;> omega
  refine string_of_runPi hp ht (by omega) ((C01_exact_partial e x threads hv hth hx).mono (fun r hr => ?_))
  rw [hr]
  push_cast
  rfl

end Main

namespace Print
open Main.Spec

/-- The standard output stream without `--status` and `--time`. -/
theorem out_of_main {e : Main.Env} (o : OutEnv) {args : List (List Char)} {pco : Main.Options} {set : Main.Settings} {d : Text}
    (h : Accepted e args pco set) (hpr : Printable e pco set) (hp : set.print = false) (htm : pco.time = false)
    (hm : Main.main e args = .ok (.result d)) : mainOut e o args = .ok (.ok ⟨d ++ ['\n'], [], 0⟩) := by
  obtain ⟨t, h1, h2⟩ := C70_result e o args pco set h hpr d hm
  rw [h1, h2 hp]
  unfold timeLine
  rw [htm]
  simp

/-- The standard output stream of `primesum x`, without `--status` and `--time`, below `782629069519966932720`. -/
theorem C70_exact_partial (e : Main.Env) (o : OutEnv) (args : List (List Char)) (pco : Main.Options) (set : Main.Settings) (x : ℕ)
    (h : Accepted e args pco set) (homp : 1 ≤ e.ompMax) (ho : Main.IsPi pco.option) (hx : pco.x = x)
    (hp : set.print = false) (htm : pco.time = false) (hv : (Main.algEnv e set pco.option).Valid) (hb : x < 782629069519966932720) :
    mainOut e o args = .ok (.ok ⟨decimal ((primeSum x + excess x * 2 ^ 128 : ℕ) : ℤ) ++ ['\n'], [], 0⟩) := by
  refine out_of_main o h ?_ hp htm ?_
  · exact ⟨hv.schedEasy, hv.fp, fun h => absurd h (by rw [hp]; simp)⟩
  · exact Main.C53_exact_partial e args pco set x h homp ho hx hv hb

end Print
end PS
