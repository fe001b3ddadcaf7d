import Verif.Proof.Phi
import Verif.Proof.BigPrimes

/-!
# Properties C18, C19: the partial sieve function and Legendre's formula
-/

namespace PS
local notation "π" => Nat.primeCounting

/-- `phi(x, a, threads)` is the number of `n` in `1 .. x` not divisible by any of the first `a` primes, for
all 64-bit integers `x`, `a` (non-positive ones included) and every distribution of the work over threads.

Full claim: for every `a`.  That claim is false: the primes are kept in a `vector<int32_t>` (`C18_phi_limit`). -/
theorem C18_phi_partial (sched : Scheduler) (hs : sched.Valid) (x a : ℤ) (hx : x < 2 ^ 63)
    (ha : prm a.toNat < 2 ^ 31 ∨ x < a) :
    Ok (do let tiny ← PhiTiny.build; Phi.phi tiny sched x a) (fun r => r = phi x.toNat a.toNat) :=
  Ok.bind PhiTiny.build_ok (fun _ ht => Ok.of_eq (Phi.phi_ok ht hs x a hx ha) rfl)

/-- Once `2147483659`, the first prime that does not fit `int32_t`, is among the first `a ≤ x` primes, the table of
primes that `phi` asks for cannot be represented. -/
theorem C18_phi_limit (sched : Scheduler) (x a : ℤ) (ha : π 2147483659 ≤ a.toNat) (hax : a ≤ x) :
    Fails (do let tiny ← PhiTiny.build; Phi.phi tiny sched x a) := by
  have hp := prime_2147483659
  have h1 := prm_pi hp
  have h2 := prm_le_prm ha
  have h7 : 7 ≤ a.toNat := by
    by_contra hc
    have := prm_small (show a.toNat ≤ 6 by omega)
    omega
  refine Fails.bind (fun tiny _ => ?_)
  unfold Phi.phi
  rw [if_neg (by omega), if_neg (by omega), if_neg (by omega)]
  dsimp only
  rw [if_neg (by unfold PhiTiny.isPhiTiny; simp; omega), generateNPrimesT_error (by omega) (by omega), error_bind]
  exact Fails.error _

/-- The cached recursion returns `SIGN · φ(x, a)` for every cache whose non-zero entries are values of `φ`,
and leaves such a cache behind: the result does not depend on the history of calls. -/
theorem C18_cache (E : Phi.Env) (A : ℕ) (hE : Phi.EnvOk E A) (sign : ℤ) (hsign : sign = 1 ∨ sign = -1)
    (x a : ℕ) (c : Phi.Cache) (hc : Phi.CacheOk c) (ha : a < A) (hx : 1 ≤ x) (hx63 : x < 2 ^ 63)
    (hm : Nat.sqrt x ≤ E.pi.max) :
    Ok (Phi.phiRec E (a + 1) sign x a c) (fun r => r.1 = phi x a * sign ∧ Phi.CacheOk r.2) :=
  Phi.phiRec_ok hE (a + 1) sign x a c (by omega) (by omega) hx hsign hc hm hx63

/-- `pi_legendre(x, threads)` is the number of primes `≤ x`.

Full claim: for every 64-bit `x`.  That claim is false (`C19_pi_legendre_limit`). -/
theorem C19_pi_legendre_partial (sched : Scheduler) (hs : sched.Valid) (x : ℕ) (hx : x < 2 ^ 62) :
    Ok (do let tiny ← PhiTiny.build; Phi.piLegendre tiny sched x) (fun r => r = π x) :=
  Ok.bind PhiTiny.build_ok (fun _ ht => Ok.of_eq (Phi.piLegendre_ok ht hs x hx) rfl)

/-- `pi_legendre(x)` calls `phi(x, π(√x))` and so fails from `x = 2147483659²`, about `4.6 · 10^18 = 2^62.0…`, on. -/
theorem C19_pi_legendre_limit (sched : Scheduler) (hs : sched.Valid) (x : ℕ) (hx : 2147483659 ^ 2 ≤ x) (hx2 : x < 2 ^ 63) :
    Fails (do let tiny ← PhiTiny.build; Phi.piLegendre tiny sched x) := by
  refine Fails.bind (fun tiny ht => ?_)
  have hs1 : 2147483659 ≤ Nat.sqrt x := by rw [Nat.le_sqrt']; exact hx
  have h1 := pi_mono hs1
  have h2 := pi_le_self' (Nat.sqrt x)
  have h3 := Nat.sqrt_le_self x
  have hV : PhiTiny.Valid tiny 6 := by
    obtain ⟨t, h4, h5⟩ := PhiTiny.build_ok
    rw [h4] at ht
    simp only [Except.ok.injEq] at ht
    exact ht ▸ h5
  unfold Phi.piLegendre
  rw [dif_neg (by omega)]
  have hf := C18_phi_limit sched x (π (Nat.sqrt x) : ℕ) (by rw [Int.toNat_natCast]; exact h1) (by omega)
  rw [ht, ok_bind] at hf
  have h6 : Nat.sqrt x < 2 ^ 62 := by rw [Nat.sqrt_lt']; omega
  rw [Phi.piLegendre_ok hV hs _ h6, ok_bind]
  exact hf.bind_left

/-- Schedules exist: the sequential one, and a loop distributed out of order over two threads. -/
example : Scheduler.seq.Valid ∧ Sched 2 6 [[5, 2], [4, 3]] :=
  ⟨Scheduler.seq_valid, by unfold Sched; decide⟩

example : Ok (do let tiny ← PhiTiny.build; Phi.piLegendre tiny Scheduler.seq 400) (fun r => r = 78) := by
  refine (C19_pi_legendre_partial _ Scheduler.seq_valid 400 (by norm_num)).mono (fun r h => ?_)
  rw [h, show π 400 = 78 by decide +kernel]; rfl

/-- An environment and a cache as required by `C18_cache`; the second entry of the cache is used. -/
example (tiny : Vec PhiTiny.Tab) (ht : PhiTiny.Valid tiny 6) (t : PiTable) (hv : t.Valid) :
    Phi.EnvOk ⟨generateNPrimes 10, t, tiny⟩ 10 ∧ Phi.CacheOk (Vec.mk' 100 ⟨#[]⟩) :=
  ⟨⟨lt_of_le_of_lt ((prm_le_iff_le_pi (i := 10) (n := 29) (by omega)).2 (by decide +kernel)) (by norm_num), generateNPrimes_table 10, hv, ht⟩, by simp, fun a ha x hx => by
    rw [Vec.get_mk' _ _ _ ha] at hx
    exact absurd hx (by simp [Vec.size])⟩

end PS
