import Verif.Proof.PsvIter
import Verif.Proof.PrimeSieve
import Verif.Proof.Loops

/-!
# The primesieve library meets its contract

The models of `primesieve::iterator`, `store_primes` and `store_n_primes` simulate the definitions of
`Verif/Model/PrimeSieve.lean`, on which the models of primesum's own code are built.
-/

namespace PS
namespace Psv

theorem nextSpec_eq {cur p : ℕ} (h : NextSpec cur p) : p = min (PS.nextPrime cur) (2 ^ 64 - 1) := by
  obtain ⟨h1, h2⟩ := nextPrime_spec cur
  rcases h with ⟨a1, a2, a3, a4⟩ | ⟨a1, a2⟩
  · have := nextPrime_min a1 a2
    have := a4 _ h2 h1
    omega
  · have := a2 _ h2 h1
    omega

theorem prevSpec_eq {cur p : ℕ} (h : PrevSpec cur p) : p = PS.prevPrime cur := by
  rcases prevPrime_spec cur with ⟨h1, h2⟩ | ⟨h1, h2, h3⟩
  · rcases h with ⟨a1, a2, a3⟩ | ⟨a1, a2⟩
    · exact absurd a2 (h2 p a1)
    · omega
  · rcases h with ⟨a1, a2, a3⟩ | ⟨a1, a2⟩
    · have := h3 p a1 a2
      have := a3 _ h1 h2
      omega
    · have := a2 _ h1
      omega

/-- `for (p = it.next_prime(); p <= hi; p = it.next_prime()) s = f(p, s);` with the modelled iterator. -/
def iterFor {σ : Type} (env : Env) (it : Iter) (hi : ℕ) (s : σ) (f : ℕ → σ → M σ) : M σ := do
  let r ← it.nextPrime env
  loop (hi + 2) (r.1, r.2, s) (fun x =>
    if x.1 ≤ hi then do
      let s ← f x.1 x.2.2
      let r ← x.2.1.nextPrime env
      pure (.next (r.1, r.2, s))
    else pure (.done x.2.2))

theorem iterFor_loop {σ : Type} {env : Env} {hi : ℕ} (hhi : hi < 2 ^ 64 - 1) (f : ℕ → σ → M σ) :
    ∀ (fuel p : ℕ) (it : Iter) (s : σ), IterAt it p → hi + 1 - p < fuel →
      loop fuel (p, it, s) (fun x =>
        if x.1 ≤ hi then do
          let s ← f x.1 x.2.2
          let r ← x.2.1.nextPrime env
          pure (.next (r.1, r.2, s))
        else pure (.done x.2.2)) = if p ≤ hi then f p s >>= fun s' => forPrimes p hi s' f else .ok s := by
  intro fuel
  induction fuel with
  | zero => intro p it s _ h; omega
  | succ fuel ih =>
    intro p it s hit hf
    unfold loop
    dsimp only
    by_cases hp : p ≤ hi
    · rw [if_pos hp, if_pos hp]
      simp only [bind_assoc]
      congr 1
      funext s'
      obtain ⟨r, hr1, hr2, hr3⟩ := nextPrime_iter hit
      rw [hr1, ok_bind, pure_eq_ok, ok_bind]
      dsimp only
      have h5 := nextSpec_eq hr2
      have h6 := lt_nextPrime p
      rw [ih r.1 r.2 s' hr3 (by omega)]
      rw [forPrimes]
      by_cases hn : PS.nextPrime p ≤ hi
      · rw [min_eq_left (by omega)] at h5
        rw [h5, if_pos hn]
      · rw [if_neg (by omega), if_neg hn]
    · rw [if_neg hp, if_neg hp]
      rfl

/-- A loop over `next_prime()` is `forPrimes`. -/
theorem iterFor_eq {σ : Type} {env : Env} {it : Iter} {pos hi : ℕ} (hit : IterAt it pos)
    (hhi : hi < 2 ^ 64 - 1) (s : σ) (f : ℕ → σ → M σ) : iterFor env it hi s f = forPrimes pos hi s f := by
  unfold iterFor
  obtain ⟨r, hr1, hr2, hr3⟩ := nextPrime_iter hit
  rw [hr1, ok_bind]
  have h5 := nextSpec_eq hr2
  rw [iterFor_loop hhi f _ _ _ _ hr3 (by have := lt_nextPrime pos; omega), forPrimes]
  by_cases hn : PS.nextPrime pos ≤ hi
  · rw [min_eq_left (by omega)] at h5
    rw [h5, if_pos hn]
  · rw [if_neg (by omega), if_neg hn]

theorem storePrimes_iter {env : Env} {start stop : ℕ} {v : Vec ℕ} :
    storePrimes env start stop v =
      if start - 1 < (if stop = max64 then stop - 1 else stop) then
        iterFor env (Iter.make (start - 1) (if stop = max64 then stop - 1 else stop)) (if stop = max64 then stop - 1 else stop) v
          (fun p v => .ok (v.push p))
      else .ok v := by
  unfold storePrimes iterFor
  have h1 : (if start > 0 then start - 1 else start) = start - 1 := by split <;> omega
  rw [h1]
  simp only [ok_bind, pure_eq_ok]

/-- The primes of `(a, hi]` in increasing order. -/
def primesIn (a hi : ℕ) : List ℕ := (List.range (hi + 1)).filter (fun p => decide (a < p ∧ p.Prime))

theorem primesIn_sorted (a hi : ℕ) : (primesIn a hi).Pairwise (· < ·) :=
  List.Pairwise.filter _ List.pairwise_lt_range

theorem mem_primesIn {a hi p : ℕ} : p ∈ primesIn a hi ↔ a < p ∧ p ≤ hi ∧ p.Prime := by
  unfold primesIn
  simp only [List.mem_filter, List.mem_range, decide_eq_true_eq]
  constructor
  · rintro ⟨h1, h2, h3⟩
    exact ⟨h2, by omega, h3⟩
  · rintro ⟨h1, h2, h3⟩
    exact ⟨by omega, h1, h3⟩

theorem primesIn_step (a hi : ℕ) :
    primesIn a hi = if PS.nextPrime a ≤ hi then PS.nextPrime a :: primesIn (PS.nextPrime a) hi else [] := by
  obtain ⟨h1, h2⟩ := nextPrime_spec a
  split
  · rename_i h
    have hs : (PS.nextPrime a :: primesIn (PS.nextPrime a) hi).Pairwise (· < ·) :=
      List.pairwise_cons.2 ⟨fun q hq => (mem_primesIn.1 hq).1, primesIn_sorted _ _⟩
    refine List.Perm.eq_of_pairwise (le := (· < ·)) (fun x y _ _ h3 h4 => absurd h3 (lt_asymm h4)) (primesIn_sorted _ _) hs ?_
    refine (List.perm_ext_iff_of_nodup ((primesIn_sorted _ _).imp (fun h => ne_of_lt h)) (hs.imp (fun h => ne_of_lt h))).2 (fun q => ?_)
    rw [List.mem_cons, mem_primesIn, mem_primesIn]
    constructor
    · rintro ⟨q1, q2, q3⟩
      have := nextPrime_min q3 q1
      rcases Nat.eq_or_lt_of_le this with he | he
      · exact .inl he.symm
      · exact .inr ⟨he, q2, q3⟩
    · rintro (rfl | ⟨q1, q2, q3⟩)
      · exact ⟨h1, h, h2⟩
      · exact ⟨by omega, q2, q3⟩
  · rename_i h
    rw [List.eq_nil_iff_forall_not_mem]
    intro q hq
    obtain ⟨q1, q2, q3⟩ := mem_primesIn.1 hq
    have := nextPrime_min q3 q1
    omega

theorem forPrimes_push (hi : ℕ) : ∀ (n pos : ℕ) (l : List ℕ), hi - pos ≤ n →
    forPrimes pos hi (⟨l.toArray⟩ : Vec ℕ) (fun p v => .ok (v.push p)) = .ok ⟨(l ++ primesIn pos hi).toArray⟩ := by
  intro n
  induction n with
  | zero =>
    intro pos l h
    have := lt_nextPrime pos
    rw [forPrimes, primesIn_step, if_neg (by omega), if_neg (by omega), List.append_nil]
  | succ n ih =>
    intro pos l h
    have := lt_nextPrime pos
    rw [forPrimes, primesIn_step]
    by_cases hn : PS.nextPrime pos ≤ hi
    · rw [if_pos hn, if_pos hn, ok_bind]
      have : (⟨l.toArray⟩ : Vec ℕ).push (PS.nextPrime pos) = ⟨(l ++ [PS.nextPrime pos]).toArray⟩ := by
        unfold Vec.push
        simp
      rw [this, ih _ _ (by omega), List.append_assoc, List.singleton_append]
    · rw [if_neg hn, if_neg hn, List.append_nil]

/-- **store_primes** appends the primes of `[start, stop]`. -/
theorem storePrimes_ok {env : Env} {start stop : ℕ} (hstart : start < 2 ^ 64) (hstop : stop < 2 ^ 64) (l : List ℕ) :
    storePrimes env start stop ⟨l.toArray⟩ = .ok ⟨(l ++ (List.range (stop + 1)).filter (fun p => decide (start ≤ p ∧ p.Prime))).toArray⟩ := by
  rw [storePrimes_iter]
  have hm := max64_eq
  have hcut : (List.range (stop + 1)).filter (fun p => decide (start ≤ p ∧ p.Prime)) = primesIn (start - 1) (if stop = max64 then stop - 1 else stop) := by
    have h1 : (List.range (stop + 1)).filter (fun p => decide (start ≤ p ∧ p.Prime)) = primesIn (start - 1) stop := by
      unfold primesIn
      refine List.filter_congr (fun p hp => ?_)
      rw [decide_eq_decide]
      constructor
      · rintro ⟨h1, h2⟩
        have := h2.two_le
        exact ⟨by omega, h2⟩
      · rintro ⟨h1, h2⟩
        exact ⟨by omega, h2⟩
    rw [h1]
    split
    · rename_i h
      have h64 : stop = 2 ^ 64 - 1 := by omega
      have h2 : stop = (stop - 1) + 1 := by omega
      unfold primesIn
      conv_lhs => rw [h2]
      rw [List.range_succ, List.filter_append, ← h2, h64]
      have h3 : decide (start - 1 < 2 ^ 64 - 1 ∧ Nat.Prime (2 ^ 64 - 1)) = false := by
        rw [decide_eq_false_iff_not]
        exact fun h => max64_not_prime h.2
      rw [List.filter_singleton, h3, cond_false, List.append_nil]
    · rfl
  rw [hcut]
  have hst2 : (if stop = max64 then stop - 1 else stop) < 2 ^ 64 - 1 := by split <;> omega
  generalize (if stop = max64 then stop - 1 else stop) = t at *
  split
  · rw [iterFor_eq (make_at _ (by omega)) hst2, forPrimes_push _ _ _ _ (le_refl _)]
  · rename_i h
    rw [primesIn_step, if_neg (by have := lt_nextPrime (start - 1); omega), List.append_nil]

/-- `generate_primes(max)` of primesum, computed by the modelled library. -/
theorem storePrimes_generate {env : Env} {max : ℕ} (h : max < 2 ^ 64) :
    storePrimes env 0 max ⟨#[0]⟩ = .ok (generatePrimes max) := by
  have := storePrimes_ok (env := env) (start := 0) (by norm_num) h [0]
  simp only [Nat.zero_le, true_and] at this
  exact this

/-- `k`-fold next prime. -/
def nextN (p : ℕ) : ℕ → ℕ
  | 0 => p
  | k + 1 => PS.nextPrime (nextN p k)

theorem nextN_succ' (p k : ℕ) : nextN p (k + 1) = nextN (PS.nextPrime p) k := by
  induction k with
  | zero => rfl
  | succ k ih =>
    show PS.nextPrime (nextN p (k + 1)) = PS.nextPrime (nextN (PS.nextPrime p) k)
    rw [ih]

theorem primesFrom_map (n p : ℕ) : primesFrom p n = (List.range n).map (fun j => nextN p (j + 1)) := by
  induction n generalizing p with
  | zero => rfl
  | succ n ih =>
    rw [primesFrom, ih, List.range_succ_eq_map, List.map_cons, List.map_map]
    congr 1
    refine List.map_congr_left (fun j _ => ?_)
    show nextN (PS.nextPrime p) (j + 1) = nextN p (j + 1 + 1)
    rw [nextN_succ' p (j + 1)]

theorem nextN_mono (p : ℕ) {j k : ℕ} (h : j ≤ k) : nextN p j ≤ nextN p k := by
  induction h with
  | refl => exact le_refl _
  | step _ ih => exact ih.trans (lt_nextPrime _).le

/-- **store_n_primes** appends the first `n` primes `≥ start`; it throws if the prime after the last
of them is not below `2^64`. -/
theorem storeNPrimes_ok {env : Env} {n start : ℕ} (hstart : start < 2 ^ 64) (hn : 0 < n) (l : List ℕ) :
    storeNPrimes env n start ⟨l.toArray⟩ =
      if nextN (start - 1) (n + 1) < 2 ^ 64 then .ok ⟨(l ++ primesFrom (start - 1) n).toArray⟩
      else .error (.thrown "cannot generate primes > 2^64") := by
  unfold storeNPrimes
  have h1 : (if start > 0 then start - 1 else start) = start - 1 := by split <;> omega
  rw [if_neg (by omega), h1]
  dsimp only
  have ha : start - 1 < 2 ^ 64 := by omega
  generalize start - 1 = a at *
  have hmin : ∀ k, ∀ p q, p = min (nextN a k) (2 ^ 64 - 1) → q = min (PS.nextPrime p) (2 ^ 64 - 1) → q = min (nextN a (k + 1)) (2 ^ 64 - 1) := by
    intro k p q hp hq
    have h2 : nextN a (k + 1) = PS.nextPrime (nextN a k) := rfl
    have h3 := lt_nextPrime (nextN a k)
    have h4 := lt_nextPrime p
    rcases Nat.lt_or_ge (nextN a k) (2 ^ 64 - 1) with h | h
    · rw [min_eq_left h.le] at hp
      rw [h2, hq, hp]
    · rw [min_eq_right h] at hp
      omega
  obtain ⟨r, hr1, hr2, hr3⟩ := nextPrime_iter (make_at (u64 (a + u64 (n * (env.logD a + 1)))) (show a < 2 ^ 64 by omega))
  rw [hr1, ok_bind]
  have hr4 := hmin 0 a r.1 (by show a = min a _; omega) (nextSpec_eq hr2)
  obtain ⟨s, hs1, hs2, hs3, hs4⟩ := forUp_ok (lo := 0) (hi := n) (s := (r.1, r.2, (⟨l.toArray⟩ : Vec ℕ)))
    (f := fun _ s => do
      let r ← s.2.1.nextPrime env
      pure (r.1, r.2, s.2.2.push s.1))
    (Inv := fun k s => s.1 = min (nextN a (k + 1)) (2 ^ 64 - 1) ∧ IterAt s.2.1 s.1 ∧
      s.2.2 = ⟨(l ++ (List.range k).map (fun j => min (nextN a (j + 1)) (2 ^ 64 - 1))).toArray⟩)
    ⟨hr4, hr3, by simp⟩ (Nat.zero_le _) (by
      rintro k s _ hk ⟨s1, s2, s3⟩
      obtain ⟨r, hr1, hr2, hr3⟩ := nextPrime_iter s2
      rw [hr1, ok_bind]
      refine Ok.pure ⟨hmin _ _ _ s1 (nextSpec_eq hr2), hr3, ?_⟩
      dsimp only
      rw [s3, s1]
      unfold Vec.push
      rw [List.range_succ, List.map_append]
      simp)
  rw [hs1, ok_bind]
  have hm : max64 = 2 ^ 64 - 1 := rfl
  have hpr := (nextPrime_spec (nextN a n)).2
  have hpr' : nextN a (n + 1) ≠ 2 ^ 64 - 1 := fun h => by
    have : nextN a (n + 1) = PS.nextPrime (nextN a n) := rfl
    rw [← this, h] at hpr
    exact max64_not_prime hpr
  by_cases hlt : nextN a (n + 1) < 2 ^ 64
  · rw [if_pos hlt, if_neg (by omega), hs4, primesFrom_map]
    rw [List.map_congr_left (g := fun j => nextN a (j + 1))]
    · rfl
    · intro j hj
      have hj := List.mem_range.1 hj
      have := nextN_mono a (show j + 1 ≤ n + 1 by omega)
      omega
  · rw [if_neg hlt, if_pos (by omega)]

/-- `generate_n_primes(n)` of primesum, computed by the modelled library. -/
theorem storeNPrimes_generate {env : Env} {n : ℕ} (h : nextN 0 (n + 1) < 2 ^ 64) :
    storeNPrimes env n 0 ⟨#[0]⟩ = .ok (generateNPrimes n) := by
  rcases Nat.eq_zero_or_pos n with h0 | h0
  · subst h0
    rfl
  · have := storeNPrimes_ok (env := env) (start := 0) (by norm_num) h0 [0]
    rw [if_pos h] at this
    exact this

end Psv
end PS
