import Verif.Proof.PsvStore

/-!
# C57–C61: the bundled primesieve library

`Env` holds the results of the floating point functions of the C library, the properties of the CPU and the contents
of uninitialised memory.  The theorems hold for all of them.
-/

namespace PS
namespace Psv

/-- Non-vacuity: an environment, with useless floating point functions. -/
def env0 : Env where
  sqrtD := fun _ => 0
  hasL1 := true
  l1 := 32768
  privateL2 := true
  l2 := 524288
  l2Workaround := false
  userSize := none
  junk := 0x5a#8
  hasCtz := true
  prevLog := fun _ => 3
  prevDefault := fun _ => 0
  maxGap := fun _ => 0
  logD := fun _ => 2

/-! ## C57: the iterator, for any sequence of calls -/

/-- A sequence of calls of `next_prime()` (`true`) and `prev_prime()` (`false`). -/
def runCalls (env : Env) (it : Iter) : List Bool → M (List ℕ)
  | [] => .ok []
  | d :: ds => do
    let r ← (if d then it.nextPrime env else it.prevPrime env)
    let ps ← runCalls env r.2 ds
    pure (r.1 :: ps)

/-- What the calls have to return, position by position. -/
def Answers : ℕ → List Bool → List ℕ → Prop
  | _, [], [] => True
  | cur, true :: ds, p :: ps => NextSpec cur p ∧ Answers p ds ps
  | cur, false :: ds, p :: ps => PrevSpec cur p ∧ Answers p ds ps
  | _, _, _ => False

theorem runCalls_ok {env : Env} (ds : List Bool) {it : Iter} {cur : ℕ} (h : IterAt it cur) :
    Ok (runCalls env it ds) (Answers cur ds) := by
  induction ds generalizing it cur with
  | nil => exact Ok.ok trivial
  | cons d ds ih =>
    unfold runCalls
    cases d
    · rw [if_neg (by simp)]
      refine Ok.bind (prevPrime_iter h) (fun r hr => Ok.bind (ih hr.2) (fun ps hps => Ok.pure ⟨hr.1, hps⟩))
    · rw [if_pos rfl]
      refine Ok.bind (nextPrime_iter h) (fun r hr => Ok.bind (ih hr.2) (fun ps hps => Ok.pure ⟨hr.1, hps⟩))

/-- **C57.** Every sequence of `next_prime()` and `prev_prime()` calls on an iterator created at any 64-bit
`start`, with any stop hint, returns at each call the neighbouring prime of the value returned before
(2^64 - 1 and 0 at the ends), and ends without leaving any table. -/
theorem C57_iterator {env : Env} {start : ℕ} (h : start < 2 ^ 64) (stopHint : ℕ) (ds : List Bool) :
    Ok (runCalls env (Iter.make start stopHint) ds) (Answers start ds) :=
  runCalls_ok ds (make_at stopHint h)

/-- The answers are determined by the position and the calls. -/
theorem C57_answers_unique {cur : ℕ} {ds : List Bool} {ps qs : List ℕ} (h1 : Answers cur ds ps) (h2 : Answers cur ds qs) : ps = qs := by
  induction ds generalizing cur ps qs with
  | nil =>
    cases ps <;> cases qs <;> simp_all [Answers]
  | cons d ds ih =>
    cases ps with
    | nil => cases d <;> exact h1.elim
    | cons p ps =>
      cases qs with
      | nil => cases d <;> exact h2.elim
      | cons q qs =>
        cases d
        · obtain ⟨a1, a2⟩ := h1
          obtain ⟨b1, b2⟩ := h2
          have : p = q := by rw [prevSpec_eq a1, prevSpec_eq b1]
          subst this
          rw [ih a2 b2]
        · obtain ⟨a1, a2⟩ := h1
          obtain ⟨b1, b2⟩ := h2
          have : p = q := by rw [nextSpec_eq a1, nextSpec_eq b1]
          subst this
          rw [ih a2 b2]

theorem nextSpec_iff_small {cur p : ℕ} (hp : p.Prime) (hlt : cur < p) (h64 : p < 2 ^ 64) (hno : ∀ q < p, cur < q → ¬ q.Prime) :
    NextSpec cur p :=
  .inl ⟨hp, hlt, h64, fun q hq hcq => by
    by_contra hc
    exact hno q (by omega) hcq hq⟩

/-- Non-vacuity: from 10 forwards twice and back three times: 11, 13, 11, 7, 5. -/
example : runCalls env0 (Iter.make 10 0) [true, true, false, false, false] = .ok [11, 13, 11, 7, 5] := by
  obtain ⟨ps, h1, h2⟩ := C57_iterator (env := env0) (start := 10) (by norm_num) 0 [true, true, false, false, false]
  rw [h1]
  refine congrArg Except.ok (C57_answers_unique h2 ?_)
  refine ⟨.inl ⟨by norm_num, by norm_num, by norm_num, fun q hq h => by omega⟩,
    nextSpec_iff_small (by norm_num) (by norm_num) (by norm_num) (by decide), ?_, ?_, ?_, trivial⟩
  · exact .inl ⟨by norm_num, by norm_num, fun q hq h => (by decide : ∀ q < 13, q.Prime → q ≤ _) q h hq⟩
  · exact .inl ⟨by norm_num, by norm_num, fun q hq h => (by decide : ∀ q < 11, q.Prime → q ≤ _) q h hq⟩
  · exact .inl ⟨by norm_num, by norm_num, fun q hq h => (by decide : ∀ q < 7, q.Prime → q ≤ _) q h hq⟩

/-- Non-vacuity: there is nothing below 2. -/
example : runCalls env0 (Iter.make 2 100) [false, false, true] = .ok [0, 0, 2] := by
  obtain ⟨ps, h1, h2⟩ := C57_iterator (env := env0) (start := 2) (by norm_num) 100 [false, false, true]
  rw [h1]
  refine congrArg Except.ok (C57_answers_unique h2 ?_)
  exact ⟨.inr ⟨rfl, fun q hq => hq.two_le⟩, .inr ⟨rfl, fun q hq => Nat.zero_le _⟩,
    .inl ⟨Nat.prime_two, by norm_num, by norm_num, fun q hq _ => hq.two_le⟩, trivial⟩

/-! ## C58: primesum's use of the library -/

/-- **C58.** A loop `for (p = it.next_prime(); p <= hi; p = it.next_prime())` over an iterator created at
`pos` runs its body for exactly the primes of `(pos, hi]` in increasing order, whatever the body does
(`forPrimes`, on which the models of PiTable, FactorTable, P2, S2_trivial and pi_primesieve are built). -/
theorem C58_loop {σ : Type} {env : Env} {pos hi : ℕ} (hpos : pos < 2 ^ 64) (hhi : hi < 2 ^ 64 - 1) (hint : ℕ)
    (s : σ) (f : ℕ → σ → M σ) : iterFor env (Iter.make pos hint) hi s f = (primesIn pos hi).foldlM (fun s p => f p s) s := by
  rw [iterFor_eq (make_at hint hpos) hhi]
  have key : ∀ n pos (s : σ), hi - pos ≤ n → forPrimes pos hi s f = (primesIn pos hi).foldlM (fun s p => f p s) s := by
    intro n
    induction n with
    | zero =>
      intro pos s h
      have := lt_nextPrime pos
      rw [forPrimes, primesIn_step, if_neg (by omega), if_neg (by omega)]
      rfl
    | succ n ih =>
      intro pos s h
      have := lt_nextPrime pos
      rw [forPrimes, primesIn_step]
      by_cases hn : PS.nextPrime pos ≤ hi
      · rw [if_pos hn, if_pos hn, List.foldlM_cons]
        congr 1
        funext s'
        exact ih _ _ (by omega)
      · rw [if_neg hn, if_neg hn]
        rfl
  exact key _ pos s (le_refl _)

/-- Each call is the one of the contract on which the models are built (Model/PrimeSieve.lean). -/
theorem C58_next {env : Env} {it : Iter} {cur : ℕ} (h : IterAt it cur) (h64 : PS.nextPrime cur < 2 ^ 64) :
    ∃ it', it.nextPrime env = .ok (PS.nextPrime cur, it') ∧ IterAt it' (PS.nextPrime cur) := by
  obtain ⟨r, h1, h2, h3⟩ := nextPrime_iter h
  have := nextSpec_eq h2
  rw [min_eq_left (by omega)] at this
  exact ⟨r.2, by rw [h1, ← this], by rw [← this]; exact h3⟩

theorem C58_prev {env : Env} {it : Iter} {cur : ℕ} (h : IterAt it cur) :
    ∃ it', it.prevPrime env = .ok (PS.prevPrime cur, it') ∧ IterAt it' (PS.prevPrime cur) := by
  obtain ⟨r, h1, h2, h3⟩ := prevPrime_iter h
  have := prevSpec_eq h2
  exact ⟨r.2, by rw [h1, ← this], by rw [← this]; exact h3⟩

/-- `primesum::generate_primes(max)` and `generate_n_primes(n)`, computed by the library, are the tables of the
contract. -/
theorem C58_generate_primes {env : Env} {max : ℕ} (h : max < 2 ^ 64) :
    storePrimes env 0 max ⟨#[0]⟩ = .ok (generatePrimes max) := storePrimes_generate h

theorem C58_generate_n_primes {env : Env} {n : ℕ} (h : nextN 0 (n + 1) < 2 ^ 64) :
    storeNPrimes env n 0 ⟨#[0]⟩ = .ok (generateNPrimes n) := storeNPrimes_generate h

/-- Non-vacuity: the sum of the primes in `(3, 12]`. -/
example : iterFor env0 (Iter.make 3 12) 12 0 (fun p s => .ok (s + p)) = .ok 23 := by
  rw [C58_loop (env := env0) (by norm_num) (by norm_num)]
  decide +kernel

/-! ## C59: store_primes and store_n_primes -/

/-- **C59.** `store_primes(start, stop, primes)` appends exactly the primes of `[start, stop]` in increasing order. -/
theorem C59_store_primes {env : Env} {start stop : ℕ} (h1 : start < 2 ^ 64) (h2 : stop < 2 ^ 64) (l : List ℕ) :
    storePrimes env start stop ⟨l.toArray⟩ =
      .ok ⟨(l ++ (List.range (stop + 1)).filter (fun p => decide (start ≤ p ∧ p.Prime))).toArray⟩ :=
  storePrimes_ok h1 h2 l

/-- `store_n_primes(n, start, primes)` appends the first `n` primes `≥ start`, provided one more prime exists
below `2^64`; otherwise it throws. -/
theorem C59_store_n_primes {env : Env} {n start : ℕ} (h1 : start < 2 ^ 64) (hn : 0 < n) (l : List ℕ) :
    (nextN (start - 1) (n + 1) < 2 ^ 64 ∧ storeNPrimes env n start ⟨l.toArray⟩ = .ok ⟨(l ++ primesFrom (start - 1) n).toArray⟩) ∨
    (2 ^ 64 ≤ nextN (start - 1) (n + 1) ∧
      storeNPrimes env n start ⟨l.toArray⟩ = .error (.thrown "cannot generate primes > 2^64")) := by
  have := storeNPrimes_ok (env := env) h1 hn l
  by_cases h : nextN (start - 1) (n + 1) < 2 ^ 64
  · rw [if_pos h] at this
    exact .inl ⟨h, this⟩
  · rw [if_neg h] at this
    exact .inr ⟨by omega, this⟩

/-- Non-vacuity. -/
example : storePrimes env0 5 20 ⟨#[1]⟩ = .ok ⟨#[1, 5, 7, 11, 13, 17, 19]⟩ := by
  have := C59_store_primes (env := env0) (start := 5) (stop := 20) (by norm_num) (by norm_num) [1]
  rw [show (⟨#[1]⟩ : Vec ℕ) = ⟨[1].toArray⟩ from rfl, this]
  rw [show (List.range (20 + 1)).filter (fun p => decide (5 ≤ p ∧ p.Prime)) = [5, 7, 11, 13, 17, 19] by decide +kernel]
  rfl

/-! ## C60: PrimeGenerator -/

/-- **C60.** `PrimeGenerator(start, stop).fill(primes)` appends exactly the primes of `[start, stop]`, in
increasing order, for every sieve size and every division of the work among EratSmall, EratMedium and EratBig. -/
theorem C60_fill {env : Env} {v : Vec ℕ} {start stop : ℕ} (h : stop < 2 ^ 64) (hle : start ≤ stop) :
    Ok ((PrimeGenerator.make start stop).fillPrev env v) (fun r =>
      v.size ≤ r.2.size ∧ (∀ j < v.size, r.2.get j = v.get j) ∧
      (∀ j l, v.size ≤ j → j < l → l < r.2.size → r.2.get j < r.2.get l) ∧
      ∀ x, (∃ j, v.size ≤ j ∧ j < r.2.size ∧ r.2.get j = x) ↔ start ≤ x ∧ x ≤ stop ∧ x.Prime) := by
  refine Ok.mono (fillPrev_ok h hle) (fun r hr => ⟨hr.1.le, hr.2, hr.1.mono, fun x => ⟨?_, fun hx => ?_⟩⟩)
  · rintro ⟨j, h1, h2, rfl⟩
    exact (hr.1.mem j h1 h2).2.2
  · have h2 := hx.2.2.two_le
    exact hr.1.all x (by omega) (by omega) hx

/-- The same for the variant which fills a buffer of 256 primes: the first call returns the first primes of
`[start, stop]`, all of them or as many as fit; only if there are none does it return 0 primes, or the single
value `2^64 - 1` if `stop` is `2^64 - 1`. -/
theorem C60_fill_first {env : Env} {v : Vec ℕ} {start stop : ℕ} (h : stop < 2 ^ 64) (hle : start ≤ stop)
    (hv : v.size = 256) :
    Ok ((PrimeGenerator.make start stop).fillNext env v) (fun r =>
      r.2.1.size = 256 ∧ r.2.2 ≤ 256 ∧
      (((∃ x, start ≤ x ∧ x ≤ stop ∧ x.Prime) ∧ 0 < r.2.2 ∧ (∀ j l, j < l → l < r.2.2 → r.2.1.get j < r.2.1.get l) ∧
        (∀ j < r.2.2, start ≤ r.2.1.get j ∧ r.2.1.get j ≤ stop ∧ (r.2.1.get j).Prime) ∧
        (∀ x, start ≤ x → x ≤ r.2.1.get (r.2.2 - 1) → x.Prime → ∃ j < r.2.2, r.2.1.get j = x)) ∨
       ((¬ ∃ x, start ≤ x ∧ x ≤ stop ∧ x.Prime) ∧
        ((stop < 2 ^ 64 - 1 ∧ r.2.2 = 0) ∨ (stop = 2 ^ 64 - 1 ∧ r.2.2 = 1 ∧ r.2.1.get 0 = 2 ^ 64 - 1))))) := by
  have hm := max64_eq
  refine Ok.mono (fillNext_fresh h hle hv) (fun r hr => ?_)
  obtain ⟨hsz, hr⟩ := hr
  rcases hr with ⟨hn, B, hL, -⟩ | ⟨hn, ht, hno⟩ | ⟨hn, hg, ht, hno, -⟩
  · have hsz' := hL.sz
    refine ⟨hsz, by omega, .inl ⟨⟨_, (hL.mem 0 (le_refl _) hn).2.2⟩, hn, fun j l h1 h2 => hL.mono j l (Nat.zero_le _) h1 h2,
      fun j hj => (hL.mem j (Nat.zero_le _) hj).2.2, fun x h1 h2 h3 => ?_⟩⟩
    have h4 := h3.two_le
    obtain ⟨m1, m2, m3⟩ := hL.mem (r.2.2 - 1) (Nat.zero_le _) (by omega)
    have m4 := m3.2.1
    obtain ⟨j, j1, j2, j3⟩ := hL.all x (by omega) (by omega) ⟨h1, by omega, h3⟩
    exact ⟨j, j2, j3⟩
  · refine ⟨hsz, by omega, .inr ⟨?_, .inl ⟨by omega, hn⟩⟩⟩
    rintro ⟨x, h1, h2, h3⟩
    have h4 := h3.two_le
    exact hno x (by omega) ⟨h1, h2, h3⟩
  · refine ⟨hsz, by omega, .inr ⟨?_, .inr ⟨by omega, hn, by omega⟩⟩⟩
    rintro ⟨x, h1, h2, h3⟩
    have h4 := h3.two_le
    exact hno x (by omega) ⟨h1, h2, h3⟩

/-- Non-vacuity: an interval with primes and one without. -/
example : Ok ((PrimeGenerator.make 700 1000).fillPrev env0 ⟨#[7]⟩) (fun r => r.2.get 0 = 7 ∧ ∃ j, r.2.get j = 997) := by
  refine Ok.mono (C60_fill (env := env0) (by norm_num) (by norm_num)) (fun r hr => ⟨?_, ?_⟩)
  · rw [hr.2.1 0 (by decide)]
    rfl
  · obtain ⟨j, -, -, h⟩ := (hr.2.2.2 997).2 ⟨by norm_num, by norm_num, by norm_num⟩
    exact ⟨j, h⟩

/-! ## C67: the sizes and limits of the sieves -/

/-- **C67.** `get_sieve_size()` is a power of two from 8 to 4096, for every description of the CPU (also a wrong one)
and after every call of `set_sieve_size`. -/
theorem C67_sieve_size (env : Env) : ∃ k, 3 ≤ k ∧ k ≤ 12 ∧ getSieveSize env = 2 ^ k := getSieveSize_pow env

/-- A size that is set is used: the greatest power of two that is not above it, if it is one of the supported sizes. -/
theorem C67_set (env : Env) {size : ℕ} (h1 : 8 ≤ size) (h2 : size ≤ 4096) :
    ∃ k, getSieveSize { env with userSize := some (size : ℤ) } = 2 ^ k ∧ 2 ^ k ≤ size ∧ size < 2 ^ (k + 1) := by
  have e : userSieveSize { env with userSize := some (size : ℤ) } = 2 ^ Nat.log2 size := by
    show floorPow2 (inBetween 8 size 4096) = _
    rw [show inBetween 8 size 4096 = size by unfold inBetween; rw [if_neg (by omega), if_neg (by omega)],
      floorPow2_spec (by omega) (by omega)]
  refine ⟨Nat.log2 size, ?_, Nat.log2_self_le (by omega), Nat.lt_log2_self⟩
  unfold getSieveSize
  rw [e, if_pos (by positivity)]

/-- The sieve array has between 8 KiB and 4 MiB, the cache size that EratSmall uses is positive and at most that, and the two
limits between the sieving algorithms, which are computed in `double`, are `≤` the cache size and exactly five times the size. -/
theorem C67_limits (env : Env) :
    (∃ e, 13 ≤ e ∧ e ≤ 22 ∧ initSieveSize (getSieveSize env) = 2 ^ e) ∧
    0 < getL1CacheSize env (initSieveSize (getSieveSize env)) ∧
    getL1CacheSize env (initSieveSize (getSieveSize env)) ≤ initSieveSize (getSieveSize env) ∧
    Ok (eratSmallMax (getL1CacheSize env (initSieveSize (getSieveSize env))))
      (fun r => r ≤ getL1CacheSize env (initSieveSize (getSieveSize env))) ∧
    eratMediumMax (initSieveSize (getSieveSize env)) = .ok (initSieveSize (getSieveSize env) * 5) := by
  obtain ⟨e, h1, h2, h3⟩ := initSieveSize_ok (getSieveSize_lt env)
  have hp := pow_range ⟨h1, h2⟩
  rw [h3]
  obtain ⟨l1, l2⟩ := getL1_ok (env := env) (n := 2 ^ e) (by omega) (by omega)
  exact ⟨⟨e, h1, h2, rfl⟩, l1, l2, eratSmallMax_ok (by omega), eratMediumMax_ok (by omega)⟩

/-- Non-vacuity: half of the second level cache of `env0`, half of 32 KiB if a size of 31 is set, and the limit for a
cache of 32 KiB. -/
example : getSieveSize env0 = 256 ∧ getSieveSize { env0 with userSize := some 31 } = 16 ∧ eratSmallMax 32768 = .ok 5734 := by
  decide +kernel

/-! ## C61: the bit scan -/

/-- **C61.** `Erat::nextPrime(bits, low)` returns the number of the lowest set bit of a non-zero 64-bit word, with
the compiler's bit scan and with the De Bruijn multiplication alike: bit `8 i + k` stands for
`low + 30 i + {7, 11, 13, 17, 19, 23, 29, 31}[k]`. -/
theorem C61_next_prime (env : Env) {bits low : ℕ} (h0 : bits ≠ 0) (h64 : bits < 2 ^ 64) :
    ∃ k, bits.testBit k = true ∧ (∀ j < k, bits.testBit j = false) ∧
      nextPrime env bits low = .ok ((low + 30 * (k / 8) + [7, 11, 13, 17, 19, 23, 29, 31].getD (k % 8) 0) % 2 ^ 64) := by
  obtain ⟨k, hk, hl⟩ := low_exists h0 h64
  refine ⟨k, hl.1, hl.2, ?_⟩
  rw [nextPrime_ok env hk hl h64]
  have : ∀ k < 64, lb k = 30 * (k / 8) + [7, 11, 13, 17, 19, 23, 29, 31].getD (k % 8) 0 := by decide +kernel
  rw [this k hk, Nat.add_assoc]
  rfl

/-- Non-vacuity: the lowest bit of `0x140000` is bit 18 = 8·2 + 2. -/
example : nextPrime { env0 with hasCtz := false } 0x140000 3000 = .ok (3000 + 60 + 13) := by decide +kernel

end Psv
end PS
