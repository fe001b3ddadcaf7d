import Verif.Model.SelfTest
import Verif.Props.Lmo
import Verif.Props.Pi
import Verif.Proof.Print

/-!
# Property C63: the self test of `--test`
-/

namespace PS
open Finset
local notation "π" => Nat.primeCounting

namespace SelfTest

/-- What is assumed of a run: at least one thread, schedules that execute every iteration once, and valid environments
for the calls that are made with a non-negative argument below `10^10`. -/
structure Env.Valid (e : Env) : Prop where
  threads : 1 ≤ e.threads
  sched : ∀ b i, (e.sched b i).Valid
  outer : e.outer.Valid
  alg : ∀ k ph i b, ∀ x : ℕ, x < 10 ^ 10 → (e.alg k ph i b x).Valid ∧ Lmo.EnvValid (e.alg k ph i b x)

/-- The argument at iteration `i` of the random phase of test `k`. -/
def argAt (e : Env) (k i : ℕ) : ℤ := ∑ j ∈ range i, getRand (e.rand k j)

theorem ne_iff (a b : I256) : I256.ne a b = true ↔ a ≠ b := by
  unfold I256.ne I256.eq
  obtain ⟨al, ah⟩ := a
  obtain ⟨bl, bh⟩ := b
  simp only [Bool.not_eq_true', Bool.and_eq_false_iff, beq_eq_false_iff_ne, ne_eq, I256.mk.injEq, not_and_or]

theorem checkEqual_eq {f : String} {x : ℤ} {a b : I256} (h : a = b) : checkEqual f x a b = .ok () := by
  unfold checkEqual
  rw [if_neg]
  rw [ne_iff]
  exact fun h2 => h2 h

theorem checkEqual_ne {f : String} {x : ℤ} {a b : I256} (h : a ≠ b) : ∃ m, checkEqual f x a b = .error (.thrown m) := by
  unfold checkEqual
  rw [if_pos ((ne_iff _ _).2 h)]
  obtain ⟨s1, h1⟩ := I256.print_total a
  obtain ⟨s2, h2⟩ := I256.print_total b
  rw [h1, h2]
  exact ⟨_, rfl⟩

theorem getRand_range (r : ℕ) : 1 ≤ getRand r ∧ getRand r ≤ 9999001 := by
  unfold getRand
  have := Nat.mod_lt r (show 0 < 10000 by norm_num)
  omega

theorem argAt_range (e : Env) (k i : ℕ) : 0 ≤ argAt e k i ∧ argAt e k i ≤ i * 9999001 := by
  induction i with
  | zero => simp [argAt]
  | succ n ih =>
    unfold argAt at ih ⊢
    rw [sum_range_succ]
    have := getRand_range (e.rand k n)
    push_cast
    constructor <;> linarith [ih.1, ih.2, this.1, this.2]

theorem check_ok {e : Env} (k : ℕ) (name : String) {f1 f2 : Pi.Env → ℤ → M I256} {iters : ℕ} (hi : iters ≤ 1000)
    (h1 : ∀ ph i (x : ℕ), x ≤ max 9999 ((iters - 1) * 9999001) → Ok (f1 (e.alg k ph i false x) x) (fun r => r.val = primeSum x))
    (h2 : ∀ ph i (x : ℕ), x ≤ max 9999 ((iters - 1) * 9999001) → Ok (f2 (e.alg k ph i true x) x) (fun r => r.val = primeSum x)) :
    check e k name f1 f2 iters = .ok () := by
  have key : Ok (check e k name f1 f2 iters) (fun _ => True) := by
    unfold check
    refine Ok.bind (forUp_ok (fun _ _ => True) trivial (by norm_num) (fun x _ _ hx _ => ?_)) (fun _ _ => ?_)
    · refine Ok.bind (h1 0 x x (by omega)) (fun r1 hr1 => ?_)
      refine Ok.bind (h2 0 x x (by omega)) (fun r2 hr2 => ?_)
      rw [checkEqual_eq (I256.val_inj (hr1.trans hr2.symm))]
      exact Ok.ok trivial
    · refine Ok.bind (forUp_ok (fun i x => x = argAt e k i) (by simp [argAt]) (by omega) (fun i x _ hx hX => ?_))
        (fun _ _ => Ok.pure trivial)
      have hr := argAt_range e k i
      rw [← hX] at hr
      obtain ⟨n, rfl⟩ : ∃ n : ℕ, x = n := ⟨x.toNat, by omega⟩
      have hn : n ≤ max 9999 ((iters - 1) * 9999001) := by
        have : i * 9999001 ≤ (iters - 1) * 9999001 := Nat.mul_le_mul_right _ (by omega)
        omega
      refine Ok.bind (h1 1 i n hn) (fun r1 hr1 => ?_)
      refine Ok.bind (h2 1 i n hn) (fun r2 hr2 => ?_)
      rw [checkEqual_eq (I256.val_inj (hr1.trans hr2.symm)), ok_bind]
      refine Ok.pure ?_
      rw [hX]
      unfold argAt
      rw [sum_range_succ]
  obtain ⟨_, h, _⟩ := key
  exact h

theorem primeSum_le_odd (x : ℕ) : primeSum x ≤ 1 + ((x + 1) / 2) * ((x + 1) / 2) := by
  induction x using Nat.strong_induction_on with
  | _ x ih =>
    rcases Nat.lt_or_ge x 4 with h | h
    · have h0 : primeSum 0 = 0 := primeSum_lt_two (by omega)
      have s1 := primeSum_succ 0
      have s2 := primeSum_succ 1
      have s3 := primeSum_succ 2
      norm_num at s1 s2 s3
      interval_cases x <;> simp_all
    · obtain ⟨n, rfl⟩ : ∃ n, x = n + 2 := ⟨x - 2, by omega⟩
      have h1 := ih n (by omega)
      rw [primeSum_succ, primeSum_succ]
      have e : (n + 2 + 1) / 2 = (n + 1) / 2 + 1 := by omega
      rw [e]
      have e2 : ((n + 1) / 2 + 1) * ((n + 1) / 2 + 1) = (n + 1) / 2 * ((n + 1) / 2) + 2 * ((n + 1) / 2) + 1 := by ring
      rw [e2]
      rcases Nat.even_or_odd n with hn | hn
      · have : ¬ (n + 1 + 1).Prime := by
          intro hp
          have := hp.eq_two_or_odd
          obtain ⟨k, hk⟩ := hn
          omega
        rw [if_neg this]
        obtain ⟨k, hk⟩ := hn
        split <;> omega
      · have : ¬ (n + 1).Prime := by
          intro hp
          have := hp.eq_two_or_odd
          obtain ⟨k, hk⟩ := hn
          omega
        rw [if_neg this]
        obtain ⟨k, hk⟩ := hn
        split <;> omega

theorem primeSum_fits {x : ℕ} (h : x ≤ 599 * 9999001) : primeSum x < 2 ^ 63 := by
  have h1 := primeSum_le_odd x
  have h2 : (x + 1) / 2 * ((x + 1) / 2) ≤ 2994700800 * 2994700800 := Nat.mul_le_mul (by omega) (by omega)
  norm_num at h2 ⊢
  omega

theorem ofI_ok {r : M ℤ} {x : ℕ} (h : Ok r (fun v => v = primeSum x)) (hx : primeSum x < 2 ^ 63) :
    Ok (ofI r) (fun v => v.val = primeSum x) := by
  unfold ofI
  refine Ok.bind h (fun v hv => Ok.pure ?_)
  rw [hv, I256.val_ofInt _ (by omega) (by omega)]

theorem testPhi_ok {e : Env} (hv : e.Valid) {tiny : Vec PhiTiny.Tab} (ht : PhiTiny.Valid tiny 6) (n : ℕ) (hn : n < 2 ^ 61) :
    testPhi e tiny n = .ok () := by
  have key : Ok (testPhi e tiny n) (fun _ => True) := by
    unfold testPhi
    refine Ok.bind (forUp_ok (fun i s => s = ∑ j ∈ Ico 0 i, (π (10000000 + j) : ℤ)) (by simp) (by omega)
      (fun i s _ _ hs => ?_)) (fun s1 hs1 => ?_)
    · rw [Phi.piLegendre_ok ht (hv.sched _ _) _ (by omega), ok_bind]
      refine Ok.pure ?_
      rw [hs, sum_Ico_succ_top (by omega)]
    · refine Ok.bind (ompFor_ok (fun r z => r = z) (fun _ => True) (fun j => (π (10000000 + j) : ℤ))
        (by rintro a b x y rfl rfl; rfl) rfl rfl trivial (hv.outer 0 0 n) (fun i s r z _ _ _ hr => ?_)) (fun s2 hs2 => ?_)
      · rw [Phi.piLegendre_ok ht (hv.sched _ _) _ (by omega), ok_bind]
        exact Ok.pure ⟨trivial, by rw [hr]⟩
      · rw [if_neg]
        · exact Ok.ok trivial
        · rw [hs1, hs2, zero_add]; simp
  obtain ⟨_, h, _⟩ := key
  exact h

end SelfTest
open SelfTest

/-- The self test succeeds: for every sequence of random numbers, every number of threads, every tuning factor, every
schedule and every timing, `--test` reports no error.  Signed 64-bit sums are taken to wrap around, as in C06, C07 and
C09. -/
theorem C63_self_test (e : SelfTest.Env) (hv : e.Valid) : SelfTest.test e = .ok true := by
  obtain ⟨tiny, hb, ht⟩ := PhiTiny.build_ok
  have via : ∀ {α : Type} {f : Vec PhiTiny.Tab → M α} {P : α → Prop}, Ok (do let t ← PhiTiny.build; f t) P → Ok (f tiny) P := by
    intro α f P h
    rw [hb, ok_bind] at h
    exact h
  have E : ∀ k ph i b (x : ℕ), x ≤ 899 * 9999001 → _ := fun k ph i b x hx => hv.alg k ph i b x (by omega)
  have l1 : ∀ k ph i b (x : ℕ), x ≤ 599 * 9999001 → Ok (Lmo.piLmo1 (e.alg k ph i b x) tiny x) (fun r => r.val = primeSum x) :=
    fun k ph i b x hx => via (C05_pi_lmo1 _ x (E k ph i b x (by omega)).2.schedP2 (by omega))
  have l2 : ∀ k ph i b (x : ℕ), x ≤ 599 * 9999001 → Ok (ofI (Lmo.piLmo2 (e.alg k ph i b x) tiny x)) (fun r => r.val = primeSum x) :=
    fun k ph i b x hx => ofI_ok (via (C06_pi_lmo2_partial _ x (E k ph i b x (by omega)).2 (primeSum_fits hx))) (primeSum_fits hx)
  have l3 : ∀ k ph i b (x : ℕ), x ≤ 599 * 9999001 → Ok (ofI (Lmo.piLmo3 (e.alg k ph i b x) tiny x)) (fun r => r.val = primeSum x) :=
    fun k ph i b x hx => ofI_ok (via (C07_pi_lmo3_partial _ x (E k ph i b x (by omega)).2 (primeSum_fits hx))) (primeSum_fits hx)
  have l4 : ∀ k ph i b (x : ℕ), x ≤ 599 * 9999001 → Ok (ofI (Lmo.piLmo4 (e.alg k ph i b x) tiny x)) (fun r => r.val = primeSum x) :=
    fun k ph i b x hx => ofI_ok (via (C08_pi_lmo4 _ x (E k ph i b x (by omega)).2 (primeSum_fits hx))) (primeSum_fits hx)
  have l5 : ∀ k ph i b (x : ℕ), x ≤ 599 * 9999001 → Ok (ofI (Lmo.piLmo5 (e.alg k ph i b x) tiny x)) (fun r => r.val = primeSum x) :=
    fun k ph i b x hx => ofI_ok (via (C09_pi_lmo5_partial _ x (E k ph i b x (by omega)).2 (primeSum_fits hx))) (primeSum_fits hx)
  have l6 : ∀ k ph i b (x : ℕ), x ≤ 899 * 9999001 → Ok (Lmo.piLmoParallel1 (e.alg k ph i b x) tiny x e.threads)
      (fun r => r.val = primeSum x) :=
    fun k ph i b x hx => via (C10_below _ x e.threads (E k ph i b x hx).2 hv.threads (by omega))
  have l7 : ∀ k ph i b (x : ℕ), x ≤ 899 * 9999001 → Ok (Pi.pi (e.alg k ph i b x) tiny x e.threads)
      (fun r => r.val = primeSum x) :=
    fun k ph i b x hx => via (C01_pi_below _ x e.threads (E k ph i b x hx).1 hv.threads (by omega))
  have l0 : ∀ (x : ℕ), x ≤ 599 * 9999001 → Ok (tinySum (x : ℤ)) (fun r => r.val = primeSum x) := by
    intro x hx
    have := primeSum_fits hx
    unfold tinySum
    rw [Int.toNat_natCast, P2.primeSumTiny_ok (by omega), ok_bind]
    exact Ok.pure (I256.val_ofInt _ (by omega) (by omega))
  have hbody : SelfTest.body e tiny = .ok () := by
    unfold SelfTest.body
    rw [check_ok 1 _ (by norm_num) (fun ph i x hx => l1 1 ph i false x (by omega)) (fun ph i x hx => l0 x (by omega)),
      check_ok 2 _ (by norm_num) (fun ph i x hx => l2 2 ph i false x (by omega)) (fun ph i x hx => l1 2 ph i true x (by omega)),
      check_ok 3 _ (by norm_num) (fun ph i x hx => l3 3 ph i false x (by omega)) (fun ph i x hx => l2 3 ph i true x (by omega)),
      check_ok 4 _ (by norm_num) (fun ph i x hx => l4 4 ph i false x (by omega)) (fun ph i x hx => l3 4 ph i true x (by omega)),
      check_ok 5 _ (by norm_num) (fun ph i x hx => l5 5 ph i false x (by omega)) (fun ph i x hx => l4 5 ph i true x (by omega)),
      check_ok 6 _ (by norm_num) (fun ph i x hx => l6 6 ph i false x (by omega)) (fun ph i x hx => l5 6 ph i true x (by omega)),
      check_ok 7 _ (by norm_num) (fun ph i x hx => l7 7 ph i false x (by omega)) (fun ph i x hx => l6 7 ph i true x (by omega))]
    simp only [ok_bind]
    split
    · rw [testPhi_ok hv ht 100 (by norm_num)]; rfl
    · rfl
  unfold SelfTest.test
  rw [hb, ok_bind, hbody]
  rfl

/-- A loop that checks a condition in every iteration. -/
theorem SelfTest.forUp_check {σ : Type} {lo hi : ℕ} {s : σ} {f : ℕ → σ → M σ} (st : ℕ → σ) (P : ℕ → Prop) (hlo : lo ≤ hi)
    (h0 : s = st lo) (hP : ∀ i, lo ≤ i → i < hi → P i → f i (st i) = .ok (st (i + 1)))
    (hN : ∀ i, lo ≤ i → i < hi → ¬ P i → ∃ m, f i (st i) = .error (.thrown m)) :
    (forUp lo hi s f = .ok (st hi) ∧ ∀ i, lo ≤ i → i < hi → P i) ∨
      ((∃ m, forUp lo hi s f = .error (.thrown m)) ∧ ∃ i, lo ≤ i ∧ i < hi ∧ ¬ P i) := by
  obtain ⟨d, rfl⟩ : ∃ d, hi = lo + d := ⟨hi - lo, by omega⟩
  induction d generalizing lo s with
  | zero =>
    left
    refine ⟨?_, by omega⟩
    unfold forUp
    rw [if_neg (by omega), h0]
    rfl
  | succ d ih =>
    subst h0
    unfold forUp
    rw [if_pos (by omega)]
    by_cases hp : P lo
    · rw [hP lo le_rfl (by omega) hp, ok_bind]
      have := ih (lo := lo + 1) (s := st (lo + 1)) (hlo := by omega) (h0 := rfl)
        (hP := fun i h1 h2 => hP i (by omega) (by omega)) (hN := fun i h1 h2 => hN i (by omega) (by omega))
      rw [show lo + 1 + d = lo + (d + 1) by omega] at this
      rcases this with ⟨h1, h2⟩ | ⟨h1, i, h2, h3, h4⟩
      · left
        refine ⟨h1, fun i hi1 hi2 => ?_⟩
        rcases Nat.eq_or_lt_of_le hi1 with rfl | hlt
        · exact hp
        · exact h2 i hlt hi2
      · exact Or.inr ⟨h1, i, by omega, h3, h4⟩
    · right
      obtain ⟨m, hm⟩ := hN lo le_rfl (by omega) hp
      rw [hm]
      exact ⟨⟨m, rfl⟩, lo, le_rfl, by omega, hp⟩

/-- The self test detects errors: a comparison of two functions (total, with values `g1` and `g2`) passes exactly if
they agree on `0, …, 9999` and on the random arguments; otherwise an exception is thrown. -/
theorem C63_detects (e : SelfTest.Env) (k : ℕ) (name : String) (g1 g2 : ℤ → I256) (iters : ℕ) :
    (SelfTest.check e k name (fun _ x => .ok (g1 x)) (fun _ x => .ok (g2 x)) iters = .ok () ∧
      (∀ x : ℕ, x < 10000 → g1 x = g2 x) ∧ ∀ i < iters, g1 (argAt e k i) = g2 (argAt e k i)) ∨
    ((∃ m, SelfTest.check e k name (fun _ x => .ok (g1 x)) (fun _ x => .ok (g2 x)) iters = .error (.thrown m)) ∧
      ((∃ x : ℕ, x < 10000 ∧ g1 x ≠ g2 x) ∨ ∃ i < iters, g1 (argAt e k i) ≠ g2 (argAt e k i))) := by
  unfold SelfTest.check
  simp only [ok_bind]
  have A := SelfTest.forUp_check (lo := 0) (hi := 10000) (s := ()) (f := fun x _ => checkEqual name x (g1 x) (g2 x))
    (fun _ => ()) (fun x => g1 (x : ℤ) = g2 x) (by norm_num) rfl (fun i _ _ h => checkEqual_eq h) (fun i _ _ h => checkEqual_ne h)
  have B := SelfTest.forUp_check (lo := 0) (hi := iters) (s := (0 : ℤ))
    (f := fun i x => do checkEqual name x (g1 x) (g2 x); pure (x + getRand (e.rand k i)))
    (fun i => argAt e k i) (fun i => g1 (argAt e k i) = g2 (argAt e k i)) (by omega) (by simp [argAt]) (fun i _ _ h => by
      rw [checkEqual_eq h, ok_bind]
      unfold argAt
      rw [sum_range_succ]; rfl) (fun i _ _ h => by
      obtain ⟨m, hm⟩ := checkEqual_ne (f := name) (x := argAt e k i) h
      exact ⟨m, by rw [hm]; rfl⟩)
  rcases A with ⟨a1, a2⟩ | ⟨⟨m, a1⟩, x, _, a2, a3⟩
  · rw [a1, ok_bind]
    rcases B with ⟨b1, b2⟩ | ⟨⟨m, b1⟩, i, _, b2, b3⟩
    · rw [b1, ok_bind]
      exact Or.inl ⟨rfl, fun x hx => a2 x (by omega) hx, fun i hi => b2 i (by omega) hi⟩
    · rw [b1]
      exact Or.inr ⟨⟨m, rfl⟩, Or.inr ⟨i, b2, b3⟩⟩
  · rw [a1]
    exact Or.inr ⟨⟨m, rfl⟩, Or.inl ⟨x, a2, a3⟩⟩

/-- The result of the program: `test()` with such a comparison in its `try` block returns whether they agree. -/
theorem C63_result (e : SelfTest.Env) (k : ℕ) (name : String) (g1 g2 : ℤ → I256) (iters : ℕ) :
    ∃ b, SelfTest.report (SelfTest.check e k name (fun _ x => .ok (g1 x)) (fun _ x => .ok (g2 x)) iters) = .ok b ∧
      (b = true ↔ (∀ x : ℕ, x < 10000 → g1 x = g2 x) ∧ ∀ i < iters, g1 (argAt e k i) = g2 (argAt e k i)) := by
  rcases C63_detects e k name g1 g2 iters with ⟨h1, h2, h3⟩ | ⟨⟨m, h1⟩, h2⟩
  · exact ⟨true, by rw [h1]; rfl, fun _ => ⟨h2, h3⟩, fun _ => rfl⟩
  · refine ⟨false, by rw [h1]; rfl, fun h => absurd h (by simp), fun ⟨h3, h4⟩ => ?_⟩
    rcases h2 with ⟨x, h5, h6⟩ | ⟨i, h5, h6⟩
    · exact absurd (h3 x h5) h6
    · exact absurd (h4 i h5) h6

/-- Non-vacuity: two functions that differ only at 9999. -/
example (e : SelfTest.Env) : SelfTest.report (SelfTest.check e 1 "f" (fun _ _ => .ok (I256.ofInt 0))
    (fun _ x => .ok (I256.ofInt (if x = 9999 then 1 else 0))) 0) = .ok false := by
  obtain ⟨b, h1, h2⟩ := C63_result e 1 "f" (fun _ => I256.ofInt 0) (fun x => I256.ofInt (if x = 9999 then 1 else 0)) 0
  rw [h1]
  cases b with
  | false => rfl
  | true => exact absurd ((h2.1 rfl).1 9999 (by norm_num)) (by decide)

/-- Non-vacuity: a run with varying random numbers, threads and tuning factors. -/
example : SelfTest.test ⟨true, 4, fun k i => k * 12345 + i * i * 7919, fun k _ i b _ => exampleEnv (k + i) b,
    fun _ _ => Scheduler.seq, Scheduler.seq⟩ = .ok true :=
  C63_self_test _ ⟨by norm_num, fun _ _ => Scheduler.seq_valid, Scheduler.seq_valid, fun k _ i b x hx =>
    ⟨exampleEnv_valid _ _, exampleEnv_lmo _ _⟩⟩

end PS
