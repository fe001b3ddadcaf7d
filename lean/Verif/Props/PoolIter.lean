import Verif.Proof.PsvPoolIter
import Verif.Props.PrimeSieve
import Verif.Props.Pool

/-!
# C57, C59, C60 with the memory pool

The iterator, `store_primes`, `store_n_primes` and the prime generator, with the pointers and the memory pools of
`EratMedium` and `EratBig` instead of lists.  `heap k i` says what `new` does, and what new memory contains, for the
`i`-th pool of the `k`-th generator.
-/

namespace PS.Psv.Mem

/-- `new` refuses a request for at most 16 MiB, although it has granted at most 128 GiB to this memory pool. -/
def OutOfMemory (heap : ℕ → Fin 4 → Heap) : Prop :=
  ∃ k i chunks n, Got (heap k i).al (128 * 1024 ^ 3) chunks ∧ (chunks.map (·.2)).sum ≤ 128 * 1024 ^ 3 ∧ n ≤ 16 * 1024 * 1024 ∧
    (heap k i).al chunks n = none

theorem heapOK {heap : ℕ → Fin 4 → Heap} (h : ∀ k i, (heap k i).al.Valid) : HeapOK (OutOfMemory heap) heap :=
  fun k i => ⟨h k i, fun ⟨c, n, h1, h2, h3, h4⟩ => ⟨k, i, c, n, h1, h2, h3, h4⟩⟩

/-- A sequence of calls of `next_prime()` (`true`) and `prev_prime()` (`false`). -/
def pRunCalls (env : Env) (it : PIter) : List Bool → M (List ℕ)
  | [] => .ok []
  | d :: ds => do
    let r ← (if d then it.nextPrime env else it.prevPrime env)
    let ps ← pRunCalls env r.2 ds
    pure (r.1 :: ps)

theorem pRunCalls_sim {F : Prop} {env : Env} (ds : List Bool) : ∀ {it : PIter} {it' : Iter} {cur : ℕ}, RIter F it it' → IterAt it' cur →
    Sim F (pRunCalls env it ds) (runCalls env it' ds) (fun a b => a = b) := by
  induction ds with
  | nil => intro it it' cur _ _; exact Sim.pure rfl
  | cons d ds ih =>
    intro it it' cur h hat
    unfold pRunCalls runCalls
    refine Sim.bind (R := fun (a : ℕ × PIter) (b : ℕ × Iter) => (a.1 = b.1 ∧ RIter F a.2 b.2) ∧ IterAt b.2 b.1)
      (Sim.ite (fun _ => (PIter.nextPrime_sim h).and_right (fun b hb => ?_))
        (fun _ => (PIter.prevPrime_sim h (IterAt.first hat)).and_right (fun b hb => ?_))) ?_
    · obtain ⟨r, e1, -, e2⟩ := nextPrime_iter (env := env) hat
      rw [hb] at e1
      obtain rfl := Except.ok.inj e1
      exact e2
    · obtain ⟨r, e1, -, e2⟩ := prevPrime_iter (env := env) hat
      rw [hb] at e1
      obtain rfl := Except.ok.inj e1
      exact e2
    rintro ⟨p, it⟩ ⟨q, it'⟩ ⟨⟨hp, hit⟩, hat⟩
    dsimp only at hp hit hat
    subst hp
    exact (ih hit hat).bind (fun a b hab => Sim.pure (by rw [hab]))

/-- **C57 with the memory pool.** Whatever addresses `new` returns and whatever new memory contains, every sequence of
`next_prime()` and `prev_prime()` calls returns the neighbouring primes, or `std::bad_alloc` is thrown because `new`
refused a request for at most 16 MiB to a memory pool that had got at most 128 GiB. -/
theorem C57_iterator_pool {env : Env} {heap : ℕ → Fin 4 → Heap} (hh : ∀ k i, (heap k i).al.Valid)
    {start : ℕ} (h : start < 2 ^ 64) (stopHint : ℕ) (ds : List Bool) :
    (pRunCalls env (PIter.make heap start stopHint) ds = .error (.thrown "std::bad_alloc") ∧ OutOfMemory heap) ∨
    ∃ ps, pRunCalls env (PIter.make heap start stopHint) ds = .ok ps ∧ Answers start ds ps := by
  rcases (pRunCalls_sim (env := env) ds (PIter.make_rel (heapOK hh) h stopHint) (make_at stopHint h)).ok (C57_iterator h stopHint ds) with e | ⟨a, b, e, rfl, h3⟩
  · exact Or.inl e
  · exact Or.inr ⟨a, e, h3⟩

theorem pIterFor_sim {F : Prop} {env : Env} {σ : Type} {it : PIter} {it' : Iter} (h : RIter F it it') (hi : ℕ) (s : σ) (f : ℕ → σ → M σ) :
    Sim F (pIterFor env it hi s f) (iterFor env it' hi s f) (fun a b => a = b) := by
  unfold pIterFor iterFor
  refine (PIter.nextPrime_sim h).bind ?_
  rintro ⟨p, it⟩ ⟨q, it'⟩ ⟨hp, hit⟩
  dsimp only at hp hit
  subst hp
  refine Sim.loop (R := fun (a : ℕ × PIter × σ) (b : ℕ × Iter × σ) => a.1 = b.1 ∧ RIter F a.2.1 b.2.1 ∧ a.2.2 = b.2.2) ?_ _ _ _
    ⟨rfl, hit, rfl⟩
  rintro ⟨p, it, v⟩ ⟨q, it', w⟩ ⟨hp, hit, hv⟩
  dsimp only at hp hit hv
  subst hp hv
  refine Sim.ite (fun _ => Sim.same (fun s => (PIter.nextPrime_sim hit).bind ?_)) (fun _ => Sim.pure rfl)
  rintro ⟨p, it⟩ ⟨q, it'⟩ ⟨hp, hit⟩
  exact Sim.pure ⟨hp, hit, rfl⟩

/-- **C58 with the memory pool**: the usual loop over the primes executes its body, which may fail, for the primes in
`(pos, hi]` in increasing order, or memory is exhausted. -/
theorem C58_loop_pool {σ : Type} {env : Env} {heap : ℕ → Fin 4 → Heap} (hh : ∀ k i, (heap k i).al.Valid)
    {pos hi : ℕ} (hpos : pos < 2 ^ 64) (hhi : hi < 2 ^ 64 - 1) (hint : ℕ) (s : σ) (f : ℕ → σ → M σ) :
    (pIterFor env (PIter.make heap pos hint) hi s f = .error (.thrown "std::bad_alloc") ∧ OutOfMemory heap) ∨
    pIterFor env (PIter.make heap pos hint) hi s f = (primesIn pos hi).foldlM (fun s p => f p s) s := by
  have := pIterFor_sim (env := env) (PIter.make_rel (heapOK hh) hpos hint) hi s f
  rw [C58_loop hpos hhi] at this
  rcases this with e | ⟨x, e1, e2⟩ | ⟨a, b, e1, e2, rfl⟩
  · exact Or.inl e
  · exact Or.inr (by rw [e1, e2])
  · exact Or.inr (by rw [e1, e2])

/-- **C59 with the memory pool.** -/
theorem C59_store_primes_pool {env : Env} {heap : ℕ → Fin 4 → Heap} (hh : ∀ k i, (heap k i).al.Valid)
    {start stop : ℕ} (h1 : start < 2 ^ 64) (h2 : stop < 2 ^ 64) (l : List ℕ) :
    (pStorePrimes env heap start stop ⟨l.toArray⟩ = .error (.thrown "std::bad_alloc") ∧ OutOfMemory heap) ∨
    pStorePrimes env heap start stop ⟨l.toArray⟩ =
      .ok ⟨(l ++ (List.range (stop + 1)).filter (fun p => decide (start ≤ p ∧ p.Prime))).toArray⟩ := by
  rcases (pStorePrimes_sim (heapOK hh) h1 stop ⟨l.toArray⟩).ok (Ok.of_eq (C59_store_primes h1 h2 l) rfl) with e | ⟨a, b, e, rfl, h3⟩
  · exact Or.inl e
  · exact Or.inr (by rw [e]; exact congrArg _ h3.symm)

theorem C59_store_n_primes_pool {env : Env} {heap : ℕ → Fin 4 → Heap} (hh : ∀ k i, (heap k i).al.Valid)
    {n start : ℕ} (h1 : start < 2 ^ 64) (hn : 0 < n) (l : List ℕ) :
    (pStoreNPrimes env heap n start ⟨l.toArray⟩ = .error (.thrown "std::bad_alloc") ∧ OutOfMemory heap) ∨
    (nextN (start - 1) (n + 1) < 2 ^ 64 ∧ pStoreNPrimes env heap n start ⟨l.toArray⟩ = .ok ⟨(l ++ primesFrom (start - 1) n).toArray⟩) ∨
    (2 ^ 64 ≤ nextN (start - 1) (n + 1) ∧
      pStoreNPrimes env heap n start ⟨l.toArray⟩ = .error (.thrown "cannot generate primes > 2^64")) := by
  have hs := pStoreNPrimes_sim (env := env) (heapOK hh) n h1 ⟨l.toArray⟩
  rcases C59_store_n_primes h1 hn l with ⟨h2, h3⟩ | ⟨h2, h3⟩
  · rcases hs with e | ⟨x, e1, e2⟩ | ⟨a, b, e1, e2, rfl⟩
    · exact Or.inl e
    · rw [h3] at e2; cases e2
    · rw [h3] at e2
      exact Or.inr (Or.inl ⟨h2, by rw [e1, ← e2]⟩)
  · rcases hs with e | ⟨x, e1, e2⟩ | ⟨a, b, e1, e2, rfl⟩
    · exact Or.inl e
    · rw [h3] at e2
      exact Or.inr (Or.inr ⟨h2, by rw [e1, ← e2]⟩)
    · rw [h3] at e2; cases e2

/-- **C60 with the memory pool**: the generator. -/
theorem C60_fill_pool {env : Env} {h : Fin 4 → Heap} (hh : ∀ i, (h i).al.Valid)
    {v : Vec ℕ} {start stop : ℕ} (h64 : stop < 2 ^ 64) (hle : start ≤ stop) :
    ((PGen.make start stop h).fillPrev env v = .error (.thrown "std::bad_alloc") ∧ OutOfMemory (fun _ => h)) ∨
    Ok ((PGen.make start stop h).fillPrev env v) (fun r =>
      v.size ≤ r.2.size ∧ (∀ j < v.size, r.2.get j = v.get j) ∧
      (∀ j l, v.size ≤ j → j < l → l < r.2.size → r.2.get j < r.2.get l) ∧
      ∀ x, (∃ j, v.size ≤ j ∧ j < r.2.size ∧ r.2.get j = x) ↔ start ≤ x ∧ x ≤ stop ∧ x.Prime) := by
  rcases (PGen.fillPrev_sim (RGen.make h64 (fun i => heapOK (heap := fun _ => h) (fun _ i => hh i) 0 i)) v).ok (C60_fill h64 hle)
    with e | ⟨a, b, e, h2, h3⟩
  · exact Or.inl e
  · refine Or.inr ⟨a, e, ?_⟩
    dsimp only
    rw [h2.2]
    exact h3

/-! ## Non-vacuity -/

def heap0 : ℕ → Fin 4 → Heap := fun k i => ⟨bump, fun a => ⟨a, k, fun j => ⟨j + i, a⟩⟩⟩

/-- There is memory. -/
theorem heap0_memory : ¬ OutOfMemory heap0 := by
  rintro ⟨k, i, cs, n, h1, h2, h3, h4⟩
  exact bump_grants h1 (h2.trans (by norm_num)) h3 h4

/-- So the first case of C57 to C60 does not occur with this heap. -/
example (start stopHint : ℕ) (h : start < 2 ^ 64) (ds : List Bool) :
    ∃ ps, pRunCalls env0 (PIter.make heap0 start stopHint) ds = .ok ps ∧ Answers start ds ps :=
  (C57_iterator_pool (fun _ _ => bump_valid) h stopHint ds).resolve_left (fun h => heap0_memory h.2)

example : (∀ k i, (heap0 k i).al.Valid) ∧
    pRunCalls env0 (PIter.make heap0 10 1000) [true, true, false, false] = .ok [11, 13, 11, 7] :=
  ⟨fun _ _ => bump_valid, by decide +kernel⟩

example : ((pStorePrimes env0 heap0 5 20 ⟨#[1]⟩).toOption.map (·.data)) = some #[1, 5, 7, 11, 13, 17, 19] := by decide +kernel

end PS.Psv.Mem
