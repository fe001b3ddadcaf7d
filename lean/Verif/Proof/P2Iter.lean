import Verif.Model.P2Iter
import Verif.Proof.PsvPos
import Verif.Proof.GenIter

/-!
# P2 with the prime iterators computes what P2 with the primes computes
-/

namespace PS.P2
open Res Psv Psv.Mem

theorem whileIt_sim {F : Prop} (env : Psv.Env) {σ : Type} {lim : ℤ} {f : ℕ → σ → σ} :
    ∀ (fuel next : ℕ) (it : PIter) (s : σ), PAt F it next → (lim + 1 - next).toNat < fuel →
    Sim F (loop fuel ((next, it, s) : ItSt σ) (fun x =>
      if x.1 ≤ lim then do
        let s ← pure (f x.1 x.2.2)
        let r ← x.2.1.nextPrime env
        let n ← fit 63 r.1
        pure (.next (n, r.2, s))
      else pure (.done x))) (whilePrimes next lim s f) (fun x r => x.1 = r.1 ∧ x.2.2 = r.2 ∧ PAt F x.2.1 r.1) := by
  intro fuel
  induction fuel with
  | zero => intro _ _ _ _ h; omega
  | succ fuel ih =>
    intro next it s hit hf
    rw [loop, whilePrimes]
    dsimp only
    by_cases hle : next ≤ lim
    · rw [if_pos hle, if_pos hle]
      have hn := lt_nextPrime next
      have e : (if PS.nextPrime next < 2 ^ 63 then whilePrimes (PS.nextPrime next) lim (f next s) f else .error .overflow) =
          (fit 63 (PS.nextPrime next) >>= fun n => whilePrimes n lim (f next s) f) := by
        unfold fit
        split <;> rfl
      rw [e]
      have := (PAt.next63 env hit).and_right (Q := fun p => next < p)
        (fun p hp => by rw [(fit_inv hp).1]; exact hn)
      have h2 := this.bind (f := fun r => loop fuel ((r.1, r.2, f next s) : ItSt σ) _) (g := fun n => whilePrimes n lim (f next s) f)
        (S := fun (x : ItSt σ) (r : ℕ × σ) => x.1 = r.1 ∧ x.2.2 = r.2 ∧ PAt F x.2.1 r.1)
        (fun r p hr => by
          rw [hr.1.1]
          exact ih p r.2 (f next s) hr.1.2 (by have := hr.2; omega))
      simp only [bind_assoc, pure_bind] at h2 ⊢
      exact h2
    · rw [if_neg hle, if_neg hle]
      exact Sim.pure ⟨rfl, rfl, hit⟩

theorem whileIt_rel {F : Prop} (env : Psv.Env) {σ : Type} {lim : ℤ} {f : ℕ → σ → σ}
    {next : ℕ} {it : PIter} (s : σ) (h : PAt F it next) :
    Sim F (whileIt env next it lim s (fun n s => pure (f n s))) (whilePrimes next lim s f)
      (fun x r => x.1 = r.1 ∧ x.2.2 = r.2 ∧ PAt F x.2.1 r.1) :=
  whileIt_sim env (lim.toNat + 2) next it s h (by omega)

variable {R : Type} [Res R]

theorem walkIt_sim {F : Prop} (env : Psv.Env) {x y z : ℕ} {start : ℤ} {sqrtx : ℕ} :
    ∀ (fuel prime : ℕ) (rit : PIter) (next : ℕ) (it : PIter) (s : St R), prime < fuel → prime < 2 ^ 63 → PAt F rit prime →
    PAt F it next → Sim F (walkIt env x y z start sqrtx fuel prime rit next it s) (walk x y z start sqrtx prime next s)
      (fun a b => a = b) := by
  intro fuel
  induction fuel with
  | zero => intro _ _ _ _ _ h; omega
  | succ fuel ih =>
    intro prime rit next it s hf h63 hrit hit
    rw [walkIt, walk]
    have hend : Sim F (do
          let r ← whileIt env next it (z - 1) s (fun n s => pure (fwd y sqrtx n s))
          pure r.2.2) (do
          let r ← whilePrimes next (z - 1) s (fwd y sqrtx)
          pure r.2) (fun a b => a = b) :=
      (whileIt_rel env s hit).bind (fun a b h => Sim.pure h.2.1)
    refine Sim.ite (fun _ => ?_) (fun _ => hend)
    by_cases h0 : prime = 0
    · rw [if_pos h0, dif_pos h0]
      exact Or.inr (Or.inl ⟨_, rfl, rfl⟩)
    · rw [if_neg h0, dif_neg h0]
      refine Sim.ite (fun _ => ?_) (fun _ => hend)
      refine (whileIt_rel env s hit).bind (fun a b h => ?_)
      dsimp only
      rw [h.2.1, h.1]
      have hp := prevPrime_lt (n := prime) (by omega)
      have := ((PAt.prev env hrit).and_right (Q := fun p => p = PS.prevPrime prime)
        (fun p hp => (Except.ok.inj hp).symm)).bind (f := fun q => (do
          let p ← fit 63 q.1
          walkIt env x y z start sqrtx fuel p q.2 b.1 a.2.1
            { b.2 with p2 := add b.2.p2 (mul b.2.primeSum (ofInt prime)), correct := add b.2.correct (ofInt prime) }))
        (g := fun p => walk x y z start sqrtx p b.1
            { b.2 with p2 := add b.2.p2 (mul b.2.primeSum (ofInt prime)), correct := add b.2.correct (ofInt prime) })
        (S := fun a b => a = b) (fun q p hq => by
          have hpp := hq.2
          rw [hq.1.1, fit_ok (by omega), ok_bind]
          exact ih p q.2 b.1 a.2.1 _ (by omega) (by omega) hq.1.2 h.2.2)
      rwa [pure_bind] at this

theorem csub_inv {a b c : ℕ} (h : csub a b = .ok c) : c ≤ a := by
  unfold csub at h
  split at h
  · have := Except.ok.inj h
    omega
  · cases h

theorem threadIt_sim {F : Prop} (env : Psv.Env) {heap : Bool → ℕ → Fin 4 → Heap}
    (hh : ∀ b, HeapOK F (heap b)) (x y z distance num low : ℕ) :
    Sim F (threadIt R env heap x y z distance num low) (thread R x y z distance num low) (fun a b => a = b) := by
  unfold threadIt thread
  refine Sim.same (fun dn => Sim.same' (fun low1 h1 => Sim.same (fun hi => Sim.same (fun sqrtx => Sim.same (fun xz =>
    Sim.same (fun xl => Sim.same' (fun stop1 h2 => Sim.same' (fun lowm1 h3 => ?_))))))))
  have h1' := fit_inv h1
  have h2' := fit_inv h2
  have h3' := csub_inv h3
  dsimp only
  have hit := PAt.make (hh true) (start := lowm1) (by omega) (min hi z)
  have hrit := PAt.make (hh false) (start := stop1) (by omega) ((wrap64 (max xz y)) % 2 ^ 64).toNat
  have := (PAt.next63 env hit).bind (f := fun r => (do
      let q ← (PIter.make (heap false) stop1 ((wrap64 (max xz y)) % 2 ^ 64).toNat).prevPrime env
      let prime ← fit 63 q.1
      walkIt env x y (min hi z) (wrap64 (max xz y)) sqrtx (prime + 1) prime q.2 r.1 r.2
        (⟨ofInt 0, ofInt 0, ofInt 0⟩ : St R)))
    (g := fun n => (pure (PS.prevPrime stop1) : M ℕ) >>= fun p => walk x y (min hi z) (wrap64 (max xz y)) sqrtx p n
      (⟨ofInt 0, ofInt 0, ofInt 0⟩ : St R)) (S := fun a b => a = b) (fun r n hr => by
        refine ((PAt.prev env hrit).and_right (Q := fun p => p = PS.prevPrime stop1)
          (fun p hp => (Except.ok.inj hp).symm)).bind (fun q p hq => ?_)
        have hpp := hq.2
        have hlt : PS.prevPrime stop1 < 2 ^ 63 := by
          rcases Nat.eq_zero_or_pos stop1 with h0 | h0
          · omega
          · have := prevPrime_lt h0; omega
        rw [hq.1.1, fit_ok (by omega), ok_bind, hr.1]
        exact walkIt_sim env (p + 1) p q.2 n r.2 _ (by omega) (by omega) hq.1.2 hr.2)
  simp only [bind_assoc, pure_bind] at this ⊢
  exact this

theorem whileIt_for {F : Prop} (env : Psv.Env) {σ : Type} {hi : ℕ} (hhi : hi < 2 ^ 62) {f : ℕ → σ → M σ} :
    ∀ (fuel pos : ℕ) (it : PIter) (s : σ), PAt F it (PS.nextPrime pos) → hi + 1 - PS.nextPrime pos < fuel →
    Sim F (loop fuel ((PS.nextPrime pos, it, s) : ItSt σ) (fun x =>
      if x.1 ≤ (hi : ℤ) then do
        let s ← f x.1 x.2.2
        let r ← x.2.1.nextPrime env
        let n ← fit 63 r.1
        pure (.next (n, r.2, s))
      else pure (.done x))) (forPrimes pos hi s f) (fun x s => x.2.2 = s) := by
  intro fuel
  induction fuel with
  | zero => intro _ _ _ _ h; omega
  | succ fuel ih =>
    intro pos it s hit hf
    rw [loop, forPrimes]
    dsimp only
    by_cases hle : PS.nextPrime pos ≤ hi
    · rw [if_pos (by exact_mod_cast hle), if_pos hle, bind_assoc]
      refine Sim.same (fun s' => ?_)
      have hn := lt_nextPrime (PS.nextPrime pos)
      have := ((PAt.next63 env hit).and_right (Q := fun p => p = PS.nextPrime (PS.nextPrime pos))
        (fun p hp => (fit_inv hp).1)).bind (f := fun r => loop fuel ((r.1, r.2, s') : ItSt σ) (fun x =>
          if x.1 ≤ (hi : ℤ) then do
            let s ← f x.1 x.2.2
            let r ← x.2.1.nextPrime env
            let n ← fit 63 r.1
            pure (.next (n, r.2, s))
          else pure (.done x))) (g := fun _ => forPrimes (PS.nextPrime pos) hi s' f)
        (S := fun (x : ItSt σ) (s : σ) => x.2.2 = s)
      rw [fit_ok (nextPrime_fits (n := PS.nextPrime pos) (by omega)), ok_bind] at this
      have h2 := this (fun r p hr => by
        have h3 := hr.1.2
        rw [hr.2] at h3
        rw [hr.1.1, hr.2]
        exact ih (PS.nextPrime pos) r.2 s' h3 (by omega))
      simp only [bind_assoc, pure_bind] at h2 ⊢
      exact h2
    · rw [if_neg (by exact_mod_cast hle), if_neg hle]
      exact Sim.pure rfl

theorem primeSumTinyIt_sim {F : Prop} (env : Psv.Env) {heap : ℕ → Fin 4 → Heap} (hh : HeapOK F heap)
    {x : ℕ} (hx : x < 2 ^ 62) : Sim F (primeSumTinyIt env heap x) (primeSumTiny x) (fun a b => a = b) := by
  unfold primeSumTinyIt primeSumTiny
  have hit := PAt.make hh (start := 0) (by omega) x
  have := ((PAt.next63 env hit).and_right (Q := fun p => p = PS.nextPrime 0) (fun p hp => (fit_inv hp).1)).bind
    (f := fun r => (do
      let w ← whileIt env r.1 r.2 x 0 (fun p s => fit 127 (s + p))
      pure w.2.2)) (g := fun _ => forPrimes 0 x 0 (fun p s => fit 127 (s + p))) (S := fun a b => a = b)
    (fun r p hr => by
      have h3 := hr.1.2
      rw [hr.2] at h3
      rw [hr.1.1, hr.2]
      have h4 := whileIt_for env hx (f := fun p s => fit 127 (s + p)) ((x : ℤ).toNat + 2) 0 r.2 0 h3 (by
        rw [Int.toNat_natCast]; omega)
      have h5 := h4.bind (f := fun w => pure w.2.2) (g := pure) (S := fun a b => a = b) (fun a b h => Sim.pure h)
      rwa [bind_pure] at h5)
  rw [fit_ok (nextPrime_fits (by omega)), ok_bind] at this
  simp only [bind_assoc, pure_bind] at this ⊢
  exact this

theorem iterationIt_ref {F : Prop} (env : Psv.Env) {heap : ℕ → ℕ → Bool → ℕ → Fin 4 → Heap}
    (hh : ∀ k i b, HeapOK F (heap k i b)) (sched : Scheduler) (time : ℕ → Ordering) (size x y z : ℕ) (s : MSt R) :
    Ref True F (iterationIt env heap sched time size x y z s) (iteration sched time size x y z s) := by
  unfold iterationIt iteration
  refine Ref.ite (fun _ => Ref.refl) (fun _ => ?_)
  refine Ref.same (fun a _ => Ref.same (fun segments _ => ?_))
  refine Ref.bind (Ref.ompFor trivial (fun i _ r => ?_)) (fun p2 _ => ?_)
  · exact (Ref.of_sim (threadIt_sim env (hh s.iter i) x y z _ i s.low)).bind (fun _ _ => Ref.refl)
  · refine Ref.bind (Ref.forUp (fun i a _ => ?_) _ 0 _ rfl) (fun q _ => Ref.refl)
    refine Ref.ite (fun _ => Ref.refl) (fun _ => ?_)
    exact (Ref.of_sim (threadIt_sim env (hh s.iter i) x y z _ i s.low)).bind (fun _ _ => Ref.refl)

theorem masterIt_ref {F : Prop} {env : Psv.Env} {H : Heaps} (h : H.Good F) (tiny : Vec PhiTiny.Tab)
    (sched : Scheduler) (time : ℕ → Ordering) (threads : ℤ) {x y : ℕ} (hx : x < 2 ^ 127) (hy : y < 2 ^ 62) :
    Ref True F (masterIt R env H tiny sched time threads x y) (master R tiny sched time threads x y) := by
  unfold masterIt master
  refine Ref.ite (fun _ => Ref.refl) (fun _ => ?_)
  have hs : Nat.sqrt x < 2 ^ 127 := lt_of_le_of_lt (Nat.sqrt_le_self x) hx
  refine (Phi.piLegendreIt_ref tiny sched y _ y le_rfl (h.sub 0) (by omega)).bind (fun a _ => ?_)
  refine (Phi.piLegendreIt_ref tiny sched _ _ _ le_rfl (h.sub 1) hs).bind (fun b _ => ?_)
  refine Ref.ite (fun _ => Ref.refl) (fun _ => Ref.same (fun z _ => Ref.same (fun z _ => ?_)))
  refine (Ref.of_sim (primeSumTinyIt_sim env (h [2]) hy)).bind (fun f _ => Ref.loop (fun s => ?_) _ _)
  refine Ref.ite (fun _ => ?_) (fun _ => Ref.refl)
  exact (iterationIt_ref env (fun k i b => h [3, k, i, b.toNat]) sched time _ x y z s).bind (fun _ _ => Ref.refl)

theorem p2It_ref {F : Prop} {env : Psv.Env} {H : Heaps} (h : H.Good F) (tiny : Vec PhiTiny.Tab)
    (sched : Scheduler) (time : ℕ → Ordering) (threads : ℤ) {x y : ℕ} (hx : x < 2 ^ 127) (hy : y < 2 ^ 62) :
    Ref True F (p2It env H tiny sched time threads x y) (p2 tiny sched time threads x y) := by
  unfold p2It p2
  exact Ref.ite (fun _ => (masterIt_ref h tiny sched time threads hx hy).bind (fun _ _ => Ref.refl))
    (fun _ => (masterIt_ref h tiny sched time threads hx hy).bind (fun _ _ => Ref.refl))

end PS.P2
