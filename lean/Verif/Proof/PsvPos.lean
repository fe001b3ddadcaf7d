import Verif.Proof.PsvPoolIter
import Verif.Proof.PsvStore
import Verif.Proof.P2

/-!
# Where a prime iterator stands
-/

namespace PS.P2
open Res Psv Psv.Mem

theorem fit_inv {b n m : ℕ} (h : fit b n = .ok m) : m = n ∧ n < 2 ^ b := by
  by_cases hb : n < 2 ^ b
  · rw [fit_ok hb] at h
    exact ⟨(Except.ok.inj h).symm, hb⟩
  · rw [fit_error (by omega)] at h
    cases h

theorem Sim.same' {F : Prop} {α α' β' : Type} {m : M α} {f : α → M α'} {g : α → M β'} {S : α' → β' → Prop}
    (hf : ∀ a, m = .ok a → Sim F (f a) (g a) S) : Sim F (m >>= f) (m >>= g) S := by
  cases m with
  | error e => exact Or.inr (Or.inl ⟨e, rfl, rfl⟩)
  | ok a => exact hf a rfl

/-- The iterator stands at `cur`. -/
def PAt (F : Prop) (it : PIter) (cur : ℕ) : Prop := ∃ it', RIter F it it' ∧ IterAt it' cur

theorem PAt.make {F : Prop} {heap : ℕ → Fin 4 → Heap} (hh : HeapOK F heap) {start : ℕ} (h : start < 2 ^ 64) (hint : ℕ) :
    PAt F (PIter.make heap start hint) start := ⟨_, PIter.make_rel hh h hint, make_at hint h⟩

theorem PAt.next {F : Prop} (env : Psv.Env) {it : PIter} {cur : ℕ} (h : PAt F it cur) :
    Sim F (it.nextPrime env) (pure (min (PS.nextPrime cur) (2 ^ 64 - 1)) : M ℕ) (fun r p => r.1 = p ∧ PAt F r.2 p) := by
  obtain ⟨it', h1, h2⟩ := h
  obtain ⟨r, e1, e2, e3⟩ := nextPrime_iter h2
  rcases PIter.nextPrime_sim (env := env) h1 with g | ⟨e, g1, g2⟩ | ⟨a, b, g1, g2, g3, g4⟩
  · exact Or.inl g
  · rw [e1] at g2; cases g2
  · rw [e1] at g2
    obtain rfl := Except.ok.inj g2
    refine Or.inr (Or.inr ⟨a, _, g1, rfl, ?_, ?_⟩)
    · rw [g3, nextSpec_eq e2]
    · rw [← nextSpec_eq e2]
      exact ⟨_, g4, e3⟩

theorem PAt.prev {F : Prop} (env : Psv.Env) {it : PIter} {cur : ℕ} (h : PAt F it cur) :
    Sim F (it.prevPrime env) (pure (PS.prevPrime cur) : M ℕ) (fun r p => r.1 = p ∧ PAt F r.2 p) := by
  obtain ⟨it', h1, h2⟩ := h
  obtain ⟨r, e1, e2, e3⟩ := prevPrime_iter h2
  rcases PIter.prevPrime_sim (env := env) h1 (IterAt.first h2) with g | ⟨e, g1, g2⟩ | ⟨a, b, g1, g2, g3, g4⟩
  · exact Or.inl g
  · rw [e1] at g2; cases g2
  · rw [e1] at g2
    obtain rfl := Except.ok.inj g2
    refine Or.inr (Or.inr ⟨a, _, g1, rfl, ?_, ?_⟩)
    · rw [g3, prevSpec_eq e2]
    · rw [← prevSpec_eq e2]
      exact ⟨_, g4, e3⟩

/-- `next = it.next_prime()` for an `int64_t`. -/
theorem PAt.next63 {F : Prop} (env : Psv.Env) {it : PIter} {cur : ℕ} (h : PAt F it cur) :
    Sim F (do let r ← it.nextPrime env; let n ← fit 63 r.1; pure (n, r.2)) (fit 63 (PS.nextPrime cur))
      (fun r p => r.1 = p ∧ PAt F r.2 p) := by
  have hh := PAt.next env h
  rw [show fit 63 (PS.nextPrime cur) = (pure (min (PS.nextPrime cur) (2 ^ 64 - 1)) : M ℕ) >>= fun p => fit 63 p by
    rw [pure_eq_ok, ok_bind]
    unfold fit
    by_cases hlt : PS.nextPrime cur < 2 ^ 63
    · rw [if_pos hlt, if_pos (by omega), Nat.min_eq_left (by omega)]
    · rw [if_neg hlt, if_neg (by omega)]]
  refine hh.bind (fun r p hr => ?_)
  rw [hr.1]
  have := Sim.same' (F := F) (m := fit 63 p) (f := fun n => pure (n, r.2)) (g := fun n => pure n)
    (S := fun (r : ℕ × PIter) p => r.1 = p ∧ PAt F r.2 p)
    (fun n hn => Sim.pure ⟨rfl, by rw [(fit_inv hn).1]; exact hr.2⟩)
  rwa [bind_pure] at this

end PS.P2
