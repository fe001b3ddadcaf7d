import Verif.Model.GenIter
import Verif.Proof.PsvPos
import Verif.Props.PoolIter

/-!
# The tables built with the primesieve library are those built from the primes
-/

namespace PS
open Psv Psv.Mem

/-- The computation succeeds or throws an exception: nothing else goes wrong. -/
def Plain {α : Type} (m : M α) : Prop := (∃ a, m = .ok a) ∨ ∃ s, m = .error (.thrown s)

/-- An exception is thrown because memory is exhausted; if it is thrown in a parallel region, which is possible if `B`,
it ends the program. -/
def NoMem {α : Type} (B : Prop) (m : M α) : Prop := m = .error (.thrown "std::bad_alloc") ∨ (m = .error .terminated ∧ B)

/-- Whenever `m'` succeeds or throws an exception, `m` does the same, or memory is exhausted. -/
def Ref {α : Type} (B F : Prop) (m m' : M α) : Prop :=
  Plain m' → (NoMem B m ∧ F) ∨ m = m'

namespace Ref
variable {B F : Prop} {α β : Type}

theorem refl {m : M α} : Ref B F m m := fun _ => Or.inr rfl

theorem of_eq {m m' : M α} (h : m = m') : Ref B F m m' := h ▸ refl

theorem of_sim {m m' : M α} (h : Sim F m m' (fun a b => a = b)) : Ref B F m m' := by
  intro _
  rcases h with e | ⟨x, e1, e2⟩ | ⟨a', b, e1, e2, rfl⟩
  · exact Or.inl ⟨Or.inl e.1, e.2⟩
  · exact Or.inr (by rw [e1, e2])
  · exact Or.inr (by rw [e1, e2])

theorem bind {m m' : M α} {f g : α → M β} (h : Ref B F m m') (hf : ∀ a, m' = .ok a → Ref B F (f a) (g a)) :
    Ref B F (m >>= f) (m' >>= g) := by
  intro hb
  have hp : Plain m' := by
    cases hm : m' with
    | ok a => exact Or.inl ⟨a, rfl⟩
    | error e =>
      rw [hm] at hb
      rcases hb with ⟨b, hb⟩ | ⟨s, hb⟩
      · cases hb
      · exact Or.inr ⟨s, congrArg _ (Except.error.inj hb)⟩
  rcases h hp with ⟨e | ⟨e, hB⟩, hF⟩ | e
  · left
    rw [e]
    exact ⟨Or.inl rfl, hF⟩
  · left
    rw [e]
    exact ⟨Or.inr ⟨rfl, hB⟩, hF⟩
  · rw [e]
    cases hm : m' with
    | error e => exact Or.inr rfl
    | ok a =>
      rw [hm] at hb
      exact hf a hm hb

/-- The same first step. -/
theorem same {m : M α} {f g : α → M β} (hf : ∀ a, m = .ok a → Ref B F (f a) (g a)) : Ref B F (m >>= f) (m >>= g) :=
  bind refl hf

theorem ite {p : Prop} [Decidable p] {m n m' n' : M α} (h1 : p → Ref B F m m') (h2 : ¬ p → Ref B F n n') :
    Ref B F (if p then m else n) (if p then m' else n') := by
  split
  · exact h1 ‹_›
  · exact h2 ‹_›

theorem not_plain {m m' : M α} (h : ¬ Plain m') : Ref B F m m' := fun h' => absurd h' h

theorem foldlM {f g : β → α → M β} (h : ∀ b a, Ref B F (f b a) (g b a)) :
    ∀ (l : List α) (b : β), Ref B F (l.foldlM f b) (l.foldlM g b) := by
  intro l
  induction l with
  | nil => intro b; exact refl
  | cons a l ih =>
    intro b
    rw [List.foldlM_cons, List.foldlM_cons]
    exact (h b a).bind (fun x _ => ih x)

theorem loop {σ : Type} {f g : σ → M (Step σ α)} (h : ∀ s, Ref B F (f s) (g s)) :
    ∀ (n : ℕ) (s : σ), Ref B F (loop n s f) (loop n s g) := by
  intro n
  induction n with
  | zero => intro s; exact refl
  | succ n ih =>
    intro s
    rw [PS.loop, PS.loop]
    refine (h s).bind (fun a _ => ?_)
    cases a with
    | next s' => exact ih s'
    | done r => exact refl

/-- In a parallel region. -/
theorem region {m m' : M α} (hB : B) (h : Ref B F m m') : Ref B F (region m) (region m') := by
  intro hp
  cases hm : m' with
  | error e =>
    rw [hm] at hp
    exfalso
    rcases hp with ⟨a, hp⟩ | ⟨s, hp⟩ <;> cases e <;> cases hp
  | ok a =>
    rcases h (Or.inl ⟨a, hm⟩) with ⟨e | e, hF⟩ | e
    · rw [e]
      exact Or.inl ⟨Or.inr ⟨rfl, hB⟩, hF⟩
    · rw [e.1]
      exact Or.inl ⟨Or.inr ⟨rfl, hB⟩, hF⟩
    · rw [e, hm]
      exact Or.inr rfl

theorem ompFor {σ R : Type} {add : R → R → R} {zero init : R} {st : σ} {sched : List (List ℕ)}
    {f g : ℕ → σ → R → M (σ × R)} (hB : B) (h : ∀ i s r, Ref B F (f i s r) (g i s r)) :
    Ref B F (ompFor add zero init st sched f) (ompFor add zero init st sched g) := by
  unfold PS.ompFor
  exact region hB (foldlM (fun acc its => (foldlM (fun sr i => h i _ _) _ _).bind (fun x _ => refl)) _ _)

theorem forUp {hi : ℕ} {f g : ℕ → α → M α} (h : ∀ i a, i < hi → Ref B F (f i a) (g i a)) (n : ℕ) :
    ∀ lo a, hi - lo = n → Ref B F (forUp lo hi a f) (forUp lo hi a g) := by
  induction n with
  | zero =>
    intro lo a hn
    unfold PS.forUp
    rw [if_neg (by omega), if_neg (by omega)]
    exact refl
  | succ n ih =>
    intro lo a hn
    unfold PS.forUp
    rw [if_pos (by omega), if_pos (by omega)]
    exact (h lo a (by omega)).bind (fun b _ => ih (lo + 1) b (by omega))

/-- What is known about `m'` holds for `m`, unless memory is exhausted. -/
theorem ok {m m' : M α} {P : α → Prop} (h : Ref B F m m') (hm : Ok m' P) : (NoMem B m ∧ F) ∨ Ok m P := by
  obtain ⟨a, ha, hp⟩ := hm
  rcases h (Or.inl ⟨a, ha⟩) with e | e
  · exact Or.inl e
  · exact Or.inr ⟨a, by rw [e, ha], hp⟩

/-- The same where no iterator is used in a parallel region. -/
theorem ok' {m m' : M α} {P : α → Prop} (h : Ref False F m m') (hm : Ok m' P) :
    (m = .error (.thrown "std::bad_alloc") ∧ F) ∨ Ok m P := by
  rcases h.ok hm with ⟨e | e, hF⟩ | e
  · exact Or.inl ⟨e, hF⟩
  · exact e.2.elim
  · exact Or.inr e

end Ref

/-- Some `new` refuses a request for at most 16 MiB, although it has granted at most 128 GiB to the memory pool. -/
def Heaps.NoMemory (H : Heaps) : Prop := ∃ l, OutOfMemory (H l)

/-- Every chunk that `new` returns is disjoint from the chunks returned before. -/
def Heaps.Valid (H : Heaps) : Prop := ∀ l k i, (H l k i).al.Valid

/-- The heaps are valid and refuse no request for at most 16 MiB below 128 GiB unless `F`. -/
def Heaps.Good (F : Prop) (H : Heaps) : Prop := ∀ l, HeapOK F (H l)

theorem Heaps.Valid.good {H : Heaps} (h : H.Valid) : H.Good H.NoMemory :=
  fun l k i => ⟨h l k i, fun e => ⟨l, ((heapOK (h l)) k i).2 e⟩⟩

theorem Heaps.Good.sub {F : Prop} {H : Heaps} (h : H.Good F) (k : ℕ) : (H.sub k).Good F := fun l => h (k :: l)

variable {B F : Prop} {env : Psv.Env} {H : Heaps}

theorem pIterFor_ref {σ : Type} (h : H.Good F) (l : List ℕ) {pos hi : ℕ} (hpos : pos < 2 ^ 64) (hhi : hi < 2 ^ 64 - 1) (hint : ℕ) (s : σ)
    (f : ℕ → σ → M σ) : Ref B F (pIterFor env (PIter.make (H l) pos hint) hi s f) (forPrimes pos hi s f) := by
  have := pIterFor_sim (env := env) (PIter.make_rel (h l) hpos hint) hi s f
  rw [iterFor_eq (make_at hint hpos) hhi] at this
  exact Ref.of_sim this

theorem storePrimes_ref (h : H.Good F) (l : List ℕ) {max : ℕ} (hmax : max < 2 ^ 64) :
    Ref B F (pStorePrimes env (H l) 0 max ⟨#[0]⟩) (.ok (generatePrimes max)) := by
  have := pStorePrimes_sim (env := env) (h l) (start := 0) (by norm_num) max ⟨#[0]⟩
  rw [show (⟨#[0]⟩ : Vec ℕ) = ⟨[0].toArray⟩ from rfl, C59_store_primes (by norm_num) hmax] at this
  have e : generatePrimes max = ⟨([0] ++ (List.range (max + 1)).filter (fun p => decide (0 ≤ p ∧ p.Prime))).toArray⟩ := by
    unfold generatePrimes
    simp
  rw [e]
  exact Ref.of_sim this

theorem generatePrimesIt_ref (h : H.Good F) (b : ℕ) {max : ℕ} (hmax : max < 2 ^ 64) :
    Ref B F (generatePrimesIt env H b max) (generatePrimesT b max) := by
  have := (storePrimes_ref (B := B) (env := env) h [] hmax).bind (f := fitVec b) (g := fitVec b) (fun _ _ => Ref.refl)
  exact this

theorem generatePrimeSumsIt_ref (h : H.Good F) (tb : ℕ) {max : ℕ} (hmax : max < 2 ^ 64) :
    Ref B F (generatePrimeSumsIt env H tb max) (generatePrimeSums tb max) := by
  unfold generatePrimeSumsIt generatePrimeSums
  exact (generatePrimesIt_ref h tb hmax).bind (fun _ _ => Ref.refl)

theorem PiTable.buildIt_ref (h : H.Good F) {max : ℕ} (hmax : max < 2 ^ 64 - 1) :
    Ref B F (PiTable.buildIt env H max) (PiTable.build max) := by
  unfold PiTable.buildIt PiTable.build
  exact (pIterFor_ref h [] (by norm_num) hmax _ _ _).bind (fun _ _ => Ref.refl)

theorem nextPrime_lt_64 {n : ℕ} (h : n < 2 ^ 31) : PS.nextPrime n < 2 ^ 64 :=
  (nextPrime_fits (h.trans (by norm_num))).trans (by norm_num)

theorem generateNPrimesIt_ref (h : H.Good F) (n : ℕ) : Ref B F (generateNPrimesIt env H n) (generateNPrimesT n) := by
  by_cases hlt : ∀ i < (generateNPrimes n).size, (generateNPrimes n).get i < 2 ^ 31
  case neg =>
    intro hp
    unfold generateNPrimesT fitVec at hp
    rw [if_neg hlt] at hp
    rcases hp with ⟨_, h⟩ | ⟨_, h⟩ <;> cases h
  case pos =>
    have hn : nextN 0 n < 2 ^ 31 := by
      cases n with
      | zero => exact (by norm_num : (0 : ℕ) < 2 ^ 31)
      | succ n =>
        have h2 := hlt (n + 1) (by unfold generateNPrimes Vec.size; rw [primesFrom_map]; simp)
        unfold generateNPrimes Vec.get at h2
        rw [primesFrom_map] at h2
        simpa using h2
    have hs := pStoreNPrimes_sim (env := env) (h []) n (start := 0) (by norm_num) ⟨#[0]⟩
    rw [show (⟨#[0]⟩ : Vec ℕ) = ⟨[0].toArray⟩ from rfl, storeNPrimes_generate (nextPrime_lt_64 hn)] at hs
    have := (Ref.of_sim (B := B) hs).bind (f := fitVec 31) (g := fitVec 31) (fun _ _ => Ref.refl)
    exact this

open P2 in
theorem FactorTable.threadIt_sim (h : H.Good F) (sqrty low high : ℕ) :
    Sim F (FactorTable.threadIt env H sqrty low high) (FactorTable.thread sqrty low high) (fun a b => a = b) := by
  unfold FactorTable.threadIt FactorTable.thread
  refine Sim.same' (fun n1 hn1 => Sim.same' (fun pos hpos => ?_))
  have hp : pos < 2 ^ 64 := by
    have e1 : n1 = 11 := by
      have : FactorTable.getNumber 1 = .ok 11 := by decide +kernel
      rw [this] at hn1
      exact (Except.ok.inj hn1).symm
    subst e1
    have : csub 11 1 = .ok 10 := by decide +kernel
    rw [this] at hpos
    have := Except.ok.inj hpos
    omega
  refine Sim.loop (R := fun (a : PIter × List FactorTable.FOp) (b : ℕ × List FactorTable.FOp) => PAt F a.1 b.1 ∧ a.2 = b.2)
    ?_ _ _ _ ⟨PAt.make (h []) hp _, rfl⟩
  rintro ⟨it, ops⟩ ⟨pos, ops'⟩ ⟨hit, ho⟩
  dsimp only at hit ho
  subst ho
  have key := (PAt.next63 env hit).bind (S := StepR (fun (a : PIter × List FactorTable.FOp) (b : ℕ × List FactorTable.FOp) =>
      PAt F a.1 b.1 ∧ a.2 = b.2) (fun (a b : List FactorTable.FOp) => a = b))
    (f := fun r : ℕ × PIter => do
      let (multiple, i) ← FactorTable.nextMultiple r.1 low 1
      let minM ← fit 63 (r.1 * n1)
      if minM > high then pure (.done ops)
      else do
        let ops ← FactorTable.crossOff r.1 high (fun mi => .hit mi r.1) multiple i ops
        if r.1 ≤ sqrty then do
          let square ← fit 63 (r.1 * r.1)
          let (multiple, j) ← FactorTable.nextMultiple square low 0
          let ops ← FactorTable.crossOff square high (fun mi => .zero mi) multiple j ops
          pure (.next (r.2, ops))
        else pure (.next (r.2, ops)))
    (g := fun prime => do
      let (multiple, i) ← FactorTable.nextMultiple prime low 1
      let minM ← fit 63 (prime * n1)
      if minM > high then pure (.done ops)
      else do
        let ops ← FactorTable.crossOff prime high (fun mi => .hit mi prime) multiple i ops
        if prime ≤ sqrty then do
          let square ← fit 63 (prime * prime)
          let (multiple, j) ← FactorTable.nextMultiple square low 0
          let ops ← FactorTable.crossOff square high (fun mi => .zero mi) multiple j ops
          pure (.next (prime, ops))
        else pure (.next (prime, ops))) ?_
  · simp only [bind_assoc, pure_bind] at key ⊢
    exact key
  · rintro ⟨p, it⟩ q ⟨hpq, hit⟩
    dsimp only at hpq hit ⊢
    subst hpq
    refine Sim.same (fun mi => Sim.same (fun minM => Sim.ite (fun _ => Sim.pure (R := StepR _ _) rfl) (fun _ => ?_)))
    refine Sim.same (fun ops => Sim.ite (fun _ => ?_) (fun _ => Sim.pure (R := StepR _ _) ⟨hit, rfl⟩))
    exact Sim.same (fun sq => Sim.same (fun mj => Sim.same (fun ops => Sim.pure (R := StepR _ _) ⟨hit, rfl⟩)))

theorem FactorTable.buildIt_ref (h : H.Good F) (tmax : ℕ) (merge : FactorTable.Merge) (y : ℕ) (threads : ℤ) :
    Ref True F (FactorTable.buildIt env H tmax merge y threads) (FactorTable.build tmax merge y threads) := by
  unfold FactorTable.buildIt FactorTable.build
  refine Ref.ite (fun _ => Ref.refl) (fun _ => ?_)
  refine Ref.same (fun size _ => Ref.same (fun th _ => Ref.same (fun _ _ => Ref.same (fun distance _ => ?_))))
  refine Ref.bind (Ref.forUp (fun t ls _ => ?_) _ _ _ rfl) (fun _ _ => Ref.refl)
  refine Ref.same (fun dt _ => Ref.same (fun low _ => Ref.same (fun e _ => ?_)))
  exact (Ref.region trivial (Ref.of_sim (FactorTable.threadIt_sim (h.sub t) _ _ _))).bind (fun _ _ => Ref.refl)

/-- `phi(x, a)`; the table of `π` reaches to `√x` at least. -/
theorem Phi.phiIt_ref (h : H.Good F) (tiny : Vec PhiTiny.Tab) (sched : Scheduler) {x : ℤ} (hx : x < 2 ^ 127) (a : ℤ) :
    Ref B F (Phi.phiIt env H tiny sched x a) (Phi.phi tiny sched x a) := by
  unfold Phi.phiIt Phi.phi
  refine Ref.ite (fun _ => Ref.refl) (fun _ => Ref.ite (fun _ => Ref.refl) (fun _ => Ref.ite (fun _ => Ref.refl) (fun _ => ?_)))
  refine Ref.ite (fun _ => Ref.refl) (fun _ => ?_)
  refine (generateNPrimesIt_ref (h.sub 0) _).bind (fun primes hp => Ref.same (fun pa hpa => ?_))
  refine Ref.ite (fun _ => Ref.refl) (fun hlt => ?_)
  have hpa31 : pa < 2 ^ 31 := by
    unfold generateNPrimesT fitVec at hp
    split at hp
    case isFalse => cases hp
    case isTrue hlt =>
      have e := Except.ok.inj hp
      rw [e] at hlt
      unfold Vec.rd at hpa
      split at hpa
      case isFalse => cases hpa
      case isTrue h1 =>
        rw [← Except.ok.inj hpa]
        exact hlt _ h1
  have hsq : Nat.sqrt x.toNat < 2 ^ 64 - 1 := by
    rw [Nat.sqrt_lt]
    have : x.toNat < 2 ^ 127 := by omega
    omega
  exact (PiTable.buildIt_ref (h.sub 1) (by omega)).bind (fun _ _ => Ref.refl)

theorem Phi.piLegendreIt_ref (tiny : Vec PhiTiny.Tab) (sched : Scheduler) (n : ℕ) : ∀ (H : Heaps) (x : ℕ), x ≤ n → H.Good F → x < 2 ^ 127 →
    Ref B F (Phi.piLegendreIt env H tiny sched x) (Phi.piLegendre tiny sched x) := by
  induction n using Nat.strong_induction_on with
  | _ n ih =>
    intro H x hxn h hx
    rw [Phi.piLegendreIt, Phi.piLegendre]
    by_cases h2 : x < 2
    · rw [dif_pos h2, dif_pos h2]
      exact Ref.refl
    · rw [dif_neg h2, dif_neg h2]
      have hs := Nat.sqrt_lt_self (show 1 < x by omega)
      refine (ih _ (show Nat.sqrt x < n by omega) _ _ le_rfl (h.sub 0) (by omega)).bind (fun a _ => ?_)
      exact (Phi.phiIt_ref (h.sub 1) tiny sched (by exact_mod_cast hx) a).bind (fun _ _ => Ref.refl)

end PS
