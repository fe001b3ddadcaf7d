import Verif.Proof.LmoTop

/-!
# A narrower `phi` changes a result only by an overflow
-/

namespace PS

/-- `m` behaves like `m'` or reports an overflow. -/
def Rf {α : Type} (m m' : M α) : Prop := m = m' ∨ m = .error .overflow

namespace Rf

theorem refl {α : Type} (m : M α) : Rf m m := Or.inl rfl

theorem bind {α β : Type} {m m' : M α} {f f' : α → M β} (h : Rf m m') (hf : ∀ a, Rf (f a) (f' a)) :
    Rf (m >>= f) (m' >>= f') := by
  rcases h with rfl | rfl
  · cases m with
    | error e => exact Or.inl rfl
    | ok a => exact hf a
  · exact Or.inr rfl

theorem ite {α : Type} {p : Prop} [Decidable p] {a a' b b' : M α} (h1 : Rf a a') (h2 : Rf b b') :
    Rf (if p then a else b) (if p then a' else b') := by
  split
  · exact h1
  · exact h2

theorem fitI {w w' : ℕ} (h : w ≤ w') (z : ℤ) : Rf (PS.fitI w z) (PS.fitI w' z) := by
  by_cases hz : -2 ^ w ≤ z ∧ z < 2 ^ w
  · left
    have h1 : (2:ℤ) ^ w ≤ 2 ^ w' := pow_le_pow_right₀ (by norm_num) h
    rw [fitI_ok hz.1 hz.2, fitI_ok (by omega) (by omega)]
  · right
    unfold PS.fitI
    rw [if_neg hz]

theorem forUp {σ : Type} {lo hi : ℕ} {s : σ} {f f' : ℕ → σ → M σ} (h : ∀ i s, Rf (f i s) (f' i s)) :
    Rf (PS.forUp lo hi s f) (PS.forUp lo hi s f') := by
  induction hn : hi - lo generalizing lo s with
  | zero =>
    unfold PS.forUp
    rw [if_neg (by omega), if_neg (by omega)]
    exact refl _
  | succ n ih =>
    unfold PS.forUp
    exact ite (bind (h lo s) (fun s' => ih (by omega))) (refl _)

theorem forStep {σ : Type} {lo hi step : ℕ} {s : σ} {f f' : ℕ → σ → M σ} (h : ∀ i s, Rf (f i s) (f' i s)) :
    Rf (PS.forStep lo hi step s f) (PS.forStep lo hi step s f') := by
  induction hn : hi - lo using Nat.strong_induction_on generalizing lo s with
  | _ n ih =>
    unfold PS.forStep
    split
    · split
      · exact refl _
      · exact bind (h lo s) (fun s' => ih (hi - (lo + step)) (by omega) rfl)
    · exact refl _

theorem forDown {σ : Type} {lo hi : ℕ} {s : σ} {f f' : ℕ → σ → M σ} (h : ∀ i s, Rf (f i s) (f' i s)) :
    Rf (PS.forDown hi lo s f) (PS.forDown hi lo s f') := by
  induction hn : hi - lo generalizing hi s with
  | zero =>
    unfold PS.forDown
    rw [if_neg (by omega), if_neg (by omega)]
    exact refl _
  | succ n ih =>
    unfold PS.forDown
    exact ite (bind (h hi s) (fun s' => ih (by omega))) (refl _)

theorem loop {σ ρ : Type} {fuel : ℕ} {s : σ} {f f' : σ → M (Step σ ρ)} (h : ∀ s, Rf (f s) (f' s)) :
    Rf (PS.loop fuel s f) (PS.loop fuel s f') := by
  induction fuel generalizing s with
  | zero => exact refl _
  | succ n ih =>
    unfold PS.loop
    refine bind (h s) (fun r => ?_)
    cases r with
    | next s' => exact ih
    | done r => exact refl _

theorem forBrk {σ : Type} {lo hi : ℕ} {s : σ} {f f' : ℕ → σ → M (Bool × σ)} (h : ∀ i s, Rf (f i s) (f' i s)) :
    Rf (PS.forBrk lo hi s f) (PS.forBrk lo hi s f') := by
  induction hn : hi - lo generalizing lo s with
  | zero =>
    unfold PS.forBrk
    rw [if_neg (by omega), if_neg (by omega)]
    exact refl _
  | succ n ih =>
    unfold PS.forBrk
    exact ite (bind (h lo s) (fun s' => ite (refl _) (ih (by omega)))) (refl _)

/-- A run that succeeds at the greater width succeeds at the smaller one or reports an overflow. -/
theorem ok {α : Type} {m m' : M α} {P : α → Prop} (h : Rf m m') (hm : Ok m' P) : Ok m P ∨ m = .error .overflow := by
  rcases h with rfl | h
  · exact Or.inl hm
  · exact Or.inr h

end Rf

namespace Lmo
open Res
variable {R : Type} [Res R] {σ : Type} {w w' : ℕ}

theorem rf_sumTo (h : w ≤ w') (step : ℕ) (sieve : ℕ → M Bool) (low hi : ℕ) (s : ℕ × ℤ) :
    Rf (sumTo w step sieve low hi s) (sumTo w' step sieve low hi s) :=
  .loop (fun _ => .ite (.bind (.refl _) (fun _ => .bind (.refl _) (fun _ => .bind (.fitI h _) (fun _ => .refl _)))) (.refl _))

theorem rf_advance (h : w ≤ w') (step : ℕ) (sieve : ℕ → M Bool) (low stop : ℕ) (s : ℕ × ℤ) :
    Rf (advance w step sieve low stop s) (advance w' step sieve low stop s) :=
  .bind (rf_sumTo h _ _ _ _ _) (fun _ => .refl _)

theorem rf_leafA {par : Bool} {mu : Vec ℤ} {lpf : Vec ℕ} {x low prime : ℕ} {adv adv' : ℕ → σ → M (ℤ × σ)}
    (h : ∀ stop s, Rf (adv stop s) (adv' stop s)) (m : ℕ) (s : σ × Acc R) :
    Rf (leafA par mu lpf x low prime adv m s) (leafA par mu lpf x low prime adv' m s) :=
  .bind (.refl _) (fun _ => .ite (.bind (.refl _) (fun _ => .ite (.bind (.refl _) (fun _ => .bind (.refl _) (fun _ =>
    .bind (.refl _) (fun _ => .bind (h _ _) (fun _ => .refl _))))) (.refl _))) (.refl _))

theorem rf_leavesB {par : Bool} {primes : Vec ℕ} {x low prime minM l : ℕ} {adv adv' : ℕ → σ → M (ℤ × σ)}
    (h : ∀ stop s, Rf (adv stop s) (adv' stop s)) (s : σ × Acc R) :
    Rf (leavesB par primes x low prime minM l adv s) (leavesB par primes x low prime minM l adv' s) :=
  .loop (fun _ => .bind (.refl _) (fun _ => .ite (.bind (.refl _) (fun _ => .bind (.refl _) (fun _ =>
    .bind (.refl _) (fun _ => .bind (h _ _) (fun _ => .refl _))))) (.refl _)))

theorem rf_body2 (h : w ≤ w') (x y limit : ℕ) (primes lpf : Vec ℕ) (mu : Vec ℤ) (b : ℕ) (st : Vec Bool × R) :
    Rf (body2 w x y limit primes lpf mu b st) (body2 w' x y limit primes lpf mu b st) :=
  .bind (.refl _) (fun _ => .bind (.refl _) (fun _ => .bind (.forDown (fun _ _ => rf_leafA (rf_advance h _ _ _) _ _))
    (fun _ => .refl _)))

theorem rf_s2Lmo2 (h : w ≤ w') (x y c : ℕ) (primes lpf : Vec ℕ) (mu : Vec ℤ) :
    Rf (s2Lmo2 R w x y c primes lpf mu) (s2Lmo2 R w' x y c primes lpf mu) :=
  .bind (.refl _) (fun _ => .bind (.refl _) (fun _ => .bind (.refl _) (fun _ => .bind (.refl _) (fun _ =>
    .bind (.forUp (fun _ _ => rf_body2 h _ _ _ _ _ _ _ _)) (fun _ => .refl _)))))

theorem rf_body3 (h : w ≤ w') (x y low high : ℕ) (primes lpf : Vec ℕ) (mu : Vec ℤ) (b : ℕ) (st : StC R) :
    Rf (body3 w x y low high primes lpf mu b st) (body3 w' x y low high primes lpf mu b st) :=
  .bind (.refl _) (fun _ => .bind (.refl _) (fun _ => .bind (.refl _) (fun _ => .bind (.refl _) (fun _ =>
    .bind (.refl _) (fun _ => .bind (.refl _) (fun _ => .ite (.refl _) (.bind (.refl _) (fun _ =>
    .bind (.forDown (fun _ _ => rf_leafA (rf_advance h _ _ _) _ _)) (fun _ => .bind (rf_sumTo h _ _ _ _ _)
    (fun _ => .refl _))))))))))

theorem rf_body4 (h : w ≤ w') (x y low high : ℕ) (primes lpf : Vec ℕ) (mu : Vec ℤ) (b : ℕ) (st : StC R) :
    Rf (body4 w x y low high primes lpf mu b st) (body4 w' x y low high primes lpf mu b st) :=
  .bind (.refl _) (fun _ => .bind (.refl _) (fun _ => .bind (.refl _) (fun _ => .bind (.refl _) (fun _ =>
    .bind (.refl _) (fun _ => .bind (.refl _) (fun _ => .ite (.refl _) (.bind (.refl _) (fun _ =>
    .bind (.forDown (fun _ _ => rf_leafA (fun _ _ => .bind (.refl _) (fun _ => .bind (.fitI h _) (fun _ => .refl _))) _ _))
    (fun _ => .bind (.refl _) (fun _ => .bind (.refl _) (fun _ => .bind (.fitI h _) (fun _ => .refl _))))))))))))

theorem rf_segmentC (h : w ≤ w') (tree : Bool) (x y c piY segmentSize limit : ℕ) (primes lpf : Vec ℕ) (mu : Vec ℤ)
    (low : ℕ) (st : StC R) :
    Rf (segmentC tree w x y c piY segmentSize limit primes lpf mu low st)
      (segmentC tree w' x y c piY segmentSize limit primes lpf mu low st) :=
  .bind (.refl _) (fun _ => .bind (.refl _) (fun _ => .bind (.refl _) (fun _ =>
    .bind (.forBrk (fun _ _ => .ite (rf_body4 h _ _ _ _ _ _ _ _ _) (rf_body3 h _ _ _ _ _ _ _ _ _))) (fun _ => .refl _))))

theorem rf_s2LmoC (h : w ≤ w') (tree : Bool) (x y c : ℕ) (primes lpf : Vec ℕ) (mu : Vec ℤ) :
    Rf (s2LmoC R tree w x y c primes lpf mu) (s2LmoC R tree w' x y c primes lpf mu) :=
  .bind (.refl _) (fun _ => .bind (.refl _) (fun _ => .bind (.refl _) (fun _ =>
    .bind (.forStep (fun _ _ => rf_segmentC h _ _ _ _ _ _ _ _ _ _ _ _)) (fun _ => .refl _))))

omit [Res R] in
theorem rf_finishB (h : w ≤ w') (par : Bool) (low high prime b : ℕ) (st : StB R) (t : ℕ × ℤ) (a : Acc R) :
    Rf (finishB par w low high prime b st t a) (finishB par w' low high prime b st t a) :=
  .bind (rf_sumTo h _ _ _ _ _) (fun _ => .refl _)

theorem rf_bodyA [Inhabited R] (h : w ≤ w') (par : Bool) (x y low high : ℕ) (primes lpf : Vec ℕ) (mu : Vec ℤ) (b : ℕ) (st : StB R) :
    Rf (bodyA par w x y low high primes lpf mu b st) (bodyA par w' x y low high primes lpf mu b st) :=
  .bind (.refl _) (fun _ => .bind (.refl _) (fun _ => .bind (.refl _) (fun _ => .bind (.refl _) (fun _ =>
    .bind (.refl _) (fun _ => .bind (.refl _) (fun _ => .ite (.refl _) (.bind (.refl _) (fun _ => .bind (.refl _) (fun _ =>
    .bind (.forDown (fun _ _ => rf_leafA (rf_advance h _ _ _) _ _)) (fun _ => .bind (rf_finishB h _ _ _ _ _ _ _ _)
    (fun _ => .refl _)))))))))))

theorem rf_bodyB [Inhabited R] (h : w ≤ w') (par : Bool) (x y low high : ℕ) (primes pi : Vec ℕ) (b : ℕ) (st : StB R) :
    Rf (bodyB par w x y low high primes pi b st) (bodyB par w' x y low high primes pi b st) :=
  .bind (.refl _) (fun _ => .bind (.refl _) (fun _ => .bind (.refl _) (fun _ => .bind (.refl _) (fun _ =>
    .bind (.refl _) (fun _ => .bind (.refl _) (fun _ => .bind (.refl _) (fun _ => .bind (.refl _) (fun _ =>
    .ite (.refl _) (.bind (.refl _) (fun _ => .bind (.refl _) (fun _ =>
    .bind (rf_leavesB (rf_advance h _ _ _) _) (fun _ => .bind (rf_finishB h _ _ _ _ _ _ _ _)
    (fun _ => .refl _)))))))))))))

theorem rf_segmentB [Inhabited R] (h : w ≤ w') (par : Bool) (x y c endA endB : ℕ) (primes lpf : Vec ℕ) (mu : Vec ℤ) (pi : Vec ℕ)
    (low high : ℕ) (st : StB R) :
    Rf (segmentB par w x y c endA endB primes lpf mu pi low high st)
      (segmentB par w' x y c endA endB primes lpf mu pi low high st) :=
  .bind (.refl _) (fun _ => .bind (.forBrk (fun _ _ => rf_bodyA h _ _ _ _ _ _ _ _ _ _)) (fun _ => .ite (.refl _)
    (.bind (.forBrk (fun _ _ => rf_bodyB h _ _ _ _ _ _ _ _ _)) (fun _ => .refl _))))

theorem rf_s2Lmo5 [Inhabited R] (h : w ≤ w') (x y c : ℕ) (primes lpf : Vec ℕ) (mu : Vec ℤ) :
    Rf (s2Lmo5 R w x y c primes lpf mu) (s2Lmo5 R w' x y c primes lpf mu) :=
  .bind (.refl _) (fun _ => .bind (.refl _) (fun _ => .bind (.refl _) (fun _ => .bind (.refl _) (fun _ =>
    .bind (.refl _) (fun _ => .bind (.refl _) (fun _ => .bind (.refl _) (fun _ =>
    .bind (.forStep (fun _ _ => .bind (.refl _) (fun _ => rf_segmentB h _ _ _ _ _ _ _ _ _ _ _ _ _)))
    (fun _ => .refl _))))))))

theorem rf_piLmo (e : Pi.Env) (tiny : Vec PhiTiny.Tab) (threads : ℤ)
    {s2 s2' : ℕ → ℕ → ℕ → Vec ℕ → Vec ℕ → Vec ℤ → M I256}
    (h : ∀ x y c primes lpf mu, Rf (s2 x y c primes lpf mu) (s2' x y c primes lpf mu)) (x : ℤ) :
    Rf (piLmo e tiny threads s2 x) (piLmo e tiny threads s2' x) :=
  .ite (.refl _) (.bind (.refl _) (fun _ => .bind (.refl _) (fun _ => .bind (.refl _) (fun _ => .bind (.refl _) (fun _ =>
    .bind (.refl _) (fun _ => .bind (.refl _) (fun _ => .bind (.refl _) (fun _ => .bind (.refl _) (fun _ =>
    .bind (.refl _) (fun _ => .bind (h _ _ _ _ _ _) (fun _ => .refl _)))))))))))

end Lmo
end PS
