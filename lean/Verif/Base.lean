import Mathlib.Tactic.Common
import Mathlib.Data.Nat.Notation

/-!
# Base layer of the model

Outcome monad, checked vectors and the loop combinators used to write down the C++
functions, together with one proof rule for each.
-/

set_option linter.unusedSectionVars false

namespace PS

/-- Outcomes other than normal return.  Every C++ behaviour that is undefined, throws, aborts or does
not terminate is a distinct outcome of the model. -/
inductive Err where
  | oob       -- vector access outside the vector
  | neg       -- a quantity that is used as an index / unsigned value became negative
  | divZero   -- division by zero
  | shift     -- undefined shift amount
  | overflow  -- signed overflow (where modelled)
  | fuel      -- a loop ran longer than its bound (non-termination)
  | thrown (msg : String)  -- C++ exception
  | terminated  -- `std::terminate` ends the program
deriving DecidableEq, Repr

/-- Outcome of a C++ computation. -/
abbrev M (α : Type) := Except Err α

/-- `m` returns normally and its result satisfies `P`. -/
def Ok {α : Type} (m : M α) (P : α → Prop) : Prop := ∃ a, m = .ok a ∧ P a

theorem Ok.pure {α : Type} {P : α → Prop} {a : α} (h : P a) : Ok (Pure.pure a : M α) P :=
  ⟨a, rfl, h⟩

theorem Ok.ok {α : Type} {P : α → Prop} {a : α} (h : P a) : Ok (Except.ok a : M α) P :=
  ⟨a, rfl, h⟩

theorem Ok.bind {α β : Type} {m : M α} {f : α → M β} {P : α → Prop} {Q : β → Prop}
    (hm : Ok m P) (hf : ∀ a, P a → Ok (f a) Q) : Ok (m >>= f) Q := by
  obtain ⟨a, rfl, ha⟩ := hm
  exact hf a ha

theorem Ok.mono {α : Type} {m : M α} {P Q : α → Prop} (hm : Ok m P) (h : ∀ a, P a → Q a) :
    Ok m Q := by
  obtain ⟨a, rfl, ha⟩ := hm
  exact ⟨a, rfl, h a ha⟩

theorem Ok.and {α : Type} {m : M α} {P Q : α → Prop} (hm : Ok m P) (hq : Ok m Q) :
    Ok m (fun a => P a ∧ Q a) := by
  obtain ⟨a, rfl, ha⟩ := hm
  obtain ⟨b, hb, hb'⟩ := hq
  cases hb
  exact ⟨a, rfl, ha, hb'⟩

theorem Ok.eq {α : Type} {m : M α} {v : α} (h : Ok m (· = v)) : m = .ok v := by
  obtain ⟨a, rfl, rfl⟩ := h
  rfl

theorem Ok.of_eq {α : Type} {m : M α} {v : α} {P : α → Prop} (h : m = .ok v) (hp : P v) :
    Ok m P := ⟨v, h, hp⟩

theorem ok_iff_eq {α : Type} {m : M α} {v : α} : Ok m (· = v) ↔ m = .ok v :=
  ⟨Ok.eq, fun h => ⟨v, h, rfl⟩⟩

@[simp] theorem ok_bind {α β : Type} (a : α) (f : α → M β) :
    ((Except.ok a : M α) >>= f) = f a := rfl

@[simp] theorem pure_eq_ok {α : Type} (a : α) : (Pure.pure a : M α) = Except.ok a := rfl

@[simp] theorem error_bind {α β : Type} (e : Err) (f : α → M β) :
    ((Except.error e : M α) >>= f) = Except.error e := rfl

theorem Ok.ite {α : Type} {c : Prop} [Decidable c] {m n : M α} {P : α → Prop}
    (h1 : c → Ok m P) (h2 : ¬ c → Ok n P) : Ok (if c then m else n) P := by
  split
  · exact h1 ‹_›
  · exact h2 ‹_›

/-- Checked subtraction of non-negative quantities. -/
def csub (a b : Nat) : M Nat := if b ≤ a then .ok (a - b) else .error .neg

theorem csub_ok {a b : Nat} (h : b ≤ a) : csub a b = .ok (a - b) := by simp [csub, h]

/-- Checked division. -/
def cdiv (a b : Nat) : M Nat := if b = 0 then .error .divZero else .ok (a / b)

theorem cdiv_ok {a b : Nat} (h : 0 < b) : cdiv a b = .ok (a / b) := by
  simp [cdiv]; omega

/-! ## Vectors -/

/-- `std::vector<T>`; `get`/`set` are the raw operations, `rd`/`wr` the checked ones. -/
structure Vec (α : Type) where
  data : Array α
deriving Repr

namespace Vec
variable {α : Type} [Inhabited α]

def size (v : Vec α) : Nat := v.data.size
def get (v : Vec α) (i : Nat) : α := v.data.getD i default
def set (v : Vec α) (i : Nat) (x : α) : Vec α := ⟨v.data.setIfInBounds i x⟩
def push (v : Vec α) (x : α) : Vec α := ⟨v.data.push x⟩
/-- `std::vector<T>(n, x)`. -/
def mk' (n : Nat) (x : α) : Vec α := ⟨Array.replicate n x⟩
/-- Build from a function (used for tables produced by trusted calls). -/
def ofFn (n : Nat) (f : Nat → α) : Vec α := ⟨Array.ofFn (n := n) (fun i => f i)⟩

@[simp] theorem size_set (v : Vec α) (i : Nat) (x : α) : (v.set i x).size = v.size := by
  simp [size, set]

@[simp] theorem size_push (v : Vec α) (x : α) : (v.push x).size = v.size + 1 := by
  simp [size, push]

@[simp] theorem size_mk' (n : Nat) (x : α) : (mk' n x).size = n := by simp [size, mk']

@[simp] theorem size_ofFn (n : Nat) (f : Nat → α) : (ofFn n f).size = n := by simp [size, ofFn]

theorem get_set (v : Vec α) (i j : Nat) (x : α) :
    (v.set i x).get j = if i = j ∧ i < v.size then x else v.get j := by
  simp only [get, set, size, Array.getD_eq_getD_getElem?, Array.getElem?_setIfInBounds]
  by_cases h : i = j
  · subst h
    by_cases h2 : i < v.data.size
    · simp [h2]
    · simp [h2]
  · simp [h]

theorem get_push (v : Vec α) (j : Nat) (x : α) :
    (v.push x).get j = if j = v.size then x else v.get j := by
  simp only [get, push, size, Array.getD_eq_getD_getElem?, Array.getElem?_push]
  split <;> simp

theorem get_mk' (n : Nat) (x : α) (j : Nat) (h : j < n) : (mk' n x).get j = x := by
  simp [get, mk', h]

theorem get_ofFn (n : Nat) (f : Nat → α) (j : Nat) (h : j < n) : (ofFn n f).get j = f j := by
  simp [get, ofFn, h]

theorem get_set_self (v : Vec α) (i : Nat) (x : α) (h : i < v.size) : (v.set i x).get i = x := by
  simp [get_set, h]

theorem get_set_ne (v : Vec α) (i j : Nat) (x : α) (h : i ≠ j) : (v.set i x).get j = v.get j := by
  simp [get_set, h]

/-- Checked read `v[i]`. -/
def rd (v : Vec α) (i : Nat) : M α := if i < v.size then .ok (v.get i) else .error .oob
/-- Checked write `v[i] = x`. -/
def wr (v : Vec α) (i : Nat) (x : α) : M (Vec α) :=
  if i < v.size then .ok (v.set i x) else .error .oob

theorem rd_ok {v : Vec α} {i : Nat} (h : i < v.size) : v.rd i = .ok (v.get i) := by simp [rd, h]
theorem wr_ok {v : Vec α} {i : Nat} {x : α} (h : i < v.size) : v.wr i x = .ok (v.set i x) := by
  simp [wr, h]

/-- Checked read with a signed index. -/
def rdI (v : Vec α) (i : Int) : M α := if 0 ≤ i then v.rd i.toNat else .error .oob

theorem rdI_ok {v : Vec α} {i : Nat} (h : i < v.size) : v.rdI (i : Int) = .ok (v.get i) := by
  simp [rdI, rd, h]

end Vec

/-! ## Loops -/

/-- `for (i = lo; i < hi; i++) s = f(i, s)`. -/
def forUp {σ : Type} (lo hi : Nat) (s : σ) (f : Nat → σ → M σ) : M σ :=
  if lo < hi then do
    let s' ← f lo s
    forUp (lo + 1) hi s' f
  else .ok s
termination_by hi - lo

theorem forUp_ok {σ : Type} {lo hi : Nat} {s : σ} {f : Nat → σ → M σ} (Inv : Nat → σ → Prop)
    (h0 : Inv lo s) (hle : lo ≤ hi)
    (hs : ∀ i s, lo ≤ i → i < hi → Inv i s → Ok (f i s) (Inv (i + 1))) :
    Ok (forUp lo hi s f) (Inv hi) := by
  induction hn : hi - lo generalizing lo s with
  | zero =>
    have : lo = hi := by omega
    subst this
    unfold forUp
    simpa using Ok.ok h0
  | succ n ih =>
    unfold forUp
    have hlt : lo < hi := by omega
    simp only [hlt, if_true]
    refine Ok.bind (hs lo s (Nat.le_refl _) hlt h0) (fun s' hs' => ?_)
    exact ih hs' hlt (fun i s h1 h2 h3 => hs i s (by omega) h2 h3) (by omega)

/-- Variant without `lo ≤ hi`: the loop does not run if `hi < lo`. -/
theorem forUp_ok' {σ : Type} {lo hi : Nat} {s : σ} {f : Nat → σ → M σ} (Inv : Nat → σ → Prop)
    (h0 : Inv lo s)
    (hs : ∀ i s, lo ≤ i → i < hi → Inv i s → Ok (f i s) (Inv (i + 1))) :
    Ok (forUp lo hi s f) (Inv (max lo hi)) := by
  by_cases h : lo ≤ hi
  · rw [Nat.max_eq_right h]; exact forUp_ok Inv h0 h hs
  · rw [Nat.max_eq_left (by omega)]
    unfold forUp
    simp only [show ¬ lo < hi by omega, if_false]
    exact Ok.ok h0

/-- `for (i = lo; i < hi; i += step) s = f(i, s)`; a zero step never terminates. -/
def forStep {σ : Type} (lo hi step : Nat) (s : σ) (f : Nat → σ → M σ) : M σ :=
  if lo < hi then
    if step = 0 then .error .fuel
    else do
      let s' ← f lo s
      forStep (lo + step) hi step s' f
  else .ok s
termination_by hi - lo

theorem forStep_ok {σ : Type} {lo hi step : Nat} {s : σ} {f : Nat → σ → M σ}
    (Inv : Nat → σ → Prop) (Q : σ → Prop) (hstep : 0 < step)
    (h0 : Inv lo s)
    (hs : ∀ i s, lo ≤ i → i < hi → Inv i s → Ok (f i s) (Inv (i + step)))
    (hq : ∀ i s, lo ≤ i → hi ≤ i → Inv i s → Q s) :
    Ok (forStep lo hi step s f) Q := by
  induction hn : hi - lo using Nat.strongRecOn generalizing lo s with
  | _ n ih =>
    unfold forStep
    split
    · rename_i hlt
      simp only [show ¬ step = 0 by omega, if_false]
      refine Ok.bind (hs lo s (Nat.le_refl _) hlt h0) (fun s' hs' => ?_)
      exact ih (hi - (lo + step)) (by omega) hs'
        (fun i s h1 h2 h3 => hs i s (by omega) h2 h3)
        (fun i s h1 h2 h3 => hq i s (by omega) h2 h3) rfl
    · exact Ok.ok (hq lo s (Nat.le_refl _) (by omega) h0)

/-- `for (i = hi; i > lo; i--) s = f(i, s)`. -/
def forDown {σ : Type} (hi lo : Nat) (s : σ) (f : Nat → σ → M σ) : M σ :=
  if lo < hi then do
    let s' ← f hi s
    forDown (hi - 1) lo s' f
  else .ok s
termination_by hi - lo

theorem forDown_ok {σ : Type} {hi lo : Nat} {s : σ} {f : Nat → σ → M σ} (Inv : Nat → σ → Prop)
    (h0 : Inv hi s) (hle : lo ≤ hi)
    (hs : ∀ i s, lo < i → i ≤ hi → Inv i s → Ok (f i s) (Inv (i - 1))) :
    Ok (forDown hi lo s f) (Inv lo) := by
  induction hn : hi - lo generalizing hi s with
  | zero =>
    have : lo = hi := by omega
    subst this
    unfold forDown
    simpa using Ok.ok h0
  | succ n ih =>
    unfold forDown
    have hlt : lo < hi := by omega
    simp only [hlt, if_true]
    refine Ok.bind (hs hi s hlt (Nat.le_refl _) h0) (fun s' hs' => ?_)
    exact ih hs' (by omega) (fun i s h1 h2 h3 => hs i s h1 (by omega) h3) (by omega)

/-- Result of one iteration of a general loop: go on with a new state, or leave the loop. -/
inductive Step (σ ρ : Type) where
  | next (s : σ)
  | done (r : ρ)

/-- General loop.  `fuel` bounds the number of iterations; running out of fuel is the distinct
outcome `Err.fuel`. -/
def loop {σ ρ : Type} : Nat → σ → (σ → M (Step σ ρ)) → M ρ
  | 0, _, _ => .error .fuel
  | n + 1, s, f => do
    match ← f s with
    | .next s' => loop n s' f
    | .done r => .ok r

theorem loop_ok {σ ρ : Type} {fuel : Nat} {s : σ} {f : σ → M (Step σ ρ)}
    (Inv : σ → Prop) (v : σ → Nat) (Q : ρ → Prop)
    (h0 : Inv s) (hv : v s < fuel)
    (hs : ∀ s, Inv s → Ok (f s) (fun r => match r with
      | .next s' => Inv s' ∧ v s' < v s
      | .done r => Q r)) :
    Ok (loop fuel s f) Q := by
  induction fuel generalizing s with
  | zero => omega
  | succ n ih =>
    unfold loop
    refine Ok.bind (hs s h0) (fun r hr => ?_)
    cases r with
    | next s' => exact ih hr.1 (by have := hr.2; omega)
    | done r => exact Ok.ok hr

end PS
