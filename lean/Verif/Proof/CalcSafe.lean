import Verif.Proof.CalcLex

/-!
# The parser terminates, keeps its stack intact and reads inside the string
-/

namespace PS
namespace Calc

open Spec I128

/-- The outcomes other than a value: `calculator::error`, a signed overflow, a shift by a wrong amount. -/
def Rejected (e : Err) : Prop := e = .thrown "calculator::error" ∨ e = .overflow ∨ e = .shift

/-- `m` returns a value with `P` or is rejected. -/
def Safe {α : Type} (m : M α) (P : α → Prop) : Prop := (∃ a, m = .ok a ∧ P a) ∨ ∃ e, m = .error e ∧ Rejected e

theorem Safe.ok {α : Type} {P : α → Prop} {a : α} (h : P a) : Safe (.ok a) P := .inl ⟨a, rfl, h⟩
theorem Safe.syntax {α : Type} {P : α → Prop} : Safe (syntaxError : M α) P := .inr ⟨_, rfl, .inl rfl⟩

theorem Safe.bind {α β : Type} {m : M α} {f : α → M β} {P : α → Prop} {Q : β → Prop} (h : Safe m P)
    (hf : ∀ a, m = .ok a → P a → Safe (f a) Q) : Safe (m >>= f) Q := by
  rcases h with ⟨a, h1, h2⟩ | ⟨e, h1, h2⟩
  · rw [h1]; exact hf a h1 h2
  · rw [h1]; exact .inr ⟨e, rfl, h2⟩

theorem Safe.mono {α : Type} {m : M α} {P Q : α → Prop} (h : Safe m P) (hf : ∀ a, P a → Q a) : Safe m Q := by
  rcases h with ⟨a, h1, h2⟩ | h
  · exact .inl ⟨a, h1, hf a h2⟩
  · exact .inr h

theorem Safe.ne_fuel {α : Type} {m : M α} {P : α → Prop} (h : Safe m P) : m ≠ .error .fuel := by
  rcases h with ⟨a, h1, h2⟩ | ⟨e, h1, h2⟩ <;> rw [h1]
  · intro h; cases h
  · rintro h
    injection h with h
    subst h
    rcases h2 with h | h | h <;> cases h

theorem safe_fit (x : ℤ) : Safe (fit x) R := by
  by_cases h : R x
  · rw [fit_of h]; exact .ok h
  · rw [fit_not h]; exact .inr ⟨_, rfl, .inr (.inl rfl)⟩

theorem safe_R {m : M ℤ} {P : ℤ → Prop} (h : Safe m P) (hR : ∀ v, m = .ok v → R v) : Safe m R := by
  rcases h with ⟨a, h1, h2⟩ | h
  · exact .inl ⟨a, h1, hR a h1⟩
  · exact .inr h

theorem safe_apply {a b : ℤ} (ha : R a) (hb : R b) (o : BinOp) : Safe (o.apply a b) R := by
  refine safe_R (P := fun _ => True) ?_ (fun v h => apply_R ha hb h)
  cases o <;> simp only [BinOp.apply]
  · exact .ok trivial
  · exact .ok trivial
  · split
    · exact .inr ⟨_, rfl, .inr (.inr rfl)⟩
    · split
      · exact .inr ⟨_, rfl, .inr (.inl rfl)⟩
      · exact (safe_fit _).mono fun _ _ => trivial
  · split
    · exact .inr ⟨_, rfl, .inr (.inr rfl)⟩
    · exact .ok trivial
  · exact (safe_fit _).mono fun _ _ => trivial
  · exact (safe_fit _).mono fun _ _ => trivial
  · exact (safe_fit _).mono fun _ _ => trivial
  · split
    · exact .syntax
    · exact (safe_fit _).mono fun _ _ => trivial
  · split
    · exact .syntax
    · split
      · exact .inr ⟨_, rfl, .inr (.inl rfl)⟩
      · exact .ok trivial
  · exact (safe_fit _).mono fun _ _ => trivial
  · exact (safe_fit _).bind fun p _ _ => (safe_fit _).mono fun _ _ => trivial

theorem op_cases (o : Op) : o = .null ∨ ∃ b : BinOp, o = b.toOp := by
  cases o
  · exact .inl rfl
  · exact .inr ⟨.or, rfl⟩
  · exact .inr ⟨.and, rfl⟩
  · exact .inr ⟨.shl, rfl⟩
  · exact .inr ⟨.shr, rfl⟩
  · exact .inr ⟨.add, rfl⟩
  · exact .inr ⟨.sub, rfl⟩
  · exact .inr ⟨.mul, rfl⟩
  · exact .inr ⟨.div, rfl⟩
  · exact .inr ⟨.mod, rfl⟩
  · exact .inr ⟨.pow, rfl⟩
  · exact .inr ⟨.exp, rfl⟩

theorem toOp_ne_null (b : BinOp) : b.toOp ≠ .null := by cases b <;> decide
theorem toOp_prec (b : BinOp) : b.toOp.precedence = b.prec := by cases b <;> rfl
theorem toOp_left (b : BinOp) : b.toOp.left = true ↔ b.isLeft := by cases b <;> simp [BinOp.toOp, Op.left, BinOp.isLeft]

/-- The condition of the inner loop. -/
def red (o t : Op) : Prop := o.precedence < t.precedence ∨ (o.precedence = t.precedence ∧ o.left = true)

theorem reduce_shift {o : Op} {v : ℤ} {t : OpValue} {S : List OpValue} (h : ¬ red o t.op) :
    reduce o v (t :: S) = .ok (.cont v (t :: S)) := by
  unfold red at h
  rw [reduce, if_neg h]; rfl

theorem reduce_step {o : Op} {v : ℤ} {t : OpValue} {S : List OpValue} (h : red o t.op) (h0 : t.op ≠ .null) :
    reduce o v (t :: S) = calculate t.value v t.op >>= fun w => reduce o w S := by
  unfold red at h
  rw [reduce, if_pos h, if_neg h0]

theorem reduce_ret {o : Op} {v : ℤ} {t : OpValue} {S : List OpValue} (h : red o t.op) (h0 : t.op = .null) :
    reduce o v (t :: S) = .ok (.ret v S) := by
  unfold red at h
  rw [reduce, if_pos h, if_pos h0]; rfl

theorem red_null (o : Op) : red .null o := by cases o <;> simp [red, Op.precedence, Op.left]

theorem not_red_null (b : BinOp) : ¬ red b.toOp .null := by cases b <;> simp [red, Op.precedence, BinOp.toOp]

/-- The elements above the bottom element of a call of `parseExpr`. -/
def Frames (fr : List OpValue) : Prop := ∀ x ∈ fr, x.op ≠ .null ∧ R x.value

theorem safe_reduce (o : Op) (S : List OpValue) : ∀ (fr : List OpValue) (v : ℤ), Frames fr → R v →
    Safe (reduce o v (fr ++ ⟨.null, 0⟩ :: S)) (fun r =>
      match r with
      | .ret v S' => R v ∧ S' = S ∧ o = .null
      | .cont v S' => R v ∧ o ≠ .null ∧ ∃ fr', Frames fr' ∧ S' = fr' ++ ⟨.null, 0⟩ :: S) := by
  intro fr
  induction fr with
  | nil =>
    intro v hf hv
    rw [List.nil_append]
    rcases op_cases o with rfl | ⟨b, rfl⟩
    · rw [reduce_ret (red_null _) rfl]
      exact .ok ⟨hv, rfl, rfl⟩
    · rw [reduce_shift (not_red_null b)]
      exact .ok ⟨hv, toOp_ne_null b, [], hf, rfl⟩
  | cons t fr ih =>
    intro v hf hv
    have h1 := hf t (List.mem_cons_self ..)
    have h2 : Frames fr := fun x hx => hf x (List.mem_cons_of_mem _ hx)
    rw [List.cons_append]
    by_cases h : red o t.op
    · rw [reduce_step h h1.1]
      rcases op_cases t.op with h3 | ⟨b, h3⟩
      · exact absurd h3 h1.1
      · rw [h3, calculate_eq h1.2 hv]
        exact (safe_apply h1.2 hv b).bind fun w _ hw => ih w h2 hw
    · rw [reduce_shift h]
      refine .ok ⟨hv, ?_, t :: fr, hf, rfl⟩
      rintro rfl
      exact h (red_null _)

theorem safe_digits (base : ℕ) (h0 : 0 < base) (h16 : base ≤ 16) (s : List Char) (c : Char) (r : List Char)
    (hs : s = c :: r) (hc : dig base c = true) :
    Safe (parseDigits base s 0) (fun r => R r.1 ∧ r.2.length < s.length) := by
  have := parseDigits_eq base h0 h16 s 0 (by norm_num)
  rw [Nat.cast_zero] at this
  rw [this]
  refine (safe_fit _).bind fun w _ hw => .ok ⟨hw, ?_⟩
  rw [hs, List.dropWhile_cons_of_pos hc, List.length_cons]
  have := (List.dropWhile_suffix (dig base) (l := r)).length_le
  dsimp only
  omega

theorem isHex_iff {s : List Char} : isHex s = true ↔ ∃ a x h r, s = a :: x :: h :: r ∧ (x = 'x' ∨ x = 'X') ∧
    dig 16 h = true := by
  unfold isHex
  split
  · rename_i a x h r
    unfold dig
    simp only [Bool.and_eq_true, Bool.or_eq_true, decide_eq_true_eq]
    constructor
    · rintro ⟨h1, h2⟩; exact ⟨a, x, h, r, rfl, h1, h2⟩
    · rintro ⟨a', x', h', r', h1, h2, h3⟩
      cases h1
      exact ⟨h2, h3⟩
  · rename_i hn
    constructor
    · intro h; cases h
    · rintro ⟨a, x, h, r, rfl, _⟩; exact absurd rfl (hn a x h r)

theorem dig_range {c : Char} (h : c = '0' ∨ ('1' ≤ c ∧ c ≤ '9')) : dig 10 c = true := by
  have h1 : ('0' ≤ c ∧ c ≤ '9') := by
    rcases h with rfl | h
    · decide
    · exact ⟨Nat.le_trans (show '0'.toNat ≤ '1'.toNat by decide) h.1, h.2⟩
  unfold dig toInteger
  rw [if_pos h1]
  have h2 := char_range h1.1 h1.2
  have e1 : '0'.toNat = 48 := rfl
  have e2 : '9'.toNat = 57 := rfl
  rw [e1, e2] at h2
  rw [decide_eq_true_eq, e1]
  omega

/-- The number branch of `parseValue`. -/
def parseNumber (s : List Char) : M (ℤ × List Char) :=
  if s.headD 'x' = '0' ∧ isHex s = true then parseDigits 16 s.tail.tail 0 else parseDigits 10 s 0

theorem safe_number {s r : List Char} {c : Char} (hs : s = c :: r) (hc : dig 10 c = true) :
    Safe (parseNumber s) (fun r => R r.1 ∧ r.2.length < s.length) := by
  unfold parseNumber
  split
  · rename_i h
    obtain ⟨a, x, d, r', h1, _, h2⟩ := isHex_iff.1 h.2
    rw [h1]
    refine (safe_digits 16 (by norm_num) (by norm_num) _ d r' rfl h2).mono fun a ha => ⟨ha.1, ha.2.trans ?_⟩
    simp
  · exact safe_digits 10 (by norm_num) (by norm_num) s c r hs hc

/-- `parseValue`, the branches of the `switch` being separated. -/
theorem parseValue_succ (n : ℕ) (S : List OpValue) (s : List Char) :
    parseValue (n + 1) S s =
      match eatSpaces s with
      | [] => syntaxError
      | c :: r =>
        if c = '0' ∨ ('1' ≤ c ∧ c ≤ '9') then parseNumber (c :: r) >>= fun x => .ok (x.1, S, x.2)
        else if c = '(' then
          parseExpr n S r >>= fun x =>
            if getCharacter (eatSpaces x.2.2) ≠ ')' then syntaxError else .ok (x.1, x.2.1, (eatSpaces x.2.2).tail)
        else if c = '~' then parseValue n S r >>= fun x => .ok (-x.1 - 1, x.2.1, x.2.2)
        else if c = '+' then parseValue n S r
        else if c = '-' then parseValue n S r >>= fun x => fit (-x.1) >>= fun v => .ok (v, x.2.1, x.2.2)
        else syntaxError := by
  rw [parseValue]
  cases eatSpaces s with
  | nil => rfl
  | cons c r =>
    dsimp only
    by_cases h0 : c = '0'
    · rw [if_pos h0]
      conv_rhs => rw [if_pos (.inl h0)]
      subst h0
      unfold parseNumber
      dsimp only [List.headD_cons, List.tail_cons]
      by_cases hx : isHex ('0' :: r) = true
      · simp only [hx, if_true, and_true]; rfl
      · simp only [hx]; rfl
    · rw [if_neg h0]
      by_cases h1 : '1' ≤ c ∧ c ≤ '9'
      · rw [if_pos h1, if_pos (.inr h1)]
        unfold parseNumber
        rw [if_neg (fun h => h0 h.1)]
        rfl
      · rw [if_neg h1]
        conv_rhs => rw [if_neg (not_or.2 ⟨h0, h1⟩)]
        simp only [mul_neg, mul_one, chk_eq_fit]
        rfl

theorem parseExpr_succ (n : ℕ) (S : List OpValue) (s : List Char) :
    parseExpr (n + 1) S s = parseValue n (⟨.null, 0⟩ :: S) s >>= fun x => parseLoop n x.1 x.2.1 x.2.2 := by
  rw [parseExpr]

theorem parseLoop_succ (n : ℕ) (v : ℤ) (S : List OpValue) (s : List Char) (h : S ≠ []) :
    parseLoop (n + 1) v S s = parseOp s >>= fun o => reduce o.1 v S >>= fun r =>
      match r with
      | .ret v S => .ok (v, S, o.2)
      | .cont v S => parseValue n (⟨o.1, v⟩ :: S) o.2 >>= fun x => parseLoop n x.1 x.2.1 x.2.2 := by
  rw [parseLoop, if_neg (by simpa using h)]
  rfl

/-- The result of a parse function: a 128-bit value, the stack of the caller and a shorter rest. -/
def Post (S : List OpValue) (s : List Char) (x : ℤ × List OpValue × List Char) : Prop :=
  R x.1 ∧ x.2.1 = S ∧ x.2.2.length < s.length

theorem frames_ne {fr S : List OpValue} : fr ++ (⟨.null, 0⟩ : OpValue) :: S ≠ [] := by simp

theorem safe_parse : ∀ n : ℕ,
    (∀ S s, 2 * s.length + 1 ≤ n → Safe (parseValue n S s) (Post S s)) ∧
    (∀ S s, 2 * s.length + 2 ≤ n → Safe (parseExpr n S s) (Post S s)) ∧
    (∀ v fr S s, 2 * s.length + 1 ≤ n → R v → Frames fr →
      Safe (parseLoop n v (fr ++ ⟨.null, 0⟩ :: S) s)
        (fun x => R x.1 ∧ x.2.1 = S ∧ x.2.2.length ≤ s.length)) := by
  intro n
  induction n with
  | zero => exact ⟨fun _ _ h => by omega, fun _ _ h => by omega, fun _ _ _ _ h => by omega⟩
  | succ n ih =>
    obtain ⟨ihV, ihE, ihL⟩ := ih
    refine ⟨fun S s hn => ?_, fun S s hn => ?_, fun v fr S s hn hv hf => ?_⟩
    · rw [parseValue_succ]
      have hlen := eatSpaces_len s
      cases hs : eatSpaces s with
      | nil => exact .syntax
      | cons c r =>
        rw [hs, List.length_cons] at hlen
        dsimp only
        split
        · rename_i hc
          refine (safe_number rfl (dig_range hc)).bind fun x _ hx => .ok ⟨hx.1, rfl, ?_⟩
          have := hx.2
          rw [List.length_cons] at this
          exact this.trans_le hlen
        · split
          · refine (ihE S r (by omega)).bind fun x _ hx => ?_
            split
            · exact .syntax
            · refine .ok ⟨hx.1, hx.2.1, ?_⟩
              have h1 := eatSpaces_len x.2.2
              have h2 := hx.2.2
              have h3 : (eatSpaces x.2.2).tail.length ≤ (eatSpaces x.2.2).length := by
                rw [List.length_tail]; omega
              dsimp only
              omega
          · split
            · refine (ihV S r (by omega)).bind fun x _ hx => .ok ⟨?_, hx.2.1, ?_⟩
              · have := hx.1
                unfold R at this ⊢
                dsimp only
                omega
              · have := hx.2.2; dsimp only; omega
            · split
              · refine (ihV S r (by omega)).mono fun x hx => ⟨hx.1, hx.2.1, ?_⟩
                have := hx.2.2; omega
              · split
                · refine (ihV S r (by omega)).bind fun x _ hx => ?_
                  refine (safe_fit _).bind fun w _ hw => .ok ⟨hw, hx.2.1, ?_⟩
                  have := hx.2.2; dsimp only; omega
                · exact .syntax
    · rw [parseExpr_succ]
      refine (ihV _ s (by omega)).bind fun x _ hx => ?_
      rw [hx.2.1]
      have h1 := hx.2.2
      refine (ihL x.1 [] S x.2.2 (by omega) hx.1 (by intro x hx; cases hx)).mono fun y hy =>
        ⟨hy.1, hy.2.1, ?_⟩
      have := hy.2.2; omega
    · rw [parseLoop_succ _ _ _ _ frames_ne]
      rcases parseOp_err s with ⟨⟨o, s2⟩, h1⟩ | h1
      · rw [h1, ok_bind]
        dsimp only
        have h2 : s2.length ≤ s.length ∧ (o ≠ .null → s2.length < s.length) := by
          rcases parseOp_sound h1 with ⟨h3, h4⟩ | ⟨b, h3, h4, _⟩
          · exact ⟨by rw [h4]; exact eatSpaces_len s, fun h => absurd h3 h⟩
          · exact ⟨h4.le, fun _ => h4⟩
        refine (safe_reduce o S fr v hf hv).bind fun r _ hr => ?_
        cases r with
        | ret v' S' => exact .ok ⟨hr.1, hr.2.1, h2.1⟩
        | cont v' S' =>
          obtain ⟨hv', ho, fr', hf', rfl⟩ := hr
          dsimp only
          have h3 := h2.2 ho
          refine (ihV _ s2 (by omega)).bind fun x _ hx => ?_
          rw [hx.2.1]
          have h4 := hx.2.2
          have hf2 : Frames (⟨o, v'⟩ :: fr') := by
            intro y hy
            rcases List.mem_cons.1 hy with rfl | hy
            · exact ⟨ho, hv'⟩
            · exact hf' y hy
          refine (ihL x.1 (⟨o, v'⟩ :: fr') S x.2.2 (by omega) hx.1 hf2).mono fun y hy => ⟨hy.1, hy.2.1, ?_⟩
          have := hy.2.2; omega
      · rw [h1]; exact .inr ⟨_, rfl, .inl rfl⟩

/-! ## The bound on the recursion does not matter -/

/-- `a` ran out of fuel or agrees with `b`. -/
def Below {α : Type} (a b : M α) : Prop := a = .error .fuel ∨ a = b

theorem Below.refl {α : Type} (a : M α) : Below a a := .inr rfl

theorem Below.bind {α β : Type} {a b : M α} {f g : α → M β} (h : Below a b) (hf : ∀ x, Below (f x) (g x)) :
    Below (a >>= f) (b >>= g) := by
  rcases h with h | h
  · rw [h]; exact .inl rfl
  · rw [h]
    cases b with
    | error e => exact .inr rfl
    | ok x => exact hf x

theorem below_succ : ∀ n : ℕ,
    (∀ S s, Below (parseValue n S s) (parseValue (n + 1) S s)) ∧
    (∀ S s, Below (parseExpr n S s) (parseExpr (n + 1) S s)) ∧
    (∀ v S s, Below (parseLoop n v S s) (parseLoop (n + 1) v S s)) := by
  intro n
  induction n with
  | zero =>
    refine ⟨fun S s => .inl ?_, fun S s => .inl ?_, fun v S s => .inl ?_⟩
    · rw [parseValue]
    · rw [parseExpr]
    · rw [parseLoop]
  | succ n ih =>
    obtain ⟨ihV, ihE, ihL⟩ := ih
    refine ⟨fun S s => ?_, fun S s => ?_, fun v S s => ?_⟩
    · rw [parseValue_succ, parseValue_succ (n + 1)]
      cases eatSpaces s with
      | nil => exact .refl _
      | cons c r =>
        dsimp only
        split
        · exact .refl _
        · split
          · exact (ihE S r).bind fun x => .refl _
          · split
            · exact (ihV S r).bind fun x => .refl _
            · split
              · exact ihV S r
              · split
                · exact (ihV S r).bind fun x => .refl _
                · exact .refl _
    · rw [parseExpr_succ, parseExpr_succ (n + 1)]
      exact (ihV _ s).bind fun x => ihL _ _ _
    · by_cases hS : S = []
      · subst hS
        rw [parseLoop, parseLoop]
        exact .refl _
      rw [parseLoop_succ _ _ _ _ hS, parseLoop_succ _ _ _ _ hS]
      refine Below.bind (.refl _) fun o => Below.bind (.refl _) fun r => ?_
      cases r with
      | ret v S => exact .refl _
      | cont v S => exact (ihV _ _).bind fun x => ihL _ _ _

theorem fuel_mono {α : Type} {f : ℕ → M α} (hf : ∀ n, Below (f n) (f (n + 1))) {n m : ℕ} (h : n ≤ m)
    (h1 : f n ≠ .error .fuel) : f m = f n := by
  induction m, h using Nat.le_induction with
  | base => rfl
  | succ m _ ih =>
    rcases hf m with h2 | h2
    · rw [ih] at h2; exact absurd h2 h1
    · rw [← h2, ih]

/-- `parseValue` without a bound. -/
def pV (S : List OpValue) (s : List Char) := parseValue (2 * s.length + 1) S s
/-- `parseExpr` without a bound. -/
def pE (S : List OpValue) (s : List Char) := parseExpr (2 * s.length + 2) S s
/-- The loop of `parseExpr` without a bound. -/
def pL (v : ℤ) (S : List OpValue) (s : List Char) := parseLoop (2 * s.length + 1) v S s

theorem pV_eq {n : ℕ} {S : List OpValue} {s : List Char} (h : 2 * s.length + 1 ≤ n) : parseValue n S s = pV S s :=
  fuel_mono (f := fun n => parseValue n S s) (fun n => (below_succ n).1 S s) h ((safe_parse _).1 S s le_rfl).ne_fuel

theorem pE_eq {n : ℕ} {S : List OpValue} {s : List Char} (h : 2 * s.length + 2 ≤ n) : parseExpr n S s = pE S s :=
  fuel_mono (f := fun n => parseExpr n S s) (fun n => (below_succ n).2.1 S s) h
    ((safe_parse _).2.1 S s le_rfl).ne_fuel

/-- A stack on which the loop of `parseExpr` works. -/
def WS (S : List OpValue) : Prop := ∃ fr S0, S = fr ++ ⟨.null, 0⟩ :: S0 ∧ Frames fr

theorem WS.ne {S : List OpValue} (h : WS S) : S ≠ [] := by
  obtain ⟨fr, S0, rfl, _⟩ := h; exact frames_ne

theorem WS.null (S : List OpValue) : WS (⟨.null, 0⟩ :: S) := ⟨[], S, rfl, fun x hx => by cases hx⟩

theorem WS.push {S : List OpValue} (h : WS S) (b : BinOp) {v : ℤ} (hv : R v) : WS (⟨b.toOp, v⟩ :: S) := by
  obtain ⟨fr, S0, rfl, hf⟩ := h
  refine ⟨⟨b.toOp, v⟩ :: fr, S0, rfl, fun x hx => ?_⟩
  rcases List.mem_cons.1 hx with rfl | hx
  · exact ⟨toOp_ne_null b, hv⟩
  · exact hf x hx

theorem pL_eq {n : ℕ} {v : ℤ} {S : List OpValue} {s : List Char} (h : 2 * s.length + 1 ≤ n) (hv : R v) (hS : WS S) :
    parseLoop n v S s = pL v S s := by
  obtain ⟨fr, S0, rfl, hf⟩ := hS
  exact fuel_mono (f := fun n => parseLoop n v _ s) (fun n => (below_succ n).2.2 v _ s) h
    ((safe_parse _).2.2 v fr S0 s le_rfl hv hf).ne_fuel

theorem safe_pV (S : List OpValue) (s : List Char) : Safe (pV S s) (Post S s) := (safe_parse _).1 S s le_rfl

theorem safe_bind_congr {α β : Type} {m : M α} {P : α → Prop} {f g : α → M β} (h : Safe m P)
    (hf : ∀ a, P a → f a = g a) : (m >>= f) = (m >>= g) := by
  rcases h with ⟨a, h1, h2⟩ | ⟨e, h1, h2⟩ <;> rw [h1]
  · exact hf a h2
  · rfl

theorem pE_unfold (S : List OpValue) (s : List Char) :
    pE S s = pV (⟨.null, 0⟩ :: S) s >>= fun x => pL x.1 x.2.1 x.2.2 := by
  unfold pE
  rw [parseExpr_succ, pV_eq le_rfl]
  refine safe_bind_congr (safe_pV _ s) fun x hx => ?_
  have := hx.2.2
  exact pL_eq (by omega) hx.1 (by rw [hx.2.1]; exact .null S)

theorem pL_unfold {v : ℤ} {S : List OpValue} {s : List Char} (hv : R v) (hS : WS S) :
    pL v S s = parseOp s >>= fun o => reduce o.1 v S >>= fun r =>
      match r with
      | .ret v S => .ok (v, S, o.2)
      | .cont v S => pV (⟨o.1, v⟩ :: S) o.2 >>= fun x => pL x.1 x.2.1 x.2.2 := by
  obtain ⟨fr, S0, rfl, hf⟩ := hS
  unfold pL
  rw [parseLoop_succ _ _ _ _ frames_ne]
  refine bind_congr_ok fun o ho => safe_bind_congr (safe_reduce o.1 S0 fr v hf hv) fun r hr => ?_
  cases r with
  | ret v S => rfl
  | cont v' S' =>
    obtain ⟨hv', h0, fr', hf', rfl⟩ := hr
    dsimp only
    have h2 : o.2.length < s.length := by
      rcases parseOp_sound ho with ⟨h3, h4⟩ | ⟨b, h3, h4, _⟩
      · exact absurd h3 h0
      · exact h4
    rw [pV_eq (by omega)]
    refine safe_bind_congr (safe_pV _ _) fun x hx => ?_
    have h3 := hx.2.2
    refine pL_eq (by omega) hx.1 ?_
    rw [hx.2.1]
    rcases op_cases o.1 with h | ⟨b, h⟩
    · exact absurd h h0
    · rw [h]; exact WS.push ⟨fr', S0, rfl, hf'⟩ b hv'

theorem pV_unfold (S : List OpValue) (s : List Char) :
    pV S s =
      match eatSpaces s with
      | [] => syntaxError
      | c :: r =>
        if c = '0' ∨ ('1' ≤ c ∧ c ≤ '9') then parseNumber (c :: r) >>= fun x => .ok (x.1, S, x.2)
        else if c = '(' then
          pE S r >>= fun x =>
            if getCharacter (eatSpaces x.2.2) ≠ ')' then syntaxError else .ok (x.1, x.2.1, (eatSpaces x.2.2).tail)
        else if c = '~' then pV S r >>= fun x => .ok (-x.1 - 1, x.2.1, x.2.2)
        else if c = '+' then pV S r
        else if c = '-' then pV S r >>= fun x => fit (-x.1) >>= fun v => .ok (v, x.2.1, x.2.2)
        else syntaxError := by
  conv_lhs => unfold pV
  rw [parseValue_succ]
  have hlen := eatSpaces_len s
  cases hs : eatSpaces s with
  | nil => rfl
  | cons c r =>
    rw [hs, List.length_cons] at hlen
    dsimp only
    rw [pE_eq (by omega), pV_eq (by omega)]

end Calc
end PS
