import Verif.Proof.CalcSound

/-!
# C39, C40: arithmetic expressions

`Parses str e` (Spec/Calculator.lean): `str` is a spelling of the expression tree `e` under the documented table of
operators, with any white space and parentheses.  `e.eval` is the value of the tree, or the first operation without
a value.
-/

namespace PS
namespace Calc

open Spec

/-- C39: on every well-formed expression `to_int128` returns the value of its tree.  If an operation of the tree has
no value (division by zero, overflow, a shift by a wrong amount) this is also the outcome of `to_int128`. -/
theorem C39_eval {str : String} {e : Expr} (h : Parses str e) : toInt128 str = e.eval := complete h

/-- C39: the table of operators determines the value of a string. -/
theorem C39_unambiguous {str : String} {e e' : Expr} (h : Parses str e) (h' : Parses str e') : e.eval = e'.eval := by
  rw [← complete h, ← complete h']

/-- `10 - 4 - 3 * 2 ^ 3 ^ 2` groups as documented. -/
def exampleTree : Expr :=
  .bin .sub (.bin .sub (.num 10) (.num 4)) (.bin .mul (.num 3) (.bin .pow (.num 2) (.bin .pow (.num 3) (.num 2))))

theorem example_parses : Parses "10 - 4-3*2**3^2" exampleTree := by
  have sp : IsSpace ' ' := by unfold IsSpace; decide
  have dg : ∀ c ∈ "0123456789".toList, IsDigit 10 c := by
    intro c hc
    have : ∀ c ∈ "0123456789".toList, ∃ d < 10, digitVal c = some d := by decide
    obtain ⟨d, h1, h2⟩ := this c hc
    exact ⟨d, h2, h1⟩
  have nd : ∀ c ∈ " -*^".toList, ¬ IsDigit 10 c := by
    rintro c hc ⟨d, h1, h2⟩
    have : ∀ c ∈ " -*^".toList, digitVal c = none := by decide
    rw [this c hc] at h1
    cases h1
  have num : ∀ (ds s : List Char) (ts : List Tok), ds ≠ [] → (∀ d ∈ ds, d ∈ "0123456789".toList) →
      (∀ c, s.head? = some c → c ∈ " -*^".toList) → Lexes s ts → Lexes (ds ++ s) (.num (ofDigits 10 ds) :: ts) :=
    fun ds s ts h1 h2 h3 h4 => .dec h1 (fun d hd => dg d (h2 d hd)) (fun c hc => nd c (h3 c hc)) h4
  have hd : ∀ (c : Char) (s : List Char), c ∈ " -*^".toList → ∀ d, (c :: s).head? = some d → d ∈ " -*^".toList := by
    intro c s hc d h
    injection h with h
    rwa [← h]
  refine ⟨[.num 10, .op .sub, .num 4, .op .sub, .num 3, .op .mul, .num 2, .op .pow, .num 3, .op .pow, .num 2], ?_, ?_⟩
  · refine num ['1', '0'] _ _ (by decide) (by decide) (hd _ _ (by decide)) ?_
    refine .space sp (.sym .sub (.space sp ?_))
    refine num ['4'] _ _ (by decide) (by decide) (hd _ _ (by decide)) (.sym .sub ?_)
    refine num ['3'] _ _ (by decide) (by decide) (hd _ _ (by decide)) (.mul (by decide) ?_)
    refine num ['2'] _ _ (by decide) (by decide) (hd _ _ (by decide)) (.pow ?_)
    refine num ['3'] _ _ (by decide) (by decide) (hd _ _ (by decide)) (.sym .caret ?_)
    exact num ['2'] [] [] (by decide) (by decide) (fun c h => by cases h) .nil
  · have v : ∀ p n, Exp p [.num n] (.num n) := fun p n => .val .num
    refine .binL (o := .sub) (l := [.num 10, .op .sub, .num 4]) trivial (Nat.zero_le _) ?_ ?_
    · exact .binL (o := .sub) (l := [.num 10]) (r := [.num 4]) trivial le_rfl (v _ _) (v _ _)
    · refine .binL (o := .mul) (l := [.num 3]) trivial (by decide) (v _ _) ?_
      refine .binR (o := .pow) (l := [.num 2]) not_false (by decide) (v _ _) ?_
      exact .binR (o := .pow) (l := [.num 3]) (r := [.num 2]) not_false le_rfl (v _ _) (v _ _)

example : toInt128 "10 - 4-3*2**3^2" = .ok (-1530) := by rw [C39_eval example_parses]; decide +kernel

/-! The examples of include/calculator.hpp:40-46. -/
example : toInt128 "65536 >> 15" = .ok 2 := by decide +kernel
example : toInt128 "2**16" = .ok 65536 := by decide +kernel
example : toInt128 "(0 + 0xDf234 - 1000)*3/2%999" = .ok 828 := by decide +kernel
example : toInt128 "-(2**2**2**2)" = .ok (-65536) := by decide +kernel
example : toInt128 "(0 + ~(0xDF234 & 1000) *3) /-2" = .ok 817 := by decide +kernel
example : toInt128 "(2**16) + (1 << 16) >> 0X5" = .ok 4096 := by decide +kernel
example : toInt128 "5*-(2**(9+7))/3+5*(1 & 0xFf123)" = .ok (-109221) := by decide +kernel

/-- C40: a string for which `to_int128` returns a value is a well-formed expression, and the value is that of its
tree. -/
theorem C40_sound {str : String} {v : ℤ} (h : toInt128 str = .ok v) : ∃ e, Parses str e ∧ e.eval = .ok v := sound h

/-- C40: a string that is no well-formed expression does not give a value: `calculator::error` is thrown, unless an
operation before the error overflows (undefined). -/
theorem C40_reject {str : String} (h : ∀ e, ¬ Parses str e) : ∃ err, toInt128 str = .error err ∧ Rejected err := by
  rcases safe_toInt128 str with ⟨v, h1, _⟩ | h1
  · obtain ⟨e, h2, _⟩ := sound h1
    exact absurd h2 (h e)
  · exact h1

/-- The exception in `C40_reject` is real: `2**127` overflows before the parenthesis is seen. -/
theorem C40_overflow_first : toInt128 "2**127 )" = .error .overflow := by decide +kernel

/-- C40: a division by zero raises `calculator::error`. -/
theorem C40_div_zero {str : String} {o : BinOp} {a b : Expr} {x : ℤ} (h : Parses str (.bin o a b))
    (ho : o = .div ∨ o = .mod) (ha : a.eval = .ok x) (hb : b.eval = .ok 0) :
    toInt128 str = .error (.thrown "calculator::error") := by
  rw [complete h, Expr.eval, ha, ok_bind, hb, ok_bind]
  rcases ho with rfl | rfl <;> rfl

/-- C40: on every string the parser terminates without an access outside the string or its stack; a value it returns
is a 128-bit integer. -/
theorem C40_total (str : String) :
    (∃ v, toInt128 str = .ok v ∧ -2 ^ 127 ≤ v ∧ v < 2 ^ 127) ∨ ∃ err, toInt128 str = .error err ∧ Rejected err :=
  safe_toInt128 str

example : toInt128 "1 +" = .error (.thrown "calculator::error") := by decide +kernel
example : toInt128 "(1 2)" = .error (.thrown "calculator::error") := by decide +kernel
example : toInt128 "" = .error (.thrown "calculator::error") := by decide +kernel
example : toInt128 "7 % (3 - 3)" = .error (.thrown "calculator::error") := by decide +kernel

/-- There are strings that are no expressions. -/
example : ∃ err, toInt128 "" = .error err ∧ Rejected err := by
  refine C40_reject fun e ⟨ts, h, h'⟩ => ?_
  have h1 : ts = [] := by
    generalize hs : "".toList = u at h
    have hs' : u = [] := hs.symm
    cases h with
    | nil => rfl
    | dec h1 _ _ _ => exact absurd (List.append_eq_nil_iff.1 hs').1 h1
    | _ => cases hs'
  generalize ts = t at h1 h'
  cases h' with
  | val h' => cases h' <;> cases h1
  | binL => exact absurd h1 (by simp)
  | binR => exact absurd h1 (by simp)

end Calc
end PS
