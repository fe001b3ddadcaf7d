import Mathlib.Data.Int.Bitwise
import Verif.Model.Int128

/-!
# Specification of arithmetic expressions

Tokens, grammar and value of an expression, after the table of operators in include/calculator.hpp:12-35.
Nothing here mentions the parser.
-/

namespace PS
namespace Calc
namespace Spec

/-- The binary operators. -/
inductive BinOp where
  | or | and | shl | shr | add | sub | mul | div | mod | pow | exp
deriving DecidableEq, Repr

/-- The column PRECEDENCE of the table. -/
def BinOp.prec : BinOp → ℕ
  | .or => 4
  | .and => 6
  | .shl | .shr => 9
  | .add | .sub => 10
  | .mul | .div | .mod => 20
  | .pow => 30
  | .exp => 40

/-- The column ASSOCIATIVITY of the table is "Left". -/
def BinOp.isLeft : BinOp → Prop
  | .pow | .exp => False
  | _ => True

inductive Tok where
  | num (n : ℕ)
  | op (o : BinOp)
  | tilde
  | lpar
  | rpar
deriving DecidableEq, Repr

/-- The value of a digit, in either case. -/
def digitVal (c : Char) : Option ℕ :=
  if c ∈ "0123456789".toList then some (c.toNat - 48)
  else if c ∈ "abcdef".toList then some (c.toNat - 87)
  else if c ∈ "ABCDEF".toList then some (c.toNat - 55)
  else none

/-- `c` is a digit of the base. -/
def IsDigit (base : ℕ) (c : Char) : Prop := ∃ d, digitVal c = some d ∧ d < base

/-- The number written by the digits, most significant first. -/
def ofDigits (base : ℕ) (ds : List Char) : ℕ := ds.foldl (fun v c => v * base + (digitVal c).getD 0) 0

/-- White space. -/
def IsSpace (c : Char) : Prop := c ∈ [' ', '\t', '\n', '\r', '\x0b', '\x0c']

/-- The tokens spelled by one character. -/
inductive Sym : Char → Tok → Prop
  | lpar : Sym '(' .lpar
  | rpar : Sym ')' .rpar
  | tilde : Sym '~' .tilde
  | or : Sym '|' (.op .or)
  | and : Sym '&' (.op .and)
  | add : Sym '+' (.op .add)
  | sub : Sym '-' (.op .sub)
  | div : Sym '/' (.op .div)
  | mod : Sym '%' (.op .mod)
  | caret : Sym '^' (.op .pow)
  | e : Sym 'e' (.op .exp)
  | E : Sym 'E' (.op .exp)

/-- `Lexes s ts`: the string `s` consists of the tokens `ts`, where a number, and the token `**`, is as long as
possible. -/
inductive Lexes : List Char → List Tok → Prop
  | nil : Lexes [] []
  | space {c s ts} : IsSpace c → Lexes s ts → Lexes (c :: s) ts
  | sym {c t s ts} : Sym c t → Lexes s ts → Lexes (c :: s) (t :: ts)
  | shl {s ts} : Lexes s ts → Lexes ('<' :: '<' :: s) (.op .shl :: ts)
  | shr {s ts} : Lexes s ts → Lexes ('>' :: '>' :: s) (.op .shr :: ts)
  | pow {s ts} : Lexes s ts → Lexes ('*' :: '*' :: s) (.op .pow :: ts)
  | mul {s ts} : s.head? ≠ some '*' → Lexes s ts → Lexes ('*' :: s) (.op .mul :: ts)
  | dec {ds s ts} : ds ≠ [] → (∀ d ∈ ds, IsDigit 10 d) → (∀ c, s.head? = some c → ¬ IsDigit 10 c) → Lexes s ts →
      Lexes (ds ++ s) (.num (ofDigits 10 ds) :: ts)
  | hex {x ds s ts} : x = 'x' ∨ x = 'X' → ds ≠ [] → (∀ d ∈ ds, IsDigit 16 d) →
      (∀ c, s.head? = some c → ¬ IsDigit 16 c) → Lexes s ts →
      Lexes ('0' :: x :: (ds ++ s)) (.num (ofDigits 16 ds) :: ts)

/-- Expression trees. -/
inductive Expr where
  | num (n : ℕ)
  | compl (e : Expr)
  | plus (e : Expr)
  | neg (e : Expr)
  | bin (o : BinOp) (a b : Expr)
deriving DecidableEq, Repr

mutual

/-- Operands: numbers, expressions in parentheses, operands with a unary operator. -/
inductive Val : List Tok → Expr → Prop
  | num {n} : Val [.num n] (.num n)
  | paren {ts e} : Exp 0 ts e → Val (.lpar :: (ts ++ [.rpar])) e
  | compl {ts e} : Val ts e → Val (.tilde :: ts) (.compl e)
  | plus {ts e} : Val ts e → Val (.op .add :: ts) (.plus e)
  | neg {ts e} : Val ts e → Val (.op .sub :: ts) (.neg e)

/-- `Exp p ts e`: `ts` is a spelling of `e` in which the operators outside parentheses have at least the
precedence `p`. -/
inductive Exp : ℕ → List Tok → Expr → Prop
  | val {p ts e} : Val ts e → Exp p ts e
  | binL {p o l a r b} : o.isLeft → p ≤ o.prec → Exp o.prec l a → Exp (o.prec + 1) r b →
      Exp p (l ++ .op o :: r) (.bin o a b)
  | binR {p o l a r b} : ¬ o.isLeft → p ≤ o.prec → Exp (o.prec + 1) l a → Exp o.prec r b →
      Exp p (l ++ .op o :: r) (.bin o a b)

end

/-- The string `s` is a well-formed expression with the tree `e`. -/
def Parses (s : String) (e : Expr) : Prop := ∃ ts, Lexes s.toList ts ∧ Exp 0 ts e

/-- The 128-bit value `x`, or `overflow`. -/
def fit (x : ℤ) : M ℤ := if -2 ^ 127 ≤ x ∧ x < 2 ^ 127 then .ok x else .error .overflow

/-- A negative exponent counts as 0. -/
def natPow (x n : ℤ) : ℤ := x ^ n.toNat

/-- The value of `a o b` for 128-bit integers: division truncates, a shift to the right rounds down. -/
def BinOp.apply : BinOp → ℤ → ℤ → M ℤ
  | .or, a, b => .ok (Int.lor a b)
  | .and, a, b => .ok (Int.land a b)
  | .shl, a, b =>
    if b < 0 ∨ 128 ≤ b then .error .shift
    else if a < 0 then .error .overflow
    else fit (a * 2 ^ b.toNat)
  | .shr, a, b => if b < 0 ∨ 128 ≤ b then .error .shift else .ok (a / 2 ^ b.toNat)
  | .add, a, b => fit (a + b)
  | .sub, a, b => fit (a - b)
  | .mul, a, b => fit (a * b)
  | .div, a, b => if b = 0 then .error (.thrown "calculator::error") else fit (Int.tdiv a b)
  | .mod, a, b =>
    if b = 0 then .error (.thrown "calculator::error")
    else if a = -2 ^ 127 ∧ b = -1 then .error .overflow
    else .ok (Int.tmod a b)
  | .pow, a, b => fit (natPow a b)
  | .exp, a, b => do
    let p ← fit (natPow 10 b)
    fit (a * p)

/-- The value of an expression; the first error, from left to right, otherwise. -/
def Expr.eval : Expr → M ℤ
  | .num n => fit n
  | .compl e => do
    let v ← e.eval
    .ok (-v - 1)
  | .plus e => e.eval
  | .neg e => do
    let v ← e.eval
    fit (-v)
  | .bin o a b => do
    let x ← a.eval
    let y ← b.eval
    o.apply x y

end Spec
end Calc
end PS
