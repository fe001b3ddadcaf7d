import Verif.Model.Int128

/-!
# Model of include/calculator.hpp (`ExpressionParser<int128_t>`)

`index_` is represented by the rest of the string, `expr_.substr(index_)`.  The text of error messages is left out
(and with it `index_ - 2` in `checkZero`, line 212).  A signed overflow, an undefined shift and the division of the
minimum by -1 are outcomes of the model; `<<` of a negative value and `<<` with a result beyond 127 bits are treated
as overflow.  A `char` is a `Char` (code below 256).  Recursion and the loop of `parseExpr` are bounded by a counter; `Err.fuel` reports when it runs out
(it never does: C40).
-/

namespace PS
namespace Calc

open I128

/-- include/calculator.hpp:128-143, without `OPERATOR_BITWISE_XOR`, which the parser never produces. -/
inductive Op where
  | null | or | and | shl | shr | add | sub | mul | div | mod | pow | exp
deriving DecidableEq, Repr

/-- include/calculator.hpp:296-310: the precedences. -/
def Op.precedence : Op → Nat
  | .null => 0
  | .or => 4
  | .and => 6
  | .shl => 9
  | .shr => 9
  | .add => 10
  | .sub => 10
  | .mul => 20
  | .div => 20
  | .mod => 20
  | .pow => 30
  | .exp => 40

/-- include/calculator.hpp:296-310: `associativity == 'L'`. -/
def Op.left : Op → Bool
  | .pow => false
  | .exp => false
  | _ => true

/-- `calculator::error`. -/
def syntaxError {α : Type} : M α := .error (.thrown "calculator::error")

/-- include/calculator.hpp:186-205: `pow`. -/
def pow (x n : Int) : M Int :=
  loop 129 (x, n, 1) (fun ((x, n, res) : Int × Int × Int) =>
    if n > 0 then do
      let (res, n) ← (if n.tmod 2 ≠ 0 then do
          let res ← chk (res * x)
          pure (res, n - 1)
        else pure (res, n) : M (Int × Int))
      let n := n.tdiv 2
      let x ← (if n > 0 then chk (x * x) else pure x : M Int)
      pure (.next (x, n, res))
    else pure (.done res))

/-- include/calculator.hpp:207-222. -/
def checkZero (v : Int) : M Int := if v = 0 then syntaxError else pure v

/-- `v1 << v2`. -/
def shl (v1 v2 : Int) : M Int :=
  if v2 < 0 ∨ v2 ≥ 128 then .error .shift
  else if v1 < 0 then .error .overflow
  else chk (v1 * 2 ^ v2.toNat)

/-- `v1 >> v2`. -/
def shr (v1 v2 : Int) : M Int :=
  if v2 < 0 ∨ v2 ≥ 128 then .error .shift
  else pure (v1 >>> v2.toNat)

/-- include/calculator.hpp:224-242: `calculate`. -/
def calculate (v1 v2 : Int) : Op → M Int
  | .or => pure (BitVec.ofInt 128 v1 ||| BitVec.ofInt 128 v2).toInt
  | .and => pure (BitVec.ofInt 128 v1 &&& BitVec.ofInt 128 v2).toInt
  | .shl => shl v1 v2
  | .shr => shr v1 v2
  | .add => chk (v1 + v2)
  | .sub => chk (v1 - v2)
  | .mul => chk (v1 * v2)
  | .div => do
    let v2 ← checkZero v2
    chk (v1.tdiv v2)
  | .mod => do
    let v2 ← checkZero v2
    if v2 = -1 ∧ v1 = minInt then .error .overflow else pure (v1.tmod v2)
  | .pow => pow v1 v2
  | .exp => do
    let p ← pow 10 v2
    chk (v1 * p)
  | .null => pure 0

/-- `std::isspace` in the "C" locale. -/
def isSpace (c : Char) : Bool :=
  c = ' ' || c = '\t' || c = '\n' || c = Char.ofNat 11 || c = Char.ofNat 12 || c = '\r'

/-- include/calculator.hpp:252-257: `getCharacter`. -/
def getCharacter (s : List Char) : Char := s.headD (Char.ofNat 0)

/-- include/calculator.hpp:282-286: `eatSpaces`. -/
def eatSpaces (s : List Char) : List Char := s.dropWhile isSpace

/-- include/calculator.hpp:262-267: `expect` of a string of two characters, the first of which is known to be
there. -/
def expect2 (c : Char) (s : List Char) : M (List Char) :=
  match s with
  | _ :: c' :: r => if c' = c then pure r else syntaxError
  | _ => syntaxError

/-- include/calculator.hpp:291-312: `parseOp`. -/
def parseOp (s : List Char) : M (Op × List Char) :=
  let s := eatSpaces s
  match getCharacter s with
  | '|' => pure (.or, s.tail)
  | '&' => pure (.and, s.tail)
  | '<' => do
    let s ← expect2 '<' s
    pure (.shl, s)
  | '>' => do
    let s ← expect2 '>' s
    pure (.shr, s)
  | '+' => pure (.add, s.tail)
  | '-' => pure (.sub, s.tail)
  | '/' => pure (.div, s.tail)
  | '%' => pure (.mod, s.tail)
  | '*' => if getCharacter s.tail ≠ '*' then pure (.mul, s.tail) else pure (.pow, s.tail.tail)
  | '^' => pure (.pow, s.tail)
  | 'e' => pure (.exp, s.tail)
  | 'E' => pure (.exp, s.tail)
  | _ => pure (.null, s)

/-- include/calculator.hpp:314-321: `toInteger`. -/
def toInteger (c : Char) : Nat :=
  if '0' ≤ c ∧ c ≤ '9' then c.toNat - '0'.toNat
  else if 'a' ≤ c ∧ c ≤ 'f' then c.toNat - 'a'.toNat + 10
  else if 'A' ≤ c ∧ c ≤ 'F' then c.toNat - 'A'.toNat + 10
  else 16

/-- include/calculator.hpp:328-334 (`base = 10`), :339-342 (`base = 16`): the loop of `parseDecimal`, `parseHex`. -/
def parseDigits (base : Nat) : List Char → Int → M (Int × List Char)
  | [], value => pure (value, [])
  | c :: s, value =>
    if toInteger c ≤ base - 1 then do
      let t ← chk (value * base)
      let value ← chk (t + toInteger c)
      parseDigits base s value
    else pure (value, c :: s)

/-- include/calculator.hpp:345-354: `isHex`. -/
def isHex (s : List Char) : Bool :=
  match s with
  | _ :: x :: h :: _ => (x = 'x' || x = 'X') && decide (toInteger h ≤ 15)
  | _ => false

/-- An element of `stack_`. -/
structure OpValue where
  op : Op
  value : Int

/-- Result of the inner loop: either `parseExpr` returns or the loop ends. -/
inductive Red where
  | ret (value : Int) (stack : List OpValue)
  | cont (value : Int) (stack : List OpValue)

/-- include/calculator.hpp:410-423: the inner loop of `parseExpr`.  The stack is never empty there, because the
element pushed in line 402 is only removed when the function returns. -/
def reduce (op : Op) (value : Int) : List OpValue → M Red
  | [] => .error .oob
  | top :: stack =>
    if op.precedence < top.op.precedence ∨ (op.precedence = top.op.precedence ∧ op.left) then
      if top.op = .null then pure (.ret value stack)
      else do
        let value ← calculate top.value value top.op
        reduce op value stack
    else pure (.cont value (top :: stack))

mutual

/-- include/calculator.hpp:360-394: `parseValue`. -/
def parseValue : Nat → List OpValue → List Char → M (Int × List OpValue × List Char)
  | 0, _, _ => .error .fuel
  | n + 1, stack, s =>
    let s := eatSpaces s
    match s with
    | [] => syntaxError
    | c :: r =>
      if c = '0' then do
        let (v, s) ← (if isHex s then parseDigits 16 r.tail 0 else parseDigits 10 s 0 : M (Int × List Char))
        pure (v, stack, s)
      else if '1' ≤ c ∧ c ≤ '9' then do
        let (v, s) ← parseDigits 10 s 0
        pure (v, stack, s)
      else if c = '(' then do
        let (v, stack, s) ← parseExpr n stack r
        let s := eatSpaces s
        if getCharacter s ≠ ')' then syntaxError
        else pure (v, stack, s.tail)
      else if c = '~' then do
        let (v, stack, s) ← parseValue n stack r
        pure (-v - 1, stack, s)
      else if c = '+' then parseValue n stack r
      else if c = '-' then do
        let (v, stack, s) ← parseValue n stack r
        let v ← chk (v * (-1))
        pure (v, stack, s)
      else syntaxError

/-- include/calculator.hpp:400-431: `parseExpr`; `stack.push` and the value on the left. -/
def parseExpr : Nat → List OpValue → List Char → M (Int × List OpValue × List Char)
  | 0, _, _ => .error .fuel
  | n + 1, stack, s => do
    let (v, stack, s) ← parseValue n (⟨.null, 0⟩ :: stack) s
    parseLoop n v stack s

/-- include/calculator.hpp:406-430: the outer loop of `parseExpr`. -/
def parseLoop : Nat → Int → List OpValue → List Char → M (Int × List OpValue × List Char)
  | 0, _, _, _ => .error .fuel
  | n + 1, value, stack, s =>
    if stack.isEmpty then pure (0, stack, s)
    else do
      let (op, s) ← parseOp s
      let r ← reduce op value stack
      match r with
      | .ret value stack => pure (value, stack, s)
      | .cont value stack => do
        let (v, stack, s) ← parseValue n (⟨op, value⟩ :: stack) s
        parseLoop n v stack s

end

/-- include/calculator.hpp:100-118, :434-439, src/primesum.cpp:268-272: `eval`, `to_int128`. -/
def toInt128 (expr : String) : M Int := do
  let s := expr.toList
  let (v, _, s) ← parseExpr (2 * s.length + 4) [] s
  if s.isEmpty then pure v else syntaxError

end Calc
end PS
