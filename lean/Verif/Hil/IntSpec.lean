import Verif.Hil.Spec
set_option autoImplicit false
set_option linter.unusedVariables false

/-!
# Specification of integer expressions

A tree of integers and operators with its 32-bit value, independent of the interpreter's value type.
-/

namespace Hexed.Hil

/-- Integer expression trees. -/
inductive IExpr
  | lit (n : Nat)
  | neg (a : IExpr)
  | not (a : IExpr)
  | bin (op : BinOp) (a b : IExpr)

/-- A result that must fit in 32 bits; `none` is undefined behaviour in C++. -/
def fits (i : Int) : Option Int := if -2147483648 ≤ i ∧ i ≤ 2147483647 then some i else none

/-- `base` raised to a power by repeated multiplication, every intermediate result in range. -/
def ipow (base : Int) : Nat → Option Int
  | 0 => some 1
  | n + 1 => (ipow base n).bind fun r => fits (r * base)

/-- 1 divided `n` times by `base`, rounding towards zero. -/
def irecip (base : Int) : Nat → Option Int
  | 0 => some 1
  | n + 1 => (irecip base n).bind fun r => if base = 0 then none else fits (r.tdiv base)

/-- The operators on integers, as the manual describes them (`true` is 1, `false` is 0). -/
def iop (op : BinOp) (a b : Int) : Option Int :=
  match op with
  | .add => fits (a + b)
  | .sub => fits (a - b)
  | .mul => fits (a * b)
  | .div => if b = 0 then none else fits (a.tdiv b)
  | .mod => if b = 0 ∨ (a = -2147483648 ∧ b = -1) then none else some (a.tmod b)
  | .pow => if 0 ≤ b then ipow a b.toNat else irecip a (-b).toNat
  | .eq => some (if a = b then 1 else 0)
  | .ne => some (if a = b then 0 else 1)
  | .lt => some (if a < b then 1 else 0)
  | .le => some (if a ≤ b then 1 else 0)
  | .gt => some (if a > b then 1 else 0)
  | .ge => some (if a ≥ b then 1 else 0)
  | .and => some (if a ≠ 0 ∧ b ≠ 0 then 1 else 0)
  | .or => some (if a ≠ 0 ∨ b ≠ 0 then 1 else 0)
  | .idx => none

/-- Value of a tree. -/
def IExpr.value : IExpr → Option Int
  | .lit n => some n
  | .neg a => a.value.bind fun x => fits (-x)
  | .not a => a.value.map fun x => if x = 0 then 1 else 0
  | .bin op a b => a.value.bind fun x => b.value.bind fun y => iop op x y

/-- Trees the language can express: literals fit in an `int`, and `#` is not an integer operator. -/
def IExpr.Ok : IExpr → Prop
  | .lit n => n ≤ 2147483647
  | .neg a => a.Ok
  | .not a => a.Ok
  | .bin op a b => op ≠ .idx ∧ a.Ok ∧ b.Ok

/-- Decimal digits of a number. -/
def decimal (n : Nat) : List Char :=
  if n < 10 then [Char.ofNat (48 + n)] else decimal (n / 10) ++ [Char.ofNat (48 + n % 10)]
termination_by n

/-- The tree a piece of source denotes: parentheses only group. -/
def Expr.tree : Expr → Option IExpr
  | .num s => if s.all Char.isDigit then some (.lit (decVal s)) else none
  | .paren e => e.tree
  | .un op e => if op = "-" then e.tree.map .neg else if op = "!" then e.tree.map .not else none
  | .bin op a b => a.tree.bind fun x => b.tree.bind fun y => some (.bin op x y)
  | _ => none

/-- Precedence of a tree's root. -/
def IExpr.level : IExpr → Nat
  | .bin op _ _ => docPrec op
  | _ => 0

/-- Text of a tree with only the parentheses the precedence table requires. -/
def IExpr.text : IExpr → List Char
  | .lit n => decimal n
  | .neg a => '-' :: (if a.level = 0 then a.text else '(' :: (a.text ++ [')']))
  | .not a => '!' :: (if a.level = 0 then a.text else '(' :: (a.text ++ [')']))
  | .bin op a b =>
    (if a.level ≤ docPrec op then a.text else '(' :: (a.text ++ [')'])) ++
      (symbol op ++ (if b.level < docPrec op then b.text else '(' :: (b.text ++ [')'])))

end Hexed.Hil
