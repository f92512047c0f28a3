import Mathlib.Data.Rat.Defs
import Mathlib.Data.Fintype.Basic
import Mathlib.Data.Int.Notation
import Mathlib.Data.Nat.Notation
import Mathlib.Algebra.Order.Ring.Rat

/-!
# What elementwise expressions ought to be

The element types of C++ (on a machine where `char` has 8 bits and a sign, `short` 16, `int` 32,
`long` and `long long` 64), which values each holds, the widest of two types, and the value of an
expression of sums, differences, products and quotients.  Nothing here looks at the library.
-/

namespace Verif.Elm

/-- the arithmetic types -/
inductive Ty
  | bool | char | schar | uchar | short | ushort | int | uint | long | ulong | llong | ullong
  | float | double | ldouble
  deriving DecidableEq, Repr

instance : Fintype Ty where
  elems := {.bool, .char, .schar, .uchar, .short, .ushort, .int, .uint, .long, .ulong, .llong,
    .ullong, .float, .double, .ldouble}
  complete := by intro x; cases x <;> decide

/-- what kind of type it is -/
inductive Kind
  | truth
  | sint (w : ℕ)
  | uint (w : ℕ)
  | flo (n : ℕ)
  deriving DecidableEq

def kind : Ty → Kind
  | .bool => .truth
  | .char => .sint 8
  | .schar => .sint 8
  | .uchar => .uint 8
  | .short => .sint 16
  | .ushort => .uint 16
  | .int => .sint 32
  | .uint => .uint 32
  | .long => .sint 64
  | .ulong => .uint 64
  | .llong => .sint 64
  | .ullong => .uint 64
  | .float => .flo 0
  | .double => .flo 1
  | .ldouble => .flo 2

/-- is the type one of whole numbers? -/
def whole (t : Ty) : Bool := match kind t with
  | .flo _ => false
  | _ => true

/-- How the floating types round: any three functions. -/
structure Rnd where
  rd : ℕ → ℚ → ℚ

/-- The value is one the type holds. -/
def Rep (R : Rnd) (t : Ty) (q : ℚ) : Prop := match kind t with
  | .truth => q = 0 ∨ q = 1
  | .sint w => q.den = 1 ∧ -(2 ^ (w - 1) : ℤ) ≤ q.num ∧ q.num < 2 ^ (w - 1)
  | .uint w => q.den = 1 ∧ 0 ≤ q.num ∧ q.num < 2 ^ w
  | .flo n => R.rd n q = q

/-- The types the standard's table of promotions orders. -/
def Std (t : Ty) : Bool := match t with
  | .bool | .short | .int | .long | .float | .double => true
  | _ => false

def rank : Ty → ℕ
  | .bool => 0
  | .short => 1
  | .int => 2
  | .long => 3
  | .float => 4
  | .double => 5
  | _ => 6

/-- the wider of two types -/
def join (a b : Ty) : Ty := if rank a < rank b then b else a

inductive Op
  | add | sub | mul | div
  deriving DecidableEq, Repr

/-- the part of a number before the point -/
def trunc (q : ℚ) : ℤ := q.num.tdiv q.den

/-- the value of an operation: a quotient of whole numbers loses what is behind the point, a
quotient by nothing has no value -/
def exactOp (o : Op) (w : Bool) (a b : ℚ) : Option ℚ := match o with
  | .add => some (a + b)
  | .sub => some (a - b)
  | .mul => some (a * b)
  | .div => if b = 0 then none else if w then some (trunc (a / b)) else some (a / b)

/-- What the program writes: an expression over elements of views and scalars. -/
inductive U
  | leaf (t : Ty) (v : ℚ)
  | op (o : Op) (l r : U)

/-- its type -/
def U.ty : U → Ty
  | .leaf t _ => t
  | .op _ l r => join l.ty r.ty

/-- its value -/
def U.exact : U → Option ℚ
  | .leaf _ v => some v
  | .op o l r => l.exact.bind fun a => r.exact.bind fun b =>
      exactOp o (whole (join l.ty r.ty)) a b

/-- Every operand and every intermediate value is one its type holds. -/
def U.Fits (R : Rnd) : U → Prop
  | .leaf t v => Std t = true ∧ Rep R t v
  | .op o l r => l.Fits R ∧ r.Fits R ∧ ∃ a b x, l.exact = some a ∧ r.exact = some b ∧
      exactOp o (whole (join l.ty r.ty)) a b = some x ∧
      Rep R (join l.ty r.ty) a ∧ Rep R (join l.ty r.ty) b ∧ Rep R (join l.ty r.ty) x

/-- All operands have one type. -/
def U.All (t : Ty) : U → Prop
  | .leaf s _ => s = t
  | .op _ l r => l.All t ∧ r.All t

end Verif.Elm
