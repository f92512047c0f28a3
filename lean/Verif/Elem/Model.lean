import Verif.Elem.Spec

/-!
# Elementwise functions and operators

The promotion table, the functors behind the operators and the elementwise functions, and the
fusion of `A * B + C` by the operators.

Simplified: values are rational numbers; what a floating type does to a value is an arbitrary
function (`Rnd`); infinities and NaNs are left out (a floating quotient by zero has no value).  A
conversion to a whole type cuts what is behind the point and wraps.  An overflow in a signed type is
undefined behaviour, `none`.
-/

namespace Verif.Elm

/-- `Promotion` for real types (src/vsip/impl/promotion.hpp l.18-23, 43-62). -/
def promo : Ty → Ty → Ty
  | .bool, .char => .char
  | .bool, .short => .short
  | .bool, .int => .int
  | .bool, .long => .long
  | .bool, .float => .float
  | .bool, .double => .double
  | .short, .int => .int
  | .short, .long => .long
  | .short, .float => .float
  | .short, .double => .double
  | .int, .long => .long
  | .int, .float => .float
  | .int, .double => .double
  | .long, .float => .float
  | .long, .double => .double
  | .float, .double => .double
  | l, _ => l

/-- An element type: real, or complex with parts of a real type. -/
inductive ET
  | re (t : Ty)
  | cx (t : Ty)
  deriving DecidableEq, Repr

/-- `Promotion` with complex types (src/vsip/impl/promotion.hpp l.25-41). -/
def promoE : ET → ET → ET
  | .re l, .re r => .re (promo l r)
  | .cx l, .cx r => .cx (promo l r)
  | .cx l, .re r => .cx (promo l r)
  | .re l, .cx r => .cx (promo l r)

/-- `scalar_of` (src/ovxx/complex_traits.hpp l.18-22). -/
def scalarOf : ET → ET
  | .re t => .re t
  | .cx t => .re t

/-- C++'s integral promotion. -/
def widen : Ty → Ty
  | .bool | .char | .schar | .uchar | .short | .ushort => .int
  | t => t

/-- the order of the types in C++'s usual arithmetic conversions -/
def cppRank : Ty → ℕ
  | .uint => 1
  | .long => 2
  | .ulong => 3
  | .llong => 4
  | .ullong => 5
  | .float => 6
  | .double => 7
  | .ldouble => 8
  | _ => 0

/-- C++'s usual arithmetic conversions: the type a built-in operator computes in. -/
def cpp (a b : Ty) : Ty :=
  let x := widen a
  let y := widen b
  if (x = .ulong ∧ y = .llong) ∨ (x = .llong ∧ y = .ulong) then .ullong
  else if cppRank x < cppRank y then y else x

/-- A conversion to a type. -/
def conv (R : Rnd) (t : Ty) (q : ℚ) : ℚ := match kind t with
  | .truth => if q = 0 then 0 else 1
  | .sint w => (((trunc q + 2 ^ (w - 1)) % 2 ^ w - 2 ^ (w - 1) : ℤ) : ℚ)
  | .uint w => ((trunc q % 2 ^ w : ℤ) : ℚ)
  | .flo n => R.rd n q

/-- The result of a built-in operator in its type: an overflow is undefined in a signed type. -/
def fin (R : Rnd) (c : Ty) (r : ℚ) : Option ℚ := match kind c with
  | .sint w => if -(2 ^ (w - 1) : ℤ) ≤ r.num ∧ r.num < 2 ^ (w - 1) then some r else none
  | _ => some (conv R c r)

/-- a built-in operator on operands already converted -/
def raw (o : Op) (w : Bool) (a b : ℚ) : Option ℚ := match o with
  | .add => some (a + b)
  | .sub => some (a - b)
  | .mul => some (a * b)
  | .div => if b = 0 then none else if w then some (trunc (a / b)) else some (a / b)

/-- A built-in operator of C++ on values of two types. -/
def op2 (R : Rnd) (o : Op) (t1 t2 : Ty) (a b : ℚ) : Option ℚ :=
  (raw o (whole (cpp t1 t2)) (conv R (cpp t1 t2) a) (conv R (cpp t1 t2) b)).bind
    (fin R (cpp t1 t2))

/-- `Add`, `Sub`, `Mult`, `Div` (src/ovxx/expr/operations.hpp l.42-84): the built-in operator,
converted to `Promotion`. -/
def functor2 (R : Rnd) (o : Op) (t1 t2 : Ty) (a b : ℚ) : Option ℚ :=
  (op2 R o t1 t2 a b).map (conv R (promo t1 t2))

/-- The functors of `am`, `ma`, `msb`, `sbm` (src/ovxx/view/fns_elementwise.hpp l.253-265,
src/ovxx/math/scalar.hpp l.445-459): `ma` and `msb` multiply first, `am` and `sbm` last; the
intermediate value keeps the type C++ gave it. -/
def functor3 (R : Rnd) (o1 o2 : Op) (t1 t2 t3 : Ty) (a b c : ℚ) : Option ℚ :=
  (op2 R o1 t1 t2 a b).bind fun x =>
    (op2 R o2 (cpp t1 t2) t3 x c).map (conv R (promo (promo t1 t2) t3))

def maF (R : Rnd) := functor3 R .mul .add
def msbF (R : Rnd) := functor3 R .mul .sub
def amF (R : Rnd) := functor3 R .add .mul
def sbmF (R : Rnd) := functor3 R .sub .mul

/-- `expoavg` (src/ovxx/math/scalar.hpp l.99-106, fns_elementwise.hpp l.461) on one type. -/
def expoavg (R : Rnd) (t : Ty) (a b c : ℚ) : Option ℚ :=
  (op2 R .mul t t a b).bind fun x =>
    (op2 R .sub t t 1 a).bind fun d =>
      (op2 R .mul (cpp t t) t d c).bind fun y =>
        (op2 R .add (cpp t t) (cpp (cpp t t) t) x y).map (conv R (promo (promo t t) t))

/-- Blocks: a leaf (view or scalar), `Binary` and the `Ternary` of `Ma`
(src/ovxx/expr/{binary,ternary}.hpp). -/
inductive E
  | leaf (t : Ty) (v : ℚ)
  | bin (o : Op) (l r : E)
  | ma (a b c : E)

/-- `value_type` (src/ovxx/expr/binary.hpp l.62-66, ternary.hpp l.65-71). -/
def E.ty : E → Ty
  | .leaf t _ => t
  | .bin _ l r => promo l.ty r.ty
  | .ma a b c => promo (promo a.ty b.ty) c.ty

/-- `get` (src/ovxx/expr/binary.hpp l.108-112, ternary.hpp l.119-124). -/
def E.eval (R : Rnd) : E → Option ℚ
  | .leaf _ v => some v
  | .bin o l r => (l.eval R).bind fun a => (r.eval R).bind fun b => functor2 R o l.ty r.ty a b
  | .ma a b c => (a.eval R).bind fun x => (b.eval R).bind fun y => (c.eval R).bind fun z =>
      maF R a.ty b.ty c.ty x y z

/-- `operator+` (src/ovxx/view/operators.hpp l.61-148): `A * B + C`, `A + B * C` and
`A * B + C * D` become one block. -/
def mkAdd : E → E → E
  | .bin .mul a b, .bin .mul c d => .ma a b (.bin .mul c d)
  | .bin .mul a b, c => .ma a b c
  | a, .bin .mul b c => .ma b c a
  | a, b => .bin .add a b

/-- The operators (src/ovxx/view/operators.hpp l.35-59, 176-346). -/
def mk : Op → E → E → E
  | .add, l, r => mkAdd l r
  | o, l, r => .bin o l r

/-- the block the operators build for an expression -/
def build : U → E
  | .leaf t v => .leaf t v
  | .op o l r => mk o (build l) (build r)

/-- the same expression with one `Binary` for every operator, as if every intermediate result had
been stored in a view of its type -/
def plain : U → E
  | .leaf t v => .leaf t v
  | .op o l r => .bin o (plain l) (plain r)

/-- `Ite` (src/ovxx/view/fns_elementwise.hpp l.253-265, 465, src/ovxx/math/scalar.hpp l.111-113):
the type is promoted from `bool`. -/
def iteF (R : Rnd) (t : Ty) (p : Bool) (a b : ℚ) : ℚ :=
  conv R (promo (promo .bool t) t) (if p then a else b)

/-- complex numbers by parts -/
structure Cx where
  re : ℚ
  im : ℚ
  deriving DecidableEq

/-- `Jmul` (src/ovxx/math/scalar.hpp l.366-373): the product with the conjugate is stored in the
first argument.  (`std::complex<T1>::operator*=` computes both parts before it stores them; the
sums and products in between are exact here.) -/
def jmul (R : Rnd) (t1 t2 : Ty) (x y : Cx) : Cx :=
  let p : Cx :=
    { re := x.re * y.re - x.im * -y.im
      im := x.re * -y.im + x.im * y.re }
  let s : Cx :=
    { re := conv R t1 p.re
      im := conv R t1 p.im }
  { re := conv R (promo t1 t2) s.re
    im := conv R (promo t1 t2) s.im }

/-- the result types of `maxmg`, `maxmgsq`, `minmgsq` (fns_elementwise.hpp l.128-138, 447-448,
451) -/
def maxmgTy (a b : ET) : ET := scalarOf (promoE a b)

/-- the result type of `minmg` (fns_elementwise.hpp l.106-115, 450) -/
def minmgTy (a b : ET) : ET := promoE a b

/-- `lt`, `eq` (src/ovxx/math/scalar.hpp l.379-381, 433-435): compared in the common type. -/
def ltF (R : Rnd) (t1 t2 : Ty) (a b : ℚ) : Bool :=
  decide (conv R (cpp t1 t2) a < conv R (cpp t1 t2) b)

def eqF (R : Rnd) (t1 t2 : Ty) (a b : ℚ) : Bool :=
  decide (conv R (cpp t1 t2) a = conv R (cpp t1 t2) b)

/-- `ge`, `gt`, `le`, `ne` (l.327-333, 375-377, 437-439). -/
def gtF (R : Rnd) (t1 t2 : Ty) (a b : ℚ) : Bool :=
  decide (conv R (cpp t1 t2) b < conv R (cpp t1 t2) a)

def leF (R : Rnd) (t1 t2 : Ty) (a b : ℚ) : Bool :=
  decide (conv R (cpp t1 t2) a ≤ conv R (cpp t1 t2) b)

def geF (R : Rnd) (t1 t2 : Ty) (a b : ℚ) : Bool :=
  decide (conv R (cpp t1 t2) b ≤ conv R (cpp t1 t2) a)

def neF (R : Rnd) (t1 t2 : Ty) (a b : ℚ) : Bool := !eqF R t1 t2 a b

/-- `land`, `lor`, `lxor` (l.354-364). -/
def landF (a b : ℚ) : Bool := decide (a ≠ 0) && decide (b ≠ 0)

def lorF (a b : ℚ) : Bool := decide (a ≠ 0) || decide (b ≠ 0)

def lxorF (a b : ℚ) : Bool :=
  (decide (a ≠ 0) && !decide (b ≠ 0)) || (!decide (a ≠ 0) && decide (b ≠ 0))

/-- `lnot` (l.215-217, fns_elementwise.hpp l.349): the answer passes through the type of the
argument. -/
def lnotF (R : Rnd) (t : Ty) (a : ℚ) : Bool :=
  decide (conv R t (if a = 0 then 1 else 0) ≠ 0)

/-- `bnot` (l.40-42) on whole types: `~` computes in the promoted type, where `~x` is `-x - 1` (and
wraps in an unsigned one). -/
def bnotF (R : Rnd) (t : Ty) (a : ℚ) : ℚ := conv R t (conv R (widen t) (-a - 1))

end Verif.Elm
