import Verif.Util.Spec
import Mathlib.Logic.Function.Basic

/-!
# Model of the utilities

Comparison of values and views (`ovxx/equal.hpp`), bitwise compound assignment of views (`vsip/impl/vector.hpp`, `vsip/matrix.hpp`), conversion to
polar coordinates (`vsip/complex.hpp`), iterators over processors (`ovxx/value_iterator.hpp`), counts of operations (`ovxx/ops_count.hpp`), the clock
(`ovxx/chrono.hpp`) and printing (`ovxx/output.hpp`).

Simplifications: elements of a field stand for floating point numbers and a quotient by zero compares as false; a view is the list of the addresses of
its elements; texts are lists of characters.
-/

namespace Verif.Utl

section equal

variable {F : Type} [Field F] [LinearOrder F]

/-- The relative error of `ovxx/equal.hpp` l.30-35; a quotient by zero has no value, as it is never at most `rel_eps`. -/
def relErr (a b : F) : Option F :=
  if |a| > |b| then (if b = 0 then none else some |(a - b) / b|) else (if a = 0 then none else some |(b - a) / a|)

/-- `almost_equal`, `ovxx/equal.hpp` l.24-38. -/
def almostEqual (re ae a b : F) : Bool :=
  if |a - b| < ae then true else match relErr a b with
    | none => false
    | some e => decide (e ≤ re)

/-- `equal` on complex numbers, `ovxx/equal.hpp` l.56-58. -/
def equalC (re ae : F) (a b : F × F) : Bool := almostEqual re ae a.1 b.1 && almostEqual re ae a.2 b.2

end equal

/-- A loop from `i` over `k` indices that returns false at the first one for which `p` fails. -/
def scan (p : ℕ → Bool) : ℕ → ℕ → Bool
  | _, 0 => true
  | i, k + 1 => if !p i then false else scan p (i + 1) k

/-- `equal` on vectors, `ovxx/equal.hpp` l.84-92; a vector is a size and the value of `get`. -/
def equalV {α : Type} (eq : α → α → Bool) (v w : ℕ × (ℕ → α)) : Bool :=
  if v.1 ≠ w.1 then false else scan (fun i => eq (v.2 i) (w.2 i)) 0 v.1

/-- `equal` on matrices, `ovxx/equal.hpp` l.94-103. -/
def equalM {α : Type} (eq : α → α → Bool) (v w : (ℕ × ℕ) × (ℕ → ℕ → α)) : Bool :=
  if v.1.1 ≠ w.1.1 ∨ v.1.2 ≠ w.1.2 then false else scan (fun i => scan (fun j => eq (v.2 i j) (w.2 i j)) 0 v.1.2) 0 v.1.1

/-- `equal` on tensors, `ovxx/equal.hpp` l.105-116. -/
def equalT {α : Type} (eq : α → α → Bool) (v w : (ℕ × ℕ × ℕ) × (ℕ → ℕ → ℕ → α)) : Bool :=
  if v.1.1 ≠ w.1.1 ∨ v.1.2.1 ≠ w.1.2.1 ∨ v.1.2.2 ≠ w.1.2.2 then false
  else scan (fun i => scan (fun j => scan (fun k => eq (v.2 i j k) (w.2 i j k)) 0 v.1.2.2) 0 v.1.2.1) 0 v.1.1

section bits

variable {α : Type}

/-- `v op= w` for `&`, `|` and `^`, `vsip/impl/vector.hpp` l.110-113: a loop over the elements, each read and written in turn. -/
def bitV (op : α → α → α) (n : ℕ) (f g : ℕ → ℕ) (m : ℕ → α) : ℕ → α :=
  (List.range n).foldl (fun m i => Function.update m (f i) (op (m (f i)) (m (g i)))) m

/-- `m op= w` for `&`, `|` and `^`, `vsip/matrix.hpp` l.312-316. -/
def bitM (op : α → α → α) (R C : ℕ) (f g : ℕ → ℕ → ℕ) (m : ℕ → α) : ℕ → α :=
  (List.range R).foldl (fun m r => (List.range C).foldl (fun m c => Function.update m (f r c) (op (m (f r c)) (m (g r c)))) m) m

/-- `v op= val` for `&`, `|` and `^`, `vsip/impl/vector.hpp` l.103-105, 128: `val` is a reference, here to the element at `a`. -/
def bitS (op : α → α → α) (n : ℕ) (f : ℕ → ℕ) (a : ℕ) (m : ℕ → α) : ℕ → α :=
  (List.range n).foldl (fun m i => Function.update m (f i) (op (m (f i)) (m a))) m

/-- `recttopolar` on views, `vsip/complex.hpp` l.43-57: the parts of `z(i)` are at `x i` and `y i`, the results go to `p i` and `q i`. -/
def rectToPolar (abs arg : α → α → α) (n : ℕ) (x y p q : ℕ → ℕ) (m : ℕ → α) : ℕ → α :=
  (List.range n).foldl (fun m i =>
    let re := m (x i)
    let im := m (y i)
    Function.update (Function.update m (p i) (abs re im)) (q i) (arg re im)) m

end bits

/-- A `value_iterator` over `unsigned int`, `ovxx/value_iterator.hpp` l.16-31, 77-79. -/
structure It where
  cur : ℕ
  delta : ℕ
  deriving DecidableEq, Repr

/-- Unsigned arithmetic on 32 bits. -/
def u32 (z : ℤ) : ℕ := (z % 2 ^ 32).toNat

/-- The conversion of 32 unsigned bits to `int`. -/
def i32 (n : ℕ) : ℤ := if n < 2 ^ 31 then n else (n : ℤ) - 2 ^ 32

namespace It

/-- `operator++()`, l.40. -/
def inc (s : It) : It := { s with cur := u32 (s.cur + s.delta) }

/-- `operator--()`, l.41. -/
def dec (s : It) : It := { s with cur := u32 (s.cur - s.delta) }

/-- `operator+=` and `operator+`, l.42, 62-67. -/
def plus (s : It) (dx : ℤ) : It := { s with cur := u32 (s.cur + u32 (dx * s.delta)) }

/-- `operator-=` and `operator-(int)`, l.43, 68-73. -/
def minus (s : It) (dx : ℤ) : It := { s with cur := u32 (s.cur - u32 (dx * s.delta)) }

/-- `operator++(int)`, l.45-46: the reference returned is to a local object, so reading it has no defined value.  The first component is the
iterator left behind, the second what is returned. -/
def postInc (s : It) : It × Option It := (s.inc, none)

/-- `operator-(value_iterator)`, l.59-60; dividing by zero is undefined. -/
def dist (s t : It) : Option ℤ := if s.delta = 0 then none else some (i32 (u32 ((s.cur : ℤ) - t.cur) / s.delta))

/-- `operator<`, l.56-57. -/
def lt (s t : It) : Bool := decide (s.cur < t.cur)

/-- What `for (it = begin; it != end; ++it) visit(*it)` visits within `fuel` steps (none if the end is not reached). -/
def visit : ℕ → It → It → Option (List ℕ)
  | 0, s, e => if s = e then some [] else none
  | k + 1, s, e => if s = e then some [] else (visit k s.inc e).map (s.cur :: ·)

/-- What `while (it != end) visit(*it++)` visits within `fuel` steps. -/
def visitPost : ℕ → It → It → Option (List ℕ)
  | 0, s, e => if s = e then some [] else none
  | k + 1, s, e => if s = e then some [] else s.postInc.2.bind fun t => (visitPost k s.postInc.1 e).map (t.cur :: ·)

end It

/-- `ops_count::traits`, `ovxx/ops_count.hpp` l.23-41: what a product and an addition cost. -/
def traitMul (cplx : Bool) : ℕ := if cplx then 4 + 2 else 1

@[inherit_doc traitMul]
def traitAdd (cplx : Bool) : ℕ := if cplx then 2 else 1

/-- `ops_count::matvec::dot`, `ovxx/ops_count.hpp` l.137-147 (sizes small enough not to wrap). -/
def opsDot (cplx : Bool) (n : ℕ) : ℕ := n * traitMul cplx + (if n > 1 then (n - 1) * traitAdd cplx else 0)

/-- `mat_op_type`, `vsip/support.hpp`. -/
inductive MatOp
  | ntrans | trans | herm | conj
  deriving DecidableEq

/-- Whether `mat_herm` or `mat_conj` is asked for, `ovxx/ops_count.hpp` l.238, 240. -/
def MatOp.conjugates : MatOp → Bool
  | herm => true
  | conj => true
  | _ => false

/-- `ops_count::matvec::gemp`, `ovxx/ops_count.hpp` l.226-246; the sizes are those of the matrices as stored. -/
def opsGemp (cplx : Bool) (a b : ℕ × ℕ) (opa opb : MatOp) : ℕ :=
  let r := a.1 * b.2
  let m := opsDot cplx a.2 * r
  let m := if opa.conjugates then m + a.1 * a.2 else m
  let m := if opb.conjugates then m + b.1 * b.2 else m
  r * (2 * traitMul cplx + traitAdd cplx) + m

/-- `ops_count::cumsum` in one dimension, `ovxx/ops_count.hpp` l.266-280. -/
def opsCumsum (cplx : Bool) (n : ℕ) : ℕ := (if n > 1 then (n - 1) * n / 2 else 0) * traitAdd cplx

/-- `ops_count::signal::fir`, `ovxx/ops_count.hpp` l.80-89. -/
def opsFir (cplx : Bool) (order size dec : ℕ) : ℕ := (traitMul cplx + traitAdd cplx) * ((order + 1) * size / dec)

/-- `duration()`, `duration::zero()` and `time_point()`, `ovxx/chrono.hpp` l.34, 44, 58: the member is not initialised. -/
def timeZero : Option ℤ := none

/-- `duration::operator+=` again and again, `ovxx/chrono.hpp` l.39-40. -/
def total (start : Option ℤ) (l : List ℤ) : Option ℤ := l.foldl (fun t d => t.map (· + d)) start

/-- The value of `now()` with POSIX clocks, `ovxx/chrono.hpp` l.95-97; signed overflow is undefined. -/
def nowPosix (sec nsec : ℤ) : Option ℤ :=
  if -2 ^ 63 ≤ sec * 1000000000 ∧ sec * 1000000000 + nsec < 2 ^ 63 then some (sec * 1000000000 + nsec) else none

/-- The conversion of an integer to `float`: 24 significant bits (rounded down; a tie or the direction does not matter below). -/
def toFloat (n : ℕ) : ℕ := n / 2 ^ (Nat.log2 n - 23) * 2 ^ (Nat.log2 n - 23)

/-- The value of `now()` read from the time stamp counter with one tick a nanosecond, `ovxx/chrono.hpp` l.102-105. -/
def nowTsc (d a : ℕ) : ℕ := toFloat (d * 2 ^ 32 + a)

/-- `operator-` on instants, `ovxx/chrono.hpp` l.73-80. -/
def elapsed (a b : ℤ) : ℤ := a - b

/-- A row of a matrix as printed, `ovxx/output.hpp` l.93-96; `row` is the texts of the elements. -/
def printRow (r : List Char) (row : List (List Char)) : List Char := r ++ [':', ' '] ++ row.flatMap (fun w => [' ', ' '] ++ w) ++ ['\n']

/-- A row of a tensor as printed, `ovxx/output.hpp` l.111-114. -/
def printRowT (r : List Char) (row : List (List Char)) : List Char := r ++ [':', ' '] ++ row.flatten ++ ['\n']

/-- A vector as printed, `ovxx/output.hpp` l.76-84; `idx i` is the text of the index `i`. -/
def printVec (idx : ℕ → List Char) (v : List (List Char)) : List Char :=
  (List.range v.length).flatMap fun i => idx i ++ [':', ' '] ++ v.getD i [] ++ ['\n']

end Verif.Utl
