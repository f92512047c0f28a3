import Verif.Matvec.Model
/-!
Model of the variants of the matrix product in `/repo/benchmarks/prod_var.cpp` (variant 1 calls the library's product and is left out) and of the
numbers its benchmark reports.  Rounding is not modelled.  Reading or writing outside of a view, and asking for a row or column that is not there
(vsip/matrix.hpp l.112-117, 266-273), give `none`.
-/
namespace Verif.Pvar
open Verif.Sig Verif.Mv

variable {T : Type}

/-- `A.row(i)` (vsip/matrix.hpp l.112-117) -/
def row (A : Mat T) (i : Nat) : Option (Vec T) := if i < A.rows then some ⟨A.cols, fun k => A.f i k⟩ else none

/-- `A.col(j)` (vsip/matrix.hpp l.106-111) -/
def col (A : Mat T) (j : Nat) : Option (Vec T) := if j < A.cols then some ⟨A.rows, fun k => A.f k j⟩ else none

/-- `C = T()` -/
def zeroed [Zero T] (C : Mat T) : Mat T := ⟨C.rows, C.cols, fun _ _ => 0⟩

/-- `C = R`, or `C += R` if `add` is set, one element after the other; `none` for different sizes -/
def store [Add T] (add : Bool) (C R : Mat T) : Option (Mat T) :=
  if C.rows = R.rows ∧ C.cols = R.cols then
    loop R.rows C fun C i => loop R.cols C fun C j => do
      let r ← R.get i j
      let c ← C.get i j
      C.put i j (if add then c + r else r)
  else none

/-- `C.col(j) = a * b + C.col(j)`, one element after the other; `none` for different sizes -/
def axpy [Add T] [Mul T] (C : Mat T) (j : Nat) (a : Vec T) (b : T) : Option (Mat T) := do
  let c ← col C j
  if a.n = c.n then loop c.n C fun C i => do C.put i j ((← a.get i) * b + (← C.get i j)) else none

/-- variant 2 (l.49-66); `outer<T>` takes `alpha` of type `T`, complex for complex matrices -/
def outerSum [Semiring T] (conj : T → T) (cx : Bool) (A B C : Mat T) : Option (Mat T) := do
  let p := (← row A 0).n
  let C ← store false C (← outer conj cx 1 (← col A 0) (← row B 0))
  loop (p - 1) C fun C k => do store true C (← outer conj cx 1 (← col A (k + 1)) (← row B (k + 1)))

/-- the loops of variants 3 to 5 -/
def saxpyLoops [Add T] [Mul T] (A B C : Mat T) (n p : Nat) : Option (Mat T) :=
  loop n C fun C j => loop p C fun C k => do axpy C j (← col A k) (← B.get k j)

/-- variants 3 and 5 (l.68-88, 113-137): the sizes are those of the first rows -/
def saxpyRows [Semiring T] (A B C : Mat T) : Option (Mat T) := do
  let C := zeroed C
  let n := (← row B 0).n
  let p := (← row A 0).n
  saxpyLoops A B C n p

/-- variant 4 (l.90-111) -/
def saxpySizes [Semiring T] (A B C : Mat T) : Option (Mat T) := saxpyLoops A B (zeroed C) B.cols A.cols

/-- variant 6 (l.139-163) -/
def ijk [Semiring T] (A B C : Mat T) : Option (Mat T) :=
  loop A.rows (zeroed C) fun C i => loop B.cols C fun C j => loop A.cols C fun C k => do
    C.put i j ((← A.get i k) * (← B.get k j) + (← C.get i j))

/-- variants 7 to 9 (l.165-241), which get the elements from the matrices, or from their rows and columns -/
def ijkTmp [Semiring T] (A B C : Mat T) : Option (Mat T) :=
  loop A.rows (zeroed C) fun C i => loop B.cols C fun C j => do
    let tmp ← loop A.cols (0 : T) fun tmp k => do some (tmp + (← A.get i k) * (← B.get k j))
    C.put i j tmp

/-- variant 10 (l.243-261) -/
def dots [Semiring T] (A B C : Mat T) : Option (Mat T) :=
  loop A.rows C fun C i => do
    let a ← row A i
    loop B.cols C fun C j => do C.put i j (← dot a (← col B j))

/-- what is reported for matrices of size `M` with elements of `s` bytes (l.282-284; benchmarks/loop.hpp l.191-202, 368: `M` times the number of a point):
bytes read, written, and of memory, as long as they fit into `int` -/
def reported (M s : Nat) : Nat × Nat × Nat := (M * (2 * s), M * 0, M * (3 * M * M * s))

/-- the matrices `A`, `B` and `Z` (l.293-295): bytes read, written, and of memory -/
def actual (M s : Nat) : Nat × Nat × Nat := (2 * (M * M * s), M * M * s, 3 * (M * M * s))

end Verif.Pvar
