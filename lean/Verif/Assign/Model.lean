import Mathlib.Logic.Function.Basic
/-!
Model of the copying assignments of vectors and matrices, `/repo/src/ovxx/assign/copy.hpp`.

Memory is a function from addresses (in units of elements) to values.  `memcpy` is modelled as copying element by element; the theorems
only use it for disjoint ranges.  For split complex data each function is called once for each of the two arrays.
-/
namespace Verif.Asg

abbrev Mem (V : Type) := Int → V
variable {V : Type}

/-- `while (n--) { *l = *r; l += ls; r += rs; }` (copy.hpp l.258-263; l.119-123) -/
def scopy (m : Mem V) (l ls r rs : Int) : Nat → Mem V
  | 0 => m
  | n + 1 => scopy (Function.update m l (m r)) (l + ls) ls (r + rs) rs n

/-- `memcpy(l, r, n * sizeof(T))` -/
def memcpy (m : Mem V) (l r : Int) (n : Nat) : Mem V := scopy m l 1 r 1 n

/-- a loop over rows which advances both pointers by the row strides -/
def rowLoop (row : Mem V → Int → Int → Mem V) (m : Mem V) (l ls r rs : Int) : Nat → Mem V
  | 0 => m
  | n + 1 => rowLoop row (row m l r) (l + ls) ls (r + rs) rs n

/-- `copy(lhs, lhs_row_stride, lhs_col_stride, rhs, …, rows, cols)` (copy.hpp l.92-126) -/
def copy (m : Mem V) (l lrs lcs r rrs rcs : Int) (rows cols : Nat) : Mem V :=
  if lcs = 1 ∧ rcs = 1 then
    if lrs = cols ∧ rrs = cols then memcpy m l r (rows * cols)
    else rowLoop (fun m l r => memcpy m l r cols) m l lrs r rrs rows
  else rowLoop (fun m l r => scopy m l lcs r rcs cols) m l lrs r rrs rows

/-- `std::swap(data[a], data[b])` -/
def swap (m : Mem V) (a b : Int) : Mem V := Function.update (Function.update m a (m b)) b (m a)

/-- in-place transposition (copy.hpp l.23-36): `for i < rows, for j = i … cols-1` -/
def transposeInPlace (m : Mem V) (p rs cs : Int) (rows cols : Nat) : Mem V :=
  (List.range rows).foldl (fun m i => ((List.range (cols - i)).map (i + ·)).foldl
    (fun (m : Mem V) (j : Nat) => swap m (p + (cs * i + rs * j)) (p + (cs * j + rs * i))) m) m

/-- out-of-place transposition (copy.hpp l.51-60) -/
def transpose (m : Mem V) (l lcs r rrs : Int) (rows cols : Nat) : Mem V :=
  (List.range rows).foldl (fun (m : Mem V) (i : Nat) => (List.range cols).foldl
    (fun (m : Mem V) (c : Nat) => Function.update m (l + (i + c * lcs)) (m (r + (i * rrs + c)))) m) m

/-- what direct access to a matrix gives -/
structure Mat where
  ptr : Int
  s0 : Int
  s1 : Int

/-- assignment of matrices (copy.hpp l.145-231, 284-311); `lrow`, `rrow`: the block's order is row-major.  `none` means that a precondition fails. -/
def assign2 (lrow rrow : Bool) (L R : Mat) (n0 n1 : Nat) (m : Mem V) : Option (Mem V) :=
  match lrow, rrow with
  | true, true => some (copy m L.ptr L.s0 L.s1 R.ptr R.s0 R.s1 n0 n1)
  | false, false => some (copy m L.ptr L.s1 L.s0 R.ptr R.s1 R.s0 n1 n0)
  | false, true =>
    if L.ptr = R.ptr then if n0 = n1 then some (transposeInPlace m L.ptr L.s0 L.s1 n0 n1) else none
    else if L.s0 = 1 ∧ R.s1 = 1 then some (transpose m L.ptr L.s1 R.ptr R.s0 n0 n1)
    else some (copy m L.ptr L.s0 L.s1 R.ptr R.s0 R.s1 n0 n1)
  | true, false =>
    if L.ptr = R.ptr then if n0 = n1 then some (transposeInPlace m L.ptr L.s0 L.s1 n0 n1) else none
    else if L.s1 = 1 ∧ R.s0 = 1 then some (transpose m L.ptr L.s0 R.ptr R.s1 n1 n0)
    else some (copy m L.ptr L.s0 L.s1 R.ptr R.s0 R.s1 n1 n0)

/-- assignment of vectors (copy.hpp l.236-267); `same`: both have the same value type -/
def assign1 (same : Bool) (l ls r rs : Int) (n : Nat) (m : Mem V) : Mem V :=
  if same = true ∧ ls = 1 ∧ rs = 1 then memcpy m l r n else scopy m l ls r rs n

end Verif.Asg
