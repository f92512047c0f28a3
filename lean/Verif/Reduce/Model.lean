import Verif.Expr.Model
import Mathlib.Algebra.Field.Defs
import Mathlib.Order.Defs.LinearOrder
/-!
Model of the generic evaluators of `/repo/src/ovxx/reductions/reductions.hpp` and `reductions_idx.hpp` with the functors of
`/repo/src/ovxx/reductions/functors.hpp`.  Rounding is not modelled: accumulators are elements of an abstract algebra.
-/
namespace Verif.Red
open Verif.Ex

variable {V A R : Type}

/-- a block: sizes and elements -/
structure Blk (V : Type) where
  sz : List Nat
  f : Idx → V

/-- is `i` a valid argument list of `get` for a block of size `sz` -/
def inside : Idx → List Nat → Bool
  | [], [] => true
  | i :: is, n :: ns => decide (i < n) && inside is ns
  | _, _ => false

/-- `get(i…)`; outside the block `none` -/
def Blk.get (a : Blk V) (i : Idx) : Option V := if inside i a.sz then some (a.f i) else none

/-- the interface of the value reductions of functors.hpp -/
structure Reducer (V A R : Type) where
  initial : A
  update : A → V → A
  done : A → Bool
  value : A → Nat → R

/-- `All_true<T>` (functors.hpp l.28-45) for a `w`-bit integer -/
def allTrue (w : Nat) : Reducer (BitVec w) (BitVec w) (BitVec w) := ⟨~~~0#w, fun s v => s &&& v, fun s => s == 0#w, fun s _ => s⟩
/-- `All_true<bool>` (l.47-64) -/
def allTrueBool : Reducer Bool Bool Bool := ⟨true, fun s v => s && v, fun s => s == false, fun s _ => s⟩
/-- `Any_true<T>` (l.66-83) -/
def anyTrue (w : Nat) : Reducer (BitVec w) (BitVec w) (BitVec w) := ⟨0#w, fun s v => s ||| v, fun s => s == ~~~0#w, fun s _ => s⟩
/-- `Any_true<bool>` (l.85-102) -/
def anyTrueBool : Reducer Bool Bool Bool := ⟨false, fun s v => s || v, fun s => s == true, fun s _ => s⟩
/-- `Mean_value_base` (l.104-121); `cv` converts an element to the accumulator type -/
def mean [AddMonoid A] [Div A] (ofNat : Nat → A) (cv : V → A) : Reducer V A A :=
  ⟨0, fun s v => s + cv v, fun _ => false, fun s n => s / ofNat n⟩
/-- `Mean_magsq_value_base` (l.134-151) -/
def meanMagsq [AddMonoid A] [Div A] (ofNat : Nat → A) (magsq : V → A) : Reducer V A A :=
  ⟨0, fun s v => s + magsq v, fun _ => false, fun s n => s / ofNat n⟩
/-- `Sum_value_base` (l.165-182) -/
def sum [AddMonoid A] (cv : V → A) : Reducer V A A := ⟨0, fun s v => s + cv v, fun _ => false, fun s _ => s⟩
/-- `Sum_magsq_value` (l.201-218) -/
def sumMagsq [AddMonoid A] (magsq : V → A) : Reducer V A A := ⟨0, fun s v => s + magsq v, fun _ => false, fun s _ => s⟩
/-- `Sum_value<bool>` (l.220-238) -/
def sumBool : Reducer Bool Nat Nat := ⟨0, fun s v => s + (if v then 1 else 0), fun _ => false, fun s _ => s⟩
/-- `Sum_sq_value_base` (l.240-257) -/
def sumSq [Semiring A] (cv : V → A) : Reducer V A A := ⟨0, fun s v => s + cv v * cv v, fun _ => false, fun s _ => s⟩

/-- a loop over the listed indices `{ state = update(state, a.get(i)); if (done(state)) break; }` -/
def breakLoop (r : Reducer V A R) (a : Blk V) : List Idx → A → Option A
  | [], s => some s
  | i :: is, s => do
    let s := r.update s (← a.get i)
    if r.done s then some s else breakLoop r a is s

/-- 1-D evaluator, first branch (reductions.hpp l.254-270) -/
def reduce1 (r : Reducer V A R) (a : Blk V) : Option R := do
  let n := a.sz.getD 0 0
  some (r.value (← breakLoop r a ((List.range n).map fun i => [i]) r.initial) n)

/-- `Index<D> i; i[D1] = …; i[D2] = …` as the argument list `i[0], i[1], …` -/
def place (o vals : List Nat) : Idx := (List.range o.length).map fun k => vals.getD (o.idxOf k) 0

/-- 2-D evaluator for `tuple<D1, D2>` (l.305-334): `break` only leaves the inner loop -/
def reduce2 (r : Reducer V A R) (a : Blk V) (o : List Nat) : Option R := do
  let len := fun k => a.sz.getD (o.getD k 0) 0
  let s ← (List.range (len 0)).foldlM (fun s x => breakLoop r a ((List.range (len 1)).map fun y => place o [x, y]) s) r.initial
  some (r.value s a.sz.prod)

/-- 3-D evaluator for `tuple<D1, D2, D3>` (l.336-366) -/
def reduce3 (r : Reducer V A R) (a : Blk V) (o : List Nat) : Option R := do
  let len := fun k => a.sz.getD (o.getD k 0) 0
  let s ← (List.range (len 0)).foldlM (fun s x => (List.range (len 1)).foldlM
    (fun s y => breakLoop r a ((List.range (len 2)).map fun z => place o [x, y, z]) s) s) r.initial
  some (r.value s a.sz.prod)

/-- the evaluator chosen by the dimension order `o` of the block -/
def reduce (r : Reducer V A R) (a : Blk V) (o : List Nat) : Option R :=
  match o with
  | [_] => reduce1 r a
  | [_, _] => reduce2 r a o
  | _ => reduce3 r a o

/-! ### the branch for long single-precision vectors (l.271-301) -/

/-- `OVXX_MAX_SUMMATION_LENGTH` (l.29) -/
def maxLength : Nat := 4096

/-- `partial_sum` (l.162-192): the stride of the data is not used -/
def partialSum [Semiring V] (squared : Bool) (data : Nat → V) (offset len : Nat) : V :=
  (List.range len).foldl (fun s i => if squared then s + data (offset + i) * data (offset + i) else s + data (offset + i)) 0

/-- the sum of the blocks (l.277-290): `data` is `data.ptr()` -/
def blockSum [Semiring V] (squared : Bool) (data : Nat → V) (length : Nat) : V :=
  let subblocks := if length % maxLength ≠ 0 then length / maxLength + 1 else length / maxLength
  let last := if length % maxLength ≠ 0 then length % maxLength else maxLength
  let result := (List.range (subblocks - 1)).foldl (fun s sb => s + partialSum squared data (sb * maxLength) maxLength) 0
  result + partialSum squared data ((subblocks - 1) * maxLength) last

/-- the whole branch; `extract` takes the real part where the result type is real (l.296), `average` is `is_mean_based` -/
def reduceLong [Semiring V] [Div R] (squared average : Bool) (extract : V → R) (ofNat : Nat → R) (data : Nat → V) (length : Nat) : R :=
  let r := extract (blockSum squared data length)
  if average then r / ofNat length else r

/-- 1-D evaluator on a strided vector in memory (l.249-303); `single` says that the scalar type is `float`,
`summation` is `is_summation<R>` -/
def reduceVector [Semiring V] [Div R] (summation single squared average : Bool) (r : Reducer V A R) (extract : V → R)
    (ofNat : Nat → R) (mem : Nat → V) (stride length : Nat) : Option R :=
  if !summation || !single || decide (length < maxLength) then
    reduce1 r ⟨[length], fun i => mem (stride * i.getD 0 0)⟩
  else some (reduceLong squared average extract ofNat mem length)

/-! ### extrema with their index (reductions_idx.hpp) -/

/-- `next_value` of `Max_value`, `Min_value` and their `mag`, `magsq` variants (functors.hpp l.272-422): is `new` to replace `cur` -/
def nextValue {K : Type} [LT K] [DecidableLT K] (max : Bool) (cur new : K) : Bool := if max then decide (cur < new) else decide (new < cur)

/-- `reduce_idx` evaluators (reductions_idx.hpp l.33-338): all have the same body and differ in the order of the loops,
which is that of the dimension order of the block (`Verif.Ex.Loop`) -/
def reduceIdx {K : Type} [LT K] [DecidableLT K] (max : Bool) (key : V → K) (a : Blk V) (visit : List Idx) : Option (K × Idx) := do
  let zero := a.sz.map fun _ => 0
  visit.foldlM (fun st i => do
    let v := key (← a.get i)
    some (if nextValue max st.1 v then (v, i) else st)) (key (← a.get zero), zero)

end Verif.Red
