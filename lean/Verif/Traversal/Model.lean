import Mathlib.Logic.Function.Basic
/-!
Model of index traversal: `next`, `valid` of `/repo/src/ovxx/domain_utils.hpp` l.419-479 and the loop
`for (Index<D> idx; valid(extent, idx); next<Order>(extent, idx)) body(idx)` as used in
`/repo/src/ovxx/dda/block_copy.hpp` and `/repo/src/ovxx/parallel/util.hpp`.

`Index<D>` and `Length<D>` are functions `Fin D → Nat`.  Simplification: coordinates are unbounded
naturals (the code uses `size_t`; all coordinates stay at or below the extent).
-/
namespace Verif.Trav

abbrev Idx (D : Nat) := Fin D → Nat

/-- `valid` (domain_utils.hpp l.471-479) -/
def valid {D : Nat} (ext idx : Idx D) : Bool := decide (∀ d, idx d < ext d)

/-- `next<OrderT>` for `Index<1>` (l.421-428) -/
def next1 (_ext idx : Idx 1) : Idx 1 := Function.update idx 0 (idx 0 + 1)

/-- `next<OrderT>` for `Index<2>` (l.430-442), `OrderT = tuple<o0,o1,..>` -/
def next2 (o0 o1 : Fin 2) (ext idx : Idx 2) : Idx 2 :=
  let idx := Function.update idx o1 (idx o1 + 1)
  if idx o1 = ext o1 then
    let idx := Function.update idx o0 (idx o0 + 1)
    if idx o0 ≠ ext o0 then Function.update idx o1 0 else idx
  else idx

/-- `next<OrderT>` for `Index<3>` (l.444-459), `OrderT = tuple<o0,o1,o2>` -/
def next3 (o0 o1 o2 : Fin 3) (ext idx : Idx 3) : Idx 3 :=
  let idx := Function.update idx o2 (idx o2 + 1)
  if idx o2 = ext o2 then
    let idx := Function.update idx o1 (idx o1 + 1)
    if idx o1 = ext o1 then
      let idx := Function.update idx o0 (idx o0 + 1)
      if idx o0 = ext o0 then idx
      else
        let idx := Function.update idx o1 0
        Function.update idx o2 0
    else Function.update idx o2 0
  else idx

/-- The loop `for (; valid(ext, idx); next(ext, idx))`, recording the indices handed to the body.
`none` means that the loop has not finished within `fuel` tests of the condition. -/
def loop {I : Type} (valid : I → Bool) (next : I → I) : Nat → I → Option (List I)
  | 0, _ => none
  | fuel + 1, idx =>
    if valid idx then (loop valid next fuel (next idx)).map (idx :: ·) else some []

end Verif.Trav
