import Verif.Map.Model
/-!
Model of the maps of the Python front end, `/repo/python/src/parallel/map.cpp`, on top of the model of `Map` (`Verif.Map.Model`).

Python's integers that the C++ functions take as `length_type`, `index_type` or `processor_type` are naturals here, except in tuples, where
negative ones are kept.  Preconditions violated in functions declared `noexcept` end the interpreter, as do divisions by zero: `bad`.
-/
namespace Verif.Pmp

/-- exceptions: `ValueError` (from `std::invalid_argument`), `OverflowError` (a number that does not fit), `TypeError` (no converter, no overload) -/
inductive Exc where
  | value | overflow | type
  deriving DecidableEq

/-- what a call does -/
inductive Out (α : Type) where
  | ret (a : α)
  | raise (e : Exc)
  | bad
  deriving DecidableEq

def Out.bind {α β : Type} : Out α → (α → Out β) → Out β
  | .ret a, f => f a
  | .raise e, _ => .raise e
  | .bad, _ => .bad

/-- the distributions of `Map<>` for the numbers given: `Block_dist`, one subblock where none is given (impl/map_fwd.hpp l.24-27, impl/dist.hpp l.90) -/
def dists (sizes : List Nat) : List Dist := (sizes ++ List.replicate (3 - sizes.length) 1).map Dist.block

/-- the constructors (map.cpp l.20-37, 102-109) with numbers of subblocks `sizes`, for the processors listed, or those of the communicator `comm`;
`Block_dist` refuses 0 subblocks (impl/dist.hpp l.93), `Map` too few processors (map.hpp l.112, 131) -/
def new (comm : List Nat) (procs : Option (List Nat)) (sizes : List Nat) : Out Map :=
  if 3 < sizes.length then .raise .type
  else if 0 ∈ sizes then .bad
  else match Map.mk? (dists sizes) (procs.getD comm) with
    | some m => .ret m
    | none => .bad

/-- an entry of the tuple given to `apply` -/
inductive Ent where
  | int (n : Int)
  | dom (d : Dom)

/-- `extract<Domain<1> >` (map.cpp l.41): an `int` becomes a domain of that length converted to `length_type` (support.cpp l.37) -/
def Ent.size : Ent → Out Nat
  | .int n => if n < -2147483648 ∨ 2147483647 < n then .raise .overflow else .ret (toIdx n)
  | .dom d => .ret d.length

/-- the entries one after the other -/
def extracts : List Ent → Out (List Nat)
  | [] => .ret []
  | e :: es => e.size.bind fun n => (extracts es).bind fun ns => .ret (n :: ns)

/-- a map object: the map and what it is applied to (`dim_`, `dom_`, `none` for `dim_ == 0`) -/
structure Obj where
  map : Map
  app : Option AMap

/-- the tuples of 1, 2 or 3 entries (`switch (len(…))`, map.cpp l.42, 58) -/
def tupled {α β : Type} (l : List α) (f : Out β) : Out β := if l.length = 1 ∨ l.length = 2 ∨ l.length = 3 then f else .raise .value

/-- `apply` (map.cpp l.39-53) -/
def apply (o : Obj) (shape : List Ent) : Out Obj :=
  tupled shape ((extracts shape).bind fun ext => match o.map.apply? ext with
    | some a => .ret ⟨o.map, some a⟩
    | none => .bad)

/-- `extract<index_type>` for each entry (map.cpp l.57) -/
def indices : List Int → Out (List Nat)
  | [] => .ret []
  | z :: zs => if z < 0 ∨ W₆₄ ≤ z.toNat then .raise .overflow else (indices zs).bind fun ns => .ret (z.toNat :: ns)

/-- all entries below the sizes, and as many of them -/
def within : List Nat → List Nat → Bool
  | [], [] => true
  | i :: is, n :: ns => decide (i < n) && within is ns
  | _, _ => false

/-- `subblock_from_global_index` (map.cpp l.55-73) -/
def subblockFrom (o : Obj) (index : List Int) : Out Nat :=
  tupled index ((indices index).bind fun idx => match o.app with
    | none => .bad
    | some a => if within idx a.ext then .ret (a.subblockFromGlobalIndex idx) else .bad)

/-- `owner`: `*map.processor_begin(sb)` (map.cpp l.92-96; map.hpp l.801-803) -/
def owner (o : Obj) (index : List Int) : Out Nat :=
  (subblockFrom o index).bind fun sb =>
    if sb < o.map.numSubblocks then match o.map.pvec[sb % o.map.numSubblocks]? with
      | some p => .ret p
      | none => .bad
    else .bad

/-- `no_subblock` (support.hpp l.143) -/
def noSubblock : Nat := W₆₄ - 1

/-- `subblock()` on processor `me` (map.hpp l.764-776) -/
def subblock (o : Obj) (me : Nat) : Nat :=
  match AMap.rankFrom o.map.pvec me 0 with
  | some r => if r < o.map.numSubblocks then r else noSubblock
  | none => noSubblock

/-- `subblock_domain` (map.cpp l.75-88; map.hpp l.902-925), giving the length of the domain.  Only `Domain<1>` can be converted to an object (support.cpp l.31). -/
def subblockDomain (o : Obj) (sb d : Nat) : Out Nat :=
  if d = 1 ∨ d = 2 ∨ d = 3 then match o.app with
    | none => .bad
    | some a =>
      if (sb < o.map.numSubblocks ∨ sb = noSubblock) ∧ a.dims.length = d then
        if d = 1 then .ret (if sb = noSubblock then 0 else (a.subblockExtent sb).headD 0) else .raise .type
      else .bad
  else .raise .value

/-- `local_from_global_index(d, idx)` (map.cpp l.118; map.hpp l.544-560): the index is not compared with the size -/
def localFrom (o : Obj) (d idx : Nat) : Out Nat :=
  match o.app with
  | none => .bad
  | some a => match a.dims[d]? with
    | none => .bad
    | some x => match x.1.localFromGlobal? x.2 idx with
      | some i => .ret i
      | none => .bad

end Verif.Pmp
