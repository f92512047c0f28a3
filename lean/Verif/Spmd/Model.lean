import Verif.Spmd.Net
import Verif.Distributed.BlkProps
/-!
Model of statements on distributed arrays: `/repo/src/ovxx/assign.hpp`, `/repo/src/ovxx/parallel/assign.hpp`,
`/repo/src/ovxx/parallel/assign_fwd.hpp`, `/repo/src/ovxx/parallel/expr.hpp`, `/repo/src/ovxx/parallel/map_subset_block.hpp`,
`/repo/src/ovxx/expr/transform.hpp`, built on the model of distributed assignment (`Verif.Distributed`).

Simplifications: element-wise operators of one to three arguments; elements occupy one unit of the messages (not interleaved complex); different arrays do not share
storage; a temporary array is represented by a name of its own in each statement (its contents are lost at the end of the statement).
-/
namespace Verif.Spmd
open Verif Verif.Spec Verif.Par

/-- The map of a distributed array: a `Map` applied to the array's domain, with its dimensions beyond those of the array (`rest`), or a `Replicated_map`. -/
inductive DMap where
  | map (m : AMap) (rest : List Dist)
  | repl (m : RMap)
deriving DecidableEq

namespace DMap

def pmap : DMap → PMap
  | map m _ => PMap.ofMap m
  | repl m => PMap.ofReplicated m

def ext : DMap → List Nat
  | map m _ => m.ext
  | repl m => m.ext

/-- the `Map` object, all its dimensions -/
def whole (m : AMap) (rest : List Dist) : Map := ⟨m.dims.map Prod.fst ++ rest, m.pvec⟩

/-- `map_equal<D, M1, M2>::value` (map.hpp l.1177-1183, replicated_map.hpp l.246-258, map_traits.hpp l.40-44): maps of different types are never equal.
The comparison of addresses in map.hpp l.1182 is left out: it holds of one object only, which equals itself. -/
def same : DMap → DMap → Bool
  | map a ra, map b rb =>
    ((whole a ra).dist.map Dist.kind == (whole b rb).dist.map Dist.kind) && Map.equiv a.dims.length (whole a ra) (whole b rb)
  | repl a, repl b => (a.pset.length == b.pset.length) && ((List.range a.pset.length).all fun i => a.pset[i]? == b.pset[i]?)
  | _, _ => false

/-- `is_block_dist<0, M>::value` for an array of one dimension (map.hpp l.1199-1208; map_traits.hpp l.36-38 for other maps) -/
def isBlock : DMap → Bool
  | map m _ => match m.dims with
    | [(.block _, _)] => true
    | [(.whole, _)] => true
    | _ => false
  | repl _ => false

/-- whether the map is a `Map<Block_dist, Block_dist, Block_dist>` (expr.hpp l.175-179) -/
def allBlock : DMap → Bool
  | map m rest => (whole m rest).dist.all fun d => d.kind == .block
  | repl _ => false

end DMap

/-- a distributed array: map, strides of the local block of each process, dimension order -/
structure Arr where
  dmap : DMap
  str : Nat → List Int
  order : List Nat

def Arr.side (a : Arr) : Side := ⟨a.dmap.pmap, a.str⟩

/-- Right-hand sides: distributed arrays, scalars (`expr::Scalar`), functions of the index (`expr::Generator`, e.g. `ramp`), element-wise operators. -/
inductive Ex (A V : Type) where
  | arr (a : A)
  | scal (v : V)
  | gen (f : List Nat → V)
  | un (f : V → V) (x : Ex A V)
  | bin (f : V → V → V) (x y : Ex A V)
  | tern (f : V → V → V → V) (x y z : Ex A V)

variable {A V : Type} [DecidableEq A]

namespace Ex

/-- the array operands, in the order in which `transform::apply` visits them (transform.hpp l.128-138 and the corresponding functions) -/
def leaves : Ex A V → List A
  | arr a => [a]
  | scal _ => []
  | gen _ => []
  | un _ x => x.leaves
  | bin _ x y => x.leaves ++ y.leaves
  | tern _ x y z => x.leaves ++ (y.leaves ++ z.leaves)

/-- whether an index function occurs -/
def hasGen : Ex A V → Bool
  | arr _ => false
  | scal _ => false
  | gen _ => true
  | un _ x => x.hasGen
  | bin _ x y => x.hasGen || y.hasGen
  | tern _ x y z => x.hasGen || y.hasGen || z.hasGen

/-- `has_same_map<D>(map, block)` (map_traits.hpp l.53-61, unary.hpp l.224-230, binary.hpp l.320-331, ternary.hpp l.326-338; `scalar_map.hpp`: a scalar
has every map; generators have a `local_or_global_map`, which equals no other) -/
def sameMap (Γ : A → Arr) (m : DMap) : Ex A V → Bool
  | arr a => m.same (Γ a).dmap
  | scal _ => true
  | gen _ => false
  | un _ x => x.sameMap Γ m
  | bin _ x y => x.sameMap Γ m && y.sameMap Γ m
  | tern _ x y z => x.sameMap Γ m && y.sameMap Γ m && z.sameMap Γ m

/-- The expression of `Expr_block`s (expr.hpp l.36-36, 233-261): the `n`-th array operand is replaced by temporary number `n`. -/
def remap : Ex A V → Nat → Ex (A ⊕ Nat) V
  | arr _, n => arr (.inr n)
  | scal v, _ => scal v
  | gen f, _ => gen f
  | un f x, n => un f (x.remap n)
  | bin f x y, n => bin f (x.remap n) (y.remap (n + x.leaves.length))
  | tern f x y z, n => tern f (x.remap n) (y.remap (n + x.leaves.length)) (z.remap (n + x.leaves.length + y.leaves.length))

/-- the expression of local blocks (`get_local_block`) -/
def locals : Ex A V → Ex (A ⊕ Nat) V
  | arr a => arr (.inl a)
  | scal v => scal v
  | gen f => gen f
  | un f x => un f x.locals
  | bin f x y => bin f x.locals y.locals
  | tern f x y z => tern f x.locals y.locals z.locals

/-- the value at a local index: arrays are read at their local addresses, index functions at the index given -/
def evalAt (m : Mem (A ⊕ Nat) V) (addr : A ⊕ Nat → Int) (gidx : List Nat) : Ex (A ⊕ Nat) V → V
  | arr a => m a (addr a)
  | scal v => v
  | gen f => f gidx
  | un f x => f (x.evalAt m addr gidx)
  | bin f x y => f (x.evalAt m addr gidx) (y.evalAt m addr gidx)
  | tern f x y z => f (x.evalAt m addr gidx) (y.evalAt m addr gidx) (z.evalAt m addr gidx)

end Ex

/-- strides of a dense block with dimension order `order` and extents `ext` -/
def denseStr (order ext : List Nat) : List Int :=
  (List.range ext.length).map fun (d : Nat) => (((((order.dropWhile (· ≠ d)).tail).map fun e => ext.getD e 0).prod : Nat) : Int)

/-- strides of a temporary on process `p` (expr.hpp l.51-64): a dense block of the subblock's extent, with the dimension order of the source -/
def tmpStr (m : DMap) (order : List Nat) (p : Nat) : List Int :=
  denseStr order (match m.pmap.subblock p with
    | some sb => m.pmap.view.sbExt sb
    | none => m.ext.map fun _ => 0)

/-- `choose_par_assign_impl` (assign_fwd.hpp l.28-39) and the corresponding strategies; `order` is the destination's dimension order -/
def assignment (order : List Nat) (lm rm : DMap) (L R : Side) : Nat → List Act :=
  if lm.isBlock && rm.isBlock then blkProg L R else assignProg 1 order L R

/-- the index at which an index function is evaluated for local index `l` of subblock `sb` (expr.hpp l.142-185): a subset of the function on the first patch, or,
for maps other than replicated ones and `Map<Block_dist, Block_dist, Block_dist>`, `map_subset_block::get` (map_subset_block.hpp l.44-75) -/
def genIdx (m : DMap) (sb : Nat) (l : List Nat) : List Nat :=
  let first := (elemN (m.pmap.view.gdom sb 0) l).map Int.toNat
  match m with
  | .repl _ => first
  | .map _ _ => if m.allBlock then first else m.pmap.view.toGlobal sb l

/-- element by element assignment of a local block, in place -/
def sweep (x : A ⊕ Nat) (str : A ⊕ Nat → List Int) (gidx : List Nat → List Nat) (e : Ex (A ⊕ Nat) V) (ls : List (List Nat))
    (m : Mem (A ⊕ Nat) V) : Mem (A ⊕ Nat) V :=
  ls.foldl (fun m l => Function.update m x (Function.update (m x) (offset (str x) (ints l))
    (e.evalAt m (fun a => offset (str a) (ints l)) (gidx l)))) m

/-- strides of the arrays and temporaries on process `p`; the `n`-th temporary is a copy of the `n`-th array operand -/
def strides (Γ : A → Arr) (m : DMap) (ops : List A) (p : Nat) : A ⊕ Nat → List Int
  | .inl a => (Γ a).str p
  | .inr n => match ops[n]? with
    | some a => tmpStr m (Γ a).order p
    | none => []

/-- the local indices of the patches of a subblock, patch by patch (expr.hpp l.336-340) -/
def patchIdx (m : DMap) (sb : Nat) : List (List Nat) :=
  (List.range (m.pmap.view.patches sb)).flatMap fun pt =>
    (positions (lens (m.pmap.view.ldom sb pt))).map fun k => (elemN (m.pmap.view.ldom sb pt) k).map Int.toNat

/-- a statement `lhs = rhs` -/
structure Stmt (A V : Type) where
  lhs : A
  rhs : Ex A V

/-- the copies of the array operands (`exec_expr`, expr.hpp l.266-275, 312-313; `Expr_block<peb_reorg>`, l.39-100) -/
def copies (Γ : A → Arr) (m : DMap) : Nat → List A → List (Stage (A ⊕ Nat) V)
  | _, [] => []
  | n, a :: as =>
    .net (.inr n) (.inl a) (assignment (Γ a).order m (Γ a).dmap ⟨m.pmap, tmpStr m (Γ a).order⟩ (Γ a).side) :: copies Γ m (n + 1) as

/-- the local part of `Expression::operator()` (expr.hpp l.315-342) -/
def patchStage (Γ : A → Arr) (st : Stmt A V) : Stage (A ⊕ Nat) V :=
  let m := (Γ st.lhs).dmap
  .loc fun p mem => match m.pmap.subblock p with
    | none => mem
    | some sb => sweep (.inl st.lhs) (strides Γ m st.rhs.leaves p) (genIdx m sb) (st.rhs.remap 0) (patchIdx m sb) mem

/-- the assignment of local blocks when all maps are the same (parallel/assign.hpp l.34-48, 70-84); a process without a subblock has an empty local block -/
def localStage (Γ : A → Arr) (st : Stmt A V) : Stage (A ⊕ Nat) V :=
  let m := (Γ st.lhs).dmap
  .loc fun p mem => match m.pmap.subblock p with
    | none => mem
    | some sb => sweep (.inl st.lhs) (strides Γ m [] p) id st.rhs.locals (positions (m.pmap.view.sbExt sb)) mem

/-- The statements executed by the processes for `lhs = rhs` (assign.hpp l.58-66, parallel/assign.hpp l.24-97): local assignment if the maps are the same, distributed assignment if the
right-hand side is an array, otherwise the parallel expression. -/
def stages (Γ : A → Arr) (st : Stmt A V) : List (Stage (A ⊕ Nat) V) :=
  if st.rhs.sameMap Γ (Γ st.lhs).dmap then [localStage Γ st]
  else match st.rhs with
    | .arr a => [.net (.inl st.lhs) (.inl a) (assignment (Γ st.lhs).order (Γ st.lhs).dmap (Γ a).dmap (Γ st.lhs).side (Γ a).side)]
    | _ => copies Γ (Γ st.lhs).dmap 0 st.rhs.leaves ++ [patchStage Γ st]

/-- Whether process `p` can build the parallel expression: for an index function it asks a `Replicated_map` for the domain of its subblock, which must be 0
(expr.hpp l.150-152, 198-202, replicated_map.hpp l.159-162); a `Map` accepts `no_subblock` (map.hpp l.905-909, 987-994). -/
def buildable (Γ : A → Arr) (st : Stmt A V) (p : Nat) : Bool :=
  st.rhs.sameMap Γ (Γ st.lhs).dmap || !st.rhs.hasGen || match (Γ st.lhs).dmap with
    | .repl m => m.subblock p == some 0
    | .map _ _ => true

/-- the program of all processes; `none` if a process stops with a failed assertion -/
def compile (Γ : A → Arr) (P : List Nat) : List (Stmt A V) → Option (List (Stage (A ⊕ Nat) V))
  | [] => some []
  | st :: sts =>
    if P.all (buildable Γ st) then (compile Γ P sts).map (stages Γ st ++ ·) else none

/-- kinds of maps (map_traits.hpp, `is_local_map`, `is_global_map`): local only, global only, either (scalars and generators) -/
inductive MapSort where | localOnly | globalOnly | either
deriving DecidableEq

/-- an operand as seen by the check for mixing local and distributed data: an array with the sort of its map, a scalar, an index function, an operator -/
inductive Shape where
  | arr (s : MapSort)
  | scal
  | gen
  | un (x : Shape)
  | bin (x y : Shape)
  | tern (x y z : Shape)
deriving DecidableEq

/-- `map_type` of an expression (unary.hpp, binary.hpp l.26-40: the map of the first operand, or of the second if the first is a scalar; ternary.hpp l.27-43) -/
def Shape.mapSort : Shape → MapSort
  | arr s => s
  | scal => .either
  | gen => .either
  | un x => x.mapSort
  | bin x y => match x with
    | scal => y.mapSort
    | _ => x.mapSort
  | tern x y _ => match x with
    | scal => y.mapSort
    | _ => x.mapSort

/-- the arrays of an expression -/
def Shape.sorts : Shape → List MapSort
  | arr s => [s]
  | scal => []
  | gen => []
  | un x => x.sorts
  | bin x y => x.sorts ++ y.sorts
  | tern x y z => x.sorts ++ y.sorts ++ z.sorts

def MapSort.isLocal (s : MapSort) : Bool := s != .globalOnly
def MapSort.isGlobal (s : MapSort) : Bool := s != .localOnly

/-- `is_illegal` (assign.hpp l.43-48), negated -/
def accepted (lhs : MapSort) (rhs : Shape) : Bool :=
  (lhs.isLocal && rhs.mapSort.isLocal) || (lhs.isGlobal && rhs.mapSort.isGlobal)

end Verif.Spmd
