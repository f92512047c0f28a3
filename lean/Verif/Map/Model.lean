import Verif.Dist.Model
/-!
Model of `vsip::Map<D0,D1,D2>` (`/repo/src/vsip/map.hpp`) and `vsip::Replicated_map`
(`/repo/src/vsip/impl/replicated_map.hpp`).

`no_subblock`, `no_rank` are modelled by `none`.  Indices and domains of dimension `D` are lists of length `D`.
Simplifications: the domain a map is applied to starts at 0 with stride 1 (only its lengths are kept);
all communicators are the same one.
-/
namespace Verif

/-- the loop of `split_tuple` (map.hpp l.60-64), running from the last dimension down to the first:
the arguments are the sizes in reverse order -/
def splitRev : List Nat → Nat → List Nat
  | [], _ => []
  | s :: ss, v => v % s :: splitRev ss ((v - v % s) / s)

/-- `split_tuple(value, dim, size, pos)` (map.hpp l.31-71), row-major; `size` has `dim` entries. -/
def splitTuple (size : List Nat) (value : Nat) : List Nat := (splitRev size.reverse value).reverse

/-- the accumulation `x *= size[d] (d != 0); x += pos[d]` used for subblocks (map.hpp l.580-586) and
patches (l.620-626).  For `d = 0` the factor multiplies 0, so applying it there, too, changes nothing. -/
def combine (size pos : List Nat) : Nat := (List.zip size pos).foldl (fun acc sp => acc * sp.1 + sp.2) 0

/-- `Map<Dist0, Dist1, Dist2>::Data` (map.hpp l.95-151): three distributions and the processor vector. -/
structure Map where
  dist : List Dist
  pvec : List Nat
deriving DecidableEq, Repr

namespace Map

/-- `num_subblocks` member (map.hpp l.107-109) -/
def numSubblocks (m : Map) : Nat := (m.dist.map Dist.numSubblocks).prod

/-- the constructors (map.hpp l.99-120, 122-143): precondition `num_subblocks <= p.size()`, then the
first `num_subblocks` processors are kept -/
def mk? (dist : List Dist) (p : List Nat) : Option Map :=
  let ns := (dist.map Dist.numSubblocks).prod
  if ns ≤ p.length then some ⟨dist, p.take ns⟩ else none

end Map

/-- A map applied to a domain (`impl_apply`, map.hpp l.302-322): the `D` dimensions with their distributions and lengths,
and the processor vector. -/
structure AMap where
  dims : List (Dist × Nat)
  pvec : List Nat
deriving DecidableEq, Repr

/-- `impl_apply` (map.hpp l.302-322): dimensions beyond those of the domain must not be partitioned (note [1]). -/
def Map.apply? (m : Map) (ext : List Nat) : Option AMap :=
  if ext.length ≤ m.dist.length ∧ ∀ d ∈ m.dist.drop ext.length, d.numSubblocks = 1 then
    some ⟨(m.dist.take ext.length).zip ext, m.pvec⟩
  else none

namespace AMap

/-- per-dimension subblock counts, `subblocks[]` (map.hpp l.117-119) restricted to the applied dimensions -/
def sbSizes (m : AMap) : List Nat := m.dims.map fun x => x.1.numSubblocks

/-- `num_subblocks()` (map.hpp l.190): the dimensions that are not applied contribute a factor 1 -/
def numSubblocks (m : AMap) : Nat := (m.sbSizes).prod

/-- sizes of the applied domain -/
def ext (m : AMap) : List Nat := m.dims.map fun x => x.2

/-- `impl_subblock_patches(d, dim_sb[d])` for all dimensions (map.hpp l.394-411) -/
def patchSizes : List (Dist × Nat) → List Nat → List Nat
  | x :: xs, sb :: sbs => x.1.subblockPatches x.2 sb :: patchSizes xs sbs
  | _, _ => []

/-- `impl_num_patches(sb)` (map.hpp l.866-888), `sb != no_subblock` -/
def numPatches (m : AMap) (sb : Nat) : Nat := (patchSizes m.dims (splitTuple m.sbSizes sb)).prod

/-- `impl_subblock_size(d, dim_sb[d])` for all dimensions (map.hpp l.421-437) -/
def subblockSizes : List (Dist × Nat) → List Nat → List Nat
  | x :: xs, sb :: sbs => x.1.subblockSize x.2 sb :: subblockSizes xs sbs
  | _, _ => []

/-- `impl_subblock_extent` / `impl_subblock_domain` (map.hpp l.899-955): the domains are `Domain<1>(size)` -/
def subblockExtent (m : AMap) (sb : Nat) : List Nat := subblockSizes m.dims (splitTuple m.sbSizes sb)

/-- `impl_patch_global_dom(d, dim_sb[d], dim_p[d])` for all dimensions (map.hpp l.447-463) -/
def globalDoms : List (Dist × Nat) → List Nat → List Nat → List Dom
  | x :: xs, sb :: sbs, p :: ps => x.1.patchGlobalDom x.2 sb p :: globalDoms xs sbs ps
  | _, _, _ => []

/-- `impl_patch_local_dom(d, dim_sb[d], dim_p[d])` for all dimensions (map.hpp l.473-489) -/
def localDoms : List (Dist × Nat) → List Nat → List Nat → List Dom
  | x :: xs, sb :: sbs, p :: ps => x.1.patchLocalDom x.2 sb p :: localDoms xs sbs ps
  | _, _, _ => []

/-- `impl_global_domain<Dim>(sb, p)` (map.hpp l.971-1008) -/
def globalDomain (m : AMap) (sb p : Nat) : List Dom :=
  let dimSb := splitTuple m.sbSizes sb
  globalDoms m.dims dimSb (splitTuple (patchSizes m.dims dimSb) p)

/-- `impl_local_domain<Dim>(sb, p)` (map.hpp l.1020-1063) -/
def localDomain (m : AMap) (sb p : Nat) : List Dom :=
  let dimSb := splitTuple m.sbSizes sb
  localDoms m.dims dimSb (splitTuple (patchSizes m.dims dimSb) p)

/-- `impl_dim_subblock_from_index(d, idx[d])` for all dimensions (map.hpp l.499-515) -/
def dimSubblocks : List (Dist × Nat) → List Nat → List Nat
  | x :: xs, i :: is => x.1.subblockFromIndex x.2 i :: dimSubblocks xs is
  | _, _ => []

/-- `impl_dim_patch_from_index(d, idx[d])` for all dimensions (map.hpp l.525-541) -/
def dimPatches : List (Dist × Nat) → List Nat → List Nat
  | x :: xs, i :: is => x.1.patchFromIndex x.2 i :: dimPatches xs is
  | _, _ => []

/-- `impl_subblock_from_global_index(idx)` (map.hpp l.569-596) -/
def subblockFromGlobalIndex (m : AMap) (idx : List Nat) : Nat := combine m.sbSizes (dimSubblocks m.dims idx)

/-- `impl_patch_from_global_index(idx)` (map.hpp l.605-630) -/
def patchFromGlobalIndex (m : AMap) (idx : List Nat) : Nat :=
  let sb := m.subblockFromGlobalIndex idx
  let dimSb := splitTuple m.sbSizes sb
  combine (patchSizes m.dims dimSb) (dimPatches m.dims idx)

/-- `impl_local_from_global_index(d, idx[d])` for all dimensions (map.hpp l.545-560) -/
def localIdx : List (Dist × Nat) → List Nat → List Nat
  | x :: xs, i :: is => x.1.localFromGlobal x.2 i :: localIdx xs is
  | _, _ => []

/-- local index of a global index -/
def localFromGlobalIndex (m : AMap) (idx : List Nat) : List Nat := localIdx m.dims idx

/-- `impl_global_from_local_index(d, sb, idx[d])` for all dimensions (map.hpp l.640-665) -/
def globalIdx : List (Dist × Nat) → List Nat → List Nat → List Nat
  | x :: xs, sb :: sbs, i :: is => x.1.globalFromLocal x.2 sb i :: globalIdx xs sbs is
  | _, _, _ => []

/-- global index of a local index of subblock `sb` -/
def globalFromLocalIndex (m : AMap) (sb : Nat) (lidx : List Nat) : List Nat :=
  globalIdx m.dims (splitTuple m.sbSizes sb) lidx

/-- `impl_local_from_global_domain(sb, g_dom)` (map.hpp l.674-701); `none` = throws `unimplemented` -/
def localFromGlobalDomain? (m : AMap) (sb : Nat) (gdom : List Dom) : Option (List Dom) :=
  if m.numPatches sb ≠ 1 then none
  else match intersectN (m.globalDomain sb 0) gdom with
    | some intr => some (applyIntrN (m.localDomain sb 0) (m.globalDomain sb 0) intr)
    | none => some (m.dims.map fun _ => Dom.ofLen 0)

/-- loop of `impl_rank_from_proc(pr)` (map.hpp l.717-727) -/
def rankFrom (pvec : List Nat) (pr : Nat) (i : Nat) : Option Nat :=
  match pvec with
  | [] => none
  | p :: ps => if p = pr then some i else rankFrom ps pr (i + 1)

/-- `subblock(pr)` (map.hpp l.738-752) -/
def subblock (m : AMap) (pr : Nat) : Option Nat :=
  match rankFrom m.pvec pr 0 with
  | none => none
  | some pi => if pi < m.numSubblocks then some pi else none

/-- `processor_begin(sb) .. processor_end(sb)` (map.hpp l.796-831): the one processor `pvec[sb % num_procs]`, where
`num_procs = num_subblocks` -/
def processors (m : AMap) (sb : Nat) : List Nat :=
  match m.pvec[sb % m.numSubblocks]? with
  | some p => [p]
  | none => []

end AMap

/-- `distribution(d)`: the enumeration value (dist.hpp l.46, 97, 217) -/
inductive DistKind where | whole | block | cyclic
deriving DecidableEq, Repr

def Dist.kind : Dist → DistKind
  | .whole => .whole | .block _ => .block | .cyclic _ _ => .cyclic

/-- the per-dimension comparison loop of `operator==` (map.hpp l.1096-1102) -/
def Map.distEq : List Dist → List Dist → Bool
  | [], [] => true
  | a :: as, b :: bs =>
    if a.kind ≠ b.kind ∨ a.numSubblocks ≠ b.numSubblocks ∨ a.contiguity ≠ b.contiguity then false
    else distEq as bs
  | _, _ => false

/-- `operator==` for two maps (map.hpp l.1092-1118); comparing maps of different distribution types is the other overload (l.1163-1169) which
returns `false`, covered here by the comparison of kinds. -/
def Map.beq (a b : Map) : Bool :=
  distEq a.dist b.dist && (a.pvec.length == b.pvec.length) &&
    ((List.range a.pvec.length).all fun i => a.pvec[i]? == b.pvec[i]?)

/-- comparison of the first `D` dimensions in `map_equiv<D>` (map.hpp l.1128-1144): kinds are equal because
the two maps have the same type -/
def Map.distEquiv (D : Nat) (a b : List Dist) : Bool :=
  (List.range D).all fun d =>
    (a[d]?.map Dist.numSubblocks == b[d]?.map Dist.numSubblocks) && (a[d]?.map Dist.contiguity == b[d]?.map Dist.contiguity)

/-- `map_equiv<D>(map1, map2)` (map.hpp l.1120-1161) -/
def Map.equiv (D : Nat) (a b : Map) : Bool :=
  distEquiv D a.dist b.dist && ((List.range a.numSubblocks).all fun i => a.pvec[i]? == b.pvec[i]?)

end Verif
