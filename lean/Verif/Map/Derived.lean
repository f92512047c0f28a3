import Verif.Map.Model
/-!
Model of the maps of slices and sub-domains:
`/repo/src/ovxx/parallel/map_utils.hpp` (`map_project_1`, `map_project_2`), `/repo/src/vsip/impl/dist.hpp` (`copy_dist`),
`/repo/src/ovxx/parallel/subset_map_decl.hpp` (`subset_map`), `/repo/src/vsip/impl/replicated_map.hpp`,
`/repo/src/ovxx/expr/sliced.hpp` (`sliced_map`).
-/
namespace Verif

/-- `copy_dist<D>(map, dim)` (dist.hpp l.362-398): the type `D` decides the kind, the map supplies the numbers. -/
def copyDist (k : DistKind) (src : Dist) : Dist :=
  match k with
  | .whole => .whole
  | .block => .block src.numSubblocks
  | .cyclic => .cyclic src.numSubblocks src.contiguity

/-- the `Map<...>(pvec, ...)` constructor call at the end of each `project`: argument types must be those of
the map type (otherwise the code does not compile, modelled as `none`); missing distributions are `Whole_dist`. -/
def projMap (types : List DistKind) (args : List Dist) (pvec : Option (List Nat)) : Option Map := do
  let p ← pvec
  if args.map Dist.kind = types then Map.mk? (args ++ List.replicate (3 - args.length) Dist.whole) p else none

/-- a three-dimensional `Map` type applied to a 2-D or 3-D domain: the distributions, the processors, and for
each dimension the length of the domain (1 for dimensions beyond it, map.hpp l.311-315) -/
structure Map3 where
  d0 : Dist
  d1 : Dist
  d2 : Dist
  n0 : Nat
  n1 : Nat
  n2 : Nat
  pvec : List Nat
deriving DecidableEq, Repr

namespace Map3

def s1 (m : Map3) : Nat := m.d1.numSubblocks
def s2 (m : Map3) : Nat := m.d2.numSubblocks

/-- `map_project_1<0, Map>::parent_subblock` (map_utils.hpp l.25-36) -/
def parentSb_0 (m : Map3) (idx sb : Nat) : Nat := m.d0.subblockFromIndex m.n0 idx * m.s1 * m.s2 + sb

/-- `map_project_1<0, Map>::project` (map_utils.hpp l.38-52) -/
def project_0 (m : Map3) (idx : Nat) : Option Map :=
  projMap [m.d1.kind, m.d2.kind] [copyDist m.d1.kind m.d1, copyDist m.d2.kind m.d2]
    ((List.range (m.s1 * m.s2)).mapM fun pi =>
      m.pvec[m.d0.subblockFromIndex m.n0 idx * m.s1 * m.s2 + pi]?)

/-- `map_project_1<1, Map>::parent_subblock` (map_utils.hpp l.61-75) -/
def parentSb_1 (m : Map3) (idx sb : Nat) : Nat :=
  let sb0 := sb / m.s2
  let sb2 := sb % m.s2
  sb0 * m.s1 * m.s2 + m.d1.subblockFromIndex m.n1 idx * m.s2 + sb2

/-- `map_project_1<1, Map>::project` (map_utils.hpp l.77-97): note `copy_dist<D1>(map, 0)` -/
def project_1 (m : Map3) (idx : Nat) : Option Map :=
  projMap [m.d0.kind, m.d2.kind] [copyDist m.d1.kind m.d0, copyDist m.d2.kind m.d2]
    ((List.range (m.d0.numSubblocks * m.s2)).mapM fun pi =>
      m.pvec[pi / m.s2 * m.s1 * m.s2 + m.d1.subblockFromIndex m.n1 idx * m.s2 + pi % m.s2]?)

/-- `map_project_1<2, Map>::parent_subblock` (map_utils.hpp l.106-119) -/
def parentSb_2 (m : Map3) (idx sb : Nat) : Nat :=
  let sb0 := sb / m.s1
  let sb1 := sb % m.s1
  sb0 * m.s1 * m.s2 + sb1 * m.s2 + m.d2.subblockFromIndex m.n2 idx

/-- `map_project_1<2, Map>::project` (map_utils.hpp l.121-142): note `copy_dist<D1>(map, 0), copy_dist<D2>(map, 1)` -/
def project_2 (m : Map3) (idx : Nat) : Option Map :=
  projMap [m.d0.kind, m.d1.kind] [copyDist m.d1.kind m.d0, copyDist m.d2.kind m.d1]
    ((List.range (m.d0.numSubblocks * m.s1)).mapM fun pi =>
      m.pvec[pi / m.s1 * m.s1 * m.s2 + pi % m.s1 * m.s2 + m.d2.subblockFromIndex m.n2 idx]?)

/-- `map_project_2<0, 1, Map>` (map_utils.hpp l.145-184) -/
def parentSb_01 (m : Map3) (i0 i1 sb : Nat) : Nat :=
  m.d0.subblockFromIndex m.n0 i0 * m.s1 * m.s2 + m.d1.subblockFromIndex m.n1 i1 * m.s2 + sb
def project_01 (m : Map3) (i0 i1 : Nat) : Option Map :=
  projMap [m.d2.kind] [copyDist m.d2.kind m.d2]
    ((List.range m.s2).mapM fun pi => m.pvec[m.parentSb_01 i0 i1 pi]?)

/-- `map_project_2<0, 2, Map>` (map_utils.hpp l.187-226): the type is `Map<D2>`, the argument `copy_dist<D1>(map, 1)` -/
def parentSb_02 (m : Map3) (i0 i2 sb : Nat) : Nat :=
  m.d0.subblockFromIndex m.n0 i0 * m.s1 * m.s2 + sb * m.s2 + m.d2.subblockFromIndex m.n2 i2
def project_02 (m : Map3) (i0 i2 : Nat) : Option Map :=
  projMap [m.d2.kind] [copyDist m.d1.kind m.d1]
    ((List.range m.s1).mapM fun pi => m.pvec[m.parentSb_02 i0 i2 pi]?)

/-- `map_project_2<1, 2, Map>` (map_utils.hpp l.229-268): the type is `Map<D2>`, the argument `copy_dist<D0>(map, 0)` -/
def parentSb_12 (m : Map3) (i1 i2 sb : Nat) : Nat :=
  sb * m.s1 * m.s2 + m.d1.subblockFromIndex m.n1 i1 * m.s2 + m.d2.subblockFromIndex m.n2 i2
def project_12 (m : Map3) (i1 i2 : Nat) : Option Map :=
  projMap [m.d2.kind] [copyDist m.d0.kind m.d0]
    ((List.range m.d0.numSubblocks).mapM fun pi => m.pvec[m.parentSb_12 i1 i2 pi]?)

/-- the parent as an applied map of dimension 3 or (when the third dimension is not distributed) 2 -/
def applied3 (m : Map3) : AMap := ⟨[(m.d0, m.n0), (m.d1, m.n1), (m.d2, m.n2)], m.pvec⟩
def applied2 (m : Map3) : AMap := ⟨[(m.d0, m.n0), (m.d1, m.n1)], m.pvec⟩

end Map3

/-- `Replicated_map<D>` applied to a domain (replicated_map.hpp l.73-210) -/
structure RMap where
  ext : List Nat
  pset : List Nat
deriving DecidableEq, Repr

namespace RMap
/-- `subblock(pr)` (replicated_map.hpp l.118-124) -/
def subblock (m : RMap) (pr : Nat) : Option Nat :=
  match AMap.rankFrom m.pset pr 0 with
  | some _ => some 0
  | none => none
/-- `processor_begin(sb) .. processor_end(sb)` (replicated_map.hpp l.131-141), `sb == 0` -/
def processors (m : RMap) (_sb : Nat) : List Nat := m.pset
/-- domains (replicated_map.hpp l.155-171): `dom_` -/
def domain (m : RMap) (_sb _p : Nat) : List Dom := m.ext.map Dom.ofLen
/-- `sliced_map<Replicated_map<D>, S>::convert_map` (sliced.hpp l.29-34): a default-constructed map, that is one over all
processors (replicated_map.hpp l.88-94) -/
def slice (_m : RMap) (allProcs : List Nat) (ext : List Nat) : RMap := ⟨ext, allProcs⟩
end RMap

/-- `subset_map<D>`: the entries pushed for each kept subblock (subset_map_decl.hpp l.193-212, 240-276) -/
structure SubsetEntry where
  parentSb : Nat
  gdom : List Dom
  ldom : List Dom
  parentLocal : List Dom
  proc : Nat
  sbExt : List Nat
deriving DecidableEq, Repr

/-- body of the loop over the subblocks of the parent (subset_map_decl.hpp l.227-266), for a parent with one patch
per subblock: `none` = nothing is pushed -/
def subsetEntry (m : AMap) (dom : List Dom) (sb : Nat) : Option SubsetEntry :=
  match intersectN (m.globalDomain sb 0) dom with
  | none => none
  | some intr => some
      { parentSb := sb
        gdom := subsetFromIntrN dom intr
        ldom := intr.map normalize
        parentLocal := applyIntrN (m.localDomain sb 0) (m.globalDomain sb 0) intr
        proc := m.pvec.getD sb 0
        sbExt := m.subblockExtent sb }

/-- the constructor of `subset_map` (subset_map_decl.hpp l.214-267): throws (`none`) for cyclic distributions.
Whole and block distributed maps have exactly one patch per subblock. -/
def subsetMap? (m : AMap) (dom : List Dom) : Option (List SubsetEntry) :=
  if m.dims.any (fun x => x.1.kind == .cyclic) then none
  else some ((List.range m.numSubblocks).filterMap (subsetEntry m dom))

end Verif
