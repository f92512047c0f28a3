import Verif.Distributed.Instances
/-!
Model of the parallel support functions of views (`/repo/src/vsip/impl/parallel.hpp`, `/repo/src/ovxx/parallel/support.hpp`)
over all the maps a view may have: `Map` (`/repo/src/vsip/map.hpp`), `Replicated_map` (`/repo/src/vsip/impl/replicated_map.hpp`),
`Local_map` (`/repo/src/vsip/impl/local_map.hpp`), `subset_map` (`/repo/src/ovxx/parallel/subset_map_decl.hpp`) and
`transpose_map` (`/repo/src/ovxx/parallel/transpose_map_decl.hpp`); and of the maps of views of views
(`/repo/src/ovxx/expr/{subset,transposed,permuted,diag}.hpp`).

`no_subblock` is `none`; the flag `chk` says whether assertions are compiled in (`OVXX_PRECONDITION`, support.hpp l.84).
-/
namespace Verif.Pv
open Verif Spec

/-- what a call does: returns, ends the program (a failed assertion, or an exception leaving a `VSIP_NOTHROW` function), reads
outside a container, or does not compile -/
inductive Ans (α : Type) where
  | val (a : α) | stop | bad | absent
deriving DecidableEq, Repr

def Ans.map {α β : Type} (f : α → β) : Ans α → Ans β
  | .val a => .val (f a) | .stop => .stop | .bad => .bad | .absent => .absent

/-- the functions of a map which the support functions call -/
structure Api where
  numSb : Nat
  subblock : Nat → Option Nat
  patches : Option Nat → Ans Nat
  sbDom : Option Nat → Ans (List Dom)
  gdom : Option Nat → Nat → Ans (List Dom)
  ldom : Option Nat → Nat → Ans (List Dom)
  sbOf : List Nat → Ans Nat
  /-- `impl_local_from_global_index(d, idx)` -/
  toLocal : Nat → Nat → Ans Nat
  /-- `impl_global_from_local_index(d, sb, idx)` -/
  toGlobal : Nat → Option Nat → Nat → Ans Nat

/-- the value of the constants `no_subblock` and `no_index` (vsip/support.hpp l.142-143) -/
def noIndex : Nat := W₆₄ - 1

/-- `empty_domain<D>()` (ovxx/domain_utils.hpp): every dimension has length 0 -/
def emptyDom (D : Nat) : List Dom := List.replicate D (Dom.ofLen 0)

/-- a failed precondition: the program ends when assertions are compiled in, otherwise the function goes on -/
def pre {α : Type} (chk : Bool) (c : Bool) (k : Ans α) : Ans α := if chk && !c then .stop else k

/-- `vsip::Map` -/
def ofMap (chk : Bool) (m : AMap) : Api where
  numSb := m.numSubblocks
  subblock := m.subblock
  /- `impl_num_patches` (map.hpp l.866-888) -/
  patches
    | none => .val 0
    | some sb => pre chk (sb < m.numSubblocks) (.val (m.numPatches sb))
  /- `impl_subblock_domain` (l.899-926) -/
  sbDom
    | none => .val (emptyDom m.dims.length)
    | some sb => pre chk (sb < m.numSubblocks) (.val ((m.subblockExtent sb).map Dom.ofLen))
  /- `impl_global_domain` (l.971-1008) -/
  gdom
    | none, _ => .val (emptyDom m.dims.length)
    | some sb, p => pre chk (sb < m.numSubblocks && p < m.numPatches sb) (.val (m.globalDomain sb p))
  /- `impl_local_domain` (l.1020-1063) -/
  ldom
    | none, _ => .val (emptyDom m.dims.length)
    | some sb, p => pre chk (sb < m.numSubblocks && p < m.numPatches sb) (.val (m.localDomain sb p))
  /- `impl_subblock_from_global_index` (l.569-596) -/
  sbOf idx := .val (m.subblockFromGlobalIndex idx)
  /- `impl_local_from_global_index` (l.545-560) -/
  toLocal d i := match m.dims[d]? with
    | some x => .val (x.1.localFromGlobal x.2 i)
    | none => .stop
  /- `impl_global_from_local_index` (l.640-665): `split_tuple` is called whatever the subblock is; its last precondition
  (l.66-69) says that the parts give back the number -/
  toGlobal d sb i :=
    pre chk (combine m.sbSizes (splitTuple m.sbSizes (sb.getD noIndex)) == sb.getD noIndex)
      (match m.dims[d]?, (splitTuple m.sbSizes (sb.getD noIndex))[d]? with
      | some x, some s => .val (x.1.globalFromLocal x.2 s i)
      | _, _ => .stop)

/-- `vsip::Replicated_map` (replicated_map.hpp l.118-185): every function has the precondition `sb == 0` -/
def ofRepl (chk : Bool) (m : RMap) : Api where
  numSb := 1
  subblock := m.subblock
  patches sb := pre chk (sb == some 0) (.val 1)
  sbDom sb := pre chk (sb == some 0) (.val (m.ext.map Dom.ofLen))
  gdom sb p := pre chk (sb == some 0 && p == 0) (.val (m.ext.map Dom.ofLen))
  ldom sb p := pre chk (sb == some 0 && p == 0) (.val (m.ext.map Dom.ofLen))
  sbOf _ := .val 0
  toLocal _ i := .val i
  toGlobal _ sb i := pre chk (sb == some 0) (.val i)

/-- `vsip::Local_map` (local_map.hpp l.42-85) and the overloads for it (parallel/support.hpp l.27-32, 72-78, 101-108):
the map has neither `impl_local_from_global_index` nor `impl_subblock_from_global_index` -/
def ofLocal (chk : Bool) (ext : List Nat) (me : Nat) : Api where
  numSb := 1
  subblock pr := if pr = me then some 0 else none
  patches sb := pre chk (sb == some 0) (.val 1)
  sbDom sb := pre chk (sb == some 0 || sb == none) (.val (if sb = some 0 then ext.map Dom.ofLen else emptyDom ext.length))
  gdom sb p := pre chk ((sb == some 0 && p == 0) || sb == none)
    (.val (if sb = some 0 then ext.map Dom.ofLen else emptyDom ext.length))
  ldom sb p := pre chk ((sb == some 0 && p == 0) || sb == none)
    (.val (if sb = some 0 then ext.map Dom.ofLen else emptyDom ext.length))
  sbOf _ := .absent
  toLocal _ _ := .absent
  toGlobal _ sb i := pre chk (sb == some 0) (.val i)

/-- an element of one of the vectors of a `subset_map`; `no_subblock` is beyond every vector -/
def entry {α : Type} (chk : Bool) (es : List SubsetEntry) (sb : Option Nat) (f : SubsetEntry → Ans α) : Ans α :=
  match sb.bind (es[·]?) with
  | some e => f e
  | none => if chk then .stop else .bad

/-- `subset_map` (subset_map_decl.hpp l.45-160), one patch per subblock; the three conversions throw (l.118-144) -/
def ofSubset (chk : Bool) (es : List SubsetEntry) : Api where
  numSb := es.length
  subblock pr := AMap.rankFrom (es.map SubsetEntry.proc) pr 0
  patches sb := entry chk es sb fun _ => .val 1
  sbDom sb := entry chk es sb fun e => .val (e.sbExt.map Dom.ofLen)
  gdom sb p := entry chk es sb fun e => if p = 0 then .val e.gdom else if chk then .stop else .bad
  ldom sb p := entry chk es sb fun e => if p = 0 then .val e.ldom else if chk then .stop else .bad
  sbOf _ := .stop
  toLocal _ _ := .stop
  toGlobal _ _ _ := .stop

/-- `Domain<2>(p_dom[1], p_dom[0])`, `Length<2>(p_ext[1], p_ext[0])` -/
def swp {α : Type} : List α → List α
  | [a, b] => [b, a]
  | l => l

/-- `parent_dim` (transpose_map_decl.hpp l.25-28) -/
def parentDim (d : Nat) : Nat := if d = 0 then 1 else if d = 1 then 0 else d

/-- is it a valid subblock of the map? `no_subblock` is not -/
def validSb (n : Nat) : Option Nat → Bool
  | none => false
  | some sb => sb < n

/-- `p < this->impl_num_patches(sb)` -/
def belowAns (p : Nat) : Ans Nat → Bool
  | .val n => p < n
  | _ => false

/-- `transpose_map` over the map `a` (transpose_map_decl.hpp l.44-144) -/
def ofTrans (chk : Bool) (a : Api) : Api where
  numSb := a.numSb
  subblock := a.subblock
  patches := a.patches
  sbDom sb := pre chk (validSb a.numSb sb) ((a.sbDom sb).map swp)
  gdom sb p := pre chk (validSb a.numSb sb && belowAns p (a.patches sb)) ((a.gdom sb p).map swp)
  ldom sb p := pre chk (validSb a.numSb sb && belowAns p (a.patches sb)) ((a.ldom sb p).map swp)
  sbOf _ := .stop
  toLocal d i := a.toLocal (parentDim d) i
  toGlobal _ _ _ := .stop

/-! ## The support functions; `pr` is the local processor -/

/-- the loops `for (d = 0; d < D; ++d) r[d] = f(d, idx[d])`, starting at dimension `d` -/
def loopDims (f : Nat → Nat → Ans Nat) : Nat → List Nat → Ans (List Nat)
  | _, [] => .val []
  | d, i :: is => match f d i with
    | .val x => (loopDims f (d + 1) is).map (x :: ·)
    | .stop => .stop | .bad => .bad | .absent => .absent

/-- `subblock_domain(view, sb)`, `subblock_domain(view)` (parallel.hpp l.53-71, support.hpp l.34-72) -/
def subblockDomain (a : Api) (sb : Option Nat) : Ans (List Dom) := a.sbDom sb
def subblockDomainHere (a : Api) (pr : Nat) : Ans (List Dom) := a.sbDom (a.subblock pr)

/-- `local_domain(view, sb, p)`, `local_domain(view, p)` (parallel.hpp l.84-105, support.hpp l.74-104) -/
def localDomain (a : Api) (sb : Option Nat) (p : Nat) : Ans (List Dom) := a.ldom sb p
def localDomainHere (a : Api) (pr p : Nat) : Ans (List Dom) := a.ldom (a.subblock pr) p

/-- `global_domain(view, sb, p)`, `global_domain(view, p)` (parallel.hpp l.118-138, support.hpp l.106-134) -/
def globalDomain (a : Api) (sb : Option Nat) (p : Nat) : Ans (List Dom) := a.gdom sb p
def globalDomainHere (a : Api) (pr p : Nat) : Ans (List Dom) := a.gdom (a.subblock pr) p

/-- `num_patches(view, sb)`, `num_patches(view)` (parallel.hpp l.157-174, support.hpp l.136-148) -/
def numPatches (a : Api) (sb : Option Nat) : Ans Nat := a.patches sb
def numPatchesHere (a : Api) (pr : Nat) : Ans Nat := a.patches (a.subblock pr)

/-- `subblock_from_global_index` (parallel.hpp l.208-213, support.hpp l.150-158), for an index of the view -/
def subblockFromGlobalIndex (a : Api) (idx : List Nat) : Ans Nat := a.sbOf idx

/-- `patch_from_global_index` (parallel.hpp l.220-225, support.hpp l.160-168), for an index of the view: the same function of the
map is called -/
def patchFromGlobalIndex (a : Api) (idx : List Nat) : Ans Nat := a.sbOf idx

/-- `local_from_global_index(view, idx)` (parallel.hpp l.232-237, support.hpp l.178-188) -/
def localFromGlobalIndex (a : Api) (idx : List Nat) : Ans (List Nat) := loopDims a.toLocal 0 idx

/-- `global_from_local_index(view, sb, idx)` (parallel.hpp l.251-257, support.hpp l.199-210) -/
def globalFromLocalIndex (a : Api) (sb : Option Nat) (idx : List Nat) : Ans (List Nat) :=
  loopDims (fun d i => a.toGlobal d sb i) 0 idx

/-- `global_from_local_index(view, idx)` (parallel.hpp l.261-267, support.hpp l.212-224): no test for `no_subblock` -/
def globalFromLocalIndexHere (a : Api) (pr : Nat) (idx : List Nat) : Ans (List Nat) :=
  loopDims (fun d i => a.toGlobal d (a.subblock pr) i) 0 idx

/-- `global_from_local_index(view, dim, sb, idx)` (parallel.hpp l.271-278): passes the view where a block is expected, and a view
has no `map()` -/
def globalFromLocalDim (_a : Api) (_d : Nat) (_sb : Option Nat) (_i : Nat) : Ans Nat := .absent

/-- `global_from_local_index(view, dim, idx)` (parallel.hpp l.282-288, support.hpp l.226-237) -/
def globalFromLocalDimHere (a : Api) (pr d i : Nat) : Ans Nat :=
  match a.subblock pr with
  | some sb => a.toGlobal d (some sb) i
  | none => .val noIndex

/-! ## Maps of views -/

/-- the maps views have -/
inductive Mp where
  | map (m : AMap)
  | repl (m : RMap)
  | sub (es : List SubsetEntry)
  | tr (m : Mp)
deriving Repr

def Mp.api (chk : Bool) : Mp → Api
  | .map m => ofMap chk m
  | .repl m => ofRepl chk m
  | .sub es => ofSubset chk es
  | .tr m => ofTrans chk (m.api chk)

/-- the constructor of `subset_map` from another `subset_map` (subset_map_decl.hpp l.188-243) for one subblock -/
def subEntry (dom : List Dom) (sb : Nat) (e : SubsetEntry) : Option SubsetEntry :=
  match intersectN e.gdom dom with
  | none => none
  | some intr => some
      { parentSb := sb
        gdom := subsetFromIntrN dom intr
        ldom := intr.map normalize
        parentLocal := applyIntrN e.ldom e.gdom intr
        proc := e.proc
        sbExt := e.sbExt }

/-- `map_subdomain<D, M>::project` (subset_map_decl.hpp l.252-311) followed by `impl_apply` of the new block's domain
(expr/subset.hpp, constructors); `none` = the constructor throws.  Only `Map` and `subset_map` have a specialisation; `impl_apply`
of a `Replicated_map` takes over the domain, that of a `transpose_map` does nothing. -/
def Mp.project (dom : List Dom) : Mp → Option Mp
  | .map m => (subsetMap? m dom).map .sub
  | .repl m => some (.repl ⟨lens dom, m.pset⟩)
  | .sub es => some (.sub (es.zipIdx.filterMap fun x => subEntry dom x.2 x.1))
  | .tr m => some (.tr m)

/-- `Transposed::map()` (expr/transposed.hpp l.27-59) -/
def Mp.transpose (m : Mp) : Mp := .tr m

/-- `Permuted::map()` (expr/permuted.hpp l.88): the map of the argument -/
def Mp.permuted (_perm : List Nat) (m : Mp) : Mp := m

/-- sizes of a permuted tensor (expr/permuted.hpp l.83-84) -/
def permSizes (perm ext : List Nat) : List Nat := perm.map (ext.getD · 0)

/-- `Diag::map()` (expr/diag.hpp l.68): the map of the matrix -/
def Mp.diag (m : Mp) : Mp := m

/-- `impl_local_from_global_domain(sb, dom)` of the maps: `Map` (map.hpp l.674-701), `Replicated_map` (l.187-195: the domain
itself), `subset_map` (l.146-155: throws), `transpose_map` (l.146-155: swaps both ways) -/
def Mp.localDom (sb : Nat) : Mp → List Dom → Ans (List Dom)
  | .map m, dom => match m.localFromGlobalDomain? sb dom with
    | some d => .val d
    | none => .stop
  | .repl _, dom => .val dom
  | .sub _, _ => .stop
  | .tr m, dom => (Mp.localDom sb m (swp dom)).map swp

/-- `impl_pvec()` -/
def Mp.pvec : Mp → List Nat
  | .map m => m.pvec
  | .repl m => m.pset
  | .sub es => es.map SubsetEntry.proc
  | .tr m => m.pvec

/-- the part of the parent's local data which is the local view of `parent(dom)` on processor `pr`: `get_local_block` of a
`Subset` (expr/subset.hpp l.246-268) with `subset_parent_local_domain` (l.42-76); `child` is the map of the subset -/
def localSubset (D : Nat) (parent child : Mp) (dom : List Dom) (pr : Nat) : Ans (List Dom) :=
  match AMap.rankFrom child.pvec pr 0 with
  | none => .val (emptyDom D)
  | some sb => match child with
    | .sub es => match es[sb]? with
      | some e => parent.localDom e.parentSb dom
      | none => .bad
    | _ => parent.localDom sb dom

/-! ## The map and the local data of a transposed matrix, as the assignment sees them -/

/-- the answers of a `transpose_map` which assignments ask for (numbers, domains, processors), with the places they mean;
`sbOf`, `patchOf`, `toGlobal` are not called by assignments -/
def _root_.Verif.Par.PMap.tr (m : Par.PMap) : Par.PMap where
  view :=
    { numSb := m.view.numSb
      patches := m.view.patches
      sbExt := fun sb => swp (m.view.sbExt sb)
      gdom := fun sb p => swp (m.view.gdom sb p)
      ldom := fun sb p => swp (m.view.ldom sb p)
      sbOf := fun i => m.view.sbOf (swp i)
      patchOf := fun i => m.view.patchOf (swp i)
      toLocal := fun i => swp (m.view.toLocal (swp i))
      toGlobal := fun sb l => swp (m.view.toGlobal sb (swp l)) }
  subblock := m.subblock
  procs := m.procs
  workers := m.workers

/-- map and strides of the local data of a transposed matrix (expr/transposed.hpp l.78-83: `stride(d) = parent.stride(1 - d)`) -/
def _root_.Verif.Par.Side.tr (S : Par.Side) : Par.Side := ⟨S.map.tr, fun p => swp (S.str p)⟩

end Verif.Pv
