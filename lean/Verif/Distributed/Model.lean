import Verif.Distributed.Net
import Verif.Map.SubsetProps
/-!
Model of distributed blocks and of assignment between them:
`/repo/src/ovxx/parallel/distributed_block.hpp`, `/repo/src/ovxx/parallel/assign_chain.hpp`,
`/repo/src/ovxx/parallel/assign_block_vector.hpp`, `/repo/src/ovxx/parallel/util.hpp`,
`/repo/src/ovxx/mpi/chain_builder.hpp`.

Simplifications: offsets into local memory are integers (no wraparound); the left- and right-hand side do not share storage; the
local data are reached directly (`dda` without a temporary copy, see C27 for the copy).
-/
namespace Verif.Par
open Verif Spec

/-- What the assignment code asks a map about: partition and placement. -/
structure PMap where
  view : MapView
  /-- `subblock(proc)` -/
  subblock : Nat → Option Nat
  /-- `processor_begin(sb) .. processor_end(sb)` -/
  procs : Nat → List Nat
  /-- `impl_proc_from_rank(pi)` for `pi < impl_working_size()` -/
  workers : List Nat

/-- `vsip::Map` (map.hpp): `impl_working_size() = min(num_subblocks, pvec.size())` (l.234-235),
`impl_proc_from_rank = pvec[rank]` -/
def PMap.ofMap (m : AMap) : PMap :=
  ⟨m.view, m.subblock, m.processors, m.pvec.take (min m.numSubblocks m.pvec.length)⟩

/-- the partition of a `Replicated_map` (replicated_map.hpp l.150-195): one subblock, one patch, identical local and global indices -/
def _root_.Verif.RMap.view (m : RMap) : MapView where
  numSb := 1
  patches _ := 1
  sbExt _ := m.ext
  gdom := m.domain
  ldom := m.domain
  sbOf _ := 0
  patchOf _ := 0
  toLocal i := i
  toGlobal _ i := i

/-- `Replicated_map` (replicated_map.hpp l.201-208) -/
def PMap.ofReplicated (m : RMap) : PMap := ⟨m.view, m.subblock, m.processors, m.pset⟩

/-! ### distributed_block -/

/-- values held by every processor, by local index -/
abbrev LocalData (V : Type) := Nat → List Nat → V

section Block
variable {V : Type}

/-- `distributed_block::put(idx, val)` executed by all processes (distributed_block.hpp l.198-234) -/
def put (m : PMap) (d : LocalData V) (idx : List Nat) (val : V) : LocalData V := fun pr =>
  let sb := m.view.sbOf idx
  if m.subblock pr = some sb then Function.update (d pr) (m.view.toLocal idx) val else d pr

/-- `distributed_block::get(idx)` as seen by process `pr` (distributed_block.hpp l.149-193).  `allRepl` tells whether the map is a
`Replicated_map` over all processes (the case without communication, l.152-154).  In the other case the first processor of the
subblock broadcasts its value; `none` = there is no such processor. -/
def get (m : PMap) (allRepl : Bool) (d : LocalData V) (pr : Nat) (idx : List Nat) : Option V :=
  if allRepl then some (d pr idx)
  else
    let sb := m.view.sbOf idx
    match m.procs sb with
    | [] => none
    | root :: _ => some (d root (m.view.toLocal idx))

end Block

/-! ### Chained assignment -/

/-- `chain_add<O>` (assign_chain.hpp l.52-105) together with `Chain_builder::add` (mpi/chain_builder.hpp l.42-100): the
`MPI_Type_vector` entries added for a local domain.  `order` is the dimension order of the left-hand side's layout, `str` the strides of
the local data.  Offsets are in units of `element_type` (l.52-64), which is the scalar type for complex data. -/
def chainAdd (order : List Nat) (dom : List Dom) (str : List Int) : List Rec :=
  let f := fun d => ((dom.getD d ⟨0, 1, 0⟩).first : Int) * str.getD d 0
  let s := fun d => (dom.getD d ⟨0, 1, 0⟩).stride * str.getD d 0
  let n := fun d => (dom.getD d ⟨0, 1, 0⟩).length
  match order with
  | [d0] => [⟨f d0, s d0, n d0⟩]
  | [d0, d1] => (List.range (n d0)).map fun (i : Nat) => ⟨f d0 + f d1 + i * s d0, s d1, n d1⟩
  | [d0, d1, d2] =>
    (List.range (n d0)).flatMap fun (i : Nat) =>
      (List.range (n d1)).map fun (j : Nat) =>
        ⟨(((dom.getD d0 ⟨0, 1, 0⟩).first : Int) + i * (dom.getD d0 ⟨0, 1, 0⟩).stride) * str.getD d0 0 + f d1 + f d2 + j * s d1, s d2, n d2⟩
  | _ => []

/-- One side of an assignment: its map and the strides of the local data of each processor. -/
structure Side where
  map : PMap
  str : Nat → List Int

/-- the chain built by process `p` for process `q` (assign_chain.hpp l.412-448): loops over the patches of both -/
def sendRecs (order : List Nat) (L R : Side) (p ls rs : Nat) : List Rec :=
  (List.range (L.map.view.patches ls)).flatMap fun dp =>
    (List.range (R.map.view.patches rs)).flatMap fun sp =>
      match intersectN (R.map.view.gdom rs sp) (L.map.view.gdom ls dp) with
      | some intr => chainAdd order (applyIntrN (R.map.view.ldom rs sp) (R.map.view.gdom rs sp) intr) (R.str p)
      | none => []

/-- the chain built by process `q` for receiving (assign_chain.hpp l.512-540) -/
def recvRecs (order : List Nat) (L R : Side) (q ls rs : Nat) : List Rec :=
  (List.range (L.map.view.patches ls)).flatMap fun dp =>
    (List.range (R.map.view.patches rs)).flatMap fun sp =>
      match intersectN (L.map.view.gdom ls dp) (R.map.view.gdom rs sp) with
      | some intr => chainAdd order (applyIntrN (L.map.view.ldom ls dp) (L.map.view.gdom ls dp) intr) (L.str q)
      | none => []

/-- all positions inside an extent, row by row -/
def positions : List Nat → List (List Nat)
  | [] => [[]]
  | n :: ns => (List.range n).flatMap fun i => (positions ns).map (i :: ·)

/-- offset of a local index -/
def offset : List Int → List Int → Int
  | s :: ss, i :: is => i * s + offset ss is
  | _, _ => 0

/-- addresses of all scalars of the elements of a domain; an element is `w` scalars -/
def scalars (w : Nat) (str : List Int) (dom : List Dom) : List Int :=
  (positions (lens dom)).flatMap fun k => (List.range w).map fun (j : Nat) => (w : Int) * offset str (elemN dom k) + j

/-- `build_copy_list` / `exec_copy_list` (assign_chain.hpp l.553-621, 698-735): copies between the two local views of one process. -/
def copyActs (w : Nat) (L R : Side) (p : Nat) : List Act :=
  match L.map.subblock p, R.map.subblock p with
  | some ls, some rs =>
    (List.range (L.map.view.patches ls)).flatMap fun dp =>
      (List.range (R.map.view.patches rs)).flatMap fun sp =>
        match intersectN (R.map.view.gdom rs sp) (L.map.view.gdom ls dp) with
        | some intr =>
          [.copy (scalars w (R.str p) (applyIntrN (R.map.view.ldom rs sp) (R.map.view.gdom rs sp) intr))
                 (scalars w (L.str p) (applyIntrN (L.map.view.ldom ls dp) (L.map.view.gdom ls dp) intr))]
        | none => []
  | _, _ => []

/-- `*processor_begin(sb) == proc` -/
def firstIs (procs : List Nat) (p : Nat) : Bool := procs.head? == some p

/-- `build_send_list` (assign_chain.hpp l.362-454): messages of process `p`; `recs ls rs` is the chain built for a pair of subblocks -/
def sendActs (L R : Side) (recs : Nat → Nat → List Rec) (p : Nat) : List Act :=
  match R.map.subblock p with
  | none => []
  | some rs =>
    if firstIs (R.map.procs rs) p then
      L.map.workers.filterMap fun q =>
        if q = p then none
        else match L.map.subblock q with
          | none => none
          | some ls =>
            if q ∈ R.map.procs rs then none
            else if (recs ls rs).isEmpty then none else some (.send q (Rec.offs (recs ls rs)))
    else []

/-- `build_recv_list` (assign_chain.hpp l.461-549) -/
def recvActs (L R : Side) (recs : Nat → Nat → List Rec) (q : Nat) : List Act :=
  match L.map.subblock q with
  | none => []
  | some ls =>
    R.map.workers.filterMap fun p =>
      if p = q then none
      else match R.map.subblock p with
        | none => none
        | some rs =>
          if firstIs (R.map.procs rs) p then
            if q ∈ R.map.procs rs then none
            else if (recs ls rs).isEmpty then none else some (.recv p (Rec.offs (recs ls rs)))
          else none

/-- `Assignment::operator()` (assign_chain.hpp l.310-319): send, copy, receive, wait -/
def assignProg (w : Nat) (order : List Nat) (L R : Side) (p : Nat) : List Act :=
  sendActs L R (sendRecs order L R p) p ++ copyActs w L R p ++ recvActs L R (recvRecs order L R p) p ++ [.wait]

/-! ### Block-vector assignment (1-D) -/

/-- the message record of `build_send_list` (assign_block_vector.hpp l.333-346): offset and length of the part of the
patch `dom` (local `ldom`) inside `intr`; data stride 1 -/
def blkRec (dom ldom intr : Dom) : Rec :=
  ⟨(toIdx ((ldom.first : Int) + toIdx ((intr.first : Int) - dom.first)) : Int), 1, intr.length⟩

/-- assign_block_vector.hpp l.325-346; one patch per subblock -/
def blkSendRecs (L R : Side) (ls rs : Nat) : List Rec :=
  match R.map.view.gdom rs 0, R.map.view.ldom rs 0, L.map.view.gdom ls 0 with
  | [rg], [rl], [lg] => match intersect rg lg with
    | some intr => [blkRec rg rl intr]
    | none => []
  | _, _, _ => []

/-- assign_block_vector.hpp l.419-438 -/
def blkRecvRecs (L R : Side) (ls rs : Nat) : List Rec :=
  match L.map.view.gdom ls 0, L.map.view.ldom ls 0, R.map.view.gdom rs 0 with
  | [lg], [ll], [rg] => match intersect lg rg with
    | some intr => [blkRec lg ll intr]
    | none => []
  | _, _, _ => []

/-- assign_block_vector.hpp l.460-505, 576-599: domains `domain(first(ldom) + offset, extent(intr))` -/
def blkCopyActs (L R : Side) (p : Nat) : List Act :=
  match L.map.subblock p, R.map.subblock p with
  | some ls, some rs =>
    match R.map.view.gdom rs 0, R.map.view.ldom rs 0, L.map.view.gdom ls 0, L.map.view.ldom ls 0 with
    | [rg], [rl], [lg], [ll] => match intersect rg lg with
      | some intr => [.copy (Rec.offs [blkRec rg rl intr]) (Rec.offs [blkRec lg ll intr])]
      | none => []
    | _, _, _, _ => []
  | _, _ => []

/-- `operator()` of the block-vector assignment (assign_block_vector.hpp l.234-243) -/
def blkProg (L R : Side) (p : Nat) : List Act :=
  sendActs L R (blkSendRecs L R) p ++ blkCopyActs L R p ++ recvActs L R (blkRecvRecs L R) p ++ [.wait]

end Verif.Par
