import Verif.Persist.Spec
import Verif.Access.Model
/-!
Model of the data access of distributed assignments of vectors: `Persistent_data` (`/repo/src/ovxx/dda/persistent.hpp`) and its use in
`Assignment<…, Blkvec_assign>` (`/repo/src/ovxx/parallel/assign_block_vector.hpp`), with the accessors of `/repo/src/ovxx/dda/accessor.hpp` behind
it; the processors which hold a subblock: `vector_iterator` (`/repo/src/ovxx/vector_iterator.hpp`), `processor_begin` and `processor_end` of
`Replicated_map` (`/repo/src/vsip/impl/replicated_map.hpp`), `processor_has_block` (`/repo/src/ovxx/parallel/map_traits.hpp`).

The local block is a function of the index of its elements.  Blocks reached directly have stride one here (the precondition of
assign_block_vector.hpp l.433), so that offsets from `ptr()` are indices; a copy is dense, so that the same holds for it.  Not modelled:
device access, split complex buffers (two arrays treated alike), which messages there are (C17), reference counts (C46).
-/
namespace Verif.Pdd
open Verif

variable {V : Type}

/-- an accessor of a local block of `n` elements (accessor.hpp l.260-307, 371-444, 539-616): whether it is direct, whether its `sync_out` asks
for `dirty_`, and its synchronisation policy `S` -/
structure Bk where
  direct : Bool
  tests : Bool
  inn : Bool
  out : Bool
  n : Nat
deriving DecidableEq

/-- the block, the buffer of the accessor, `dirty_` -/
structure S (V : Type) where
  blk : Nat → V
  buf : Nat → V
  dirty : Bool

/-- assignment of one element -/
def upd (f : Nat → V) (i : Nat) (x : V) : Nat → V := fun j => if j = i then x else f j

/-- `for (idx …) put(data, layout.index(idx), get(block, idx))` and its converse (block_copy.hpp l.43-48) -/
def copyLoop (n : Nat) (src dst : Nat → V) : Nat → V := (List.range n).foldl (fun b i => upd b i (src i)) dst

/-- `Accessor::sync_in` (accessor.hpp l.291, 419-422, 583-587) -/
def bkIn (k : Bk) (s : S V) : S V := if !k.direct && k.inn then { s with buf := copyLoop k.n s.blk s.buf } else s

/-- `Accessor::sync_out` (accessor.hpp l.292, 423-426, 588-592) -/
def bkOut (k : Bk) (s : S V) : S V :=
  if !k.direct && k.out && (!k.tests || s.dirty) then { s with blk := copyLoop k.n s.buf s.blk } else s

/-- what `ptr()` points to (l.299, 432, 600-601) -/
def view (k : Bk) (s : S V) : Nat → V := if k.direct then s.blk else s.buf

/-- storing a value through `ptr()`; the non-const member of the copying accessor marks the buffer (l.432) -/
def put (k : Bk) (o : Nat) (x : V) (s : S V) : S V :=
  if k.direct then { s with blk := upd s.blk o x } else { s with buf := upd s.buf o x, dirty := true }

/-! ### `Persistent_data` -/

/-- `sync_` (persistent.hpp l.66) and the accessor -/
structure Pd where
  inn : Bool
  out : Bool
  bk : Bk

/-- `typedef Accessor<B, L, dda::in> backend_type` (persistent.hpp l.26): the policy of the accessor is always `in` -/
def persistent (inn out direct tests : Bool) (n : Nat) : Pd := ⟨inn, out, ⟨direct, tests, true, false, n⟩⟩

/-- the constructor (persistent.hpp l.41-48): constructing the accessor synchronises (accessor.hpp l.406-413, 574-579) -/
def construct (p : Pd) (blk buf : Nat → V) : S V := bkIn p.bk ⟨blk, buf, false⟩

/-- `sync_in()` (persistent.hpp l.51) -/
def syncIn (p : Pd) (s : S V) : S V := if p.inn then bkIn p.bk s else s

/-- `sync_out()` (persistent.hpp l.52) -/
def syncOut (p : Pd) (s : S V) : S V := if p.out then bkOut p.bk s else s

/-- the destructor (persistent.hpp l.50): only the accessor's does something (accessor.hpp l.414-417, 581) -/
def destroy (p : Pd) (s : S V) : S V := bkOut p.bk s

/-- what is done with a `Persistent_data` during its life -/
inductive Op (V : Type) where
  | syncIn | syncOut
  /-- `*(ptr() + off) = x` -/
  | write (off : Nat) (x : V)
  /-- `block.put(i, x)` -/
  | blkPut (i : Nat) (x : V)

def step (p : Pd) (s : S V) : Op V → S V
  | .syncIn => syncIn p s
  | .syncOut => syncOut p s
  | .write o x => put p.bk o x s
  | .blkPut i x => { s with blk := upd s.blk i x }

def run (p : Pd) (s : S V) (ops : List (Op V)) : S V := ops.foldl (step p) s

/-! ### Assignment of vectors (assign_block_vector.hpp) -/

/-- `recv(comm_, proc, ptr + offset, size)` (l.566-569): the values of the message from the offset on -/
def recvData (k : Bk) : Nat → List V → S V → S V
  | _, [], s => s
  | o, x :: xs, s => recvData k (o + 1) xs (put k o x s)

/-- `exec_recv_list` (l.546-572) -/
def execRecv (p : Pd) (s : S V) (ms : List (Msg V)) : S V :=
  ms.foldl (fun s m => syncOut p (recvData p.bk m.off m.data (syncIn p s))) s

/-- `exec_copy_list` (l.578-611): elements which this process holds itself are stored in the block -/
def execCopy (s : S V) (l : List (Nat × V)) : S V := l.foldl (fun s q => { s with blk := upd s.blk q.1 q.2 }) s

/-- what one process does with its part of the destination: constructor (`dst_dda_(dst_.local().block(), dda::out)`, l.155; `build_recv_list`, l.392,
453), any number of executions (l.175-184), destructor -/
def assign (direct tests : Bool) (n : Nat) (blk buf : Nat → V) (rounds : List (List (Nat × V) × List (Msg V))) : Nat → V :=
  let p := persistent false true direct tests n
  let s := syncOut p (syncIn p (construct p blk buf))
  (destroy p (rounds.foldl (fun s r => execRecv p (execCopy s r.1) r.2) s)).blk

/-- one round of `exec_send_list` (l.533-537) -/
def sendStep (p : Pd) (s : S V) : S V := syncOut p (syncIn p s)

/-- the source: `src_dda_(src_.local().block(), dda::in)` (l.154) -/
def source (direct tests : Bool) (n : Nat) : Pd := persistent true false direct tests n

/-- `size` elements from `ptr() + off` -/
def sent (p : Pd) (s : S V) (off size : Nat) : List V := (List.range size).map fun k => view p.bk s (off + k)

/-- `adjust_layout_packing<dense, raw>` of the local block (l.57-61): the layout asked for -/
def request (d : Acc.Ly) : Acc.Rq := ⟨d.dim, some d.order, .dense, d.fmt⟩

/-! ### Processors that hold a subblock -/

/-- `vector_iterator` (vector_iterator.hpp l.16-67): its own view and an index.  `id` is the address of the view's block. -/
structure VIt where
  id : Nat
  vals : List Nat
  idx : Nat
deriving DecidableEq, Repr

/-- `operator++()` (l.27) -/
def VIt.inc (i : VIt) : VIt := { i with idx := toIdx (i.idx + 1) }
/-- `operator--()` (l.28) -/
def VIt.dec (i : VIt) : VIt := { i with idx := toIdx (i.idx - 1) }
/-- `operator+=(int)`, `operator+(int)` (l.29, 48-53) -/
def VIt.add (i : VIt) (dx : Int) : VIt := { i with idx := toIdx (i.idx + dx) }
/-- `operator-=(int)`, `operator-(int)` (l.30, 54-59) -/
def VIt.sub (i : VIt) (dx : Int) : VIt := { i with idx := toIdx (i.idx - dx) }
/-- `operator==` (l.36-37): `&(view_.block()) == &(view_.block()) && idx_ == rhs.idx_`, both addresses are those of the left operand -/
def VIt.eq (a b : VIt) : Bool := a.id == a.id && a.idx == b.idx
/-- `operator!=` (l.39-40) -/
def VIt.ne (a b : VIt) : Bool := a.id != a.id || a.idx != b.idx
/-- `operator-(vector_iterator)` (l.45-46): a `size_t` converted to `int` -/
def VIt.diff (a b : VIt) : Int := Int.bmod (toIdx ((a.idx : Int) - b.idx)) (2 ^ 32)
/-- `operator*` (l.61-62); outside of the vector nothing is defined -/
def VIt.deref (i : VIt) : Option Nat := i.vals[i.idx]?
/-- `operator++(int)` and `operator--(int)` (l.31-34) return a reference to a local variable: the value of the expression is not defined -/
def VIt.postInc (_ : VIt) : Option VIt := none

/-- `Replicated_map::processor_begin(sb)` (replicated_map.hpp l.128-132): the processor set is copied into a new vector (vector.hpp l.174-176),
whose block is at `id` -/
def procBegin (id : Nat) (pset : List Nat) : VIt := ⟨id, pset, 0⟩
/-- `Replicated_map::processor_end(sb)` (replicated_map.hpp l.134-138) -/
def procEnd (id : Nat) (pset : List Nat) : VIt := ⟨id, pset, pset.length⟩

inductive Ans where
  | yes | no
  /-- reading outside of the vector -/
  | undefined
  /-- more turns of the loop than given -/
  | more
deriving DecidableEq, Repr

/-- `processor_has_block` (map_traits.hpp l.63-75); `processor_end` is called, and copies the set, in each turn: its block is at `id k` -/
def hasBlock (pset : List Nat) (id : Nat → Nat) (proc : Nat) : (fuel k : Nat) → VIt → Ans
  | 0, _, _ => .more
  | fuel + 1, k, i =>
    if i.ne (procEnd (id k) pset) then
      match i.deref with
      | none => .undefined
      | some q => if q = proc then .yes else hasBlock pset id proc fuel (k + 1) i.inc
    else .no

end Verif.Pdd
