import Verif.Domain.Model
/-!
Model of the corner-turn programs, `/repo/benchmarks/mpi/alltoall.cpp`: a matrix distributed by rows becomes a matrix distributed by columns,
by six methods on top of MPI.

Simplified: displacements count elements, not bytes, and every element is one `MPI_FLOAT` (all callers use `float`); lower bounds of MPI types are 0;
MPI itself is modelled by its standard: a message is matched with the receive of the same order between the same two processes, a send is complete at the
latest when its receive has been started (and may not be complete before), the data of a receive are stored when it is waited for.  `MPI_Waitall` waits for the
requests one after the other.  The contents of the source do not change during a call.
-/
namespace Verif.Turn
open Verif

variable {V : Type}

/-! ### MPI -/

/-- an MPI type: displacements of its elements in order, and its extent -/
structure DType where
  disp : List Nat
  ext : Nat

/-- `MPI_FLOAT` -/
def float : DType := ⟨[0], 1⟩

/-- `MPI_Type_vector(n, len, stride, MPI_FLOAT)` -/
def vector (n len stride : Nat) : DType :=
  ⟨(List.range n).flatMap fun i => (List.range len).map fun j => i * stride + j, (n - 1) * stride + len⟩

/-- `MPI_Type_create_struct` of one type and an upper bound (`MPI_UB`) -/
def withUB (t : DType) (ub : Nat) : DType := ⟨t.disp, ub⟩

/-- `MPI_Type_create_hvector(n, 1, stride, t)` -/
def hvector (n stride : Nat) (t : DType) : DType :=
  ⟨(List.range n).flatMap fun i => t.disp.map fun d => i * stride + d, (n - 1) * stride + t.ext⟩

/-- where the elements of `count` values of a type are, from `off` on -/
def places (off count : Nat) (t : DType) : List Nat :=
  (List.range count).flatMap fun k => t.disp.map fun d => off + k * t.ext + d

/-- the elements of a buffer that are sent; `none` outside the buffer -/
def pack (m : List V) (off count : Nat) (t : DType) : Option (List V) :=
  (places off count t).mapM fun o => m[o]?

/-- store one element; `none` outside the buffer -/
def store (m : List V) (o : Nat) (v : V) : Option (List V) := if o < m.length then some (m.set o v) else none

/-- store elements one after the other -/
def stores (m : List V) (ps : List (Nat × V)) : Option (List V) := ps.foldlM (fun m p => store m p.1 p.2) m

/-- a message is stored in the buffer of its receive; it must have the size the receive expects -/
def unpack (m : List V) (off count : Nat) (t : DType) (data : List V) : Option (List V) :=
  if (places off count t).length = data.length then stores m ((places off count t).zip data) else none

/-- the steps of a process: start a send or receive in a request slot, wait for a slot, copy within the process -/
inductive Ins (V : Type) where
  | isend (slot to_ off count : Nat) (t : DType)
  | irecv (slot frm off count : Nat) (t : DType)
  | waitS (slot : Nat)
  | waitR (slot : Nat)
  | copy (f : List V → List V → Option (List V))

/-- number of messages to `d` that have been started -/
def sentTo (d : Nat) (l : List (Ins V)) : Nat :=
  l.countP fun | .isend _ d' _ _ _ => d' == d | _ => false

/-- number of receives from `s` that have been started -/
def recvdFrom (s : Nat) (l : List (Ins V)) : Nat :=
  l.countP fun | .irecv _ s' _ _ _ => s' == s | _ => false

/-- the last send started in a slot: destination and how many went there before -/
def lastSend (slot : Nat) : List (Ins V) → Option (Nat × Nat)
  | [] => none
  | i :: l => match lastSend slot l with
    | some (d, j) => some (d, j + sentTo d [i])
    | none => match i with
      | .isend sl d _ _ _ => if sl = slot then some (d, 0) else none
      | _ => none

/-- a started receive: source, how many were received from there before, buffer -/
structure Rcv where
  frm : Nat
  nth : Nat
  off : Nat
  count : Nat
  t : DType

/-- the last receive started in a slot -/
def lastRecv (slot : Nat) : List (Ins V) → Option Rcv
  | [] => none
  | i :: l => match lastRecv slot l with
    | some r => some { r with nth := r.nth + recvdFrom r.frm [i] }
    | none => match i with
      | .irecv sl s off c t => if sl = slot then some ⟨s, 0, off, c, t⟩ else none
      | _ => none

/-- the `j`-th message started for `d`: buffer -/
def nthSend (d : Nat) : List (Ins V) → Nat → Option (Nat × Nat × DType)
  | [], _ => none
  | .isend _ d' off c t :: l, j => if d' = d then (match j with | 0 => some (off, c, t) | j + 1 => nthSend d l j) else nthSend d l j
  | _ :: l, j => nthSend d l j

/-- the processes: what each has left out, its position in its program and its destination buffer -/
structure Net (V : Type) where
  pc : Nat → Nat
  mem : Nat → List V

inductive Res (V : Type) where
  /-- the process has finished -/
  | done
  /-- it waits -/
  | blocked
  /-- access outside a buffer or wrong size of a message -/
  | bad
  | next (n : Net V)

/-- replace the entry of a process -/
def upd {A : Type} (f : Nat → A) (p : Nat) (a : A) : Nat → A := fun q => if q = p then a else f q

/-- process `p` is past its instruction -/
def Net.adv (n : Net V) (p : Nat) (m : Option (List V)) : Res V :=
  match m with
  | some m => .next ⟨upd n.pc p (n.pc p + 1), upd n.mem p m⟩
  | none => .bad

/-- one step of process `p`; `prog` are the programs, `src` the source buffers -/
def step (prog : Nat → List (Ins V)) (src : Nat → List V) (n : Net V) (p : Nat) : Res V :=
  match (prog p)[n.pc p]? with
  | none => .done
  | some (.isend _ _ _ _ _) => n.adv p (some (n.mem p))
  | some (.irecv _ _ _ _ _) => n.adv p (some (n.mem p))
  | some (.copy f) => n.adv p (f (src p) (n.mem p))
  | some (.waitS slot) => match lastSend slot ((prog p).take (n.pc p)) with
    | none => .bad
    | some (d, j) => if j < recvdFrom p ((prog d).take (n.pc d)) then n.adv p (some (n.mem p)) else .blocked
  | some (.waitR slot) => match lastRecv slot ((prog p).take (n.pc p)) with
    | none => .bad
    | some r => match nthSend p ((prog r.frm).take (n.pc r.frm)) r.nth with
      | none => .blocked
      | some (off, c, t) => n.adv p ((pack (src r.frm) off c t).bind (unpack (n.mem p) r.off r.count r.t))

/-- processes make steps in the given order -/
def run (prog : Nat → List (Ins V)) (src : Nat → List V) : Net V → List Nat → Option (Net V)
  | n, [] => some n
  | n, p :: l => match step prog src n p with
    | .next n => run prog src n l
    | _ => none

/-! ### The programs -/

/-- position in a processor set (alltoall.cpp l.62-72, 1198-1204); `map.subblock(p)` of a block distribution is the same number -/
def rankOf (set : List Nat) (p : Nat) : Option Nat := set.findIdx? (· == p)

/-- type of the elements for one receiver: `nr` rows of `nc` elements, at a distance of the `cols` of the whole matrix; extent `nc` (l.137-148) -/
def srcType (nr nc cols : Nat) : DType := withUB (vector nr nc cols) nc

/-- type of the elements of one sender in the destination, which has `rows` rows in all: by columns (l.154-176), or by rows (l.178-188) -/
def dstType (col : Bool) (nr nc rows : Nat) : DType :=
  if col then hvector nr 1 (withUB (vector nc 1 rows) 1) else vector nr nc nc

/-- first element of sender `i` in the destination (l.667, 677-678, 1287, 1331) -/
def dstOff (col : Bool) (nr nc i : Nat) : Nat := if col then i * nr else i * nr * nc

/-- copy the block a process sends to itself: from column block `sb` of the source to row block `db` of the destination (l.722-740; `transpose`:
assign/copy.hpp l.51-60) -/
def copyBlock (col : Bool) (nr nc rows cols db sb : Nat) (src dst : List V) : Option (List V) :=
  ((List.range nr).flatMap fun i => (List.range nc).map fun c => (i, c)).foldlM (fun (m : List V) ic =>
    (src[sb * nc + (ic.1 * cols + ic.2)]?).bind fun v =>
      store m (if col then db * nr + (ic.1 + ic.2 * rows) else db * nc * nr + (ic.1 * nc + ic.2)) v) dst

/-- the checks of the constructors (l.110-131): `ns` senders, `nd` receivers.  `Impl_alltoall` compares the number of columns of all receivers with the
number of *rows* (l.131) -/
def accepts (rows cols ns nd : Nat) : Bool :=
  decide (1 ≤ ns) && decide (1 ≤ nd) && rows % ns == 0 && cols % nd == 0

def acceptsAlltoall (rows cols ns nd : Nat) : Bool := accepts rows cols ns nd && cols / nd * nd == rows

/-- `MPI_Alltoall` among `n` processes (l.205-210): block `d` of process `s` becomes block `s` of process `d` -/
def alltoall (col : Bool) (n rows cols : Nat) (src : Nat → List V) (d : Nat) (mem : List V) : Option (List V) :=
  let nr := rows / n
  let nc := cols / n
  (List.range n).foldlM (fun m s =>
    (pack (src s) (d * (srcType nr nc cols).ext) 1 (srcType nr nc cols)).bind
      (unpack m (s * (dstType col nr nc rows).ext) 1 (dstType col nr nc rows))) mem

/-- `src_cnts_`, `src_disps_` of process `p` for `q` (l.327-339); `none`: nothing is sent -/
def srcDisp (S D : List Nat) (copyLocal : Bool) (p q : Nat) : Option Nat :=
  if (rankOf S p).isNone || (rankOf D q).isNone || (!copyLocal && q == p) then none else rankOf D q

/-- `dst_cnts_`, `dst_disps_` of process `p` for `q` (l.381-393) -/
def dstDisp (S D : List Nat) (copyLocal : Bool) (p q : Nat) : Option Nat :=
  if (rankOf D p).isNone || (rankOf S q).isNone || (!copyLocal && q == p) then none else rankOf S q

/-- `MPI_Alltoallv` among `np` processes (l.414-424) followed by `test_fixup` (l.428-453), as process `d` sees it -/
def alltoallv (col copyLocal : Bool) (np rows cols : Nat) (S D : List Nat) (src : Nat → List V) (d : Nat) (mem : List V) : Option (List V) :=
  let nr := rows / S.length
  let nc := cols / D.length
  ((List.range np).foldlM (fun m s =>
    match srcDisp S D copyLocal s d, dstDisp S D copyLocal d s with
    | none, none => some m
    | some a, some b => (pack (src s) (a * (srcType nr nc cols).ext) 1 (srcType nr nc cols)).bind
        (unpack m (b * (dstType col nr nc rows).ext) 1 (dstType col nr nc rows))
    | _, _ => none) mem).bind fun m =>
  match copyLocal, rankOf S d, rankOf D d with
  | false, some sr, some dr => copyBlock col nr nc rows cols dr sr (src d) m
  | _, _, _ => some m

/-- `Impl_isend` (l.645-690): `n` processes numbered from 0 -/
def isendProg (col : Bool) (n rows cols : Nat) : List (Ins V) :=
  let nr := rows / n
  let nc := cols / n
  ((List.range n).map fun i => .isend i i (i * nc) 1 (srcType nr nc cols)) ++
  ((List.range n).flatMap fun i => [.irecv i i (dstOff col nr nc i) 1 (dstType col nr nc rows), .waitR i]) ++
  ((List.range n).map fun i => .waitS i)

/-- `Impl_isend_x` of process `rank` (l.843-902) -/
def isendXProg (col : Bool) (n rows cols rank : Nat) : List (Ins V) :=
  let nr := rows / n
  let nc := cols / n
  let others := (List.range n).filter (· != rank)
  (others.map fun i => .isend i i (i * nc) 1 (srcType nr nc cols)) ++
  [.copy (copyBlock col nr nc rows cols rank rank)] ++
  (others.flatMap fun i => [.irecv i i (dstOff col nr nc i) 1 (dstType col nr nc rows), .waitR i]) ++
  (others.map fun i => .waitS i)

/-- `Impl_persistent` (l.1005-1011, 1042-1049, 1061-1069, 1094-1098) -/
def persistentProg (col : Bool) (n rows cols : Nat) : List (Ins V) :=
  let nr := rows / n
  let nc := cols / n
  ((List.range n).map fun i => .isend i i (i * nc) 1 (srcType nr nc cols)) ++
  ((List.range n).map fun i => .irecv (n + i) i (dstOff col nr nc i) 1 (dstType col nr nc rows)) ++
  ((List.range n).map fun i => .waitS i) ++
  ((List.range n).map fun i => .waitR (n + i))

/-- the subblock to which the sender of rank `sr` sends in its `i`-th request (l.1235-1236) -/
def sendSb (phase : Nat) (sr n i : Nat) : Nat := if 0 < phase then (sr + i) % W₆₄ % n else i

/-- the subblock from which the receiver of rank `dr` receives in its `i`-th request; the difference is unsigned (l.1282-1283, 1326) -/
def recvSb (phase : Nat) (dr n i : Nat) : Nat := if 0 < phase then toIdx ((dr : Int) - i) % n else i

/-- count and type of a send or receive of one block (l.1210-1232, 1305-1322) -/
def single (opt : Bool) (nr nc : Nat) (t : DType) : Nat × DType := if opt && nr == 1 then (nc, float) else (1, t)

/-- the sends of process `p`: destination and buffer (l.1206-1245) -/
def sends (opt : Bool) (phase rows cols : Nat) (S D : List Nat) (p : Nat) : List (Nat × Nat × Nat × DType) :=
  let nr := rows / S.length
  let nc := cols / D.length
  match rankOf S p with
  | none => []
  | some sr => ((List.range D.length).map (sendSb phase sr D.length)).filterMap fun sb =>
      let dst := D.getD sb 0
      if dst ≠ p then some (dst, sb * nc, single opt nr nc (srcType nr nc cols)) else none

/-- the receives of process `p`: source and buffer (l.1262-1337) -/
def recvs (col opt : Bool) (phase rows cols : Nat) (S D : List Nat) (p : Nat) : List (Nat × Nat × Nat × DType) :=
  let nr := rows / S.length
  let nc := cols / D.length
  match rankOf D p with
  | none => []
  | some dr => ((List.range S.length).map (recvSb phase dr S.length)).filterMap fun sb =>
      let src := S.getD sb 0
      if src ≠ p then some (src, dstOff col nr nc sb, if col then (1, dstType col nr nc rows) else single opt nr nc (dstType col nr nc rows)) else none

/-- the copy of a process that sends and receives (l.1389-1408, 1418-1437, 1448-1470): the destination block has the rank of the receiver, the source block
the rank of the sender -/
def localCopy (col : Bool) (rows cols : Nat) (S D : List Nat) (p : Nat) : List (Ins V) :=
  match rankOf S p, rankOf D p with
  | some sr, some dr => [.copy (copyBlock col (rows / S.length) (cols / D.length) rows cols dr sr)]
  | _, _ => []

/-- start the `i`-th send -/
def startS (l : List (Nat × Nat × Nat × DType)) (i : Nat) : List (Ins V) :=
  match l[i]? with
  | some (d, off, c, t) => [.isend i d off c t]
  | none => []

/-- start the `i`-th receive -/
def startR (l : List (Nat × Nat × Nat × DType)) (i : Nat) : List (Ins V) :=
  match l[i]? with
  | some (s, off, c, t) => [.irecv i s off c t]
  | none => []

/-- `Impl_persistent_x` of process `p`: `operator()` (l.1375-1443), with `test_fixup` (l.1448-1470) after the last call if local data are not copied by each.
Slots of sends and receives are in two arrays. -/
def persistentX (col opt copyLocal : Bool) (phase rows cols : Nat) (S D : List Nat) (p : Nat) : List (Ins V) :=
  let ss := sends opt phase rows cols S D p
  let rs := recvs col opt phase rows cols S D p
  let cp : List (Ins V) := if copyLocal then localCopy col rows cols S D p else []
  if phase = 2 then
    ((List.range (max ss.length rs.length)).flatMap fun i =>
      startS ss i ++ startR rs i ++ (if i < ss.length then [.waitS i] else []) ++ (if i < rs.length then [.waitR i] else [])) ++ cp
  else
    ((List.range ss.length).flatMap fun i => startS ss i) ++ ((List.range rs.length).flatMap fun i => startR rs i) ++ cp ++
    ((List.range ss.length).map fun i => .waitS i) ++ ((List.range rs.length).map fun i => .waitR i)

/-- `loop` calls, then `test_fixup` (l.1553-1560) -/
def persistentXLoop (col opt copyLocal : Bool) (phase rows cols : Nat) (S D : List Nat) (loop p : Nat) : List (Ins V) :=
  (List.range loop).flatMap (fun _ => persistentX col opt copyLocal phase rows cols S D p) ++
  if copyLocal then [] else localCopy col rows cols S D p

end Verif.Turn
