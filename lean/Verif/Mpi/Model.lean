import Verif.Domain.Model
import Verif.Mpi.Spec
/-!
Model of the MPI classes (`/repo/src/ovxx/mpi`): groups, communicators, the default communicator, tasks (`/repo/share/examples/parallel/task.cpp`), reductions and broadcasts of a communicator, and what maps
(`/repo/src/vsip/map.hpp`) and `processor_set` (`/repo/src/vsip/impl/parallel.hpp`) keep of the default communicator.

Simplified: the MPI library is as its standard says, reports errors to its caller (service.cpp l.47) and gives MPI_GROUP_EMPTY for every group without processes; a process is its rank in MPI_COMM_WORLD; numbers
of processes fit `int`.  A communicator carries a name that all its processes know.  Freeing groups is left out; a communicator of a task is freed when the default communicator is set back (nobody keeps a copy
longer).  After an exception the program is not followed further.
-/
namespace Verif.Mpi
open Verif

/-- outcome of a function -/
inductive Res (A : Type) where
  | ok (a : A)
  /-- undefined behaviour -/
  | ub
  /-- exception -/
  | throws
  /-- exception from a function declared not to throw -/
  | terminate
  deriving DecidableEq

def Res.bind {A B : Type} : Res A → (A → Res B) → Res B
  | .ok a, f => f a
  | .ub, _ => .ub
  | .throws, _ => .throws
  | .terminate, _ => .terminate

/-- a function declared VSIP_NOTHROW -/
def Res.noThrow {A : Type} : Res A → Res A
  | .throws => .terminate
  | r => r

/-! ### Groups -/

/-- MPI_UNDEFINED (Open MPI and MPICH) -/
def undefinedRank : Int := -32766

/-- `no_rank` (vsip/support.hpp l.144) -/
def noRank : Nat := W₆₄ - 1

/-- `Group` (group.hpp l.26-68): the processes of `*impl_`, `none` without `impl_` -/
structure Group where
  impl : Option (List Nat)
  deriving DecidableEq

/-- `operator MPI_Group` (group.hpp l.33): no processes for MPI_GROUP_EMPTY -/
def Group.mem (g : Group) : List Nat := g.impl.getD []

/-- the constructor (group.cpp l.29-36) from the result of an MPI function -/
def Group.of (l : List Nat) : Group := ⟨if l = [] then none else some l⟩

/-- MPI_Group_incl -/
def mpiIncl (l : List Nat) (rs : List Int) : Res (List Nat) :=
  if Ranks l.length rs then .ok (rs.filterMap fun r => l[r.toNat]?) else .throws

/-- MPI_Group_excl -/
def mpiExcl (l : List Nat) (rs : List Int) : Res (List Nat) :=
  if Ranks l.length rs then .ok ((l.zipIdx.filter fun x => ¬(x.2 : Int) ∈ rs).map (·.1)) else .throws

/-- `include` (group.hpp l.70-87); `gen`: the function for any iterators -/
def incl (gen : Bool) (g : Group) (rs : List Int) : Res Group :=
  if gen ∧ rs = [] then .ok ⟨none⟩ else (mpiIncl g.mem rs).bind fun l => .ok (Group.of l)

/-- `exclude` (group.hpp l.89-106) -/
def excl (gen : Bool) (g : Group) (rs : List Int) : Res Group :=
  if gen ∧ rs = [] then .ok ⟨none⟩ else (mpiExcl g.mem rs).bind fun l => .ok (Group.of l)

/-- `operator|` (group.hpp l.135-140), MPI_Group_union -/
def gunion (a b : Group) : Group := Group.of (a.mem ++ b.mem.filter fun p => ¬p ∈ a.mem)

/-- `operator&` (group.hpp l.142-147), MPI_Group_intersection -/
def ginter (a b : Group) : Group := Group.of (a.mem.filter fun p => p ∈ b.mem)

/-- `operator-` (group.hpp l.149-154), MPI_Group_difference -/
def gdiff (a b : Group) : Group := Group.of (a.mem.filter fun p => ¬p ∈ b.mem)

/-- a program that computes a group -/
def eval (n : Nat) : GExpr → Res Group
  | .all => .ok (Group.of (List.range n))
  | .incl gen e rs => (eval n e).bind fun g => incl gen g rs
  | .excl gen e rs => (eval n e).bind fun g => excl gen g rs
  | .union a b => (eval n a).bind fun g => (eval n b).bind fun h => .ok (gunion g h)
  | .inter a b => (eval n a).bind fun g => (eval n b).bind fun h => .ok (ginter g h)
  | .diff a b => (eval n a).bind fun g => (eval n b).bind fun h => .ok (gdiff g h)

/-- rank of a process among processes -/
def mpiRank (l : List Nat) (p : Nat) : Int := if p ∈ l then (l.idxOf p : Int) else undefinedRank

/-- `rank` (group.hpp l.36-42) in process `me` -/
def Group.rank (me : Nat) (g : Group) : Nat :=
  match g.impl with
  | none => noRank
  | some l => if mpiRank l me = undefinedRank then noRank else toIdx (mpiRank l me)

/-- `size` (group.hpp l.44-50) -/
def Group.size (g : Group) : Nat :=
  match g.impl with
  | none => 0
  | some l => l.length

/-- `translate_ranks` (group.hpp l.108-133) to a range of `int` -/
def translate (g h : Group) (rs : List Int) : Res (List Int) :=
  if rs = [] then .ok []
  else if ∀ r ∈ rs, 0 ≤ r ∧ r < (g.mem.length : Int) then .ok (rs.map fun r => mpiRank h.mem (g.mem.getD r.toNat 0)) else .throws

/-! ### Communicators -/

/-- MPI_Comm: name and processes -/
structure Comm where
  name : List Nat
  mem : List Nat
  deriving DecidableEq

/-- MPI_COMM_WORLD -/
def world (n : Nat) : Comm := ⟨[], List.range n⟩

/-- `Communicator` (communicator.hpp l.27-114) -/
structure Communicator where
  impl : Option Comm
  pvec : List Nat
  deriving DecidableEq

/-- the default constructor (communicator.cpp l.28-31) -/
def Communicator.dflt (n : Nat) : Communicator := ⟨some (world n), []⟩

/-- the constructor from MPI_Comm (communicator.cpp l.33-61), and the end of that from a subgroup (l.66-77) -/
def Communicator.of : Option Comm → Communicator
  | none => ⟨none, []⟩
  | some c => ⟨some c, (List.range c.mem.length)⟩

/-- `rank` (communicator.hpp l.50-55) in process `me`: MPI_COMM_NULL is an error -/
def Communicator.rank (me : Nat) (c : Communicator) : Res Nat :=
  match c.impl with
  | none => .throws
  | some c => .ok (c.mem.idxOf me)

/-- `size` (communicator.hpp l.57-62) -/
def Communicator.size (c : Communicator) : Res Nat :=
  match c.impl with
  | none => .throws
  | some c => .ok c.mem.length

/-- `group` (communicator.hpp l.65-70) -/
def Communicator.group (c : Communicator) : Res Group :=
  match c.impl with
  | none => .throws
  | some c => .ok (Group.of c.mem)

/-- the constructor from a subgroup (communicator.cpp l.63-77) in process `me`; MPI_Comm_create needs a communicator and a group of some of its processes; `name`: of the new one -/
def Communicator.sub (me : Nat) (c : Communicator) (g : Group) (name : List Nat) : Res Communicator :=
  match c.impl with
  | none => .throws
  | some c => if ∀ p ∈ g.mem, p ∈ c.mem then .ok (Communicator.of (if me ∈ g.mem then some ⟨name, g.mem⟩ else none)) else .throws

/-- `operator==` (communicator.hpp l.116-122): MPI_IDENT -/
def Communicator.eq (a b : Communicator) : Res Bool :=
  match a.impl, b.impl with
  | some a, some b => .ok (a.name = b.name)
  | _, _ => .throws

/-- `split(color, key)` (communicator.hpp l.73-78) in process `me`: `color` and `key` of each process; color `none` is MPI_UNDEFINED; among equal keys the order of the old ranks stays -/
def Communicator.split (me : Nat) (c : Communicator) (color : Nat → Option Nat) (key : Nat → Int) (name : List Nat) : Res Communicator :=
  match c.impl with
  | none => .throws
  | some c => match color me with
    | none => .ok (Communicator.of none)
    | some k => .ok (Communicator.of (some ⟨name ++ [k], (c.mem.filter fun p => color p = some k).mergeSort fun p q => key p ≤ key q⟩))

/-- `split(color)` (communicator.hpp l.79): the key is the rank -/
def Communicator.split1 (me : Nat) (c : Communicator) (color : Nat → Option Nat) (name : List Nat) : Res Communicator :=
  match c.impl with
  | none => .throws
  | some m => c.split me color (fun p => (m.mem.idxOf p : Int)) name

/-- `num_processors` (service.cpp l.87-90) -/
def numProcessors (d : Communicator) : Res Nat := d.size.noThrow

/-- `local_processor` (service.cpp l.92-95) -/
def localProcessor (me : Nat) (d : Communicator) : Res Nat := (d.rank me).noThrow

/-- the loop of `local_processor_index` (service.cpp l.102-104) from index `i`: the end of the function without result is undefined (without assertions) -/
def findProc (proc : Nat) : List Nat → Nat → Res Nat
  | [], _ => .ub
  | q :: l, i => if q = proc then .ok i else findProc proc l (i + 1)

/-- `local_processor_index` (service.cpp l.97-105) -/
def localProcessorIndex (me : Nat) (d : Communicator) : Res Nat := (localProcessor me d).bind fun proc => findProc proc d.pvec 0

/-! ### Tasks -/

/-- collective call -/
inductive Ev where
  | call (k : Nat)
  /-- MPI_Comm_create, with the new communicator -/
  | create (c : Comm)
  /-- MPI_Comm_free -/
  | free
  deriving DecidableEq

/-- a collective call on a communicator -/
abbrev Event := Comm × Ev

/-- a process: its default communicator (service.cpp l.16-18) and the collective calls made -/
structure St where
  dflt : Communicator
  trace : List Event
  deriving DecidableEq

/-- number of calls made on the communicator -/
def count (c : Comm) (t : List Event) : Nat := (t.filter fun e => e.1 = c).length

/-- `set_default_communicator` (service.cpp l.76-81): the old one is the result -/
def setDefault (s : St) (c : Communicator) : St × Communicator := ({ s with dflt := c }, s.dflt)

/-- the group of a task: `group.include` or `group.exclude` with `int *` (task.cpp l.99, 106) on the group of the present default communicator (l.92) -/
def taskGroup (d : Communicator) : Sel → Res Group
  | .these rs => d.group.bind fun g => incl false g rs
  | .others rs => d.group.bind fun g => excl false g rs

/-- `Task(id, rank, g)` (task.cpp l.55-60): state in the task, and `orig_comm_` -/
def taskBegin (me : Nat) (s : St) (g : Group) : Res (St × Communicator) :=
  match s.dflt.impl with
  | none => .throws
  | some c =>
    let name := c.name ++ [count c s.trace]
    (s.dflt.sub me g name).bind fun n => .ok (setDefault { s with trace := s.trace ++ [(c, .create ⟨name, g.mem⟩)] } n)

/-- `~Task` (task.cpp l.62): the communicator of the task is the result of `set_default_communicator`, a temporary, and is freed (communicator.cpp l.16-26) -/
def taskEnd (s : St) (orig : Communicator) : St :=
  let r := setDefault s orig
  match r.2.impl with
  | none => r.1
  | some c => { r.1 with trace := r.1.trace ++ [(c, .free)] }

/-- process `me` runs the program -/
def run (me : Nat) : Prog → St → Res St
  | .skip, s => .ok s
  | .seq a b, s => (run me a s).bind (run me b)
  | .call k, s => match s.dflt.impl with
    | none => .throws
    | some c => .ok { s with trace := s.trace ++ [(c, .call k)] }
  | .task sl b, s => (taskGroup s.dflt sl).bind fun g => (taskBegin me s g).bind fun r => (run me b r.1).bind fun s => .ok (taskEnd s r.2)
  | .guarded b, s => match s.dflt.impl with
    | none => .ok s
    | some _ => run me b s

/-- after `mpi::initialize` (service.cpp l.52) -/
def start (n : Nat) : St := ⟨Communicator.of (some (world n)), []⟩

/-- `main` of task.cpp (l.80-109) with `n` processes; the calls 1 and 2 stand for the work of the tasks (l.66-72); `return -1` (l.87-91) is `throws` here -/
def taskMain (me n : Nat) : Res St :=
  if n < 2 then .throws
  else run me (.seq (.task (.these [0, 1]) (.guarded (.call 1))) (.task (.others [0, 1]) (.guarded (.call 2)))) (start n)

/-! ### What is kept of the default communicator -/

/-- `Map::Data` (map.hpp l.98-144): ranks copied from the communicator; `comm` is a reference to the default communicator, so it is not part of the data -/
structure MapData where
  pvec : List Nat
  deriving DecidableEq

/-- the constructor of `Map::Data` (map.hpp l.102-119) with `k` subblocks when the default communicator is `d` -/
def MapData.mk' (d : Communicator) (k : Nat) : MapData := ⟨d.pvec.take k⟩

/-- the process a message for subblock `i` goes to when the default communicator is `d` (`impl_comm()`, map.hpp l.231, and `pvec`, l.282) -/
def MapData.target (m : MapData) (d : Communicator) (i : Nat) : Option Nat := do
  let r ← m.pvec[i]?
  let c ← d.impl
  c.mem[r]?

/-- `operator==` (map.hpp l.1095-1118) of maps of the same distributions when the default communicator is `d`: both references are to it -/
def MapData.eq (a b : MapData) (d : Communicator) : Res Bool := (d.eq d).bind fun x => .ok (x && decide (a.pvec = b.pvec))

/-- `processor_set` (vsip/impl/parallel.hpp l.20-39): `cache` is `pset_block_`; the new cache and the result -/
def processorSet (cache : Option (List Nat)) (d : Communicator) : Option (List Nat) × List Nat :=
  match cache with
  | none => (some d.pvec, d.pvec)
  | some l => (some l, l)

/-- successive calls of `processor_set` with these default communicators -/
def processorSets : Option (List Nat) → List Communicator → List (List Nat)
  | _, [] => []
  | c, d :: l => (processorSet c d).2 :: processorSets (processorSet c d).1 l

/-! ### Reductions and broadcasts -/

/-- element types of datatype.hpp l.31-105 -/
inductive Ty where
  | char | short | int | long | schar | uchar | ushort | uint | ulong | float | double | ldouble | complex | bool
  deriving DecidableEq

/-- MPI datatypes -/
inductive MTy where
  | char | short | int | long | schar | uchar | ushort | uint | ulong | float | double | ldouble | byte
  /-- made by MPI_Type_contiguous -/
  | derived
  deriving DecidableEq

/-- `Datatype<T>::value()` (datatype.hpp l.31-105) -/
def datatype : Ty → MTy
  | .char => .char
  | .short => .short
  | .int => .int
  | .long => .long
  | .schar => .char
  | .uchar => .uchar
  | .ushort => .ushort
  | .uint => .uint
  | .ulong => .ulong
  | .float => .float
  | .double => .double
  | .ldouble => .ldouble
  | .complex => .derived
  | .bool => .byte

/-- MPI operations -/
inductive MOp where
  | land | band | lor | bor | sum | min | max
  deriving DecidableEq

/-- `reduction_type` (reductions/types.hpp l.15-32) -/
inductive Rdx where
  | allTrue | allTrueBool | anyTrue | anyTrueBool | mean | meanMagsq | sum | sumBool | sumSq | maxMagsq | maxMag | minMagsq | minMag | max | min
  deriving DecidableEq

/-- the switch of `allreduce` (communicator.hpp l.199-209): `none` for OVXX_UNREACHABLE -/
def mpiOp : Rdx → Option MOp
  | .allTrue => some .land
  | .allTrueBool => some .band
  | .anyTrue => some .lor
  | .anyTrueBool => some .bor
  | .sum => some .sum
  | .min => some .min
  | .max => some .max
  | _ => none

/-- C integer types of MPI: MPI_CHAR is for characters and not one of them -/
def MTy.integer : MTy → Bool
  | .short | .int | .long | .schar | .uchar | .ushort | .uint | .ulong => true
  | _ => false

def MTy.floating : MTy → Bool
  | .float | .double | .ldouble => true
  | _ => false

/-- which operations the standard allows on which datatypes -/
def allowed : MOp → MTy → Bool
  | .max, t | .min, t | .sum, t => t.integer || t.floating
  | .land, t | .lor, t => t.integer
  | .band, t | .bor, t => t.integer || t = .byte

/-- `reduction_supported` (service.hpp l.58-73) -/
def supported : Rdx → Ty → Bool
  | .sum, .int | .sum, .float | .allTrue, .int | .allTrueBool, .bool | .anyTrue, .int | .anyTrueBool, .bool => true
  | _, _ => false

/-- operations on 32-bit integers (`int`; `bool` as 0 and 1) -/
def MOp.apply : MOp → BitVec 32 → BitVec 32 → BitVec 32
  | .land, a, b => if a ≠ 0 ∧ b ≠ 0 then 1 else 0
  | .lor, a, b => if a ≠ 0 ∨ b ≠ 0 then 1 else 0
  | .band, a, b => a &&& b
  | .bor, a, b => a ||| b
  | .sum, a, b => a + b
  | .min, a, b => if a.toInt ≤ b.toInt then a else b
  | .max, a, b => if a.toInt ≤ b.toInt then b else a

/-- `allreduce` (communicator.hpp l.191-214) of the values `v :: vs` of the processes -/
def allreduce (r : Rdx) (t : Ty) (v : BitVec 32) (vs : List (BitVec 32)) : Res (BitVec 32) :=
  match mpiOp r with
  | none => .ub
  | some op => if allowed op (datatype t) then .ok (vs.foldl op.apply v) else .throws

/-- the reductions of a view (reductions/functors.hpp l.28-102, 165-188): start value, one step -/
def initial : Rdx → BitVec 32
  | .allTrue => ~~~0
  | .allTrueBool => 1
  | _ => 0

def update : Rdx → BitVec 32 → BitVec 32 → BitVec 32
  | .allTrue, a, b => a &&& b
  | .allTrueBool, a, b => if a ≠ 0 ∧ b ≠ 0 then 1 else 0
  | .anyTrue, a, b => a ||| b
  | .anyTrueBool, a, b => if a ≠ 0 ∨ b ≠ 0 then 1 else 0
  | _, a, b => a + b

/-- reduction of all values by one process -/
def reduceView (r : Rdx) (vs : List (BitVec 32)) : BitVec 32 := vs.foldl (update r) (initial r)

/-- `length_type` to `int` -/
def toInt32 (n : Nat) : Int := if n % 2 ^ 32 < 2 ^ 31 then ((n % 2 ^ 32 : Nat) : Int) else ((n % 2 ^ 32 : Nat) : Int) - 2 ^ 32

/-- `broadcast` (communicator.hpp l.182-188): `d p i` is element `i` of process `p`; the processes have ranks in `c` -/
def broadcast {V : Type} (c : Comm) (root : Nat) (d : Nat → Nat → V) (size : Nat) : Res (Nat → Nat → V) :=
  match c.mem[root]? with
  | none => .throws
  | some r => if toInt32 size < 0 then .throws else .ok fun p i => if p ∈ c.mem ∧ (i : Int) < toInt32 size then d r i else d p i

end Verif.Mpi
