import Mathlib.Data.Nat.Notation
/-!
Model of the data types of the MPI copy benchmark, `/repo/benchmarks/mpi/copy.cpp`: the two classes `Send`, one side of them (sender and receiver make
the same steps, with members of their own).

MPI is modelled as far as data types are concerned: a type has a number and a count of floats; it is live from its creation until it is freed.  Creating a
type from one that is not live, freeing or transferring one that is not live, using a member that was not set, and negative counts give `none`.  A type stays
usable when the type it was made of is freed.
-/
namespace Verif.MpiSend

/-- an `MPI_Datatype`: the basic type `MPI_FLOAT` or a type that was made -/
inductive Handle
  | float
  | made (id : ℕ)
  deriving DecidableEq

/-- live types with their counts of floats, the number of the next type, and the members `send0_datatype_`, `send1_datatype_`, `send_datatype_` and
`send_length_` (l.299-310), `none` as long as they are not set -/
structure St where
  live : List (ℕ × ℕ)
  next : ℕ
  h0 : Option Handle
  h1 : Option Handle
  dt : Option Handle
  len : ℕ

/-- before the constructor -/
def St.init : St := ⟨[], 0, none, none, none, 0⟩

/-- the conversion of a size to `int`, the type of MPI's counts -/
def narrow (n : ℕ) : Int := ((n : Int) + 2147483648) % 4294967296 - 2147483648

/-- floats in a type -/
def St.floats (s : St) : Handle → Option ℕ
  | .float => some 1
  | .made i => s.live.lookup i

/-- `MPI_Type_vector(size, 1, 1, MPI_FLOAT, &send0_datatype_)`, `MPI_Type_commit`, and the two members set (l.115-126, 205-216) -/
def St.vector (s : St) (n : ℕ) : Option St :=
  if narrow n < 0 then none
  else some { s with live := (s.next, (narrow n).toNat) :: s.live, next := s.next + 1, h0 := some (.made s.next), dt := some (.made s.next), len := 1 }

/-- `MPI_Type_create_struct` of one `send0_datatype_`, `MPI_Type_commit`, and the two members set (l.127-137, 217-227) -/
def St.struct (s : St) : Option St := do
  let c ← s.floats (← s.h0)
  some { s with live := (s.next, c) :: s.live, next := s.next + 1, h1 := some (.made s.next), dt := some (.made s.next), len := 1 }

/-- `MPI_Type_free`; the basic types cannot be freed -/
def St.free (s : St) (h : Option Handle) : Option St :=
  match h with
  | some (.made i) => if (s.live.lookup i).isSome then some { s with live := s.live.filter fun p => p.1 ≠ i } else none
  | _ => none

/-- `MPI_Isend` or `MPI_Recv` with `send_length_` and `send_datatype_` (l.229-232, 262-264): the floats transferred -/
def St.transfer (s : St) : Option ℕ := do some (s.len * (← s.floats (← s.dt)))

/-- the constructor of the first class (l.105-138); a negative count is an error here already, in the code at the first transfer -/
def ctor (mode n : ℕ) (s : St) : Option St := do
  let s ← if mode = 0 then (if narrow n < 0 then none else some { s with dt := some .float, len := (narrow n).toNat }) else some s
  let s ← if mode = 1 ∨ mode = 2 ∨ mode = 3 then s.vector n else some s
  if mode = 2 then s.struct else some s

/-- `operator()` of the first class (l.195-289): the floats transferred -/
def call (mode n : ℕ) (s : St) : Option (ℕ × St) := do
  let s ← if mode = 4 ∨ mode = 5 then s.vector n else some s
  let s ← if mode = 3 ∨ mode = 5 then s.struct else some s
  let t ← s.transfer
  let s ← if mode = 4 ∨ mode = 5 then s.free s.h0 else some s
  let s ← if mode = 3 ∨ mode = 5 then s.free s.h1 else some s
  some (t, s)

/-- the destructor of both classes (l.176-193, 452-471) -/
def dtor (mode : ℕ) (s : St) : Option St := do
  let s ← if mode = 1 ∨ mode = 2 ∨ mode = 3 then s.free s.h0 else some s
  if mode = 2 then s.free s.h1 else some s

/-- `k` calls -/
def calls (mode n : ℕ) : ℕ → St → Option (List ℕ × St)
  | 0, s => some ([], s)
  | k + 1, s => do
    let (t, s) ← call mode n s
    let (ts, s) ← calls mode n k s
    some (t :: ts, s)

/-- a benchmark with the first class (l.557-570): the floats of each transfer, and the types left -/
def isend (mode n k : ℕ) : Option (List ℕ × List (ℕ × ℕ)) := do
  let s ← ctor mode n St.init
  let (ts, s) ← calls mode n k s
  let s ← dtor mode s
  some (ts, s.live)

/-- a benchmark with the second class, whose request is made by the constructor and started by each call (l.342-495), the
request itself left out; modes above 2 match no branch in this class, as 6 matches none in the first -/
def persistent (mode n k : ℕ) : Option (List ℕ × List (ℕ × ℕ)) := do
  let m := if mode ≤ 2 then mode else 6
  let s ← ctor m n St.init
  let t ← s.transfer
  let s ← dtor m s
  some (List.replicate k t, s.live)

end Verif.MpiSend
