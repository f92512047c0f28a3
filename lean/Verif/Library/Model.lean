import Mathlib.Logic.Function.Basic
/-!
Initialisation and finalisation of the library: /repo/src/ovxx/library.cpp (constructor and destructor of `library`, the object held by `vsipl`),
with `allocator::initialize`, `finalize` (/repo/src/ovxx/allocator.cpp l.23-32) and `mpi::initialize`, `finalize` (/repo/src/ovxx/mpi/service.cpp
l.33-67).

`OVXX_ENABLE_THREADING` is on; MPI is a parameter.  Each line that reads or writes shared data is one step, so that threads interleave between them.
Simplified: the counters are natural numbers (they are `unsigned int`); the global parts (clock, OpenCL, C-VSIPL, FFTW threads) are one; OpenMP
(l.95-105, 114-122) is left out; MPI is not initialised by the application itself.  `none`: undefined behaviour, that is, the MPI buffer is
deleted twice or `MPI_Finalize` is called twice.
-/
namespace Verif.Lib

/-- where a thread is in `initialize` or `finalize` -/
inductive PC | idle | i2 | i3 | i4 | f2 | f3 | f4
deriving DecidableEq, Repr

/-- `buffer` of service.cpp l.23 -/
inductive MBuf | null | live | dangling
deriving DecidableEq, Repr

structure St where
  /-- `global_count` -/
  g : Nat
  /-- `thread_local_count` -/
  tl : Nat → Nat
  pc : Nat → PC
  /-- set-ups and tear-downs of the global parts so far -/
  ups : Nat
  downs : Nat
  /-- the thread's `allocator::default_` is set -/
  alloc : Nat → Bool
  /-- the thread's MPI communicator is set -/
  comm : Nat → Bool
  buf : MBuf

def start : St := ⟨0, fun _ => 0, fun _ => .idle, 0, 0, fun _ => false, fun _ => false, .null⟩

/-- l.53-58: the constructor enters `initialize` -/
def initCall (s : St) (t : Nat) : St := { s with g := s.g + 1, pc := Function.update s.pc t .i2 }

/-- l.123-128: the destructor enters `finalize` -/
def finCall (s : St) (t : Nat) : St := { s with g := s.g - 1, pc := Function.update s.pc t .f2 }

/-- the next step of a thread -/
def step (mpi : Bool) (s : St) (t : Nat) : Option St :=
  match s.pc t with
  | .idle => some s
  -- l.59
  | .i2 => some { s with tl := Function.update s.tl t (s.tl t + 1), pc := Function.update s.pc t (if s.tl t = 0 then .i3 else .idle) }
  -- l.61-87
  | .i3 => some { s with ups := if s.g = 1 then s.ups + 1 else s.ups, pc := Function.update s.pc t .i4 }
  -- l.88-94
  | .i4 => some { s with
      alloc := if s.tl t = 1 then Function.update s.alloc t true else s.alloc
      comm := if s.tl t = 1 ∧ mpi then Function.update s.comm t true else s.comm
      buf := if s.tl t = 1 ∧ mpi ∧ s.buf = .null then .live else s.buf
      pc := Function.update s.pc t .idle }
  -- l.129
  | .f2 => some { s with tl := Function.update s.tl t (s.tl t - 1), pc := Function.update s.pc t .f3 }
  -- l.130-136
  | .f3 =>
    let s := { s with pc := Function.update s.pc t .f4 }
    if s.tl t = 0 ∧ mpi then
      let s := { s with comm := Function.update s.comm t false, alloc := Function.update s.alloc t false }
      if s.g = 0 then if s.buf = .live then some { s with buf := .dangling } else none else some s
    else some s
  -- l.137-145
  | .f4 => some { s with downs := if s.g = 0 then s.downs + 1 else s.downs, pc := Function.update s.pc t .idle }

/-- steps of thread `t` until it is out of `initialize` or `finalize` -/
def finish (mpi : Bool) (t : Nat) : Nat → St → Option St
  | 0, s => some s
  | n + 1, s => (step mpi s t).bind (finish mpi t n)

/-- a constructor call that is not interrupted -/
def init (mpi : Bool) (s : St) (t : Nat) : Option St := finish mpi t 3 (initCall s t)

/-- a destructor call that is not interrupted -/
def fin (mpi : Bool) (s : St) (t : Nat) : Option St := finish mpi t 3 (finCall s t)

end Verif.Lib
