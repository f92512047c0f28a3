import Verif.Domain.Model
/-!
Model of the classes around OpenCL (`/repo/src/ovxx/opencl`): handles with reference counts, the error callback of a context, information texts, access to blocks, and the Python functions
(`/repo/python/src/opencl/cl.cpp`).

Simplified: the OpenCL runtime is as its standard says: every object has a reference count and dies when it becomes 0; a call on a dead object is undefined behaviour, a call on a null handle returns an error,
which the macro OVXX_OPENCL_CHECK_RESULT (exception.hpp l.70-75) turns into an exception; creating an object succeeds.  An exception that leaves a destructor ends the program (C++11).  Only one class
of handles at a time; devices are those that are counted (sub-devices: root devices have no count).  Elements are abstract, memory is a list of elements.  What the callback throws on a living object is not modelled.
-/
namespace Verif.Ocl
open Verif

/-- outcome of a function -/
inductive Res (A : Type) where
  | ok (a : A)
  /-- undefined behaviour -/
  | ub
  /-- exception -/
  | throws
  /-- exception from a destructor -/
  | terminate
  deriving DecidableEq

def Res.bind {A B : Type} : Res A → (A → Res B) → Res B
  | .ok a, f => f a
  | .ub, _ => .ub
  | .throws, _ => .throws
  | .terminate, _ => .terminate

/-! ### Handles -/

/-- how a class of handles treats its handle -/
structure Cls where
  /-- the copy constructor retains -/
  copyRetains : Bool
  /-- the destructor tests for a null handle -/
  dtorChecks : Bool
  /-- the assignment has a return statement -/
  assignReturns : Bool
  deriving DecidableEq

/-- context.hpp l.55-69 -/
def context : Cls := ⟨true, true, true⟩
/-- command_queue.hpp l.37-52 -/
def queue : Cls := ⟨true, true, true⟩
/-- memory_object.hpp l.37-55, buffer.hpp l.32-34: the assignment of a buffer ends without `return` -/
def buffer : Cls := ⟨true, true, false⟩
/-- kernel.hpp l.32-47 -/
def kernel : Cls := ⟨true, false, true⟩
/-- program.hpp l.33-48 -/
def program : Cls := ⟨true, false, true⟩
/-- device.hpp l.61-81 (CL_VERSION_1_2) -/
def device : Cls := ⟨false, false, true⟩

/-- objects and variables -/
structure St where
  /-- reference count of each object -/
  cnt : Nat → Nat
  /-- references held by the rest of the program through the C interface -/
  ext : Nat → Nat
  /-- the variable whose address was given with the callback when the object was created (context.hpp l.34, 41, 51) -/
  closure : Nat → Option Nat
  /-- number of objects created -/
  next : Nat
  /-- variables in order of construction: `none` once destroyed, `some none` with a null handle -/
  vars : List (Option (Option Nat))

/-- the call `clRetain…` -/
def retain (s : St) (o : Nat) : Res St := if s.cnt o = 0 then .ub else .ok { s with cnt := fun x => if x = o then s.cnt x + 1 else s.cnt x }

/-- the call `clRelease…` -/
def release (s : St) (o : Nat) : Res St := if s.cnt o = 0 then .ub else .ok { s with cnt := fun x => if x = o then s.cnt x - 1 else s.cnt x }

def retain? (s : St) : Option Nat → Res St
  | none => .ok s
  | some o => retain s o

def release? (s : St) : Option Nat → Res St
  | none => .ok s
  | some o => release s o

inductive Op where
  /-- default constructor -/
  | dflt
  /-- constructor from a C handle -/
  | adopt (o : Nat) (ret : Bool)
  /-- constructor that creates an object (context.hpp l.29-54, command_queue.hpp l.29-36, buffer.hpp l.25-31, kernel.hpp l.92-98, program.hpp l.50-59) -/
  | create
  | copy (v : Nat)
  | assign (v w : Nat)
  | destroy (v : Nat)
  /-- a call that needs the object of the variable -/
  | use (v : Nat)
  /-- the rest of the program creates, retains or releases an object -/
  | rawCreate
  | rawRetain (o : Nat)
  | rawRelease (o : Nat)
  /-- the runtime reports an error of an object through its callback (context.hpp l.87-95) -/
  | report (o : Nat)
  deriving DecidableEq

/-- a new object -/
def newObj (s : St) (c : Option Nat) : St :=
  { s with cnt := (fun x => if x = s.next then 1 else s.cnt x), closure := (fun x => if x = s.next then c else s.closure x), next := s.next + 1 }

/-- one operation on variables of class `c` -/
def step (c : Cls) (s : St) : Op → Res St
  | .dflt => .ok { s with vars := s.vars ++ [some none] }
  | .adopt o ret =>
    if ret then (retain s o).bind fun s => .ok { s with vars := s.vars ++ [some (some o)] }
    else .ok { s with vars := s.vars ++ [some (some o)], ext := fun x => if x = o then s.ext x - 1 else s.ext x }
  | .create => .ok { newObj s (some s.vars.length) with vars := s.vars ++ [some (some s.next)] }
  | .copy v => match s.vars[v]? with
    | some (some h) => (if c.copyRetains then retain? s h else .ok s).bind fun s => .ok { s with vars := s.vars ++ [some h] }
    | _ => .ub
  | .assign v w => match s.vars[v]?, s.vars[w]? with
    | some (some a), some (some b) =>
      let r : Res St := if v = w then .ok s else (release? s a).bind fun s => (retain? { s with vars := s.vars.set v (some b) } b)
      if c.assignReturns then r else .ub
    | _, _ => .ub
  | .destroy v => match s.vars[v]? with
    | some (some h) => match h with
      | some o => (release s o).bind fun s => .ok { s with vars := s.vars.set v none }
      | none => if c.dtorChecks then .ok { s with vars := s.vars.set v none } else .terminate
    | _ => .ub
  | .use v => match s.vars[v]? with
    | some (some (some o)) => if s.cnt o = 0 then .ub else .ok s
    | some (some none) => .throws
    | _ => .ub
  | .rawCreate => .ok { newObj s none with ext := fun x => if x = s.next then 1 else s.ext x }
  | .rawRetain o => (retain s o).bind fun s => .ok { s with ext := fun x => if x = o then s.ext x + 1 else s.ext x }
  | .rawRelease o => (release s o).bind fun s => .ok { s with ext := fun x => if x = o then s.ext x - 1 else s.ext x }
  | .report o => match s.closure o with
    | none => .ok s
    | some v => match s.vars[v]? with
      | some (some _) => .ok s
      | _ => .ub

def run (c : Cls) : St → List Op → Res St
  | s, [] => .ok s
  | s, op :: l => (step c s op).bind fun s => run c s l

/-- before the program -/
def init : St := ⟨fun _ => 0, fun _ => 0, fun _ => none, 0, []⟩

/-- `default_context` (context.cpp l.20-29) and `default_queue` (command_queue.cpp l.15-25): variable 0 is the static one, constructed at the start; if it is null, an object is created in a temporary variable
and assigned; a copy is returned -/
def defaultGet (c : Cls) (s : St) : Res St :=
  match s.vars[0]? with
  | some (some none) => run c s [.create, .assign 0 s.vars.length, .destroy s.vars.length, .copy 0]
  | some (some (some _)) => run c s [.copy 0]
  | _ => .ub

/-- `storage::allocate` (storage.hpp l.63-67): `data_ = detail::allocate<T>(size_)`, variable `v` is `data_` -/
def allocate (s : St) (v : Nat) : Res St :=
  match s.vars[v]? with
  | some (some none) => run buffer s [.create, .assign v s.vars.length, .destroy s.vars.length]
  | some (some (some _)) => .ok s
  | _ => .ub

/-! ### Information -/

/-- `info<std::string>` (device.hpp l.29-35, platform.hpp l.74-79): the text with its final null character has to fit in 1024 characters -/
def info (text : List Char) : Res (List Char) := if text.length + 1 ≤ 1024 then .ok text else .throws

/-- the words that `std::istream_iterator<std::string>` reads; `w` is the word begun -/
def words : List Char → List Char → List (List Char)
  | [], w => if w = [] then [] else [w]
  | c :: l, w => if c.isWhitespace then (if w = [] then words l [] else w :: words l []) else words l (w ++ [c])

/-- `extensions` (device.hpp l.94-100, platform.hpp l.47-53) -/
def extensions (text : List Char) : Res (List (List Char)) := (info text).bind fun t => .ok (words t [])

/-! ### Access to blocks -/

/-- memory while an `opencl::Data` object for a block without OpenCL buffer exists (dda.hpp l.78-112): the block, the copy of the host, the device buffer -/
structure Acc (V : Type) where
  blk : V
  tmp : V
  dev : V

/-- the sync policy: `in`, `out`; and whether `dda::Data` accesses the block directly -/
structure Pol where
  inn : Bool
  out : Bool
  direct : Bool

/-- `data_.ptr()`: the memory of the block itself, or the copy -/
def host {V : Type} (p : Pol) (a : Acc V) : V := if p.direct then a.blk else a.tmp

/-- `sync_in` (l.93-97) -/
def syncIn {V : Type} (p : Pol) (a : Acc V) : Acc V := if p.inn then { a with dev := host p a } else a

/-- `sync_out` (l.98-102) -/
def syncOut {V : Type} (p : Pol) (a : Acc V) : Acc V := if p.out then (if p.direct then { a with blk := a.dev } else { a with tmp := a.dev }) else a

/-- constructor (l.87-91): `data_` copies the block in if it has to; memory is `junk` before -/
def construct {V : Type} (p : Pol) (blk junk : V) : Acc V := syncIn p ⟨blk, if p.inn then blk else junk, junk⟩

/-- destructor (l.92): `sync_out`, then the destructor of `data_` copies back -/
def destruct {V : Type} (p : Pol) (a : Acc V) : V :=
  let a := syncOut p a
  if p.out ∧ ¬p.direct then a.tmp else a.blk

/-- what a program does with the object -/
inductive AOp (V : Type) where
  /-- a kernel changes the buffer -/
  | kernel (g : V → V)
  /-- the block is changed through its own interface -/
  | write (g : V → V)
  | syncIn
  | syncOut

def accStep {V : Type} (p : Pol) (a : Acc V) : AOp V → Acc V
  | .kernel g => { a with dev := g a.dev }
  | .write g => { a with blk := g a.blk }
  | .syncIn => syncIn p a
  | .syncOut => syncOut p a

/-- `storage_size` with an OpenCL buffer (l.72) and without (l.107): `n` elements of `w` bytes -/
def storageSize (hasBuffer : Bool) (n w : Nat) : Nat := if hasBuffer then n * w else n

/-- strides of `Data` for a matrix of `r` rows and `c` columns (l.71, 106): of the block, or of the requested layout; `row`: the last dimension has stride 1 -/
def strides (hasBuffer : Bool) (blockRow reqRow : Bool) (r c : Nat) : Nat × Nat :=
  let row := if hasBuffer then blockRow else reqRow
  if row then (c, 1) else (1, r)

/-! ### Python -/

/-- `run_kernel` (cl.cpp l.53-75): the arguments set, highest first -/
def runKernel {B : Type} (bufs : List B) : Res (List (Nat × B)) :=
  match bufs with
  | [a, b, c, d] => .ok [(3, d), (2, c), (1, b), (0, a)]
  | [a, b, c] => .ok [(2, c), (1, b), (0, a)]
  | [a, b] => .ok [(1, b), (0, a)]
  | [a] => .ok [(0, a)]
  | _ => .throws

/-- `write_data` with a list (cl.cpp l.89-96): `&*vf.begin()` of an empty vector is undefined; too much for the buffer is an error of `clEnqueueWriteBuffer` -/
def writeData {A : Type} (vals buf : List A) : Res (List A) :=
  if vals = [] then .ub else if buf.length < vals.length then .throws else .ok (vals ++ buf.drop vals.length)

/-- `read_data` (cl.cpp l.100-119) -/
def readData {A : Type} (buf : List A) (n : Nat) : Res (List A) :=
  if n = 0 then .ub else if buf.length < n then .throws else .ok (buf.take n)

end Verif.Ocl
