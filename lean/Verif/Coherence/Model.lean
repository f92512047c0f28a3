import Mathlib.Logic.Function.Basic
/-!
Host and device copies of a block's data: `storage_manager` with `OVXX_HAVE_OPENCL` (/repo/src/ovxx/storage/manager.hpp), `storage`
(/repo/src/ovxx/storage/storage.hpp l.36-38) and `opencl::storage` (/repo/src/ovxx/opencl/storage.hpp l.46-98).

Simplified: memory is an array of elements per side, so formats and byte sizes are left out (they are the subject of `Verif.Storage`); newly
allocated memory holds arbitrary elements, namely whatever the array held before; a pointer, buffer or reference obtained from the block is used at
once, before the next access through the block.  `none`: a copy from or to memory that is not allocated, or an index outside of the block.
-/
namespace Verif.Coh

variable {V : Type}

structure Mgr (V : Type) where
  n : Nat
  host : Nat → V
  hostAlloc : Bool
  /-- `host_storage_.is_valid()` -/
  hv : Bool
  dev : Nat → V
  devAlloc : Bool
  /-- `opencl_storage_.is_valid()` -/
  dv : Bool
  /-- the user's buffer, when it is not itself the host storage -/
  user : Nat → V
  /-- `use_user_storage_`: the host storage is the user's buffer -/
  useUser : Bool
  admitted : Bool

/-- constructors without user storage (manager.hpp l.46-63): the device storage is not allocated; both are valid (storage.hpp l.31, opencl/storage.hpp
l.57-58) -/
def construct (n : Nat) (alloc : Bool) (host dev user : Nat → V) : Mgr V := ⟨n, host, alloc, true, dev, false, true, user, false, true⟩

/-- constructors with user storage (manager.hpp l.65-142): the device storage is allocated, and valid -/
def constructUser (n : Nat) (compatible : Bool) (host dev user : Nat → V) : Mgr V :=
  ⟨n, if compatible then user else host, true, true, dev, true, true, user, compatible, false⟩

/-- `copy_to_host`, `copy_from_host` (opencl/storage.hpp l.34-43, 85-92): all elements -/
def copyAll (n : Nat) (src dst : Nat → V) : Nat → V := fun i => if i < n then src i else dst i

/-- `sync(0)` (manager.hpp l.326-338) -/
def syncHost (s : Mgr V) : Option (Mgr V) :=
  let s := { s with hostAlloc := true }
  if !s.hv then
    if s.devAlloc then some { s with host := copyAll s.n s.dev s.host, hv := true } else none
  else some s

/-- `sync(1)` (manager.hpp l.339-350) -/
def syncDev (s : Mgr V) : Option (Mgr V) :=
  let s := { s with devAlloc := true }
  if !s.dv then
    if s.hostAlloc then some { s with dev := copyAll s.n s.host s.dev, dv := true } else none
  else some s

/-- `invalidate(where)` (manager.hpp l.355-369) -/
def invalidate (s : Mgr V) (host : Bool) : Mgr V := if host then { s with hv := false } else { s with dv := false }

/-- an element of a buffer -/
def elem (n : Nat) (a : Nat → V) (i : Nat) : Option V := if i < n then some (a i) else none

def setElem (n : Nat) (a : Nat → V) (i : Nat) (v : V) : Option (Nat → V) := if i < n then some (Function.update a i v) else none

/-- `get(i)` (manager.hpp l.297-301), a read through the constant pointer (l.268-274) or through `at(i) const` (l.313-317) -/
def get (s : Mgr V) (i : Nat) : Option (V × Mgr V) :=
  (syncHost s).bind fun s => (elem s.n s.host i).map (·, s)

/-- `put(i, v)` (manager.hpp l.302-307) -/
def put (s : Mgr V) (i : Nat) (v : V) : Option (Mgr V) :=
  (syncHost s).bind fun s => (setElem s.n s.host i v).map fun h => invalidate { s with host := h } false

/-- a write through the pointer from `ptr()` (manager.hpp l.249-256) -/
def ptrWrite (s : Mgr V) (i : Nat) (v : V) : Option (Mgr V) :=
  ((syncHost s).map (invalidate · false)).bind fun s => (setElem s.n s.host i v).map fun h => { s with host := h }

/-- a write through the reference from `at(i)` (manager.hpp l.308-312) -/
def refWrite (s : Mgr V) (i : Nat) (v : V) : Option (Mgr V) :=
  (syncHost s).bind fun s => (setElem s.n s.host i v).map fun h => { s with host := h }

/-- a kernel reading the buffer from `buffer()` (manager.hpp l.283-294, both overloads) -/
def devRead (s : Mgr V) (i : Nat) : Option (V × Mgr V) :=
  ((syncDev s).map (invalidate · true)).bind fun s => (elem s.n s.dev i).map (·, s)

/-- a kernel writing the buffer from `buffer()` -/
def devWrite (s : Mgr V) (i : Nat) (v : V) : Option (Mgr V) :=
  ((syncDev s).map (invalidate · true)).bind fun s => (setElem s.n s.dev i v).map fun d => { s with dev := d }

/-- `admit(update)` (manager.hpp l.208-214) -/
def admit (s : Mgr V) (update : Bool) : Mgr V :=
  let s := if !s.admitted && !s.useUser && update then { s with host := copyAll s.n s.user s.host } else s
  { s with admitted := true }

/-- `release(update)` (manager.hpp l.215-222) -/
def release (s : Mgr V) (update : Bool) : Mgr V :=
  if !s.admitted then s
  else
    let s := if !s.useUser && update then { s with user := copyAll s.n s.host s.user } else s
    { s with admitted := false }

/-- the user reads the buffer -/
def userRead (s : Mgr V) (i : Nat) : Option V := elem s.n (if s.useUser then s.host else s.user) i

/-- the user writes the buffer -/
def userWrite (s : Mgr V) (i : Nat) (v : V) : Option (Mgr V) :=
  if s.useUser then (setElem s.n s.host i v).map fun h => { s with host := h }
  else (setElem s.n s.user i v).map fun u => { s with user := u }

end Verif.Coh
