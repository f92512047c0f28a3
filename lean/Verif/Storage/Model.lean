import Mathlib.Logic.Function.Basic
/-!
Model of user storage and host storage: `/repo/src/ovxx/storage/{traits,user,host,manager}.hpp`, for a build without OpenCL
(`Verif.Coherence` models the device copies).

Memory consists of blocks of cells; a cell holds one scalar, `complex<T>` takes two consecutive cells.  Reading or writing through a null
pointer, outside a live block, freeing what is not the start of a live block, a failed precondition and `assert(0)` all give `none`.
Allocation never fails.  `sp` says that the format is `split_complex`/`split_format`; `array` and `interleaved` have the same cells.
An element is the list of its `w` scalars: `w` is 1 for a real and 2 for a complex value type.
-/
namespace Verif.Stor

structure Ptr where
  blk : Nat
  off : Nat
deriving DecidableEq, Repr

/-- `size b` is the size of the block `b` if it is live; `next` is the next block to be allocated -/
structure Heap (R : Type) where
  size : Nat → Option Nat
  val : Nat → Nat → R
  next : Nat

variable {R : Type}

def Heap.load (h : Heap R) (p : Option Ptr) : Option R :=
  p.bind fun p => (h.size p.blk).bind fun n => if p.off < n then some (h.val p.blk p.off) else none

def Heap.store (h : Heap R) (p : Option Ptr) (x : R) : Option (Heap R) :=
  p.bind fun p => (h.size p.blk).bind fun n =>
    if p.off < n then some { h with val := fun b k => if b = p.blk ∧ k = p.off then x else h.val b k } else none

/-- `allocator_->allocate`; the contents are whatever `val` says -/
def Heap.alloc (h : Heap R) (n : Nat) : Heap R × Ptr := ({ h with size := Function.update h.size h.next (some n), next := h.next + 1 }, ⟨h.next, 0⟩)

/-- `allocator_->deallocate`; a null pointer is accepted (aligned_array.hpp l.54, `free`) -/
def Heap.free (h : Heap R) (p : Option Ptr) : Option (Heap R) :=
  match p with
  | none => some h
  | some p => if p.off = 0 ∧ (h.size p.blk).isSome then some { h with size := Function.update h.size p.blk none } else none

/-- the union `data_` (user.hpp l.216-222), and `ptr_type` of the storage classes: `fst` is `a`, `i` or `s.first` -/
structure Data where
  fst : Option Ptr
  snd : Option Ptr
deriving DecidableEq, Repr

def Data.null : Data := ⟨none, none⟩

/-- the cell of component `c` of element `i`: `data_.a[i]`, `data_.i[2*i+c]`, `data_.s.first[i]`, `data_.s.second[i]`
(user.hpp l.60-61, 136-163; traits.hpp l.43-44, 68-71, 94-97) -/
def cell (w : Nat) (sp : Bool) (d : Data) (i c : Nat) : Option Ptr :=
  if sp then (if c = 0 then d.fst else d.snd).map fun p => ⟨p.blk, p.off + i⟩
  else d.fst.map fun p => ⟨p.blk, p.off + (w * i + c)⟩

/-- `get(i)` -/
def getE (h : Heap R) (w : Nat) (sp : Bool) (d : Data) (i : Nat) : Option (List R) :=
  (List.range w).mapM fun c => h.load (cell w sp d i c)

/-- `put(i, v)` -/
def putE (h : Heap R) (w : Nat) (sp : Bool) (d : Data) (i : Nat) (v : List R) : Option (Heap R) :=
  (List.range w).foldlM (fun h c => v[c]?.bind fun x => h.store (cell w sp d i c) x) h

/-- `user_storage_type` (traits.hpp l.17-23) -/
inductive UFmt | none | array | split | inter
deriving DecidableEq, Repr

def UFmt.isSplit : UFmt → Bool
  | .split => true
  | _ => false

/-- `storage_traits::is_compatible` (traits.hpp l.50-51, 76-77, 98-99) -/
def compatible (sp : Bool) (f : UFmt) : Bool := if sp then f == .split else f == .array || f == .inter

/-- `storage_manager` (manager.hpp l.368-374) with its `user_storage` and `host_storage`; `w` and `sp` are fixed by its type -/
structure Mgr where
  w : Nat
  sp : Bool
  ufmt : UFmt
  udata : Data
  useUser : Bool
  size : Nat
  hdata : Data
  own : Bool
  admitted : Bool
deriving DecidableEq, Repr

structure World (R : Type) where
  h : Heap R
  m : Mgr

/-- `host_storage::allocate` (host.hpp l.59-66, 139-143, 225-232) -/
def allocate (s : World R) : World R :=
  if s.m.own ∧ s.m.hdata.fst = none then
    if s.m.sp then
      let (h, p) := s.h.alloc s.m.size
      let (h, q) := h.alloc s.m.size
      ⟨h, { s.m with hdata := ⟨some p, some q⟩ }⟩
    else
      let (h, p) := s.h.alloc (s.m.w * s.m.size)
      ⟨h, { s.m with hdata := ⟨some p, none⟩ }⟩
  else s

/-- `host_storage::deallocate` (l.67-72, 144-148, 233-238) -/
def deallocate (s : World R) : Option (World R) := do
  let h ← if s.m.sp then s.h.free s.m.hdata.snd else some s.h
  let h ← h.free s.m.hdata.fst
  some ⟨h, { s.m with hdata := .null }⟩

/-- `resize(size)` (l.73-85, 149-161, 239-251) -/
def resizeOwn (s : World R) (size : Nat) : Option (World R) :=
  if s.m.own then
    if s.m.size = size then some s
    else (deallocate s).map fun s => allocate ⟨s.h, { s.m with size := size, own := true }⟩
  else some (allocate ⟨s.h, { s.m with hdata := .null, size := size, own := true }⟩)

/-- `resize(size, buffer)` (l.86-96, 162-172, 252-262) -/
def resize (s : World R) (size : Nat) (buffer : Data) : Option (World R) :=
  if buffer.fst ≠ none then
    (if s.m.own then deallocate s else some s).map fun s => ⟨s.h, { s.m with hdata := buffer, size := size, own := false }⟩
  else resizeOwn s size

/-- `user_storage_.as<F>()`, called only when the formats are compatible (user.hpp l.46-49, 86-92, 177-213) -/
def asData (m : Mgr) : Data := if m.useUser then m.udata else .null

/-- constructors without user storage (manager.hpp l.46-63) -/
def construct (h : Heap R) (w : Nat) (sp : Bool) (size : Nat) (alloc : Bool) : World R :=
  let s : World R := ⟨h, ⟨w, sp, .none, .null, false, size, .null, true, true⟩⟩
  if alloc then allocate s else s

/-- user-storage constructors (manager.hpp l.65-142; user.hpp l.33-34, 76-88; host.hpp l.43-51): a null pointer gives `no_user_format` -/
def constructUser (h : Heap R) (w : Nat) (sp : Bool) (size : Nat) (f : UFmt) (d : Data) : World R :=
  let f := if d.fst ≠ none then f else .none
  let use := compatible sp f
  let buffer := if use then d else .null
  let m : Mgr := ⟨w, sp, f, d, use, size, buffer, buffer.fst = none, false⟩
  allocate ⟨h, m⟩

/-- `rebind(ptr, size)` (manager.hpp l.150-188; user.hpp l.52-57, 103-138) -/
def rebind (s : World R) (f : UFmt) (d : Data) (size : Nat) : Option (World R) :=
  if s.m.admitted then none
  else
    let m := { s.m with ufmt := f, udata := d, useUser := compatible s.m.sp f }
    resize ⟨s.h, m⟩ size (asData m)

/-- `user_storage_.get(i)` (user.hpp l.60, 140-150) -/
def userGet (s : World R) (i : Nat) : Option (List R) := getE s.h s.m.w s.m.ufmt.isSplit s.m.udata i

/-- `user_storage_.put(i, v)` (user.hpp l.61, 151-167) -/
def userPut (s : World R) (i : Nat) (v : List R) : Option (World R) :=
  (putE s.h s.m.w s.m.ufmt.isSplit s.m.udata i v).map fun h => ⟨h, s.m⟩

/-- `host_storage_.get(i)` -/
def hostGet (s : World R) (i : Nat) : Option (List R) := getE s.h s.m.w s.m.sp s.m.hdata i

/-- `host_storage_.put(i, v)` -/
def hostPut (s : World R) (i : Nat) (v : List R) : Option (World R) := (putE s.h s.m.w s.m.sp s.m.hdata i v).map fun h => ⟨h, s.m⟩

/-- `no_user_format` is rejected by the complex `user_storage` only (user.hpp l.142, 153); for real types the null pointer is used.
Both are `none`. -/
def checkUser (s : World R) : Option Unit := if s.m.ufmt = .none then none else some ()

/-- `admit(update)` (manager.hpp l.208-214) -/
def admit (s : World R) (update : Bool) : Option (World R) := do
  let s' ← if !s.m.admitted && !s.m.useUser && update then
      (List.range s.m.size).foldlM (fun s i => do
        checkUser s
        hostPut s i (← userGet s i)) s
    else some s
  some ⟨s'.h, { s'.m with admitted := true }⟩

/-- `release(update)` (manager.hpp l.215-222) -/
def release (s : World R) (update : Bool) : Option (World R) :=
  if !s.m.admitted then some s
  else do
    let s' ← if !s.m.useUser && update then
        (List.range s.m.size).foldlM (fun s i => do
          checkUser s
          userPut s i (← hostGet s i)) s
      else some s
    some ⟨s'.h, { s'.m with admitted := false }⟩

/-- `find(ptr)` and the pointer returned by `release(update, ptr)` (manager.hpp l.190-207, 223-243) for the bound format -/
def find (s : World R) : Data := s.m.udata

/-- `get(i)` (manager.hpp l.297-301 with `sync` l.347) -/
def get (s : World R) (i : Nat) : Option (List R × World R) := let s := allocate s; (hostGet s i).map (·, s)

/-- `put(i, v)` (manager.hpp l.302-307) -/
def put (s : World R) (i : Nat) (v : List R) : Option (World R) := hostPut (allocate s) i v

/-- destructor of `host_storage` (host.hpp l.54-58): the heap afterwards -/
def destroy (s : World R) : Option (Heap R) := if s.m.own then (deallocate s).map (·.h) else some s.h

end Verif.Stor
