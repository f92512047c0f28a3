import Mathlib.Logic.Function.Basic
/-!
Reference-counted objects and the handles on them: /repo/src/ovxx/refcounted.hpp.

An object may own handles (its members), which are destroyed with it.  Raw references are those counted but not held by a `refcounted_ptr`: the one
that `new` leaves (the count starts at 1, l.26) and those made by calling `increment_count` directly.

Simplified: one thread (the atomic operations of l.30-54 are single steps); handles have names; objects are never re-created at an address.
`none`: undefined behaviour, that is, a null pointer, a destroyed object or a destroyed handle is accessed.
-/
namespace Verif.Ref

/-- `count_` is an `unsigned int` (l.59-61) -/
def wrap32 (n : Nat) : Nat := n % 4294967296

/-- a `refcounted_ptr`; `owner` is the object it is a member of -/
structure Handle where
  id : Nat
  owner : Option Nat
  ptr : Option Nat
deriving DecidableEq, Repr

structure St where
  /-- the count of a living object -/
  obj : Nat → Option Nat
  next : Nat
  hs : List Handle
  /-- raw references; ghost: the program does not look at it -/
  raw : Nat → Nat

def init : St := ⟨fun _ => none, 0, [], fun _ => 0⟩

/-- `increment_count` (l.28-38) -/
def inc (s : St) (p : Nat) : Option St := (s.obj p).map fun c => { s with obj := Function.update s.obj p (some (wrap32 (c + 1))) }

/-- `decrement_count` (l.39-55) for each object of the list: when the count was 1 the object is deleted, which destroys the handles it owns, that is,
decrements the counts of their objects.  The fuel bounds the number of decrements. -/
def decs : Nat → St → List Nat → Option St
  | _, s, [] => some s
  | 0, _, _ :: _ => none
  | k + 1, s, p :: ps =>
    match s.obj p with
    | none => none
    | some c =>
      if c = 1 then
        decs k { s with obj := Function.update s.obj p none, hs := s.hs.filter fun h => h.owner ≠ some p }
          ((s.hs.filter fun h => h.owner = some p).filterMap (·.ptr) ++ ps)
      else decs k { s with obj := Function.update s.obj p (some (wrap32 (c + 4294967295))) } ps

def dec (s : St) (p : Nat) : Option St := decs (s.hs.length + 1) s [p]

def lookup (s : St) (h : Nat) : Option Handle := s.hs.find? fun x => x.id = h

def Handle.set (h : Nat) (p : Option Nat) (x : Handle) : Handle := if x.id = h then { x with ptr := p } else x

/-- write `ptr_` of an existing handle -/
def setPtr (s : St) (h : Nat) (p : Option Nat) : Option St :=
  (lookup s h).map fun _ => { s with hs := s.hs.map (Handle.set h p) }

/-- `if (ptr_) ptr_->decrement_count();` (l.81, 90) in handle `h`, whose pointer is about to be overwritten; the old pointer would be used again only
if this handle were destroyed by it, and then the writing is undefined -/
def drop (s : St) (h : Nat) (p : Option Nat) : Option St :=
  match p with
  | none => some s
  | some p => dec { s with hs := s.hs.map (Handle.set h none) } p

/-- `new T`: an object with count 1 (l.26) -/
def new (s : St) : St := { s with obj := Function.update s.obj s.next (some 1), next := s.next + 1, raw := Function.update s.raw s.next 1 }

/-- `refcounted_ptr(p, add_ref)`, `refcounted_ptr()` (l.68-70) -/
def mk (s : St) (h : Nat) (owner p : Option Nat) (addRef : Bool) : Option St :=
  let s := { s with hs := ⟨h, owner, p⟩ :: s.hs }
  match p with
  | none => some s
  | some p => if addRef then inc s p else some { s with raw := Function.update s.raw p (s.raw p - 1) }

/-- copy constructor (l.71-72) -/
def copy (s : St) (h : Nat) (owner : Option Nat) (h' : Nat) : Option St :=
  (lookup s h').bind fun x => mk s h owner x.ptr true

/-- destructor (l.74) of a handle that is not a member of an object -/
def destroy (s : St) (h : Nat) : Option St :=
  (lookup s h).bind fun x =>
    let s := { s with hs := s.hs.filter fun y => y.id ≠ h }
    match x.ptr with
    | none => some s
    | some p => dec s p

/-- `operator=` (l.76-86) -/
def assign (s : St) (h h' : Nat) : Option St :=
  (lookup s h).bind fun x => (lookup s h').bind fun y =>
    if x.ptr = y.ptr then some s
    else
      (drop s h x.ptr).bind fun s =>
      -- `ptr_ = from.ptr_;`
      (lookup s h').bind fun y => (setPtr s h y.ptr).bind fun s =>
      -- `ptr_->increment_count();`
      y.ptr.bind fun q => inc s q

/-- `reset(p, increment)` (l.88-94) -/
def reset (s : St) (h : Nat) (p : Option Nat) (increment : Bool) : Option St :=
  (lookup s h).bind fun x =>
    (drop s h x.ptr).bind fun s =>
    (setPtr s h p).bind fun s =>
    match p with
    | none => if increment then none else some s
    | some p => if increment then inc s p else some { s with raw := Function.update s.raw p (s.raw p - 1) }

/-- `increment_count` and `decrement_count` called directly -/
def rawInc (s : St) (p : Nat) : Option St := inc { s with raw := Function.update s.raw p (s.raw p + 1) } p

def rawDec (s : St) (p : Nat) : Option St := dec { s with raw := Function.update s.raw p (s.raw p - 1) } p

/-- use of the object (`operator*`, `operator->`, l.96-97) -/
def use (s : St) (h : Nat) : Option Nat := (lookup s h).bind fun x => x.ptr.bind fun p => (s.obj p).map fun _ => p

end Verif.Ref
