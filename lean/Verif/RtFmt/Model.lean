import Verif.RtFmt.Spec
/-!
Model of `pointer<complex<T> >`, `const_pointer<complex<T> >` and the casts between them (`/repo/src/ovxx/pointer.hpp`), of
`storage_traits<complex<T>, any_storage_format>` (`/repo/src/ovxx/storage/traits.hpp` l.142-216), of the `host_storage` classes for complex
data (`/repo/src/ovxx/storage/host.hpp`) and of the copies between blocks and such storage (`/repo/src/ovxx/dda/block_copy.hpp` l.63-235,
`/repo/src/ovxx/dda/accessor.hpp` l.641-681).

The preconditions are `assert`s: in a checked build (`chk`) a violated one stops the program, in others it is passed over.
Using a word that was never written is undefined, as is freeing what is not in use or giving the wrong size.
Every block gets an address of its own, also when its size is zero.  Allocation may fail: `plan` says which of the coming requests
succeed.  Not modelled: storage of real data (no format to choose), the byte alignment of blocks, multiplications that overflow.
-/
namespace Verif.Rtf

/-! ### pointer.hpp -/

/-- `pointer<complex<T> >` and `const_pointer<complex<T> >`: the format, and the union of one pointer with a pair (l.90-97) -/
structure Pt where
  fmt : Fmt
  a : Word
  b : Word
deriving DecidableEq, Repr

/-- `pointer()` (l.43, 106) -/
def Pt.default : Pt := ⟨.any, .null, .junk⟩

/-- `pointer(complex<T> *)` (l.44, 107) -/
def Pt.ofArray (p : Word) : Pt := ⟨.array, p, .junk⟩

/-- `pointer(T *)` (l.45, 108) -/
def Pt.ofInter (p : Word) : Pt := ⟨.inter, p, .junk⟩

/-- `pointer(std::pair<T*, T*>)` (l.46-47, 109-110) -/
def Pt.ofSplit (p q : Word) : Pt := ⟨.split, p, q⟩

/-- `pointer(storage_format_type)` (l.48-53, 131-136): of a pair only the first is set -/
def Pt.ofFmt (f : Fmt) : Pt := ⟨f, .null, .junk⟩

/-- `operator bool` (l.55-63, 138-146) -/
def Pt.bool (p : Pt) : Bool := p.a != .null

/-- outcomes: a value, a failed assertion, undefined behaviour -/
inductive Out (α : Type) where
  | ok (x : α)
  | stop
  | ub
deriving DecidableEq, Repr

/-- `OVXX_PRECONDITION`, `assert` -/
def need {α : Type} (chk c : Bool) (x : Out α) : Out α := if c then x else if chk then .stop else x

/-- `as_array`, `as_interleaved` of `pointer` (l.74-83) -/
def Pt.asOne (chk : Bool) (p : Pt) : Out Word := need chk (p.fmt == .array || p.fmt == .inter) (.ok p.a)

/-- `as_split` of `pointer` (l.84-88) -/
def Pt.asPair (chk : Bool) (p : Pt) : Out (Word × Word) := need chk (p.fmt == .split) (.ok (p.a, p.b))

/-- `as_array`, `as_interleaved` of `const_pointer` (l.155-156): nothing is required -/
def Pt.constOne (p : Pt) : Out Word := .ok p.a

/-- `as_split` of `const_pointer` (l.157-158) -/
def Pt.constPair (p : Pt) : Out (Word × Word) := .ok (p.a, p.b)

def Out.map {α β : Type} (x : Out α) (f : α → β) : Out β :=
  match x with
  | .ok x => .ok (f x)
  | .stop => .stop
  | .ub => .ub

/-- `const_pointer(pointer)` (l.111-130) -/
def Pt.toConst (chk : Bool) (p : Pt) : Out Pt :=
  match p.fmt with
  | .array | .inter => (p.asOne chk).map fun x => ⟨p.fmt, x, .junk⟩
  | .split => (p.asPair chk).map fun x => ⟨.split, x.1, x.2⟩
  | .any => .ok ⟨.any, .null, .junk⟩

/-- `const_cast_<pointer>(const_pointer)` (l.198-216) -/
def Pt.fromConst (p : Pt) : Out Pt :=
  match p.fmt with
  | .array => p.constOne.map .ofArray
  | .inter => p.constOne.map .ofInter
  | .split => p.constPair.map fun x => .ofSplit x.1 x.2
  | .any => .ok .default

/-! ### storage_traits<complex<T>, any_storage_format> -/

/-- `w + n` -/
def Word.plus : Word → Nat → Word
  | .at p, n => .at (p + n)
  | w, _ => w

/-- `offset` (l.151-165); the split case does not compile, there is no constructor from two pointers -/
def offset (p : Pt) (i : Nat) : Option Pt :=
  match p.fmt with
  | .array => some (.ofArray (p.a.plus (2 * i)))
  | .inter => some (.ofInter (p.a.plus (2 * i)))
  | _ => none

/-- the addresses of the two parts read by `get` and written by `put` (l.181-215): the index is not used; the split cases do not compile -/
def elementAt (p : Pt) (_i : Nat) : Option (Word × Word) :=
  match p.fmt with
  | .array | .inter => some (p.a, p.a.plus 1)
  | _ => none

/-! ### host.hpp -/

/-- memory in use, the next unused address, the fate of the coming requests (an empty list: they all succeed) -/
structure Heap where
  live : Live
  next : Nat
  plan : List Bool

/-- `allocator_->allocate<T>(n)` -/
def Heap.alloc (h : Heap) (n : Nat) : Heap × Option Nat :=
  match h.plan with
  | false :: l => ({ h with plan := l }, none)
  | l => (⟨Function.update h.live h.next (some n), h.next + n + 1, l.tail⟩, some h.next)

/-- `allocator_->deallocate(p, n)`: null is accepted -/
def Heap.free (h : Heap) (p : Word) (n : Nat) : Option Heap :=
  match p with
  | .null => some h
  | .junk => none
  | .at p => if h.live p = some n then some { h with live := Function.update h.live p none } else none

/-- a `host_storage`; `rt`: the class for `any_storage_format` (l.275-400), otherwise that of the format `fmt` -/
structure Sto where
  rt : Bool
  fmt : Fmt
  size : Nat
  own : Bool
  data : Pt
deriving DecidableEq

structure World where
  h : Heap
  s : Sto

/-- outcomes of operations on storage: also an exception, after which the object is still there -/
inductive Step where
  | ok (w : World)
  | thrown (w : World)
  | stop
  | ub

def Step.bind (x : Step) (f : World → Step) : Step :=
  match x with
  | .ok w => f w
  | x => x

/-- `ptr_type()`: a pair is initialised with zeros, a `pointer` by its constructor -/
def nullData (rt : Bool) (f : Fmt) : Pt := if rt then .default else ⟨f, .null, .null⟩

/-- `allocate()` of the class for all formats (l.324-340) -/
def allocateRt (chk : Bool) (w : World) : Step :=
  match w.s.fmt with
  | .array | .inter =>
    match w.h.alloc (2 * w.s.size) with
    | (h, some p) => .ok ⟨h, { w.s with data := ⟨w.s.fmt, .at p, .junk⟩ }⟩
    | (h, none) => .thrown ⟨h, w.s⟩
  | .split =>
    match w.h.alloc w.s.size with
    | (h, none) => .thrown ⟨h, w.s⟩
    | (h, some p) =>
      match h.alloc w.s.size with
      | (h, none) => .thrown ⟨h, w.s⟩
      | (h, some q) => .ok ⟨h, { w.s with data := .ofSplit (.at p) (.at q) }⟩
  | .any => if chk then .stop else .ok w

/-- `allocate()` of the others (l.60-67, 148-152, 232-239) -/
def allocateFix (w : World) : Step :=
  if w.s.own && !w.s.data.bool then
    if w.s.fmt = .split then
      match w.h.alloc w.s.size with
      | (h, none) => .thrown ⟨h, w.s⟩
      | (h, some p) =>
        match h.alloc w.s.size with
        | (h, none) => .thrown ⟨h, { w.s with data := ⟨.split, .at p, w.s.data.b⟩ }⟩
        | (h, some q) => .ok ⟨h, { w.s with data := ⟨.split, .at p, .at q⟩ }⟩
    else
      match w.h.alloc (2 * w.s.size) with
      | (h, none) => .thrown ⟨h, w.s⟩
      | (h, some p) => .ok ⟨h, { w.s with data := ⟨w.s.fmt, .at p, .null⟩ }⟩
  else .ok w

def allocate (chk : Bool) (w : World) : Step := if w.s.rt then allocateRt chk w else allocateFix w

/-- the conversions of `deallocate()` in the class for all formats (l.347, 353, 359) -/
def asWanted (chk : Bool) (s : Sto) : Out (Word × Word) :=
  if s.rt then
    match s.fmt with
    | .array | .inter => (s.data.asOne chk).map fun x => (x, .null)
    | .split => s.data.asPair chk
    | .any => need chk false (.ok (.null, .null))
  else .ok (s.data.a, if s.fmt = .split then s.data.b else .null)

/-- how many scalars each block has -/
def unit (f : Fmt) (n : Nat) : Nat := if f = .split then n else 2 * n

/-- `deallocate()` (l.68-73, 153-157, 240-245, 341-367): the second block, then the first -/
def deallocate (chk : Bool) (w : World) : Step :=
  match asWanted chk w.s with
  | .stop => .stop
  | .ub => .ub
  | .ok (a, b) =>
    match w.h.free b (unit w.s.fmt w.s.size) with
    | none => .ub
    | some h =>
      match h.free a (unit w.s.fmt w.s.size) with
      | none => .ub
      | some h => .ok ⟨h, { w.s with data := nullData w.s.rt w.s.fmt }⟩

/-- the end of `resize(size)` (l.83-85, 167-169, 255-257, 377-379): the class for all formats takes ownership after allocating -/
def renew (chk : Bool) (n : Nat) (w : World) : Step :=
  if w.s.rt then
    (allocate chk ⟨w.h, { w.s with size := n }⟩).bind fun w => .ok ⟨w.h, { w.s with own := true }⟩
  else allocate chk ⟨w.h, { w.s with size := n, own := true }⟩

/-- `resize(size)` (l.74-86, 158-170, 246-258, 368-380) -/
def resize (chk : Bool) (n : Nat) (w : World) : Step :=
  if w.s.own then
    if w.s.size = n then .ok w else (deallocate chk w).bind (renew chk n)
  else renew chk n ⟨w.h, { w.s with data := nullData w.s.rt w.s.fmt }⟩

/-- `resize(size, buffer)` (l.87-97, 171-181, 259-269, 381-392): the format is not touched -/
def resizeBuf (chk : Bool) (n : Nat) (p : Pt) (w : World) : Step :=
  if p.bool then
    (if w.s.own then deallocate chk w else .ok w).bind fun w => .ok ⟨w.h, { w.s with data := p, size := n, own := false }⟩
  else resize chk n w

/-- the destructor (l.55-59, 143-147, 227-231, 319-323) -/
def destroy (chk : Bool) (w : World) : Step := if w.s.own then deallocate chk w else .ok w

/-- `host_storage(size)`, `host_storage(size, format)` (l.23-29, 111-117, 195-201, 282-289) -/
def create (chk rt : Bool) (f : Fmt) (n : Nat) (h : Heap) : Step :=
  allocate chk ⟨h, ⟨rt, f, n, true, nullData rt f⟩⟩

/-- `host_storage(size, buffer)` (l.30-38, 118-126, 202-210, 290-299); the class for all formats takes the buffer's format -/
def createBuf (chk rt : Bool) (n : Nat) (p : Pt) (h : Heap) : Step :=
  if p.bool then .ok ⟨h, ⟨rt, p.fmt, n, false, p⟩⟩
  else create chk rt p.fmt n h

/-- what users do with storage -/
inductive Op where
  | resize (n : Nat)
  | resizeBuf (n : Nat) (p : Pt)
deriving DecidableEq

def Op.run (chk : Bool) : Op → World → Step
  | .resize n => Rtf.resize chk n
  | .resizeBuf n p => Rtf.resizeBuf chk n p

/-- a sequence of them -/
def run (chk : Bool) : List Op → World → Step
  | [], w => .ok w
  | o :: l, w => (o.run chk w).bind (run chk l)

/-- a sequence of them, each inside `try { … } catch (std::bad_alloc const &) {}` -/
def runCatching (chk : Bool) : List Op → World → Step
  | [], w => .ok w
  | o :: l, w =>
    match o.run chk w with
    | .ok w => runCatching chk l w
    | .thrown w => runCatching chk l w
    | .stop => .stop
    | .ub => .ub

/-! ### block_copy.hpp -/

/-- the two words used for a copy to or from storage of the layout's format (l.104-121, 203-220); a word that was never written is used
when the pair is -/
def target (chk : Bool) (f : Fmt) (p : Pt) : Out (Nat × Nat) :=
  match f with
  | .array | .inter =>
    match p.asOne chk with
    | .ok (.at a) => .ok (a, a)
    | .stop => .stop
    | _ => .ub
  | .split =>
    match p.asPair chk with
    | .ok (.at a, .at b) => .ok (a, b)
    | .stop => .stop
    | _ => .ub
  | .any => if chk then .stop else .ub

/-- `array_storage::put`, `inter_storage::put`, `split_storage::put` (traits.hpp l.44-45, 70-71, 100-101) -/
def put {R : Type} (f : Fmt) (a b : Nat) (m : Nat → R) (i : Nat) (v : R × R) : Nat → R :=
  match f with
  | .split => Function.update (Function.update m (a + i) v.1) (b + i) v.2
  | _ => Function.update (Function.update m (a + 2 * i) v.1) (a + 2 * i + 1) v.2

/-- `array_storage::get`, `inter_storage::get`, `split_storage::get` (traits.hpp l.42-43, 68-69, 98-99) -/
def get {R : Type} (f : Fmt) (a b : Nat) (m : Nat → R) (i : Nat) : R × R :=
  match f with
  | .split => (m (a + i), m (b + i))
  | _ => (m (a + 2 * i), m (a + 2 * i + 1))

/-- `sync_in` (accessor.hpp l.672-676, 758): the elements with the places `layout.index` gives them -/
def syncIn {R : Type} (chk : Bool) (f : Fmt) (p : Pt) (m : Nat → R) (l : List (Nat × (R × R))) : Out (Nat → R) :=
  (target chk f p).map fun (a, b) => l.foldl (fun m x => put f a b m x.1 x.2) m

/-- `sync_out` (accessor.hpp l.677-681, 759): what is read for each place -/
def syncOut {R : Type} (chk : Bool) (f : Fmt) (p : Pt) (m : Nat → R) (l : List Nat) : Out (List (R × R)) :=
  (target chk f p).map fun (a, b) => l.map (get f a b m)

/-- the storage of an accessor (accessor.hpp l.647, 659-665, 735, 744-750): with a buffer if one is given, else of the layout's format -/
def accessorStorage (chk : Bool) (f : Fmt) (n : Nat) (buffer : Pt) (h : Heap) : Step :=
  createBuf chk true n (if buffer.bool then buffer else .ofFmt f) h

end Verif.Rtf
