import Verif.Access.Spec
import Verif.Views.Model
/-!
Model of the choice between direct access and a copy: `/repo/src/ovxx/adjust_layout.hpp`, `get_block_layout` of the view blocks
(`/repo/src/ovxx/expr/*.hpp`, `/repo/src/ovxx/strided.hpp`), `is_compatible<L>`, `get_block_access` and the `Accessor` classes of
`/repo/src/ovxx/dda/accessor.hpp`, `/repo/src/vsip/dda.hpp`.

Views are those of `Verif.Vw`.  Dimension orders are the three numbers of a `tuple`, also for blocks of one or two dimensions, because
the code compares them as types.  Not modelled: device access, distributed blocks beyond the kind of access chosen for them.
-/
namespace Verif.Acc
open Verif Lay Vw

/-- `storage_format_type` (vsip/layout.hpp l.65-76) -/
inductive Fmt where
  | any | array | split | inter
deriving DecidableEq, Repr

/-- a block's `Layout` (vsip/layout.hpp l.86-96) -/
structure Ly where
  dim : Nat
  order : List Nat
  packing : Packing
  fmt : Fmt
deriving DecidableEq

/-- a requested `Layout`; the order may be `any_type` -/
structure Rq where
  dim : Nat
  order : Option (List Nat)
  packing : Packing
  fmt : Fmt
deriving DecidableEq

/-- the values of `pack_type` (vsip/layout.hpp l.21-41) -/
def alignments : List Nat := [8, 16, 32, 64, 128, 256, 512, 1024]

/-- `is_packing_unit_stride<P>` (vsip/layout.hpp l.43-61) -/
def unitStride : Packing → Bool
  | .any => false
  | .unitStride | .dense | .aligned => true
  | .alignedTo A => A ∈ alignments

/-- `is_packing_aligned<P>::value` (ovxx/layout.hpp l.68-96); there is no entry for 512 -/
def packingAligned : Packing → Bool
  | .aligned => true
  | .alignedTo A => A ∈ [8, 16, 32, 64, 128, 256, 1024]
  | _ => false

/-! ### adjust_layout.hpp -/

/-- `adjust_type<R, T>::type` (l.24-43) -/
def adjustOrder (r : Option (List Nat)) (t : List Nat) : List Nat := r.getD t

/-- `adjust_type<R, T>::compatible` (l.24-43) -/
def orderOk (r : Option (List Nat)) (t : List Nat) : Bool := r == none || r == some t

/-- `adjust_packing<R, P>::value` (l.49-50) -/
def adjustPacking (r p : Packing) : Packing := if r = .any then (if p = .any then .dense else p) else r

/-- `adjust_packing<R, P>::compatible` (l.51-53) -/
def packingOk (r p : Packing) : Bool := r == p || r == .any || (r == .unitStride && unitStride p)

/-- `adjust_storage_format<R, S>::value` (l.59-60) -/
def adjustFmt (r s : Fmt) : Fmt := if r = .any then (if s = .any then .array else s) else r

/-- `adjust_storage_format<R, S>::compatible` (l.61-65) -/
def fmtOk (r s : Fmt) : Bool := r == s || r == .any || (r != .split && s != .split)

/-- `adjust_layout<R, L>` (l.73-92) -/
def adjustLayout (r : Rq) (l : Ly) : Ly := ⟨r.dim, adjustOrder r.order l.order, adjustPacking r.packing l.packing, adjustFmt r.fmt l.fmt⟩

/-- `maybe_layout_compatible<B, L>` (l.123-140) -/
def maybeOk (b : Ly) (r : Rq) : Bool :=
  (r.dim == b.dim || (r.dim == 1 && b.packing == .dense)) && orderOk r.order b.order && fmtOk r.fmt b.fmt

/-- `is_layout_compatible<B, L>` (l.142-148) -/
def layoutOk (b : Ly) (r : Rq) : Bool := maybeOk b r && packingOk r.packing b.packing

/-! ### Layouts of view blocks -/

/-- `Sliced_order<tuple, NumDim, FixedDim>` (sliced.hpp l.455-484) -/
def sliceOrder (o : List Nat) (dim fixed : Nat) : List Nat :=
  let d0 := o.getD 0 0
  let d1 := o.getD 1 0
  let d2 := o.getD 2 0
  let row := [0, 1, 2]
  let col := [1, 0, 2]
  if dim = 2 then row
  else if fixed = d0 then (if d2 > d1 then row else col)
  else if fixed = d1 then (if d2 > d0 then row else col)
  else (if d1 > d0 then row else col)

/-- `get_block_layout` of a view, given that of the stored block it was made from -/
def declared (l : Ly) : View → Ly
  | .base _ _ _ => l
  /- subset.hpp l.328-338 -/
  | .subset _ v => ⟨(declared l v).dim, (declared l v).order, .any, (declared l v).fmt⟩
  /- sliced.hpp l.630-650 -/
  | .sliced D _ v => ⟨(declared l v).dim - 1, sliceOrder (declared l v).order (declared l v).dim D,
      if unitStride (declared l v).packing = true ∧ unitStridePreserved (declared l v).order (declared l v).dim D = true then .unitStride else .any,
      (declared l v).fmt⟩
  /- sliced.hpp l.656-674 -/
  | .sliced2 D1 D2 _ _ v => ⟨(declared l v).dim - 2, [0, 1, 2],
      if unitStride (declared l v).packing = true ∧ D1 ≠ (declared l v).order.getD 2 0 ∧ D2 ≠ (declared l v).order.getD 2 0 then .unitStride else .any,
      (declared l v).fmt⟩
  /- transposed.hpp l.167-194 -/
  | .transposed v => ⟨(declared l v).dim, [(declared l v).order.getD 1 0, (declared l v).order.getD 0 0, (declared l v).order.getD 2 0], .any, (declared l v).fmt⟩
  /- permuted.hpp l.123-194 -/
  | .permuted p v => ⟨(declared l v).dim, permuteOrder p (declared l v).order, .any, (declared l v).fmt⟩
  /- diag.hpp l.153-163 -/
  | .diag _ v => ⟨1, [0, 1, 2], .any, (declared l v).fmt⟩
  /- component.hpp l.200-215 -/
  | .component _ _ v => ⟨(declared l v).dim, (declared l v).order, if (declared l v).fmt = .split then (declared l v).packing else .any, .array⟩

/-! ### Stored data -/

/-- a stored block: layout, whether its values are complex, the size in bytes of its values (of their parts, if complex), the byte address of
its arrays -/
structure Ctx where
  ly : Ly
  cx : Bool
  tau : Nat
  addr : Nat → Int

/-- whether the view's `value_type` is complex -/
def isCx (c : Ctx) : View → Bool
  | .base _ _ _ => c.cx
  | .subset _ v | .sliced _ _ v | .sliced2 _ _ _ _ v | .transposed v | .permuted _ v | .diag _ v => isCx c v
  | .component _ _ _ => false

/-- `sizeof(value_type)` -/
def valueSize (c : Ctx) (v : View) : Nat := if isCx c v = true then 2 * c.tau else c.tau

/-- bytes from one element of an array to the next: split complex data is stored as two arrays of parts -/
def unitOf (cx : Bool) (f : Fmt) (tau : Nat) : Nat := if cx = true ∧ f ≠ .split then 2 * tau else tau

/-- the byte addresses of `ptr()` -/
def startsOf (c : Ctx) (v : View) : List Int :=
  let u := unitOf (isCx c v) (declared c.ly v).fmt c.tau
  if isCx c v = true ∧ (declared c.ly v).fmt = .split then [c.addr 0 + v.ptr.2 * u, c.addr 1 + v.ptr.2 * u] else [c.addr v.ptr.1 + v.ptr.2 * u]

/-- `ptr()`, `stride()`, `size()` of the block itself -/
def seenDirect (c : Ctx) (v : View) : Seen where
  dim := (declared c.ly v).dim
  order := (declared c.ly v).order
  sizes := v.sizes
  strides := v.strides
  starts := startsOf c v
  unit := unitOf (isCx c v) (declared c.ly v).fmt c.tau

/-! ### `is_compatible<L>(block)` -/

inductive Ans where
  | yes | no
  /-- a failed assertion or a division by zero -/
  | bad
deriving DecidableEq, Repr

def Ans.of (b : Bool) : Ans := if b then .yes else .no

/-- accessor.hpp l.44-115.  `asserts` says whether `OVXX_PRECONDITION` does anything.  `s` is what the block itself offers, `d` its layout. -/
def isCompatible (asserts : Bool) (r : Rq) (d : Ly) (s : Seen) (vsize : Nat) : Ans :=
  let d0 := d.order.getD 0 0
  let d1 := d.order.getD 1 0
  let d2 := d.order.getD 2 0
  let st := fun k => s.strides.getD k 0
  let sz := fun k => s.sizes.getD k 0
  if d.fmt ≠ r.fmt ∨ some d.order ≠ r.order then .no
  else if r.packing = .unitStride then
    if r.dim = 1 then Ans.of (st 0 == 1) else if r.dim = 2 then Ans.of (st d1 == 1) else Ans.of (st d2 == 1)
  else if r.packing = .dense then
    if r.dim = 1 then Ans.of (st 0 == 1)
    else if r.dim = 2 then Ans.of (st d1 == 1 && (st d0 == toSigned (sz d1) || sz d0 == 1))
    else Ans.of ((st d0 == toSigned (w (sz d1 * sz d2)) || sz d0 == 1) && (st d1 == toSigned (sz d2) || (sz d1 == 1 && sz d0 == 1)) && st d2 == 1)
  else if packingAligned r.packing = true then
    let A := packingAlignment r.packing
    if A = 0 then .bad
    else if ¬ (s.starts.all fun a => a % A == 0) = true then .no
    else if r.dim = 1 then Ans.of (st 0 == 1)
    else if r.dim = 2 then Ans.of (st d1 == 1 && toIdx (st d0 * vsize) % A == 0)
    else Ans.of (st d2 == 1 && toIdx (st d1 * vsize) % A == 0 && toIdx (st d0 * vsize) % A == 0)
  else if asserts = true ∧ r.packing ≠ .any then .bad
  else .yes

/-! ### `get_block_access` -/

inductive Kind where
  | direct | copy | maybe | «local» | remote
deriving DecidableEq, Repr

/-- the block's `map_type` -/
inductive MapT where
  | «local» | replicated | other
deriving DecidableEq, Repr

/-- accessor.hpp l.211-233; `dda` is `supports_dda`, `forced` is `S & copy` -/
def accessKind (m : MapT) (dda forced : Bool) (b : Ly) (r : Rq) : Kind :=
  let maybeDirect := !forced && dda && maybeOk b r
  let direct := maybeDirect && layoutOk b r
  if m = .local then (if direct then .direct else if maybeDirect then .maybe else .copy)
  else if layoutOk b r = true ∧ m = .replicated then .local
  else .remote

/-- `cost<K>` (l.204-208); `ct_cost` of the accessors (l.283, 340, 397, 492, 565), for local blocks -/
def ctCost : Kind → Nat
  | .direct => 0 | .copy => 2 | .maybe => 2 | .local => 0 | .remote => 10

/-- `dda_block_layout<Block>` (vsip/dda.hpp l.29-49) -/
def defaultLayout (dda : Bool) (b : Ly) : Rq :=
  ⟨b.dim, some b.order, if dda = true then b.packing else if packingAligned b.packing = true then b.packing else .dense, b.fmt⟩

/-! ### The copy -/

/-- the layout of the buffer (accessor.hpp l.376-386) -/
def copyLayout (r : Rq) (b : Ly) : Ly :=
  ⟨r.dim, adjustOrder r.order b.order, if r.packing = .unitStride ∨ r.packing = .any then .dense else r.packing, adjustFmt r.fmt b.fmt⟩

/-- `Applied_layout` of a layout and an extent (ovxx/layout.hpp l.141-560): strides and `total_size()`; none if there is no such specialisation -/
def applied (l : Ly) (sizes : List Nat) : Option (List Nat × Nat) :=
  let f3 := fun k => (Fin.ofNat 3 (l.order.getD k 0))
  match sizes, l.packing with
  | [n], .alignedTo A => if A ∈ alignments then some ([(dense1 ![n]).stride 0], (dense1 ![n]).total) else none
  | [n], .any => some ([1], n)
  | [n], _ => some ([(dense1 ![n]).stride 0], (dense1 ![n]).total)
  | [n, m], .dense =>
    let a := if l.order = [0, 1, 2] then dense2row ![n, m] else dense2col ![n, m]
    some ([a.stride 0, a.stride 1], a.total)
  | [n, m], .alignedTo A =>
    let a := if l.order = [0, 1, 2] then aligned2row A ![n, m] else aligned2col A ![n, m]
    if A ∈ alignments then some ([a.stride 0, a.stride 1], a.total) else none
  | [n, m, k], .dense =>
    let a := dense3 (f3 0) (f3 1) (f3 2) ![n, m, k]
    some ([a.stride 0, a.stride 1, a.stride 2], a.total)
  | [n, m, k], .alignedTo A =>
    let a := aligned3 A (f3 0) (f3 1) (f3 2) ![n, m, k]
    if A ∈ alignments then some ([a.stride 0, a.stride 1, a.stride 2], a.total) else none
  | _, _ => none

/-! ### Accessors of local blocks -/

/-- what constructing an accessor and asking it for its pointer, strides and sizes comes to -/
inductive Got where
  | seen (copied : Bool) (s : Seen)
  /-- a failed assertion, a division by zero, or a program that does not compile -/
  | bad

/-- `Accessor<B, L, S, copy_access>` (l.371-444): the buffer is at `buf` -/
def copied (r : Rq) (d : Ly) (sizes : List Nat) (cx : Bool) (tau : Nat) (buf : Nat → Int) : Got :=
  let l := copyLayout r d
  match applied l sizes with
  | none => .bad
  | some (st, _) => .seen true ⟨l.dim, l.order, sizes, st.map (fun (k : Nat) => (k : Int)),
      if cx = true ∧ l.fmt = .split then [buf 0, buf 1] else [buf 0], unitOf cx l.fmt tau⟩

/-- direct (l.260-307), copying (l.371-444) and undecided (l.539-616) access to a view with the number of dimensions requested -/
def access (asserts forced : Bool) (c : Ctx) (v : View) (r : Rq) (buf : Nat → Int) : Got :=
  let d := declared c.ly v
  match accessKind .local true forced d r with
  | .direct => .seen false (seenDirect c v)
  | .maybe =>
    match isCompatible asserts r d (seenDirect c v) (valueSize c v) with
    | .yes => .seen false (seenDirect c v)
    | .no => copied r d v.sizes (isCx c v) c.tau buf
    | .bad => .bad
  | _ => copied r d v.sizes (isCx c v) c.tau buf

/-- `required_buffer_size(block)` (l.286, 400-404, 568-572), in elements -/
def requiredBuffer (asserts forced : Bool) (c : Ctx) (v : View) (r : Rq) : Option Nat :=
  let d := declared c.ly v
  match accessKind .local true forced d r with
  | .direct => some 0
  | .maybe =>
    match isCompatible asserts r d (seenDirect c v) (valueSize c v) with
    | .yes => some 0
    | .no => (applied (copyLayout r d) v.sizes).map Prod.snd
    | .bad => none
  | _ => (applied (copyLayout r d) v.sizes).map Prod.snd

/-- `cost(block)` (l.285, 399, 567) -/
def rtCost (asserts forced : Bool) (c : Ctx) (v : View) (r : Rq) : Option Nat :=
  let d := declared c.ly v
  match accessKind .local true forced d r with
  | .direct => some 0
  | .maybe => match isCompatible asserts r d (seenDirect c v) (valueSize c v) with | .yes => some 0 | .no => some 2 | .bad => none
  | _ => some 2

/-! ### Access with one dimension to a stored block of more -/

/-- a stored block seen with one dimension: `size(1, 0)` is the number of elements, `stride(1, 0)` is 1 (storage/block.hpp l.224-230, 304-310) -/
def flatSeen (c : Ctx) (ext : List Nat) (st : List Int) (p : Int) : Seen :=
  ⟨1, c.ly.order, [ext.prod], [1], startsOf c (.base ext st p), unitOf c.cx c.ly.fmt c.tau⟩

/-- `size(0)` and `stride(0)` of the accessor for a request with one dimension.  Undecided access that copies asks the block for
`size(B::dim, 0)` (accessor.hpp l.606-607); the other kinds ask for `size(1, 0)` (l.301, 435). -/
def flat (asserts forced : Bool) (c : Ctx) (ext : List Nat) (st : List Int) (p : Int) (r : Rq) : Option (Nat × Int) :=
  match accessKind .local true forced c.ly r with
  | .direct => some (ext.prod, 1)
  | .maybe =>
    match isCompatible asserts r c.ly (flatSeen c ext st p) (valueSize c (.base ext st p)) with
    | .yes => some (ext.prod, 1)
    | .no => some (ext.getD 0 0, 1)
    | .bad => none
  | _ => some (ext.prod, 1)

/-- `stride(1, 0)` of a part of a complex block: the argument `Dim` is only asserted, and the parent is asked for the stride of its own
dimension 0 (component.hpp l.125-133) -/
def partFlatStride (asserts split : Bool) (v : View) : Option Int :=
  if asserts = true ∧ v.sizes.length ≠ 1 then none else some ((if split then 1 else 2) * v.strides.getD 0 0)

/-- `size()` of the accessor for a run-time layout (accessor.hpp l.699-700) -/
def rtSize (direct : Bool) (blockSize total : Nat) : Nat := if direct then blockSize else total

/-- `storage_size()` of direct access (accessor.hpp l.303) -/
def storageSize (v : View) : Nat := v.sizes.prod

end Verif.Acc
