import Verif.Domain.Model
import Mathlib.Data.Fin.VecNotation
/-!
Model of applied layouts: `/repo/src/ovxx/layout.hpp`, `/repo/src/vsip/layout.hpp`.

`length_type` and `index_type` are unsigned 64-bit: every result is reduced modulo `2^64`.  The signed members `stride_[]` of the
3-D aligned and the run-time layouts are represented by their residues modulo `2^64` (the same for all values below `2^63`).
Elements are counted, not bytes, except where the code itself uses `elem_size`.
-/
namespace Verif.Lay

/-- An applied layout: sizes, strides, offset of an index, number of elements to allocate. -/
structure App (D : Nat) where
  size : Fin D → Nat
  stride : Fin D → Nat
  index : (Fin D → Nat) → Nat
  total : Nat

/-- reduction modulo `2^64` -/
def w (n : Nat) : Nat := n % W₆₄

/-- `if (stride_ % A != 0) stride_ += (A - stride_%A);` (layout.hpp l.332, 388, 398, 529-530) -/
def roundUp (A n : Nat) : Nat := if n % A ≠ 0 then w (n + (A - n % A)) else n

/-- `Applied_layout<Layout<1, O, P, C> >` for all unit-stride packings (layout.hpp l.142-204) -/
def dense1 (s : Fin 1 → Nat) : App 1 := ⟨s, fun _ => 1, fun i => i 0, s 0⟩

/-- `Applied_layout<Layout<2, tuple<0,1,2>, dense, C> >` (layout.hpp l.233-272) -/
def dense2row (s : Fin 2 → Nat) : App 2 where
  size := s
  stride d := if d = 0 then s 1 else 1
  index i := w (i 0 * s 1 + i 1)
  total := w (s 1 * s 0)

/-- `Applied_layout<Layout<2, tuple<1,0,2>, dense, C> >` (layout.hpp l.275-313) -/
def dense2col (s : Fin 2 → Nat) : App 2 where
  size := s
  stride d := if d = 0 then 1 else s 0
  index i := w (i 0 + i 1 * s 0)
  total := w (s 1 * s 0)

/-- `Applied_layout<Layout<2, tuple<0,1,2>, aligned_A, C> >` (layout.hpp l.316-360); both constructors compute the same -/
def aligned2row (A : Nat) (s : Fin 2 → Nat) : App 2 where
  size := s
  stride d := if d = 0 then roundUp A (s 1) else 1
  index i := w (i 0 * roundUp A (s 1) + i 1)
  total := toIdx ((roundUp A (s 1) * s 0 : Nat) - ((roundUp A (s 1) : Nat) - (s 1 : Nat) : Int))

/-- members of `Applied_layout<Layout<2, tuple<1,0,2>, aligned_A, C> >` (layout.hpp l.402-417), given `stride_` -/
def aligned2colOf (st : Nat) (s : Fin 2 → Nat) : App 2 where
  size := s
  stride d := if d = 1 then st else 1
  index i := w (i 0 + i 1 * st)
  total := toIdx ((st * s 1 : Nat) - ((st : Nat) - (s 0 : Nat) : Int))

/-- constructor taking an extent (layout.hpp l.391-399) -/
def aligned2col (A : Nat) (s : Fin 2 → Nat) : App 2 := aligned2colOf (roundUp A (s 0)) s

/-- constructor taking two sizes (layout.hpp l.382-389): starts from `size_[1]` -/
def aligned2col' (A : Nat) (s : Fin 2 → Nat) : App 2 := aligned2colOf (roundUp A (s 1)) s

/-- `Applied_layout<Layout<3, tuple<D0,D1,D2>, dense, C> >` (layout.hpp l.463-506) -/
def dense3 (d0 d1 d2 : Fin 3) (s : Fin 3 → Nat) : App 3 where
  size := s
  stride d := if d = d2 then 1 else if d = d1 then s d2 else w (s d1 * s d2)
  index i := w (i d0 * s d1 * s d2 + i d1 * s d2 + i d2)
  total := w (s 2 * s 1 * s 0)

/-- `stride_[]` after three assignments `stride_[D2] = a; stride_[D1] = b; stride_[D0] = c;` -/
def strides3 (d0 d1 d2 : Fin 3) (a b c : Nat) : Fin 3 → Nat :=
  Function.update (Function.update (Function.update (fun _ => 0) d2 a) d1 b) d0 c

/-- `Applied_layout<Layout<3, tuple<D0,D1,D2>, aligned_A, C> >` (layout.hpp l.508-556) -/
def aligned3 (A : Nat) (d0 d1 d2 : Fin 3) (s : Fin 3 → Nat) : App 3 :=
  let st := strides3 d0 d1 d2 1 (roundUp A (s d2)) (w (s d1 * roundUp A (s d2)))
  { size := s
    stride := st
    index := fun i => w (i d0 * st d0 + i d1 * st d1 + i d2)
    total := w (s d0 * st d0) }

/-! ### Run-time layouts -/

/-- `pack_type` (vsip/layout.hpp l.26-42) -/
inductive Packing where
  | any | dense | unitStride | aligned | alignedTo (A : Nat)
deriving DecidableEq, Repr

/-- `is_aligned(p)` (layout.hpp l.100) -/
def Packing.isAligned : Packing → Bool
  | .aligned => true | .alignedTo _ => true | _ => false

/-- `Rt_layout<D>` (layout.hpp l.108-125); the storage format is irrelevant here -/
structure RtLayout (D : Nat) where
  packing : Packing
  order : Fin D → Fin D
  alignment : Nat

/-- the alignments for which `is_packing_aligned` is specialised (layout.hpp l.90-96) -/
def packingAlignment : Packing → Nat
  | .alignedTo A => if A ∈ [8, 16, 32, 64, 128, 256, 1024] then A else 0
  | _ => 0

/-- `block_layout<D>(block)` (layout.hpp l.764-772): the run-time layout of a block with compile-time packing and order -/
def blockLayout {D : Nat} (p : Packing) (o : Fin D → Fin D) : RtLayout D := ⟨p, o, packingAlignment p⟩

/-- the adjustment of a stride (layout.hpp l.627-637, 650-660) -/
def rtAdjust {D : Nat} (l : RtLayout D) (elem n : Nat) : Nat :=
  if l.packing.isAligned = true ∧ l.alignment ≠ 0 ∧ w (elem * n) % l.alignment ≠ 0 then
    w (n + (l.alignment - w (n * elem) % l.alignment) / elem)
  else n

/-- `Applied_layout<Rt_layout<1> >` -/
def rt1 (l : RtLayout 1) (s : Fin 1 → Nat) (_elem : Nat) : App 1 where
  size := s
  stride _ := 1
  index i := w (i (l.order 0) * 1)
  total := w (s (l.order 0) * 1)

/-- `Applied_layout<Rt_layout<2> >` (layout.hpp l.640-662, 681-686, 697-698) -/
def rt2 (l : RtLayout 2) (s : Fin 2 → Nat) (elem : Nat) : App 2 :=
  let st : Fin 2 → Nat := Function.update (Function.update (fun _ => 0) (l.order 1) 1) (l.order 0) (rtAdjust l elem (s (l.order 1)))
  { size := s
    stride := st
    index := fun i => w (i (l.order 0) * st (l.order 0) + i (l.order 1) * st (l.order 1))
    total := w (s (l.order 0) * st (l.order 0)) }

/-- `Applied_layout<Rt_layout<3> >` (layout.hpp l.617-639, 673-680, 697-698) -/
def rt3 (l : RtLayout 3) (s : Fin 3 → Nat) (elem : Nat) : App 3 :=
  let st1 := rtAdjust l elem (s (l.order 2))
  let st := strides3 (l.order 0) (l.order 1) (l.order 2) 1 st1 (w (s (l.order 1) * st1))
  { size := s
    stride := st
    index := fun i => w (i (l.order 0) * st (l.order 0) + i (l.order 1) * st (l.order 1) + i (l.order 2) * st (l.order 2))
    total := w (s (l.order 0) * st (l.order 0)) }

end Verif.Lay
