import Verif.Signal.Model
import Mathlib.Order.Defs.LinearOrder
/-!
Model of `/repo/src/vsip/selgen.hpp`: selection, generation and manipulation of views.

Reading or writing outside a view gives `none`.
-/
namespace Verif.Sel
open Verif.Sig

section
variable {ι T : Type}

/-- body of the loops of `indexbool` (l.29-30, l.41-42): `cursor++ < indices.size()` is evaluated only when the element is true -/
def indexStep (b : Bool) (i : ι) (st : Nat × Vec ι) : Option (Nat × Vec ι) :=
  if b then
    if st.1 < st.2.n then (st.2.put (st.1 + 1 - 1) i).map fun v => (st.1 + 1, v)
    else some (st.1 + 1, st.2)
  else some st

/-- `indexbool` for a vector (l.23-32): the returned count and the index view -/
def indexbool1 (source : Vec Bool) (indices : Vec Nat) : Option (Nat × Vec Nat) :=
  loop source.n (0, indices) fun st i => do indexStep (← source.get i) i st

/-- `indexbool` for a matrix (l.34-44) -/
def indexbool2 (source : Mat Bool) (indices : Vec (Nat × Nat)) : Option (Nat × Vec (Nat × Nat)) :=
  loop source.rows (0, indices) fun st r => loop source.cols st fun st c => do indexStep (← source.get r c) (r, c) st

/-- the loop of `first` (l.84-86) with `k` turns left -/
def firstLoop {T' : Type} (p : T → T' → Bool) (v : Vec T) (w : Vec T') : Nat → Nat → Option Nat
  | 0, _ => some v.n
  | k + 1, i => do if p (← v.get i) (← w.get i) then some i else firstLoop p v w k (i + 1)

/-- `first` (l.74-88); `none` also for the failed assertion -/
def first {T' : Type} (begin_ : Nat) (p : T → T' → Bool) (v : Vec T) (w : Vec T') : Option Nat :=
  if v.n = w.n then
    if begin_ > v.n then some begin_
    else firstLoop p v w (v.n - begin_) begin_
  else none

/-- a view of any dimension: which indices are in range, and the elements -/
structure View (ι T : Type) where
  ok : ι → Bool
  f : ι → T

def View.get (v : View ι T) (i : ι) : Option T := if v.ok i then some (v.f i) else none

def View.put [DecidableEq ι] (v : View ι T) (i : ι) (t : T) : Option (View ι T) :=
  if v.ok i then some ⟨v.ok, fun k => if k = i then t else v.f k⟩ else none

/-- `gather` (l.101-112); `fresh` is the content of the new vector -/
def gather (fresh : Nat → T) (source : View ι T) (indices : Vec ι) : Option (Vec T) :=
  loop indices.n ⟨indices.n, fresh⟩ fun r i => do r.put i (← source.get (← indices.get i))

/-- `scatter` (l.116-126) -/
def scatter [DecidableEq ι] (source : Vec T) (indices : Vec ι) (destination : View ι T) : Option (View ι T) :=
  loop indices.n destination fun d i => do d.put (← indices.get i) (← source.get i)

/-- `Ramp_generator::operator()` (l.61-64) -/
def rampAt [Add T] [Mul T] (conv : Nat → T) (a b : T) (i : Nat) : T := a + conv i * b

section
variable [LT T] [LE T] [DecidableLT T] [DecidableLE T]

/-- `clip_functor::operator()` (l.157-162) -/
def clip (lower upper lowerClip upperClip t : T) : T :=
  if t ≤ lower then lowerClip else if t < upper then t else upperClip

/-- `invclip_functor::operator()` (l.174-180) -/
def invclip (lower middle upper lowerClip upperClip t : T) : T :=
  if t < lower then t else if t < middle then lowerClip else if t ≤ upper then upperClip else t
end

/-- `Swap::apply` (l.262-272) on distinct blocks; one-index `get` and `put` of a stored block address the storage directly
(`/repo/src/ovxx/storage/block.hpp` l.232-236, 249-253).  `none` also for the failed assertion. -/
def swap (b1 b2 : Vec T) : Option (Vec T × Vec T) :=
  if b1.n = b2.n then
    loop b1.n (b1, b2) fun b i => do
      let tmp ← b.1.get i
      let x ← b.1.put i (← b.2.get i)
      let y ← b.2.put i tmp
      some (x, y)
  else none

/-- storage offset of a dense matrix in row-major or column-major order (Layout, C17) -/
def denseOffset (colMajor : Bool) (rows cols r c : Nat) : Nat := if colMajor then c * rows + r else r * cols + c
end

end Verif.Sel
