import Verif.Assign.Model
/-!
Model of `/repo/src/ovxx/parallel/copy_chain.{hpp,cpp}`.

Memory is a map from byte addresses (`Int`) to bytes `V`.  Pointer arithmetic is exact: `incr_ptr` works modulo `2^64` and converts the
(signed) stride to `size_t`, which gives the exact address whenever the address is one of an object.  All records of a chain have the same
element size `e` (checked for each record by `copy_into`, and not otherwise: the only user builds chains with `sizeof(T)`).
-/
namespace Verif.Chain
open Asg

/-- `Copy_chain::Record` (copy_chain.hpp l.25-35) -/
structure Rec where
  start : Int
  stride : Int
  length : Nat
deriving DecidableEq, Repr

/-- a chain: its records and `data_size_` in bytes -/
structure Ch where
  recs : List Rec
  dataSize : Nat
deriving DecidableEq, Repr

def Ch.empty : Ch := ⟨[], 0⟩
/-- `add` (copy_chain.hpp l.46-50) -/
def Ch.add (c : Ch) (e : Nat) (start stride : Int) (length : Nat) : Ch := ⟨c.recs ++ [⟨start, stride, length⟩], c.dataSize + e * length⟩
/-- `append` (l.53-58) -/
def Ch.append (c d : Ch) : Ch := ⟨c.recs ++ d.recs, c.dataSize + d.dataSize⟩
/-- `append_offset` (copy_chain.cpp l.36-50) -/
def Ch.appendOffset (c : Ch) (offset : Int) (d : Ch) : Ch :=
  ⟨c.recs ++ d.recs.map fun r => ⟨r.start + offset, r.stride, r.length⟩, c.dataSize + d.dataSize⟩

variable {V : Type}

/-- the inner loop of `copy_into(void *, size_t)` for a strided record (l.79-86); `none` = failed precondition -/
def strided (e : Nat) (stride : Int) : Nat → Mem V → Int → Int → Nat → Option (Mem V × Int × Nat)
  | 0, m, dest, _, size => some (m, dest, size)
  | n + 1, m, dest, src, size =>
    if e ≤ size then strided e stride n (memcpy m dest src e) (dest + e) (src + stride * e) (size - e)
    else none

/-- the record loop of `copy_into(void *, size_t)` (l.65-88) -/
def records (e : Nat) : List Rec → Mem V → Int → Nat → Option (Mem V × Nat)
  | [], m, _, size => some (m, size)
  | r :: rs, m, dest, size =>
    if r.stride = 1 then
      if r.length * e ≤ size then
        records e rs (memcpy m dest r.start (r.length * e)) (dest + (r.length * e : Nat)) (size - r.length * e)
      else none
    else
      match strided e r.stride r.length m dest r.start size with
      | none => none
      | some (m', dest', size') => records e rs m' dest' size'

/-- `Copy_chain::copy_into(void *dest, size_t size)` (l.57-90) -/
def copyIntoBuffer (e : Nat) (c : Ch) (m : Mem V) (dest : Int) (size : Nat) : Option (Mem V) :=
  if size = c.dataSize then
    match records e c.recs m dest size with
    | some (m', 0) => some m'
    | _ => none
  else none

/-- position in a chain: the records from the current one on, the pointer and the counter -/
structure Pos where
  recs : List Rec
  ptr : Int
  i : Nat
deriving DecidableEq, Repr

/-- l.134-139 and l.141-146: step to the next record when the counter equals the length (the pointer and the counter keep their values
after the last record, where they are not used again) -/
def Pos.advance (p : Pos) : Pos :=
  match p.recs with
  | [] => p
  | r :: rs =>
    if p.i = r.length then
      match rs with
      | [] => ⟨[], p.ptr, p.i⟩
      | r' :: rs' => ⟨r' :: rs', r'.start, 0⟩
    else p

/-- outcomes of `copy_into(Copy_chain)` -/
inductive Result (V : Type) where
  | ok (m : Mem V)
  /-- the final precondition (l.150) fails -/
  | precondition (m : Mem V)
  /-- `begin()` of an empty chain is dereferenced (l.107-112) -/
  | undefined
  /-- the loop takes more steps than the model was given -/
  | running

/-- the loop of `copy_into(Copy_chain)` (l.115-150); `min` is taken of `size_t`, where `length_ - i` does not wrap below the length -/
def lockstep (e : Nat) : Nat → Pos → Pos → Mem V → Result V
  | 0, _, _, _ => .running
  | fuel + 1, s, d, m =>
    match s.recs, d.recs with
    | r :: _, q :: _ =>
      let n := if r.stride = 1 ∧ q.stride = 1 then min (r.length - s.i) (q.length - d.i) else 1
      let m' := memcpy m d.ptr s.ptr (n * e)
      lockstep e fuel (Pos.advance ⟨s.recs, s.ptr + n * e * r.stride, s.i + n⟩) (Pos.advance ⟨d.recs, d.ptr + n * e * q.stride, d.i + n⟩) m'
    | [], [] => .ok m
    | _, _ => .precondition m

/-- `Copy_chain::copy_into(Copy_chain)` (l.98-151) -/
def copyIntoChain (e fuel : Nat) (src dst : Ch) (m : Mem V) : Result V :=
  match src.recs, dst.recs with
  | r :: _, q :: _ => lockstep e fuel ⟨src.recs, r.start, 0⟩ ⟨dst.recs, q.start, 0⟩ m
  | _, _ => .undefined

end Verif.Chain
