import Verif.Domain.Model
/-!
Model of the data distributions: `/repo/src/ovxx/parallel/dist_utils.hpp` and
`/repo/src/vsip/impl/dist.hpp`.

The distributed domain is always `Domain<1>(n)` here (offset 0, stride 1): distributions only use its
`length()`.  Simplification: lengths are unbounded naturals (all intermediate results are at most `n + contiguity * num`).
Divisions by zero, which are undefined behaviour, are made explicit by `Option` in the `?` versions.
-/
namespace Verif

/-- `segment_size(size, num, pos)` (dist_utils.hpp l.28-32) -/
def segmentSize (size num pos : Nat) : Nat := size / num + (if pos < size % num then 1 else 0)

/-- `segment_start(size, num, pos)` (dist_utils.hpp l.157-163) -/
def segmentStart (size num pos : Nat) : Nat := pos * (size / num) + min pos (size % num)

/-- number of chunks (dist_utils.hpp l.58, 99, 133) -/
def numChunks (size chunk : Nat) : Nat := size / chunk + (if size % chunk ≠ 0 then 1 else 0)

/-- `segment_chunks(size, num, chunk_size, pos)` (dist_utils.hpp l.90-108) -/
def segmentChunks (size num chunk pos : Nat) : Nat :=
  let nc := numChunks size chunk
  nc / num + (if pos < nc % num then 1 else 0)

/-- `segment_size(size, num, chunk_size, pos)`, block-cyclic (dist_utils.hpp l.49-73) -/
def segmentSizeCyclic (size num chunk pos : Nat) : Nat :=
  let nc := numChunks size chunk
  let segChunks := nc / num + (if pos < nc % num then 1 else 0)
  let segSize := segChunks * chunk
  if size % chunk ≠ 0 ∧ (pos + 1) % num = nc % num then segSize - chunk + size % chunk else segSize

/-- `segment_chunk_size(size, num, chunk_size, spos, cpos)` (dist_utils.hpp l.123-148) -/
def segmentChunkSize (size num chunk spos cpos : Nat) : Nat :=
  let nc := numChunks size chunk
  let segChunks := nc / num + (if spos < nc % num then 1 else 0)
  if size % chunk ≠ 0 ∧ (spos + 1) % num = nc % num ∧ cpos = segChunks - 1 then size % chunk else chunk

/-- `Whole_dist`, `Block_dist(num)`, `Cyclic_dist(num, contiguity)` (dist.hpp l.37, 87, 200) -/
inductive Dist where
  | whole
  | block (num : Nat)
  | cyclic (num contig : Nat)
deriving DecidableEq, Repr, Inhabited

namespace Dist

/-- constructor preconditions (dist.hpp l.93, 213) -/
def OK : Dist → Prop
  | whole => True
  | block num => 0 < num
  | cyclic num contig => 0 < num ∧ 0 < contig

instance (d : Dist) : Decidable d.OK := by cases d <;> unfold OK <;> infer_instance

/-- `num_subblocks()` -/
def numSubblocks : Dist → Nat
  | whole => 1
  | block num => num
  | cyclic num _ => num

/-- `cyclic_contiguity()` -/
def contiguity : Dist → Nat
  | whole => 0
  | block _ => 0
  | cyclic _ c => c

/-- `impl_subblock_patches(dom, sb)` (dist.hpp l.51-54, 101-107, 231-240) -/
def subblockPatches : Dist → Nat → Nat → Nat
  | whole, _, _ => 1
  | block _, _, _ => 1
  | cyclic num c, n, sb => segmentChunks n num c sb

/-- `impl_subblock_size(dom, sb)` -/
def subblockSize : Dist → Nat → Nat → Nat
  | whole, n, _ => n
  | block num, n, sb => segmentSize n num sb
  | cyclic num c, n, sb => segmentSizeCyclic n num c sb

/-- `impl_patch_global_dom(dom, sb, p)` (dist.hpp l.61-65, 117-130, 265-278) -/
def patchGlobalDom : Dist → Nat → Nat → Nat → Dom
  | whole, n, _, _ => ⟨0, 1, n⟩
  | block num, n, sb, _ => ⟨segmentStart n num sb, 1, segmentSize n num sb⟩
  | cyclic num c, n, sb, p => ⟨(sb + p * num) * c, 1, segmentChunkSize n num c sb p⟩

/-- `impl_patch_local_dom(dom, sb, p)` (dist.hpp l.67-71, 132-142, 288-299) -/
def patchLocalDom : Dist → Nat → Nat → Nat → Dom
  | whole, n, _, _ => ⟨0, 1, n⟩
  | block num, n, sb, _ => ⟨0, 1, segmentSize n num sb⟩
  | cyclic num c, n, sb, p => ⟨p * c, 1, segmentChunkSize n num c sb p⟩

/-- division with the C++ undefined behaviour made explicit -/
def div? (a b : Nat) : Option Nat := if b = 0 then none else some (a / b)
/-- remainder with the C++ undefined behaviour made explicit -/
def mod? (a b : Nat) : Option Nat := if b = 0 then none else some (a % b)

/-- `impl_subblock_from_index(dom, i)` (dist.hpp l.73-76, 149-160, 301-309) -/
def subblockFromIndex? : Dist → Nat → Nat → Option Nat
  | whole, _, _ => some 0
  | block num, n, i =>
    let nominal := n / num
    let spill := n % num
    if i < (nominal + 1) * spill then div? i (nominal + 1) else div? (i - spill) nominal
  | cyclic num c, _, i => some ((i / c) % num)

/-- total version of the above (division by zero yields 0); agrees with it on valid indices -/
def subblockFromIndex : Dist → Nat → Nat → Nat
  | whole, _, _ => 0
  | block num, n, i =>
    let nominal := n / num
    let spill := n % num
    if i < (nominal + 1) * spill then i / (nominal + 1) else (i - spill) / nominal
  | cyclic num c, _, i => (i / c) % num

/-- `impl_patch_from_index(dom, i)` (dist.hpp l.78-81, 162-164, 311-321) -/
def patchFromIndex : Dist → Nat → Nat → Nat
  | whole, _, _ => 0
  | block _, _, _ => 0
  | cyclic num c, _, i =>
    let pg := i / c
    let sb := pg % num
    (pg - sb) / num

/-- `impl_local_from_global_index(dom, i)` (dist.hpp l.83-85, 166-176, 323-335) -/
def localFromGlobal? : Dist → Nat → Nat → Option Nat
  | whole, _, i => some i
  | block num, n, i =>
    let nominal := n / num
    let spill := n % num
    if i < (nominal + 1) * spill then mod? i (nominal + 1) else mod? (i - spill) nominal
  | cyclic num c, _, i =>
    let pg := i / c
    let off := i % c
    let sb := pg % num
    let pl := (pg - sb) / num
    some (pl * c + off)

/-- total version of the above -/
def localFromGlobal : Dist → Nat → Nat → Nat
  | whole, _, i => i
  | block num, n, i =>
    let nominal := n / num
    let spill := n % num
    if i < (nominal + 1) * spill then i % (nominal + 1) else (i - spill) % nominal
  | cyclic num c, _, i =>
    let pg := i / c
    let off := i % c
    let sb := pg % num
    let pl := (pg - sb) / num
    pl * c + off

/-- `impl_global_from_local_index(dom, sb, i)` (dist.hpp l.87-92, 185-195, 345-353) -/
def globalFromLocal : Dist → Nat → Nat → Nat → Nat
  | whole, _, _, i => i
  | block num, n, sb, i => sb * (n / num) + min sb (n % num) + i
  | cyclic num c, _, sb, i => (i / c * num + sb) * c + i % c

end Dist
end Verif
