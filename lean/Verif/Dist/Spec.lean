import Verif.Domain.Spec
/-!
Specification: what it means that a distribution of `0 .. n-1` over subblocks and patches is a partition and that
the index conversions agree with it.  Nothing here refers to the formulas of the distributions.
-/
namespace Verif.Spec
open Verif

/-- The answers a distribution gives for a range of `n` indices. -/
structure DistView where
  numSb : Nat
  patches : Nat → Nat
  size : Nat → Nat
  gdom : Nat → Nat → Dom
  ldom : Nat → Nat → Dom
  sbOf : Nat → Option Nat
  patchOf : Nat → Nat
  toLocal : Nat → Option Nat
  toGlobal : Nat → Nat → Nat

/-- The distribution is a partition of `0 .. n-1` and all its answers describe the same partition. -/
structure IsPartition (n : Nat) (v : DistView) : Prop where
  /-- every index is the `k`-th element of the global domain of the patch the code names, and its
  local index is the `k`-th element of the local domain of the same patch -/
  home : ∀ i, i < n → ∃ sb l k, v.sbOf i = some sb ∧ v.toLocal i = some l ∧ sb < v.numSb ∧
    v.patchOf i < v.patches sb ∧ k < (v.gdom sb (v.patchOf i)).length ∧
    elem (v.gdom sb (v.patchOf i)) k = i ∧ elem (v.ldom sb (v.patchOf i)) k = l
  /-- it lies in no other patch, and patches contain nothing but valid indices -/
  only : ∀ (z : Int) (sb p : Nat), sb < v.numSb → p < v.patches sb → Mem z (v.gdom sb p) →
    ∃ i : Nat, z = i ∧ i < n ∧ v.sbOf i = some sb ∧ v.patchOf i = p
  /-- a patch has as many local as global indices -/
  len : ∀ sb p, sb < v.numSb → p < v.patches sb → (v.gdom sb p).length = (v.ldom sb p).length
  /-- the local domains of the patches of a subblock tile `0 .. size-1` -/
  local_cover : ∀ sb (l : Nat), sb < v.numSb →
    (l < v.size sb ↔ ∃ p, p < v.patches sb ∧ Mem l (v.ldom sb p))
  local_disjoint : ∀ sb p p' (z : Int), sb < v.numSb → p < v.patches sb → p' < v.patches sb →
    Mem z (v.ldom sb p) → Mem z (v.ldom sb p') → p = p'
  /-- conversions are inverse to each other -/
  global_local : ∀ i sb l, i < n → v.sbOf i = some sb → v.toLocal i = some l → v.toGlobal sb l = i
  local_global : ∀ sb l, sb < v.numSb → l < v.size sb →
    v.toGlobal sb l < n ∧ v.sbOf (v.toGlobal sb l) = some sb ∧ v.toLocal (v.toGlobal sb l) = some l

end Verif.Spec
