import Verif.Domain.Spec
/-!
Specification vocabulary for multi-dimensional index spaces and for maps: what it means that a map partitions an
index space over subblocks and patches and that its answers agree.
-/
namespace Verif
open Spec

/-- every component is below the corresponding size -/
def InRange : List Nat → List Nat → Prop
  | [], [] => True
  | x :: xs, s :: ss => x < s ∧ InRange xs ss
  | _, _ => False

@[simp] theorem inRange_nil : InRange [] [] := trivial
@[simp] theorem inRange_cons {x s : Nat} {xs ss : List Nat} :
    InRange (x :: xs) (s :: ss) ↔ x < s ∧ InRange xs ss := Iff.rfl

theorem inRange_length : ∀ {xs ss : List Nat}, InRange xs ss → xs.length = ss.length
  | [], [], _ => rfl
  | _ :: _, _ :: _, h => by simp [inRange_length h.2]
  | [], _ :: _, h => h.elim
  | _ :: _, [], h => h.elim

instance decInRange : ∀ xs ss : List Nat, Decidable (InRange xs ss)
  | [], [] => isTrue trivial
  | _ :: xs, _ :: ss => @instDecidableAnd _ _ _ (decInRange xs ss)
  | [], _ :: _ => isFalse id
  | _ :: _, [] => isFalse id


namespace Spec

/-- the element of a multi-dimensional domain at a multi-dimensional position -/
def elemN : List Dom → List Nat → List Int
  | d :: ds, k :: ks => elem d k :: elemN ds ks
  | _, _ => []

/-- an index as integers -/
def ints (l : List Nat) : List Int := l.map fun (x : Nat) => (x : Int)

/-- lengths of a multi-dimensional domain -/
def lens (ds : List Dom) : List Nat := ds.map Dom.length

/-- The answers a map gives about an index space. -/
structure MapView where
  numSb : Nat
  patches : Nat → Nat
  sbExt : Nat → List Nat
  gdom : Nat → Nat → List Dom
  ldom : Nat → Nat → List Dom
  sbOf : List Nat → Nat
  patchOf : List Nat → Nat
  toLocal : List Nat → List Nat
  toGlobal : Nat → List Nat → List Nat

/-- The map is a partition of the index space `ext` and all its answers describe the same partition. -/
structure IsMapPartition (ext : List Nat) (v : MapView) : Prop where
  /-- each index is at some position of the global domain of the patch named by the map; its local index is at the same
  position of the local domain of that patch -/
  home : ∀ idx, InRange idx ext → v.sbOf idx < v.numSb ∧ v.patchOf idx < v.patches (v.sbOf idx) ∧
    ∃ k, InRange k (lens (v.gdom (v.sbOf idx) (v.patchOf idx))) ∧
      elemN (v.gdom (v.sbOf idx) (v.patchOf idx)) k = ints idx ∧
      elemN (v.ldom (v.sbOf idx) (v.patchOf idx)) k = ints (v.toLocal idx)
  /-- it lies in no other patch; patches contain only indices of the space -/
  only : ∀ (z : List Int) (sb p : Nat), sb < v.numSb → p < v.patches sb → MemN z (v.gdom sb p) →
    ∃ idx, z = ints idx ∧ InRange idx ext ∧ v.sbOf idx = sb ∧ v.patchOf idx = p
  len : ∀ sb p, sb < v.numSb → p < v.patches sb → lens (v.gdom sb p) = lens (v.ldom sb p)
  /-- the local domains of the patches of a subblock tile the subblock's local index space -/
  local_cover : ∀ sb l, sb < v.numSb →
    (InRange l (v.sbExt sb) ↔ ∃ p, p < v.patches sb ∧ MemN (ints l) (v.ldom sb p))
  local_disjoint : ∀ sb p p' z, sb < v.numSb → p < v.patches sb → p' < v.patches sb →
    MemN z (v.ldom sb p) → MemN z (v.ldom sb p') → p = p'
  /-- local and global indices convert into each other -/
  global_local : ∀ idx, InRange idx ext → v.toGlobal (v.sbOf idx) (v.toLocal idx) = idx
  local_global : ∀ sb l, sb < v.numSb → InRange l (v.sbExt sb) →
    InRange (v.toGlobal sb l) ext ∧ v.sbOf (v.toGlobal sb l) = sb ∧ v.toLocal (v.toGlobal sb l) = l

end Spec
end Verif
