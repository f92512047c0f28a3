import Verif.ParView.Model
/-! What the parallel support functions of a view must say. -/
namespace Verif.Pv
open Verif Spec

/-- Asked about an index of the view, the functions describe one place: a subblock, a position in one of its patches, the local
index there; and back. On processors which hold that subblock, the functions without a subblock argument say the same. -/
def Describes (ext : List Nat) (a : Api) : Prop := ∀ idx, InRange idx ext →
  ∃ (sb : Nat) (l : List Nat) (np p : Nat) (G L S : List Dom) (k : List Nat),
    subblockFromGlobalIndex a idx = .val sb ∧ sb < a.numSb ∧ (∃ pr, a.subblock pr = some sb) ∧
    localFromGlobalIndex a idx = .val l ∧ globalFromLocalIndex a (some sb) l = .val idx ∧
    subblockDomain a (some sb) = .val S ∧ MemN (ints l) S ∧
    numPatches a (some sb) = .val np ∧ p < np ∧ globalDomain a (some sb) p = .val G ∧ localDomain a (some sb) p = .val L ∧
    InRange k (lens G) ∧ elemN G k = ints idx ∧ elemN L k = ints l ∧
    ∀ pr, a.subblock pr = some sb →
      subblockDomainHere a pr = .val S ∧ numPatchesHere a pr = .val np ∧ globalDomainHere a pr p = .val G ∧
      localDomainHere a pr p = .val L ∧ globalFromLocalIndexHere a pr l = .val idx ∧
      ∀ (d i : Nat), l[d]? = some i → ∃ j, idx[d]? = some j ∧ globalFromLocalDimHere a pr d i = .val j

/-- the domain without indices, in every dimension -/
def nothingDom (D : Nat) : List Dom := List.replicate D ⟨0, 1, 0⟩

/-- what the functions must say on a processor without data: nothing is there -/
def SaysNothing (D : Nat) (a : Api) (pr : Nat) : Prop :=
  subblockDomainHere a pr = .val (nothingDom D) ∧ numPatchesHere a pr = .val 0 ∧
  (∀ p, globalDomainHere a pr p = .val (nothingDom D)) ∧ (∀ p, localDomainHere a pr p = .val (nothingDom D)) ∧
  ∀ d i, globalFromLocalDimHere a pr d i = .val noIndex

/-- the global domains of the map contain only indices of the view -/
def Inside (ext : List Nat) (a : Api) : Prop :=
  ∀ sb p G, sb < a.numSb → a.gdom (some sb) p = .val G → belowAns p (a.patches (some sb)) = true →
    ∀ z, MemN z G → ∃ idx, z = ints idx ∧ InRange idx ext

end Verif.Pv
