import Verif.Map.Partition
import Verif.Map.Derived
/-! Lemmas for C11 -/
namespace Verif
open Spec

theorem mapM_some {α β} (l : List α) (f : α → Option β) (g : α → β) (h : ∀ x ∈ l, f x = some (g x)) :
    l.mapM f = some (l.map g) := by
  induction l with
  | nil => rfl
  | cons a l ih =>
    rw [List.mapM_cons, h a (by simp), ih (fun x hx => h x (by simp [hx]))]
    rfl

theorem projMap_ok {types : List DistKind} {args : List Dist} (hk : args.map Dist.kind = types) (pvec : List Nat) (N : Nat)
    (f : Nat → Nat) (hN : (args.map Dist.numSubblocks).prod = N) (hf : ∀ i, i < N → f i < pvec.length) :
    projMap types args ((List.range N).mapM fun i => pvec[f i]?) =
      some ⟨args ++ List.replicate (3 - args.length) Dist.whole, (List.range N).map fun i => pvec.getD (f i) 0⟩ := by
  rw [mapM_some (g := fun i => pvec.getD (f i) 0)]
  · unfold projMap
    simp only [hk, if_true, Option.bind_eq_bind, Option.bind_some, Map.mk?]
    have hr : ((args ++ List.replicate (3 - args.length) Dist.whole).map Dist.numSubblocks).prod = N := by
      simp [Dist.numSubblocks, hN]
    rw [hr]
    simp [List.take_of_length_le]
  · intro i hi
    rw [List.mem_range] at hi
    have := hf i hi
    rw [List.getD_eq_getElem?_getD, List.getElem?_eq_getElem this]
    rfl

theorem combine3 (s0 s1 s2 a b c : Nat) : combine [s0, s1, s2] [a, b, c] = (a * s1 + b) * s2 + c := by
  simp [combine]
theorem combine2 (s0 s1 a b : Nat) : combine [s0, s1] [a, b] = a * s1 + b := by
  simp [combine]
theorem combine1 (s0 a : Nat) : combine [s0] [a] = a := by
  simp [combine]

theorem processors_of_lt {m : AMap} {sb : Nat} (h : sb < m.numSubblocks) (hp : m.pvec.length = m.numSubblocks) :
    m.processors sb = [m.pvec.getD sb 0] := by
  unfold AMap.processors
  rw [Nat.mod_eq_of_lt h, List.getElem?_eq_getElem (by omega)]
  simp [List.getD_eq_getElem?_getD, List.getElem?_eq_getElem (show sb < m.pvec.length by omega)]

theorem processors_map {dims : List (Dist × Nat)} {g : Nat → Nat} {sb : Nat}
    (h : sb < (dims.map fun x => x.1.numSubblocks).prod) :
    (AMap.mk dims ((List.range (dims.map fun x => x.1.numSubblocks).prod).map g)).processors sb = [g sb] := by
  rw [processors_of_lt]
  · simp [List.getD_eq_getElem?_getD, h]
  · exact h
  · simp [AMap.numSubblocks, AMap.sbSizes]

/-- subblock extent of the subblock an index lives in -/
theorem subblockExtent_home {m : AMap} (hd : AMap.DimsOK m.dims) {idx : List Nat} (h : InRange idx m.ext) :
    m.subblockExtent (m.subblockFromGlobalIndex idx) = AMap.subblockSizes m.dims (AMap.dimSubblocks m.dims idx) := by
  unfold AMap.subblockExtent AMap.subblockFromGlobalIndex AMap.sbSizes
  rw [split_combine (AMap.dims_home hd h).1]

theorem copyDist_self (d : Dist) : copyDist d.kind d = d := by
  cases d <;> rfl

end Verif
