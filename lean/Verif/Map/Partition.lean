import Verif.Map.Lemmas
/-!
Lifting of the one-dimensional partition to maps.
-/
namespace Verif
open Spec

theorem forall_inRange_nil {ss : List Nat} : InRange [] ss ↔ ss = [] := by
  cases ss <;> simp [InRange]

/-- per-dimension facts, for the total versions of the conversion functions -/
structure DimFacts (d : Dist) (n : Nat) : Prop where
  home : ∀ i, i < n → d.subblockFromIndex n i < d.numSubblocks ∧
    d.patchFromIndex n i < d.subblockPatches n (d.subblockFromIndex n i) ∧
    ∃ k, k < (d.patchGlobalDom n (d.subblockFromIndex n i) (d.patchFromIndex n i)).length ∧
      elem (d.patchGlobalDom n (d.subblockFromIndex n i) (d.patchFromIndex n i)) k = i ∧
      elem (d.patchLocalDom n (d.subblockFromIndex n i) (d.patchFromIndex n i)) k = d.localFromGlobal n i
  only : ∀ (z : Int) (sb p : Nat), sb < d.numSubblocks → p < d.subblockPatches n sb → Mem z (d.patchGlobalDom n sb p) →
    ∃ i : Nat, z = i ∧ i < n ∧ d.subblockFromIndex n i = sb ∧ d.patchFromIndex n i = p
  len : ∀ sb p, sb < d.numSubblocks → p < d.subblockPatches n sb →
    (d.patchGlobalDom n sb p).length = (d.patchLocalDom n sb p).length
  local_cover : ∀ sb (l : Nat), sb < d.numSubblocks →
    (l < d.subblockSize n sb ↔ ∃ p, p < d.subblockPatches n sb ∧ Mem l (d.patchLocalDom n sb p))
  local_disjoint : ∀ sb p p' (z : Int), sb < d.numSubblocks → p < d.subblockPatches n sb → p' < d.subblockPatches n sb →
    Mem z (d.patchLocalDom n sb p) → Mem z (d.patchLocalDom n sb p') → p = p'
  global_local : ∀ i, i < n → d.globalFromLocal n (d.subblockFromIndex n i) (d.localFromGlobal n i) = i
  local_global : ∀ sb l, sb < d.numSubblocks → l < d.subblockSize n sb →
    d.globalFromLocal n sb l < n ∧ d.subblockFromIndex n (d.globalFromLocal n sb l) = sb ∧
    d.localFromGlobal n (d.globalFromLocal n sb l) = l

theorem dimFacts (d : Dist) (hd : d.OK) (n : Nat) : DimFacts d n := by
  have P := Dist.partition d hd n
  have S := Dist.home_some d hd n
  constructor
  · intro i hi
    obtain ⟨sb, l, k, h1, h2, h3, h4, h5, h6, h7⟩ := P.home i hi
    simp only [Dist.view] at h1 h2 h3 h4 h5 h6 h7
    rw [(S i hi).1] at h1
    rw [(S i hi).2] at h2
    injection h1 with h1
    injection h2 with h2
    subst h1 h2
    exact ⟨h3, h4, k, h5, h6, h7⟩
  · intro z sb p hsb hp hz
    obtain ⟨i, h1, h2, h3, h4⟩ := P.only z sb p hsb hp hz
    simp only [Dist.view] at h3
    rw [(S i h2).1] at h3
    injection h3 with h3
    exact ⟨i, h1, h2, h3, h4⟩
  · exact P.len
  · exact P.local_cover
  · exact P.local_disjoint
  · intro i hi
    exact P.global_local i _ _ hi (S i hi).1 (S i hi).2
  · intro sb l hsb hl
    obtain ⟨h1, h2, h3⟩ := P.local_global sb l hsb hl
    simp only [Dist.view] at h1 h2 h3
    rw [(S _ h1).1] at h2
    rw [(S _ h1).2] at h3
    injection h2 with h2
    injection h3 with h3
    exact ⟨h1, h2, h3⟩

namespace AMap

/-- all distributions are well formed -/
def DimsOK (dims : List (Dist × Nat)) : Prop := ∀ x ∈ dims, x.1.OK

variable {dims : List (Dist × Nat)}

theorem dims_home (hd : DimsOK dims) {idx : List Nat} (h : InRange idx (dims.map fun x => x.2)) :
    InRange (dimSubblocks dims idx) (dims.map fun x => x.1.numSubblocks) ∧
    InRange (dimPatches dims idx) (patchSizes dims (dimSubblocks dims idx)) ∧
    ∃ k, InRange k (lens (globalDoms dims (dimSubblocks dims idx) (dimPatches dims idx))) ∧
      elemN (globalDoms dims (dimSubblocks dims idx) (dimPatches dims idx)) k = ints idx ∧
      elemN (localDoms dims (dimSubblocks dims idx) (dimPatches dims idx)) k = ints (localIdx dims idx) := by
  induction dims generalizing idx with
  | nil => cases idx with
    | nil => exact ⟨trivial, trivial, [], trivial, rfl, rfl⟩
    | cons => exact h.elim
  | cons x dims ih => cases idx with
    | nil => exact h.elim
    | cons i idx =>
      obtain ⟨h1, h2⟩ := h
      obtain ⟨a1, a2, k, a3, a4, a5⟩ := (dimFacts x.1 (hd x (by simp)) x.2).home i h1
      obtain ⟨b1, b2, ks, b3, b4, b5⟩ := ih (fun y hy => hd y (by simp [hy])) h2
      refine ⟨⟨a1, b1⟩, ⟨a2, b2⟩, k :: ks, ⟨a3, b3⟩, ?_, ?_⟩
      · simp only [dimSubblocks, dimPatches, globalDoms, elemN, a4, b4]; rfl
      · simp only [dimSubblocks, dimPatches, localDoms, elemN, a5, b5]; rfl

theorem dims_only (hd : DimsOK dims) {sbs ps : List Nat} {z : List Int}
    (h1 : InRange sbs (dims.map fun x => x.1.numSubblocks)) (h2 : InRange ps (patchSizes dims sbs))
    (hz : MemN z (globalDoms dims sbs ps)) :
    ∃ idx, z = ints idx ∧ InRange idx (dims.map fun x => x.2) ∧ dimSubblocks dims idx = sbs ∧ dimPatches dims idx = ps := by
  induction dims generalizing sbs ps z with
  | nil =>
    cases sbs with
    | cons => exact h1.elim
    | nil =>
      cases ps with
      | cons => exact h2.elim
      | nil =>
        cases z with
        | cons => exact hz.elim
        | nil => exact ⟨[], rfl, trivial, rfl, rfl⟩
  | cons x dims ih =>
    cases sbs with
    | nil => exact h1.elim
    | cons sb sbs =>
      cases ps with
      | nil => exact h2.elim
      | cons p ps =>
        cases z with
        | nil => exact hz.elim
        | cons z zs =>
          obtain ⟨i, a1, a2, a3, a4⟩ := (dimFacts x.1 (hd x (by simp)) x.2).only z sb p h1.1 h2.1 hz.1
          obtain ⟨is, b1, b2, b3, b4⟩ := ih (fun y hy => hd y (by simp [hy])) h1.2 h2.2 hz.2
          refine ⟨i :: is, ?_, ⟨a2, b2⟩, ?_, ?_⟩
          · rw [a1, b1]; rfl
          · simp only [dimSubblocks, a3, b3]
          · simp only [dimPatches, a4, b4]

theorem dims_len (hd : DimsOK dims) {sbs ps : List Nat}
    (h1 : InRange sbs (dims.map fun x => x.1.numSubblocks)) (h2 : InRange ps (patchSizes dims sbs)) :
    lens (globalDoms dims sbs ps) = lens (localDoms dims sbs ps) := by
  induction dims generalizing sbs ps with
  | nil => rfl
  | cons x dims ih =>
    cases sbs with
    | nil => exact h1.elim
    | cons sb sbs =>
      cases ps with
      | nil => exact h2.elim
      | cons p ps =>
        have a := (dimFacts x.1 (hd x (by simp)) x.2).len sb p h1.1 h2.1
        have b := ih (fun y hy => hd y (by simp [hy])) h1.2 h2.2
        simp only [lens, globalDoms, localDoms, List.map_cons, a] at *
        rw [b]

theorem dims_local_cover (hd : DimsOK dims) {sbs l : List Nat}
    (h1 : InRange sbs (dims.map fun x => x.1.numSubblocks)) :
    InRange l (subblockSizes dims sbs) ↔ ∃ ps, InRange ps (patchSizes dims sbs) ∧ MemN (ints l) (localDoms dims sbs ps) := by
  induction dims generalizing sbs l with
  | nil =>
    cases sbs with
    | cons => exact h1.elim
    | nil =>
      cases l with
      | nil => exact ⟨fun _ => ⟨[], trivial, trivial⟩, fun _ => trivial⟩
      | cons =>
        refine ⟨fun h => h.elim, ?_⟩
        rintro ⟨ps, -, h⟩
        exact h.elim
  | cons x dims ih =>
    cases sbs with
    | nil => exact h1.elim
    | cons sb sbs =>
      cases l with
      | nil =>
        refine ⟨fun h => h.elim, ?_⟩
        rintro ⟨ps, h, h'⟩
        cases ps with
        | nil => exact h.elim
        | cons => exact h'.elim
      | cons l ls =>
        have a := (dimFacts x.1 (hd x (by simp)) x.2).local_cover sb l h1.1
        have b := ih (fun y hy => hd y (by simp [hy])) (l := ls) h1.2
        simp only [subblockSizes, inRange_cons, a, b]
        constructor
        · rintro ⟨⟨p, p1, p2⟩, ps, q1, q2⟩
          exact ⟨p :: ps, ⟨p1, q1⟩, ⟨p2, q2⟩⟩
        · rintro ⟨ps, q1, q2⟩
          cases ps with
          | nil => exact q1.elim
          | cons p ps => exact ⟨⟨p, q1.1, q2.1⟩, ps, q1.2, q2.2⟩

theorem dims_local_disjoint (hd : DimsOK dims) {sbs ps ps' : List Nat} {z : List Int}
    (h1 : InRange sbs (dims.map fun x => x.1.numSubblocks)) (h2 : InRange ps (patchSizes dims sbs))
    (h3 : InRange ps' (patchSizes dims sbs)) (hz : MemN z (localDoms dims sbs ps)) (hz' : MemN z (localDoms dims sbs ps')) :
    ps = ps' := by
  induction dims generalizing sbs ps ps' z with
  | nil =>
    cases ps with
    | cons => exact h2.elim
    | nil => cases ps' with
      | cons => exact h3.elim
      | nil => rfl
  | cons x dims ih =>
    cases sbs with
    | nil => exact h1.elim
    | cons sb sbs =>
      cases ps with
      | nil => exact h2.elim
      | cons p ps =>
        cases ps' with
        | nil => exact h3.elim
        | cons p' ps' =>
          cases z with
          | nil => exact hz.elim
          | cons z zs =>
            have a := (dimFacts x.1 (hd x (by simp)) x.2).local_disjoint sb p p' z h1.1 h2.1 h3.1 hz.1 hz'.1
            have b := ih (fun y hy => hd y (by simp [hy])) h1.2 h2.2 h3.2 hz.2 hz'.2
            rw [a, b]

theorem dims_global_local (hd : DimsOK dims) {idx : List Nat} (h : InRange idx (dims.map fun x => x.2)) :
    globalIdx dims (dimSubblocks dims idx) (localIdx dims idx) = idx := by
  induction dims generalizing idx with
  | nil => cases idx with
    | nil => rfl
    | cons => exact h.elim
  | cons x dims ih => cases idx with
    | nil => exact h.elim
    | cons i idx =>
      simp only [dimSubblocks, localIdx, globalIdx, (dimFacts x.1 (hd x (by simp)) x.2).global_local i h.1,
        ih (fun y hy => hd y (by simp [hy])) h.2]

theorem dims_local_global (hd : DimsOK dims) {sbs l : List Nat}
    (h1 : InRange sbs (dims.map fun x => x.1.numSubblocks)) (h2 : InRange l (subblockSizes dims sbs)) :
    InRange (globalIdx dims sbs l) (dims.map fun x => x.2) ∧ dimSubblocks dims (globalIdx dims sbs l) = sbs ∧
    localIdx dims (globalIdx dims sbs l) = l := by
  induction dims generalizing sbs l with
  | nil =>
    cases sbs with
    | cons => exact h1.elim
    | nil => cases l with
      | nil => exact ⟨trivial, rfl, rfl⟩
      | cons => exact h2.elim
  | cons x dims ih =>
    cases sbs with
    | nil => exact h1.elim
    | cons sb sbs =>
      cases l with
      | nil => exact h2.elim
      | cons l ls =>
        obtain ⟨a1, a2, a3⟩ := (dimFacts x.1 (hd x (by simp)) x.2).local_global sb l h1.1 h2.1
        obtain ⟨b1, b2, b3⟩ := ih (fun y hy => hd y (by simp [hy])) h1.2 h2.2
        exact ⟨⟨a1, b1⟩, by simp only [globalIdx, dimSubblocks, a2, b2], by simp only [globalIdx, localIdx, a3, b3]⟩

/-- what a map answers -/
def view (m : AMap) : MapView where
  numSb := m.numSubblocks
  patches := m.numPatches
  sbExt := m.subblockExtent
  gdom := m.globalDomain
  ldom := m.localDomain
  sbOf := m.subblockFromGlobalIndex
  patchOf := m.patchFromGlobalIndex
  toLocal := m.localFromGlobalIndex
  toGlobal := m.globalFromLocalIndex

theorem partition (m : AMap) (hd : DimsOK m.dims) : IsMapPartition m.ext m.view := by
  have hsplit : ∀ sb, sb < m.numSubblocks → InRange (splitTuple m.sbSizes sb) m.sbSizes := fun sb h =>
    (combine_split m.sbSizes sb h).1
  have hp : ∀ sb p, p < m.numPatches sb → InRange (splitTuple (patchSizes m.dims (splitTuple m.sbSizes sb)) p)
      (patchSizes m.dims (splitTuple m.sbSizes sb)) := fun sb p h => (combine_split _ p h).1
  have hsbs : ∀ idx, InRange idx m.ext → splitTuple m.sbSizes (m.subblockFromGlobalIndex idx) = dimSubblocks m.dims idx :=
    fun idx h => split_combine (dims_home hd h).1
  have hps : ∀ idx, InRange idx m.ext →
      splitTuple (patchSizes m.dims (dimSubblocks m.dims idx)) (m.patchFromGlobalIndex idx) = dimPatches m.dims idx := by
    intro idx h
    unfold patchFromGlobalIndex
    simp only [hsbs idx h]
    exact split_combine (dims_home hd h).2.1
  constructor
  · intro idx h
    obtain ⟨h1, h2, k, h3, h4, h5⟩ := dims_home hd h
    refine ⟨combine_lt h1, ?_, k, ?_⟩
    · simp only [view, numPatches, hsbs idx h, patchFromGlobalIndex]
      exact combine_lt h2
    · simp only [view, globalDomain, localDomain, hsbs idx h, hps idx h]
      exact ⟨h3, h4, h5⟩
  · intro z sb p hsb hpp hz
    obtain ⟨idx, h1, h2, h3, h4⟩ := dims_only hd (hsplit sb hsb) (hp sb p hpp) hz
    have hsbe : m.subblockFromGlobalIndex idx = sb := by
      unfold subblockFromGlobalIndex
      rw [h3]; exact (combine_split _ sb hsb).2
    refine ⟨idx, h1, h2, hsbe, ?_⟩
    simp only [view, patchFromGlobalIndex, hsbe, h4]
    exact (combine_split _ p hpp).2
  · intro sb p hsb hpp
    exact dims_len hd (hsplit sb hsb) (hp sb p hpp)
  · intro sb l hsb
    simp only [view, subblockExtent]
    rw [dims_local_cover hd (hsplit sb hsb)]
    constructor
    · rintro ⟨ps, h1, h2⟩
      refine ⟨combine _ ps, combine_lt h1, ?_⟩
      simp only [localDomain]
      rw [split_combine h1]
      exact h2
    · rintro ⟨p, h1, h2⟩
      exact ⟨_, hp sb p h1, h2⟩
  · intro sb p p' z hsb hpp hpp' hz hz'
    have := dims_local_disjoint hd (hsplit sb hsb) (hp sb p hpp) (hp sb p' hpp') hz hz'
    rw [← (combine_split _ p hpp).2, this, (combine_split _ p' hpp').2]
  · intro idx h
    simp only [view, globalFromLocalIndex, hsbs idx h]
    exact dims_global_local hd h
  · intro sb l hsb hl
    obtain ⟨h1, h2, h3⟩ := dims_local_global hd (hsplit sb hsb) hl
    refine ⟨h1, ?_, h3⟩
    simp only [view, subblockFromGlobalIndex, globalFromLocalIndex, h2]
    exact (combine_split _ sb hsb).2

end AMap
end Verif
