import Verif.Map.Subset
import Verif.Map.Props
/-! C12: maps of sub-domains of distributed arrays. -/
namespace Verif.Props
open Verif Spec

theorem elemN_normalize : ∀ {R : List Dom} {j : List Nat}, InRange j (lens R) → elemN (R.map normalize) j = ints j
  | [], [], _ => rfl
  | r :: R, j :: js, h => by
      have ih := elemN_normalize h.2
      simp only [List.map_cons, elemN, ih, ints, List.cons.injEq, and_true]
      simp [elem, normalize, Dom.ofLen]
  | [], _ :: _, h => h.elim
  | _ :: _, [], h => h.elim

theorem lens_subset : ∀ {D R A : List Dom}, intersectN A D = some R → lens (subsetFromIntrN D R) = lens R
  | [], R, [], h => by simp only [intersectN, Option.some.injEq] at h; subst h; rfl
  | d :: D, R, a :: A, h => by
      simp only [intersectN] at h
      split at h
      · cases h
      split at h
      · cases h
      rename_i h2
      cases h
      have := lens_subset h2
      simp only [lens, subsetFromIntrN, List.map_cons] at *
      rw [this]; rfl
  | [], _, _ :: _, h => by simp [intersectN] at h
  | _ :: _, _, [], h => by simp [intersectN] at h

/-- **C12.**  `D` is the sub-domain, with position `k` standing for the parent's index `elemN D k`.  The entries `es` of the new map are its
subblocks: every position is in exactly one of them, which is held by the processor holding the parent's element, and the parent-local
domain gives, at the same place, the parent's local index.
Missing: empty sub-domains, see `C12_empty_false`, and the reported extents, see `C12_extent_false`. -/
theorem C12_subset_partial (m : AMap) (hd : ∀ x ∈ m.dims, x.1.OK) (hc : ∀ x ∈ m.dims, x.1.kind ≠ .cyclic)
    (hp : m.pvec.length = m.numSubblocks) (D : List Dom) (hD : SubDomOK m.ext D) :
    ∃ es, subsetMap? m D = some es ∧
    (∀ k, InRange k (lens D) → ∃ idx, InRange idx m.ext ∧ elemN D k = ints idx ∧ ∃ e ∈ es,
      e.parentSb = m.subblockFromGlobalIndex idx ∧ m.processors e.parentSb = [e.proc] ∧
      ∃ j, InRange j (lens e.gdom) ∧ elemN e.gdom j = ints k ∧ elemN e.ldom j = ints j ∧
        elemN e.parentLocal j = ints (m.localFromGlobalIndex idx)) ∧
    (∀ e ∈ es, m.localFromGlobalDomain? e.parentSb D = some e.parentLocal ∧ lens e.parentLocal = lens e.gdom ∧ lens e.ldom = lens e.gdom) ∧
    (∀ e ∈ es, ∀ z, MemN z e.gdom → ∃ k, z = ints k ∧ InRange k (lens D)) ∧
    (∀ e ∈ es, ∀ e' ∈ es, ∀ z, MemN z e.gdom → MemN z e'.gdom → e = e') ∧ (es.map SubsetEntry.parentSb).Nodup := by
  have P := AMap.partition m hd
  have hcy : m.dims.any (fun x => x.1.kind == .cyclic) = false := by
    rw [List.any_eq_false]
    intro x hx
    simpa using hc x hx
  have hsplit : ∀ sb, sb < m.numSubblocks → InRange (splitTuple m.sbSizes sb) m.sbSizes := fun sb h =>
    (combine_split m.sbSizes sb h).1
  have hone : ∀ sb, sb < m.numSubblocks → m.numPatches sb = 1 := fun sb h => patchSizes_one hc (hsplit sb h)
  have hsub : ∀ sb, sb < m.numSubblocks → SubN (m.globalDomain sb 0) (m.localDomain sb 0) D := by
    intro sb h
    refine dims_subN hd hc (hsplit sb h) (combine_split _ 0 ?_).1 hD
    have := hone sb h
    unfold AMap.numPatches at this
    omega
  have hentry : ∀ e, e ∈ (List.range m.numSubblocks).filterMap (subsetEntry m D) →
      ∃ R, e.parentSb < m.numSubblocks ∧ intersectN (m.globalDomain e.parentSb 0) D = some R ∧
        e = { parentSb := e.parentSb, gdom := subsetFromIntrN D R, ldom := R.map normalize,
              parentLocal := applyIntrN (m.localDomain e.parentSb 0) (m.globalDomain e.parentSb 0) R,
              proc := m.pvec.getD e.parentSb 0, sbExt := m.subblockExtent e.parentSb } := by
    intro e he
    obtain ⟨sb, h1, h2⟩ := List.mem_filterMap.1 he
    rw [List.mem_range] at h1
    unfold subsetEntry at h2
    split at h2
    · cases h2
    rename_i R hR
    cases h2
    exact ⟨R, h1, hR, rfl⟩
  refine ⟨_, by unfold subsetMap?; rw [hcy]; rfl, ?_, ?_, ?_, ?_, ?_⟩
  · intro k hk
    obtain ⟨idx, hi, he⟩ := subDom_inRange hD hk
    obtain ⟨h1, h2, p, h3, h4, h5⟩ := P.home idx hi
    simp only [AMap.view] at h1 h2 h3 h4 h5
    have hp0 : m.patchFromGlobalIndex idx = 0 := by rw [hone _ h1] at h2; omega
    rw [hp0] at h3 h4 h5
    refine ⟨idx, hi, he, ?_⟩
    cases hR : intersectN (m.globalDomain (m.subblockFromGlobalIndex idx) 0) D with
    | none => exact absurd (he.trans h4.symm) (subN_none (hsub _ h1) hR k p hk h3)
    | some R =>
      obtain ⟨s1, s2, s3⟩ := subN_some (hsub _ h1) hR
      obtain ⟨j, j1, j2, j3⟩ := s1 k p hk h3 (he.trans h4.symm)
      obtain ⟨e, hee, hE⟩ : ∃ e, e = SubsetEntry.mk (m.subblockFromGlobalIndex idx) (subsetFromIntrN D R) (R.map normalize)
          (applyIntrN (m.localDomain (m.subblockFromGlobalIndex idx) 0) (m.globalDomain (m.subblockFromGlobalIndex idx) 0) R)
          (m.pvec.getD (m.subblockFromGlobalIndex idx) 0) (m.subblockExtent (m.subblockFromGlobalIndex idx)) ∧
          subsetEntry m D (m.subblockFromGlobalIndex idx) = some e :=
        ⟨_, rfl, by unfold subsetEntry; rw [hR]⟩
      refine ⟨e, List.mem_filterMap.2 ⟨m.subblockFromGlobalIndex idx, List.mem_range.2 h1, hE⟩, ?_⟩
      · subst hee
        refine ⟨rfl, processors_of_lt h1 hp, j, j1, j2, ?_, j3.trans h5⟩
        rw [lens_subset hR] at j1
        exact elemN_normalize j1
  · intro e he
    obtain ⟨R, h1, h2, h3⟩ := hentry e he
    rw [h3]
    obtain ⟨s1, s2, s3⟩ := subN_some (hsub _ h1) h2
    refine ⟨?_, s3.symm, ?_⟩
    · unfold AMap.localFromGlobalDomain?
      rw [if_neg (by simp [hone _ h1]), h2]
    · rw [lens_subset h2]
      simp [lens, normalize, Dom.ofLen]
  · intro e he z hz
    obtain ⟨R, h1, h2, h3⟩ := hentry e he
    rw [h3] at hz
    obtain ⟨j, hj, rfl⟩ := memN_iff_elemN.1 hz
    obtain ⟨k, p, q1, q2, q3, q4, q5⟩ := (subN_some (hsub _ h1) h2).2.1 j hj
    exact ⟨k, q4, q1⟩
  · have loc : ∀ e, e ∈ (List.range m.numSubblocks).filterMap (subsetEntry m D) → ∀ z, MemN z e.gdom →
        ∃ k idx, z = ints k ∧ elemN D k = ints idx ∧ InRange idx m.ext ∧ m.subblockFromGlobalIndex idx = e.parentSb := by
      intro e he z hz
      obtain ⟨R, h1, h2, h3⟩ := hentry e he
      rw [h3] at hz
      obtain ⟨j, hj, rfl⟩ := memN_iff_elemN.1 hz
      obtain ⟨k, p, q1, q2, q3, q4, q5⟩ := (subN_some (hsub _ h1) h2).2.1 j hj
      have hm : MemN (elemN D k) (m.globalDomain e.parentSb 0) := by
        rw [q3]; exact memN_iff_elemN.2 ⟨p, q2, rfl⟩
      obtain ⟨idx, i1, i2, i3, i4⟩ := P.only _ e.parentSb 0 h1 (by
        show 0 < m.numPatches e.parentSb
        rw [hone _ h1]; omega) hm
      exact ⟨k, idx, q4, i1, i2, i3⟩
    intro e he e' he' z hz hz'
    obtain ⟨k, idx, a1, a2, a3, a4⟩ := loc e he z hz
    obtain ⟨k', idx', b1, b2, b3, b4⟩ := loc e' he' z hz'
    have hk : k = k' := ints_inj (a1.symm.trans b1)
    subst hk
    have hi : idx = idx' := ints_inj (a2.symm.trans b2)
    subst hi
    obtain ⟨R, h1, h2, h3⟩ := hentry e he
    obtain ⟨R', h1', h2', h3'⟩ := hentry e' he'
    have hs : e.parentSb = e'.parentSb := a4.symm.trans b4
    rw [hs] at h2 h3
    rw [h2] at h2'
    cases h2'
    rw [h3, h3']
  · have : ∀ l : List Nat, l.Nodup → ((l.filterMap (subsetEntry m D)).map SubsetEntry.parentSb).Sublist l := by
      intro l
      induction l with
      | nil => intro _; simp
      | cons a l ih =>
        intro h
        rw [List.filterMap_cons]
        cases hs : subsetEntry m D a with
        | none => exact (ih (List.nodup_cons.1 h).2).cons _
        | some e =>
          have : e.parentSb = a := by
            unfold subsetEntry at hs
            split at hs
            · cases hs
            · cases hs; rfl
          simp only [List.map_cons, this]
          exact (ih (List.nodup_cons.1 h).2).cons_cons _
    exact (List.nodup_range).sublist (this _ List.nodup_range)

/-- a 7×9 matrix on a 2×3 grid; every second row from 1, columns 2..6 -/
def exSub : AMap := ⟨[(.block 2, 7), (.block 3, 9)], [0, 1, 2, 3, 4, 5]⟩
example : (∀ x ∈ exSub.dims, x.1.OK) ∧ (∀ x ∈ exSub.dims, x.1.kind ≠ .cyclic) ∧ exSub.pvec.length = exSub.numSubblocks ∧
    ((subsetMap? exSub [⟨1, 2, 3⟩, ⟨2, 1, 5⟩]).map fun es => es.map SubsetEntry.gdom) =
      some [[⟨0, 1, 2⟩, ⟨0, 1, 1⟩], [⟨0, 1, 2⟩, ⟨1, 1, 3⟩], [⟨0, 1, 2⟩, ⟨4, 1, 1⟩],
            [⟨2, 1, 1⟩, ⟨0, 1, 1⟩], [⟨2, 1, 1⟩, ⟨1, 1, 3⟩], [⟨2, 1, 1⟩, ⟨4, 1, 1⟩]] := by decide
example : SubDomOK exSub.ext [⟨1, 2, 3⟩, ⟨2, 1, 5⟩] := by
  refine ⟨?_, ?_, trivial⟩ <;> simp only [] <;> decide

/-- The subblock extent the new map reports is the parent's, not that of the part selected: a subblock with 1 selected element
claims to have 4. -/
theorem C12_extent_false : ¬ ∀ (m : AMap) (D : List Dom), (∀ x ∈ m.dims, x.1.OK) → (∀ x ∈ m.dims, x.1.kind ≠ .cyclic) →
    m.pvec.length = m.numSubblocks → SubDomOK m.ext D → ∀ es, subsetMap? m D = some es → ∀ e ∈ es, e.sbExt = lens e.ldom := by
  intro h
  have := h ⟨[(.block 2, 8)], [0, 1]⟩ [⟨3, 1, 1⟩] (by decide) (by decide) (by decide) (by
    refine ⟨?_, trivial⟩; simp only []; decide) _ rfl ⟨0, [⟨0, 1, 1⟩], [⟨0, 1, 1⟩], [⟨3, 1, 1⟩], 0, [4]⟩ (by decide)
  revert this
  decide

/-- Non-emptiness of the sub-domain is needed: for the empty sub-domain `Domain<1>(0)` the map contains elements. -/
theorem C12_empty_false : ¬ ∀ (m : AMap) (D : List Dom), (∀ x ∈ m.dims, x.1.OK) → (∀ x ∈ m.dims, x.1.kind ≠ .cyclic) →
    m.pvec.length = m.numSubblocks → (∀ d ∈ D, d.length = 0) → D.length = m.dims.length → ∀ es, subsetMap? m D = some es →
    ∀ e ∈ es, ∀ d ∈ e.gdom, d.length = 0 := by
  intro h
  have := h ⟨[(.block 2, 8)], [0, 1]⟩ [⟨0, 1, 0⟩] (by decide) (by decide) (by decide) (by decide) (by decide) _ rfl
    ⟨0, [⟨0, 1, 4⟩], [⟨0, 1, 4⟩], [⟨0, 1, 4⟩], 0, [4]⟩ (by decide) ⟨0, 1, 4⟩ (by decide)
  revert this
  decide

end Verif.Props
