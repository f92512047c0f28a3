import Verif.Map.Slice
/-!
C09, C10, C11, C13: maps, their processors, slices, equality.
-/
namespace Verif.Props
open Verif Spec

/-! ## C09 -/

/-- **C09.** Applied maps (any number of dimensions, any mix of whole/block/cyclic distributions) partition the index space, and all
conversion functions agree on every element's home. -/
theorem C09_home (m : AMap) (hd : ∀ x ∈ m.dims, x.1.OK) : IsMapPartition m.ext m.view :=
  AMap.partition m hd

/-- per-dimension conversions used by maps never divide by zero for indices in range -/
theorem C09_no_ub (d : Dist) (hd : d.OK) (n i : Nat) (hi : i < n) :
    d.subblockFromIndex? n i = some (d.subblockFromIndex n i) ∧
    d.localFromGlobal? n i = some (d.localFromGlobal n i) :=
  Dist.home_some d hd n i hi

/-- a 7×5 matrix, block-distributed rows (2), cyclic columns (2, contiguity 2) -/
def exMap : AMap := ⟨[(.block 2, 7), (.cyclic 2 2, 5)], [4, 5, 6, 7]⟩

example : (∀ x ∈ exMap.dims, x.1.OK) ∧ exMap.subblockFromGlobalIndex [5, 4] = 2 ∧ exMap.patchFromGlobalIndex [5, 4] = 1 ∧
    exMap.localFromGlobalIndex [5, 4] = [1, 2] ∧ exMap.globalDomain 2 1 = [⟨4, 1, 3⟩, ⟨4, 1, 1⟩] ∧
    exMap.subblockExtent 2 = [3, 3] := by decide

/-! ## C10 -/

theorem rankFrom_some {pvec : List Nat} {pr i r : Nat} :
    AMap.rankFrom pvec pr i = some r → i ≤ r ∧ pvec[r - i]? = some pr := by
  induction pvec generalizing i with
  | nil => intro h; simp [AMap.rankFrom] at h
  | cons p ps ih =>
    intro h
    unfold AMap.rankFrom at h
    split at h
    · rename_i hp
      injection h with h
      subst h
      simp [hp]
    · obtain ⟨h1, h2⟩ := ih h
      refine ⟨by omega, ?_⟩
      rw [show r - i = (r - (i + 1)) + 1 by omega]
      simpa using h2

theorem rankFrom_none {pvec : List Nat} {pr i : Nat} : AMap.rankFrom pvec pr i = none ↔ pr ∉ pvec := by
  induction pvec generalizing i with
  | nil => simp [AMap.rankFrom]
  | cons p ps ih =>
    unfold AMap.rankFrom
    split
    · rename_i hp; simp [hp]
    · rename_i hp
      rw [ih]
      simp [Ne.symm hp]

theorem rankFrom_nodup {pvec : List Nat} (hn : pvec.Nodup) {k pr : Nat} (h : pvec[k]? = some pr) :
    AMap.rankFrom pvec pr 0 = some k := by
  cases hr : AMap.rankFrom pvec pr 0 with
  | none =>
    rw [rankFrom_none] at hr
    exact absurd (List.mem_of_getElem? h) hr
  | some r =>
    obtain ⟨-, h2⟩ := rankFrom_some hr
    rw [Nat.sub_zero] at h2
    congr 1
    obtain ⟨hk, hk2⟩ := List.getElem?_eq_some_iff.1 h
    obtain ⟨hr1, hr2⟩ := List.getElem?_eq_some_iff.1 h2
    exact (List.Nodup.getElem_inj_iff hn).1 (hr2.trans hk2.symm)

/-- **C10** for `Map`: for a map built from distinct processors, subblocks and processors are matched one to one. -/
theorem C10_map (dist : List Dist) (procs : List Nat) (hn : procs.Nodup) (m : Map) (hm : Map.mk? dist procs = some m)
    (ext : List Nat) (a : AMap) (ha : m.apply? ext = some a) :
    (∀ sb, sb < a.numSubblocks → ∃ pr ∈ procs, a.processors sb = [pr] ∧ ∀ pr', a.subblock pr' = some sb ↔ pr' = pr) ∧
    (∀ pr sb, a.subblock pr = some sb → sb < a.numSubblocks ∧ a.processors sb = [pr]) ∧
    (∀ pr, pr ∉ procs → a.subblock pr = none) ∧
    a.numSubblocks = (dist.map Dist.numSubblocks).prod := by
  unfold Map.mk? at hm
  simp only at hm
  split at hm
  case isFalse => cases hm
  rename_i hle
  cases hm
  unfold Map.apply? at ha
  split at ha
  case isFalse => cases ha
  rename_i hext
  cases ha
  -- the number of subblocks is not changed by applying
  have hnum : (AMap.mk ((dist.take ext.length).zip ext) (procs.take (dist.map Dist.numSubblocks).prod)).numSubblocks =
      (dist.map Dist.numSubblocks).prod := by
    simp only [AMap.numSubblocks, AMap.sbSizes]
    have h1 : (((dist.take ext.length).zip ext).map fun x => x.1.numSubblocks) = (dist.take ext.length).map Dist.numSubblocks := by
      have : (fun x : Dist × Nat => x.1.numSubblocks) = Dist.numSubblocks ∘ Prod.fst := rfl
      rw [this, ← List.map_map, List.map_fst_zip (by simp)]
    rw [h1]
    conv_rhs => rw [← List.take_append_drop ext.length dist, List.map_append, List.prod_append]
    have h2 : ((dist.drop ext.length).map Dist.numSubblocks).prod = 1 := by
      apply List.prod_eq_one
      intro x hx
      rw [List.mem_map] at hx
      obtain ⟨d, hd, rfl⟩ := hx
      exact hext.2 d hd
    rw [h2, Nat.mul_one]
  generalize hA : AMap.mk ((dist.take ext.length).zip ext) (procs.take (dist.map Dist.numSubblocks).prod) = a at *
  generalize hP : (dist.map Dist.numSubblocks).prod = N at *
  have hpv : a.pvec = procs.take N := by rw [← hA]
  have hlen : a.pvec.length = N := by rw [hpv, List.length_take]; omega
  have hnd : a.pvec.Nodup := by rw [hpv]; exact List.Nodup.sublist (List.take_sublist _ _) hn
  have hproc : ∀ sb, sb < N → ∃ pr, a.pvec[sb]? = some pr ∧ a.processors sb = [pr] := by
    intro sb hsb
    refine ⟨a.pvec[sb]'(by omega), List.getElem?_eq_getElem _, ?_⟩
    unfold AMap.processors
    rw [hnum, Nat.mod_eq_of_lt hsb, List.getElem?_eq_getElem (by omega)]
  have hsub : ∀ pr sb, a.subblock pr = some sb ↔ (sb < N ∧ a.pvec[sb]? = some pr) := by
    intro pr sb
    unfold AMap.subblock
    constructor
    · intro h
      cases hr : AMap.rankFrom a.pvec pr 0 with
      | none => rw [hr] at h; simp at h
      | some r =>
        rw [hr] at h
        simp only [hnum] at h
        split at h
        · injection h with h
          subst h
          exact ⟨by assumption, by simpa using (rankFrom_some hr).2⟩
        · cases h
    · rintro ⟨h1, h2⟩
      rw [rankFrom_nodup hnd h2]
      simp only [hnum, if_pos h1]
  refine ⟨?_, ?_, ?_, hnum⟩
  · intro sb hsb
    rw [hnum] at hsb
    obtain ⟨pr, h1, h2⟩ := hproc sb hsb
    refine ⟨pr, ?_, h2, ?_⟩
    · have := List.mem_of_getElem? h1
      rw [hpv] at this
      exact List.mem_of_mem_take this
    · intro pr'
      rw [hsub]
      constructor
      · rintro ⟨-, h⟩
        rw [h1] at h
        injection h with h
        exact h.symm
      · rintro rfl
        exact ⟨hsb, h1⟩
  · intro pr sb h
    rw [hsub] at h
    obtain ⟨pr', h1, h2⟩ := hproc sb h.1
    rw [h.2] at h1
    injection h1 with h1
    subst h1
    exact ⟨by omega, h2⟩
  · intro pr hpr
    cases hs : a.subblock pr with
    | none => rfl
    | some sb =>
      rw [hsub] at hs
      have := List.mem_of_getElem? hs.2
      rw [hpv] at this
      exact absurd (List.mem_of_mem_take this) hpr

example : ∃ m a, Map.mk? [.block 2, .cyclic 2 2, .whole] [4, 5, 6, 7, 9] = some m ∧ m.apply? [7, 5] = some a ∧
    a.subblock 6 = some 2 ∧ a.processors 2 = [6] ∧ a.subblock 9 = none := ⟨_, _, rfl, rfl, by decide⟩

/-- **C10** for `Replicated_map`: the one subblock is held by exactly the processors of the set. -/
theorem C10_replicated (m : RMap) (pr : Nat) :
    (m.subblock pr = some 0 ↔ pr ∈ m.processors 0) ∧ (m.subblock pr = none ↔ pr ∉ m.pset) := by
  unfold RMap.subblock RMap.processors
  cases h : AMap.rankFrom m.pset pr 0 with
  | none => rw [rankFrom_none] at h; simp [h]
  | some r =>
    have := List.mem_of_getElem? (rankFrom_some h).2
    simp [this]

example : (RMap.mk [8] [2, 0, 1]).subblock 0 = some 0 ∧ (RMap.mk [8] [2, 0, 1]).subblock 5 = none := by decide

/-! ## C11 -/

/-- element `cidx` of the slice has the same processor as element `pidx` of the parent, the same local position (`keep` drops the sliced
dimensions) inside a subblock of the same shape -/
structure SameHome (P C : AMap) (pidx cidx : List Nat) (keep : List Nat → List Nat) : Prop where
  proc : C.processors (C.subblockFromGlobalIndex cidx) = P.processors (P.subblockFromGlobalIndex pidx)
  loc : C.localFromGlobalIndex cidx = keep (P.localFromGlobalIndex pidx)
  ext : C.subblockExtent (C.subblockFromGlobalIndex cidx) = keep (P.subblockExtent (P.subblockFromGlobalIndex pidx))

/-- the parent: well-formed distributions and one processor per subblock -/
structure _root_.Verif.Map3.WF (m : Map3) : Prop where
  ok0 : m.d0.OK
  ok1 : m.d1.OK
  ok2 : m.d2.OK
  procs : m.pvec.length = m.d0.numSubblocks * m.d1.numSubblocks * m.d2.numSubblocks

theorem inRange1 {i n : Nat} (h : i < n) : InRange [i] [n] := by simp [InRange, h]
theorem inRange2 {i n i' n' : Nat} (h : i < n) (h' : i' < n') : InRange [i, i'] [n, n'] := by simp [InRange, h, h']
theorem inRange3 {i n i' n' i'' n'' : Nat} (h : i < n) (h' : i' < n') (h'' : i'' < n'') : InRange [i, i', i''] [n, n', n''] := by
  simp [InRange, h, h', h'']

theorem slice_general {P : AMap} (hP : AMap.DimsOK P.dims) (hl : P.pvec.length = P.numSubblocks)
    {cd : List (Dist × Nat)} (hC : AMap.DimsOK cd) {N : Nat} (hN : (cd.map fun x => x.1.numSubblocks).prod = N) (g : Nat → Nat)
    {pidx cidx : List Nat} (rP : InRange pidx P.ext) (rC : InRange cidx (cd.map fun x => x.2)) {keep : List Nat → List Nat}
    (hg : g (combine (cd.map fun x => x.1.numSubblocks) (AMap.dimSubblocks cd cidx)) = P.subblockFromGlobalIndex pidx)
    (hloc : AMap.localIdx cd cidx = keep (AMap.localIdx P.dims pidx))
    (hext : AMap.subblockSizes cd (AMap.dimSubblocks cd cidx) = keep (AMap.subblockSizes P.dims (AMap.dimSubblocks P.dims pidx))) :
    SameHome P ⟨cd, (List.range N).map fun i => P.pvec.getD (g i) 0⟩ pidx cidx keep := by
  subst hN
  refine ⟨?_, hloc, ?_⟩
  · have h1 : P.subblockFromGlobalIndex pidx < P.numSubblocks := combine_lt (AMap.dims_home hP rP).1
    rw [processors_of_lt h1 hl, ← hg]
    exact processors_map (combine_lt (AMap.dims_home hC rC).1)
  · rw [subblockExtent_home hP rP, ← hext]
    exact subblockExtent_home (m := ⟨cd, _⟩) hC rC

theorem wf_dims3 {m : Map3} (w : m.WF) : AMap.DimsOK m.applied3.dims := by
  intro x hx
  simp only [Map3.applied3, List.mem_cons, List.not_mem_nil, or_false] at hx
  rcases hx with rfl | rfl | rfl
  · exact w.ok0
  · exact w.ok1
  · exact w.ok2

theorem wf_dims2 {m : Map3} (w : m.WF) : AMap.DimsOK m.applied2.dims := by
  intro x hx
  simp only [Map3.applied2, List.mem_cons, List.not_mem_nil, or_false] at hx
  rcases hx with rfl | rfl
  · exact w.ok0
  · exact w.ok1

theorem dimsOK_two {a b : Dist} (ha : a.OK) (hb : b.OK) (n k : Nat) : AMap.DimsOK [(a, n), (b, k)] := by
  intro x hx
  simp only [List.mem_cons, List.not_mem_nil, or_false] at hx
  rcases hx with rfl | rfl
  · exact ha
  · exact hb

theorem dimsOK_one {a : Dist} (ha : a.OK) (n : Nat) : AMap.DimsOK [(a, n)] := by
  intro x hx
  simp only [List.mem_cons, List.not_mem_nil, or_false] at hx
  subst hx
  exact ha

theorem wf_len3 {m : Map3} (w : m.WF) : m.applied3.pvec.length = m.applied3.numSubblocks := by
  simp [Map3.applied3, AMap.numSubblocks, AMap.sbSizes, w.procs, Nat.mul_assoc]

theorem wf_len2 {m : Map3} (w : m.WF) (h2 : m.d2.numSubblocks = 1) : m.applied2.pvec.length = m.applied2.numSubblocks := by
  simp [Map3.applied2, AMap.numSubblocks, AMap.sbSizes, w.procs, h2]

theorem sb3 (m : Map3) (i0 i1 i2 : Nat) : m.applied3.subblockFromGlobalIndex [i0, i1, i2] =
    (m.d0.subblockFromIndex m.n0 i0 * m.s1 + m.d1.subblockFromIndex m.n1 i1) * m.s2 + m.d2.subblockFromIndex m.n2 i2 :=
  combine3 _ _ _ _ _ _

theorem sb2 (m : Map3) (i0 i1 : Nat) : m.applied2.subblockFromGlobalIndex [i0, i1] =
    m.d0.subblockFromIndex m.n0 i0 * m.s1 + m.d1.subblockFromIndex m.n1 i1 :=
  combine2 _ _ _ _

theorem lt_of_ok {d : Dist} (hd : d.OK) {n i : Nat} (hi : i < n) : d.subblockFromIndex n i < d.numSubblocks :=
  ((dimFacts d hd n).home i hi).1

theorem bound3 {a b c s0 s1 s2 : Nat} (ha : a < s0) (hb : b < s1) (hc : c < s2) : (a * s1 + b) * s2 + c < s0 * s1 * s2 := by
  have h1 : a * s1 + b < s0 * s1 := by
    have : (a + 1) * s1 ≤ s0 * s1 := Nat.mul_le_mul_right _ ha
    rw [Nat.add_mul] at this; omega
  have : (a * s1 + b + 1) * s2 ≤ s0 * s1 * s2 := Nat.mul_le_mul_right _ h1
  rw [Nat.add_mul] at this; omega

theorem divmod_lt {pi a b : Nat} (h : pi < a * b) : pi / b < a ∧ pi % b < b := by
  have hb : 0 < b := by
    rcases Nat.eq_zero_or_pos b with h0 | h0
    · subst h0; simp at h
    · exact h0
  exact ⟨(Nat.div_lt_iff_lt_mul hb).2 h, Nat.mod_lt _ hb⟩

theorem divmod_comb {a b c : Nat} (h : b < c) : (a * c + b) / c = a ∧ (a * c + b) % c = b := Dist.div_unique h rfl

/-- **C11**, first dimension of a tensor fixed (`tensor(i0, whole, whole)`). -/
theorem C11_tensor_0 (m : Map3) (w : m.WF) (i0 : Nat) (h0 : i0 < m.n0) :
    ∃ c C, m.project_0 i0 = some c ∧ c.apply? [m.n1, m.n2] = some C ∧
      ∀ i1 i2, i1 < m.n1 → i2 < m.n2 →
        SameHome m.applied3 C [i0, i1, i2] [i1, i2] (fun l => l.eraseIdx 0) ∧
        m.parentSb_0 i0 (C.subblockFromGlobalIndex [i1, i2]) = m.applied3.subblockFromGlobalIndex [i0, i1, i2] := by
  have hb0 := lt_of_ok w.ok0 h0
  refine ⟨_, ⟨[(m.d1, m.n1), (m.d2, m.n2)], (List.range (m.s1 * m.s2)).map fun i => m.pvec.getD (m.parentSb_0 i0 i) 0⟩, projMap_ok (N := m.s1 * m.s2) ?_ _ _ ?_ ?_, ?_, ?_⟩
  · simp [copyDist_self]
  · simp [copyDist_self, Map3.s1, Map3.s2]
  · intro i hi
    rw [w.procs]
    obtain ⟨ha, hc⟩ := divmod_lt hi
    have := bound3 hb0 ha hc
    have e := Nat.div_add_mod i m.s2
    rw [Nat.mul_comm] at e
    rw [Nat.add_mul, Nat.add_assoc, e] at this
    exact this
  · simp only [Map.apply?, copyDist_self]
    rw [if_pos (by simp [Dist.numSubblocks])]
    rfl
  · intro i1 i2 h1 h2
    have hpar : m.parentSb_0 i0 (combine [m.s1, m.s2] [m.d1.subblockFromIndex m.n1 i1, m.d2.subblockFromIndex m.n2 i2]) =
        m.applied3.subblockFromGlobalIndex [i0, i1, i2] := by
      rw [sb3, combine2]; simp only [Map3.parentSb_0]; ring
    exact ⟨slice_general (P := m.applied3) (wf_dims3 w) (wf_len3 w) (dimsOK_two w.ok1 w.ok2 _ _) (by simp [Map3.s1, Map3.s2])
      (m.parentSb_0 i0) (inRange3 h0 h1 h2) (inRange2 h1 h2) hpar rfl rfl, hpar⟩

/-- **C11**, second dimension of a tensor fixed (`tensor(whole, i1, whole)`).  *Partial*: the code copies distribution 0 with the
type of distribution 1 (`copy_dist<D1>(map, 0)`), so it only compiles when the two have the same type. -/
theorem C11_tensor_1_partial (m : Map3) (w : m.WF) (hk : m.d0.kind = m.d1.kind) (i1 : Nat) (h1 : i1 < m.n1) :
    ∃ c C, m.project_1 i1 = some c ∧ c.apply? [m.n0, m.n2] = some C ∧
      ∀ i0 i2, i0 < m.n0 → i2 < m.n2 →
        SameHome m.applied3 C [i0, i1, i2] [i0, i2] (fun l => l.eraseIdx 1) ∧
        m.parentSb_1 i1 (C.subblockFromGlobalIndex [i0, i2]) = m.applied3.subblockFromGlobalIndex [i0, i1, i2] := by
  have hb1 := lt_of_ok w.ok1 h1
  refine ⟨_, ⟨[(m.d0, m.n0), (m.d2, m.n2)], (List.range (m.d0.numSubblocks * m.s2)).map fun i => m.pvec.getD (m.parentSb_1 i1 i) 0⟩, projMap_ok (N := m.d0.numSubblocks * m.s2) ?_ _ _ ?_ ?_, ?_, ?_⟩
  · simp [copyDist_self, ← hk]
  · simp [copyDist_self, ← hk, Map3.s2]
  · intro i hi
    rw [w.procs]
    obtain ⟨ha, hc⟩ := divmod_lt hi
    have := bound3 ha hb1 hc
    simp only [Map3.s1, Map3.s2] at *
    rw [Nat.add_mul] at this
    exact this
  · simp only [Map.apply?, ← hk, copyDist_self]
    rw [if_pos (by simp [Dist.numSubblocks])]
    rfl
  · intro i0 i2 h0 h2
    have hb2 := lt_of_ok w.ok2 h2
    have hpar : m.parentSb_1 i1 (combine [m.d0.numSubblocks, m.s2] [m.d0.subblockFromIndex m.n0 i0, m.d2.subblockFromIndex m.n2 i2]) =
        m.applied3.subblockFromGlobalIndex [i0, i1, i2] := by
      rw [sb3, combine2]
      have hd := divmod_comb (a := m.d0.subblockFromIndex m.n0 i0) (b := m.d2.subblockFromIndex m.n2 i2) (c := m.s2) hb2
      simp only [Map3.parentSb_1, hd.1, hd.2]; ring
    exact ⟨slice_general (P := m.applied3) (wf_dims3 w) (wf_len3 w) (dimsOK_two w.ok0 w.ok2 _ _) (by simp [Map3.s2])
      (m.parentSb_1 i1) (inRange3 h0 h1 h2) (inRange2 h0 h2) hpar rfl rfl, hpar⟩

/-- **C11**, third dimension of a tensor fixed.  *Partial*: only compiles when all three distributions have the same type. -/
theorem C11_tensor_2_partial (m : Map3) (w : m.WF) (hk : m.d0.kind = m.d1.kind) (hk2 : m.d1.kind = m.d2.kind)
    (i2 : Nat) (h2 : i2 < m.n2) :
    ∃ c C, m.project_2 i2 = some c ∧ c.apply? [m.n0, m.n1] = some C ∧
      ∀ i0 i1, i0 < m.n0 → i1 < m.n1 →
        SameHome m.applied3 C [i0, i1, i2] [i0, i1] (fun l => l.eraseIdx 2) ∧
        m.parentSb_2 i2 (C.subblockFromGlobalIndex [i0, i1]) = m.applied3.subblockFromGlobalIndex [i0, i1, i2] := by
  have hb2 := lt_of_ok w.ok2 h2
  refine ⟨_, ⟨[(m.d0, m.n0), (m.d1, m.n1)], (List.range (m.d0.numSubblocks * m.s1)).map fun i => m.pvec.getD (m.parentSb_2 i2 i) 0⟩, projMap_ok (N := m.d0.numSubblocks * m.s1) ?_ _ _ ?_ ?_, ?_, ?_⟩
  · simp only [← hk2, ← hk, copyDist_self, List.map_cons, List.map_nil]
    rw [hk, copyDist_self]
  · simp only [← hk2, ← hk, copyDist_self, List.map_cons, List.map_nil, Map3.s1]
    rw [hk, copyDist_self]
    simp
  · intro i hi
    rw [w.procs]
    obtain ⟨ha, hc⟩ := divmod_lt hi
    have := bound3 ha hc hb2
    simp only [Map3.s1, Map3.s2] at *
    rw [Nat.add_mul] at this
    exact this
  · simp only [Map.apply?, ← hk2, ← hk, copyDist_self]
    rw [hk, copyDist_self, if_pos (by simp [Dist.numSubblocks])]
    rfl
  · intro i0 i1 h0 h1
    have hb1 := lt_of_ok w.ok1 h1
    have hpar : m.parentSb_2 i2 (combine [m.d0.numSubblocks, m.s1] [m.d0.subblockFromIndex m.n0 i0, m.d1.subblockFromIndex m.n1 i1]) =
        m.applied3.subblockFromGlobalIndex [i0, i1, i2] := by
      rw [sb3, combine2]
      have hd := divmod_comb (a := m.d0.subblockFromIndex m.n0 i0) (b := m.d1.subblockFromIndex m.n1 i1) (c := m.s1) hb1
      simp only [Map3.parentSb_2, hd.1, hd.2]; ring
    exact ⟨slice_general (P := m.applied3) (wf_dims3 w) (wf_len3 w) (dimsOK_two w.ok0 w.ok1 _ _) (by simp [Map3.s1])
      (m.parentSb_2 i2) (inRange3 h0 h1 h2) (inRange2 h0 h1) hpar rfl rfl, hpar⟩

/-- **C11**, row of a matrix (`matrix.row(i0)`); the third distribution of a matrix map is not partitioned. -/
theorem C11_row (m : Map3) (w : m.WF) (hs2 : m.d2.numSubblocks = 1) (i0 : Nat) (h0 : i0 < m.n0) :
    ∃ c C, m.project_0 i0 = some c ∧ c.apply? [m.n1] = some C ∧
      ∀ i1, i1 < m.n1 →
        SameHome m.applied2 C [i0, i1] [i1] (fun l => l.eraseIdx 0) ∧
        m.parentSb_0 i0 (C.subblockFromGlobalIndex [i1]) = m.applied2.subblockFromGlobalIndex [i0, i1] := by
  have hb0 := lt_of_ok w.ok0 h0
  refine ⟨_, ⟨[(m.d1, m.n1)], (List.range (m.s1 * m.s2)).map fun i => m.pvec.getD (m.parentSb_0 i0 i) 0⟩, projMap_ok (N := m.s1 * m.s2) ?_ _ _ ?_ ?_, ?_, ?_⟩
  · simp [copyDist_self]
  · simp [copyDist_self, Map3.s1, Map3.s2]
  · intro i hi
    rw [w.procs]
    obtain ⟨ha, hc⟩ := divmod_lt hi
    have := bound3 hb0 ha hc
    have e := Nat.div_add_mod i m.s2
    rw [Nat.mul_comm] at e
    rw [Nat.add_mul, Nat.add_assoc, e] at this
    exact this
  · simp only [Map.apply?, copyDist_self]
    rw [if_pos (by simp [hs2]; rfl)]
    rfl
  · intro i1 h1
    have hpar : m.parentSb_0 i0 (combine [m.s1] [m.d1.subblockFromIndex m.n1 i1]) =
        m.applied2.subblockFromGlobalIndex [i0, i1] := by
      rw [sb2, combine1]; simp only [Map3.parentSb_0, Map3.s2, hs2, Nat.mul_one]
    exact ⟨slice_general (P := m.applied2) (wf_dims2 w) (wf_len2 w hs2) (dimsOK_one w.ok1 _) (by simp [Map3.s1, Map3.s2, hs2])
      (m.parentSb_0 i0) (inRange2 h0 h1) (inRange1 h1) hpar rfl rfl, hpar⟩

/-- **C11**, column of a matrix (`matrix.col(i1)`).  *Partial*: only compiles when both distributions have the same type. -/
theorem C11_col_partial (m : Map3) (w : m.WF) (hs2 : m.d2.numSubblocks = 1) (hk : m.d0.kind = m.d1.kind)
    (i1 : Nat) (h1 : i1 < m.n1) :
    ∃ c C, m.project_1 i1 = some c ∧ c.apply? [m.n0] = some C ∧
      ∀ i0, i0 < m.n0 →
        SameHome m.applied2 C [i0, i1] [i0] (fun l => l.eraseIdx 1) ∧
        m.parentSb_1 i1 (C.subblockFromGlobalIndex [i0]) = m.applied2.subblockFromGlobalIndex [i0, i1] := by
  have hb1 := lt_of_ok w.ok1 h1
  refine ⟨_, ⟨[(m.d0, m.n0)], (List.range (m.d0.numSubblocks * m.s2)).map fun i => m.pvec.getD (m.parentSb_1 i1 i) 0⟩, projMap_ok (N := m.d0.numSubblocks * m.s2) ?_ _ _ ?_ ?_, ?_, ?_⟩
  · simp [copyDist_self, ← hk]
  · simp [copyDist_self, ← hk, Map3.s2]
  · intro i hi
    rw [w.procs]
    obtain ⟨ha, hc⟩ := divmod_lt hi
    have := bound3 ha hb1 hc
    simp only [Map3.s1, Map3.s2] at *
    rw [Nat.add_mul] at this
    exact this
  · simp only [Map.apply?, ← hk, copyDist_self]
    rw [if_pos (by simp [hs2]; rfl)]
    rfl
  · intro i0 h0
    have hpar : m.parentSb_1 i1 (combine [m.d0.numSubblocks] [m.d0.subblockFromIndex m.n0 i0]) =
        m.applied2.subblockFromGlobalIndex [i0, i1] := by
      rw [sb2, combine1]
      simp only [Map3.parentSb_1, Map3.s2, hs2, Nat.mul_one, Nat.div_one, Nat.mod_one, Nat.add_zero]
    exact ⟨slice_general (P := m.applied2) (wf_dims2 w) (wf_len2 w hs2) (dimsOK_one w.ok0 _) (by simp [Map3.s2, hs2])
      (m.parentSb_1 i1) (inRange2 h0 h1) (inRange1 h0) hpar rfl rfl, hpar⟩

/-- **C11**, first and second dimension of a tensor fixed. -/
theorem C11_tensor_01 (m : Map3) (w : m.WF) (i0 i1 : Nat) (h0 : i0 < m.n0) (h1 : i1 < m.n1) :
    ∃ c C, m.project_01 i0 i1 = some c ∧ c.apply? [m.n2] = some C ∧
      ∀ i2, i2 < m.n2 →
        SameHome m.applied3 C [i0, i1, i2] [i2] (fun l => (l.eraseIdx 0).eraseIdx 0) ∧
        m.parentSb_01 i0 i1 (C.subblockFromGlobalIndex [i2]) = m.applied3.subblockFromGlobalIndex [i0, i1, i2] := by
  have hb0 := lt_of_ok w.ok0 h0
  have hb1 := lt_of_ok w.ok1 h1
  refine ⟨_, ⟨[(m.d2, m.n2)], (List.range (m.s2)).map fun i => m.pvec.getD (m.parentSb_01 i0 i1 i) 0⟩, projMap_ok (N := m.s2) ?_ _ _ ?_ ?_, ?_, ?_⟩
  · simp [copyDist_self]
  · simp [copyDist_self, Map3.s2]
  · intro i hi
    rw [w.procs]
    have := bound3 hb0 hb1 hi
    simp only [Map3.parentSb_01, Map3.s1, Map3.s2] at *
    rw [Nat.add_mul] at this
    exact this
  · simp only [Map.apply?, copyDist_self]
    rw [if_pos (by simp [Dist.numSubblocks])]
    rfl
  · intro i2 h2
    have hpar : m.parentSb_01 i0 i1 (combine [m.s2] [m.d2.subblockFromIndex m.n2 i2]) =
        m.applied3.subblockFromGlobalIndex [i0, i1, i2] := by
      rw [sb3, combine1]; simp only [Map3.parentSb_01]; ring
    exact ⟨slice_general (P := m.applied3) (wf_dims3 w) (wf_len3 w) (dimsOK_one w.ok2 _) (by simp [Map3.s2])
      (m.parentSb_01 i0 i1) (inRange3 h0 h1 h2) (inRange1 h2) hpar rfl rfl, hpar⟩

/-- **C11**, first and third dimension of a tensor fixed.  *Partial*: the result type is `Map<D2>` but the argument has type `D1`. -/
theorem C11_tensor_02_partial (m : Map3) (w : m.WF) (hk : m.d1.kind = m.d2.kind) (i0 i2 : Nat) (h0 : i0 < m.n0) (h2 : i2 < m.n2) :
    ∃ c C, m.project_02 i0 i2 = some c ∧ c.apply? [m.n1] = some C ∧
      ∀ i1, i1 < m.n1 →
        SameHome m.applied3 C [i0, i1, i2] [i1] (fun l => (l.eraseIdx 2).eraseIdx 0) ∧
        m.parentSb_02 i0 i2 (C.subblockFromGlobalIndex [i1]) = m.applied3.subblockFromGlobalIndex [i0, i1, i2] := by
  have hb0 := lt_of_ok w.ok0 h0
  have hb2 := lt_of_ok w.ok2 h2
  refine ⟨_, ⟨[(m.d1, m.n1)], (List.range (m.s1)).map fun i => m.pvec.getD (m.parentSb_02 i0 i2 i) 0⟩, projMap_ok (N := m.s1) ?_ _ _ ?_ ?_, ?_, ?_⟩
  · simp [copyDist_self, ← hk]
  · simp [copyDist_self, Map3.s1]
  · intro i hi
    rw [w.procs]
    have := bound3 hb0 hi hb2
    simp only [Map3.parentSb_02, Map3.s1, Map3.s2] at *
    rw [Nat.add_mul] at this
    exact this
  · simp only [Map.apply?, copyDist_self]
    rw [if_pos (by simp [Dist.numSubblocks])]
    rfl
  · intro i1 h1
    have hpar : m.parentSb_02 i0 i2 (combine [m.s1] [m.d1.subblockFromIndex m.n1 i1]) =
        m.applied3.subblockFromGlobalIndex [i0, i1, i2] := by
      rw [sb3, combine1]; simp only [Map3.parentSb_02]; ring
    exact ⟨slice_general (P := m.applied3) (wf_dims3 w) (wf_len3 w) (dimsOK_one w.ok1 _) (by simp [Map3.s1])
      (m.parentSb_02 i0 i2) (inRange3 h0 h1 h2) (inRange1 h1) hpar rfl rfl, hpar⟩

/-- **C11**, second and third dimension of a tensor fixed.  *Partial*: the result type is `Map<D2>` but the argument has type `D0`. -/
theorem C11_tensor_12_partial (m : Map3) (w : m.WF) (hk : m.d0.kind = m.d2.kind) (i1 i2 : Nat) (h1 : i1 < m.n1) (h2 : i2 < m.n2) :
    ∃ c C, m.project_12 i1 i2 = some c ∧ c.apply? [m.n0] = some C ∧
      ∀ i0, i0 < m.n0 →
        SameHome m.applied3 C [i0, i1, i2] [i0] (fun l => (l.eraseIdx 2).eraseIdx 1) ∧
        m.parentSb_12 i1 i2 (C.subblockFromGlobalIndex [i0]) = m.applied3.subblockFromGlobalIndex [i0, i1, i2] := by
  have hb1 := lt_of_ok w.ok1 h1
  have hb2 := lt_of_ok w.ok2 h2
  refine ⟨_, ⟨[(m.d0, m.n0)], (List.range (m.d0.numSubblocks)).map fun i => m.pvec.getD (m.parentSb_12 i1 i2 i) 0⟩, projMap_ok (N := m.d0.numSubblocks) ?_ _ _ ?_ ?_, ?_, ?_⟩
  · simp [copyDist_self, ← hk]
  · simp [copyDist_self]
  · intro i hi
    rw [w.procs]
    have := bound3 hi hb1 hb2
    simp only [Map3.parentSb_12, Map3.s1, Map3.s2] at *
    rw [Nat.add_mul] at this
    exact this
  · simp only [Map.apply?, copyDist_self]
    rw [if_pos (by simp [Dist.numSubblocks])]
    rfl
  · intro i0 h0
    have hpar : m.parentSb_12 i1 i2 (combine [m.d0.numSubblocks] [m.d0.subblockFromIndex m.n0 i0]) =
        m.applied3.subblockFromGlobalIndex [i0, i1, i2] := by
      rw [sb3, combine1]; simp only [Map3.parentSb_12]; ring
    exact ⟨slice_general (P := m.applied3) (wf_dims3 w) (wf_len3 w) (dimsOK_one w.ok0 _) (by simp)
      (m.parentSb_12 i1 i2) (inRange3 h0 h1 h2) (inRange1 h0) hpar rfl rfl, hpar⟩

/-- a tensor, block distributed in all dimensions over 2·2·3 processors -/
def exMap3 : Map3 := ⟨.block 2, .block 2, .block 3, 5, 4, 7, [10, 11, 12, 13, 14, 15, 16, 17, 18, 19, 20, 21]⟩
example : Map3.WF exMap3 ∧ exMap3.d0.kind = exMap3.d1.kind ∧ exMap3.d1.kind = exMap3.d2.kind ∧
    (exMap3.project_1 3).map Map.pvec = some [13, 14, 15, 19, 20, 21] :=
  ⟨⟨by decide, by decide, by decide, by decide⟩, by decide, by decide, by decide⟩

/-- The type mix-ups are real: there is a well-formed matrix map (rows in blocks, columns whole) no column of which has a map. -/
theorem C11_col_types_false : ¬ ∀ (m : Map3), m.WF → m.d2.numSubblocks = 1 → ∀ i1, i1 < m.n1 → (m.project_1 i1).isSome := by
  intro h
  have := h ⟨.block 2, .whole, .whole, 4, 4, 1, [0, 1]⟩ ⟨by decide, by decide, by decide, by decide⟩ rfl 0 (by decide)
  revert this
  decide

/-- Slicing a replicated array forgets its processor set: the slice claims to be held by processors that do not hold the parent. -/
theorem C11_replicated_false : ¬ ∀ (m : RMap) (all : List Nat), (∀ p ∈ m.pset, p ∈ all) → ∀ ext pr,
    (m.slice all ext).subblock pr = m.subblock pr := by
  intro h
  have := h ⟨[4, 4], [0, 1]⟩ [0, 1, 2, 3] (by decide) [4] 3
  revert this
  decide

/-- If the parent is replicated over all processors the slice is, too.
Missing: other processor sets, see `C11_replicated_false`. -/
theorem C11_replicated_partial (m : RMap) (ext : List Nat) (pr : Nat) :
    (m.slice m.pset ext).subblock pr = m.subblock pr ∧ (m.slice m.pset ext).processors 0 = m.processors 0 := ⟨rfl, rfl⟩

/-! ## C13 -/

theorem distEq_eq : ∀ {a b : List Dist}, Map.distEq a b = true → a = b
  | [], [], _ => rfl
  | a :: as, b :: bs, h => by
      unfold Map.distEq at h
      split at h
      · cases h
      · rename_i hne
        have hab : a = b := by
          rw [not_or, not_or] at hne
          obtain ⟨h1, h2, h3⟩ := hne
          cases a <;> cases b <;> simp_all [Dist.kind, Dist.numSubblocks, Dist.contiguity]
        rw [hab, distEq_eq h]
  | [], _ :: _, h => by simp [Map.distEq] at h
  | _ :: _, [], h => by simp [Map.distEq] at h

theorem getElem?_all_eq {a b : List Nat} {n : Nat}
    (h : ((List.range n).all fun i => a[i]? == b[i]?) = true) : ∀ i, i < n → a[i]? = b[i]? := by
  intro i hi
  rw [List.all_eq_true] at h
  simpa using h i (List.mem_range.2 hi)

/-- **C13** for `operator==`: maps comparing equal are applied to every extent with the same result, so that
every processor holds the same subblock, with the same patches, global and local domains. -/
theorem C13_beq (a b : Map) (h : a.beq b = true) (ext : List Nat) : a.apply? ext = b.apply? ext := by
  unfold Map.beq at h
  simp only [Bool.and_eq_true, beq_iff_eq] at h
  obtain ⟨⟨h1, h2⟩, h3⟩ := h
  have hd := distEq_eq h1
  have hp : a.pvec = b.pvec := by
    apply List.ext_getElem? 
    intro i
    by_cases hi : i < a.pvec.length
    · exact getElem?_all_eq h3 i hi
    · rw [List.getElem?_eq_none (by omega), List.getElem?_eq_none (by omega)]
  cases a; cases b
  simp only at hd hp
  subst hd hp
  rfl

example : Map.beq ⟨[.block 2, .cyclic 2 3, .whole], [3, 4, 5, 6]⟩ ⟨[.block 2, .cyclic 2 3, .whole], [3, 4, 5, 6]⟩ = true ∧
    Map.beq ⟨[.block 2, .cyclic 2 3, .whole], [3, 4, 5, 6]⟩ ⟨[.block 2, .cyclic 2 1, .whole], [3, 4, 5, 6]⟩ = false := by decide

theorem prod_eq_take {ds : List Dist} {n : Nat} (h : ∀ d ∈ ds.drop n, d.numSubblocks = 1) :
    (ds.map Dist.numSubblocks).prod = ((ds.take n).map Dist.numSubblocks).prod := by
  conv_lhs => rw [← List.take_append_drop n ds, List.map_append, List.prod_append]
  have h2 : ((ds.drop n).map Dist.numSubblocks).prod = 1 := by
    apply List.prod_eq_one
    intro x hx
    rw [List.mem_map] at hx
    obtain ⟨d, hd, rfl⟩ := hx
    exact h d hd
  rw [h2, Nat.mul_one]

/-- **C13** for `map_equal` (`map_equiv<D>`, used to decide that an assignment is local): two maps of the same type (kinds `k`) over
as many processors as subblocks, applied to the same `D`-dimensional domain, are the same applied map. -/
theorem C13_equiv (a b : Map) (hk : a.dist.map Dist.kind = b.dist.map Dist.kind)
    (hpa : a.pvec.length = a.numSubblocks) (hpb : b.pvec.length = b.numSubblocks)
    (ext : List Nat) (h : Map.equiv ext.length a b = true) (A B : AMap)
    (hA : a.apply? ext = some A) (hB : b.apply? ext = some B) : A = B := by
  unfold Map.equiv Map.distEquiv at h
  simp only [Bool.and_eq_true, List.all_eq_true, List.mem_range, beq_iff_eq] at h
  obtain ⟨h1, h2⟩ := h
  unfold Map.apply? at hA hB
  split at hA
  case isFalse => cases hA
  rename_i ha
  cases hA
  split at hB
  case isFalse => cases hB
  rename_i hb
  cases hB
  have hd : a.dist.take ext.length = b.dist.take ext.length := by
    apply List.ext_getElem?
    intro i
    by_cases hi : i < ext.length
    · rw [List.getElem?_take_of_lt hi, List.getElem?_take_of_lt hi]
      obtain ⟨g1, g2⟩ := h1 i hi
      have g3 : (a.dist.map Dist.kind)[i]? = (b.dist.map Dist.kind)[i]? := by rw [hk]
      rw [List.getElem?_map, List.getElem?_map] at g3
      cases ea : a.dist[i]? <;> cases eb : b.dist[i]? <;> simp_all
      rename_i x y
      cases x <;> cases y <;> simp_all [Dist.kind, Dist.numSubblocks, Dist.contiguity]
    · rw [List.getElem?_take_eq_none (by omega), List.getElem?_take_eq_none (by omega)]
  have hn : a.numSubblocks = b.numSubblocks := by
    unfold Map.numSubblocks
    rw [prod_eq_take ha.2, prod_eq_take hb.2, hd]
  have hp : a.pvec = b.pvec := by
    apply List.ext_getElem?
    intro i
    by_cases hi : i < a.numSubblocks
    · exact h2 i hi
    · rw [List.getElem?_eq_none (by omega), List.getElem?_eq_none (by omega)]
  rw [hd, hp]

example : Map.equiv 2 ⟨[.block 2, .cyclic 2 3, .whole], [3, 4, 5, 6]⟩ ⟨[.block 2, .cyclic 2 3, .whole], [3, 4, 5, 6]⟩ = true ∧
    (Map.apply? ⟨[.block 2, .cyclic 2 3, .whole], [3, 4, 5, 6]⟩ [7, 9]).isSome := by decide

end Verif.Props
