import Verif.Map.Slice
import Verif.Domain.Props
/-! Lemmas for C12: intersections of patches with a sub-domain. -/
namespace Verif
open Spec Dist

theorem last_empty {f : Nat} (hf : 0 < f) (hlt : f < W₆₃) : (⟨f, 1, 0⟩ : Dom).last = f - 1 := by
  unfold Dom.last Dom.nth
  have h1 : toIdx (((0 : Nat) : Int) - 1) = 18446744073709551615 := by decide
  have h2 : toSigned 18446744073709551615 = -1 := by decide
  simp only [h1, h2]
  have := toIdx_of_fits (z := (f : Int) + 1 * -1) (by omega) (by omega)
  omega

theorem intersect_empty {f : Nat} {b : Dom} (hf : 0 < f) (hlt : f < W₆₃) : intersect ⟨f, 1, 0⟩ b = none := by
  unfold intersect
  simp only [last_empty hf hlt]
  split
  · rw [if_neg]
    have := Nat.le_max_left f b.first
    have := Nat.min_le_left (f - 1) b.last
    omega
  · rw [if_neg]
    generalize (if b.first < f then _ else _) = x
    generalize (if b.last > f - 1 then _ else _) = y
    have := Nat.le_max_left f x
    have := Nat.min_le_left (f - 1) y
    omega

/-- hypotheses for one dimension: `a` a patch's global domain, `l` its local domain, `d` the sub-domain -/
structure Sub1 (a l d : Dom) : Prop where
  fa : Fits a
  fl : Fits l
  fd : Fits d
  a1 : a.stride = 1
  len : l.length = a.length
  ne : 0 < a.length ∨ 0 < a.first
  ds : 0 < d.stride
  dl : 0 < d.length

theorem sub1_intersect {a l d : Dom} (h : Sub1 a l d) :
    (∀ r, intersect a d = some r → Fits r ∧ 0 < r.length ∧ r.stride = d.stride ∧ ∀ z, Mem z r ↔ Mem z a ∧ Mem z d) ∧
    (intersect a d = none → ∀ z, ¬ (Mem z a ∧ Mem z d)) := by
  by_cases h0 : 0 < a.length
  · exact intersect_spec h.fa h.fd h.a1 h.ds h0 h.dl
  · have hl : a.length = 0 := by omega
    have hf : 0 < a.first := by rcases h.ne with h | h <;> omega
    have ha : a = ⟨a.first, 1, 0⟩ := by
      have h1 := h.a1
      cases a; simp only at *; rw [h1, hl]
    have := intersect_empty (b := d) hf h.fa.first_lt
    rw [← ha] at this
    refine ⟨?_, ?_⟩
    · intro r hr; rw [this] at hr; cases hr
    · rintro - z ⟨⟨i, hi, _⟩, _⟩
      omega

theorem sub1_some {a l d r : Dom} (h : Sub1 a l d) (hr : intersect a d = some r) :
    (∀ k p, k < d.length → p < a.length → elem d k = elem a p →
      ∃ j, j < (subsetFromIntr d r).length ∧ elem (subsetFromIntr d r) j = (k : Int) ∧ elem (applyIntr l a r) j = elem l p) ∧
    (∀ j, j < (subsetFromIntr d r).length → ∃ k p : Nat, k < d.length ∧ p < a.length ∧ elem d k = elem a p ∧
      elem (subsetFromIntr d r) j = (k : Int) ∧ elem (applyIntr l a r) j = elem l p) ∧
    (subsetFromIntr d r).length = (applyIntr l a r).length := by
  obtain ⟨fr, rl, rs, rm⟩ := (sub1_intersect h).1 r hr
  obtain ⟨s1, s2, s3⟩ := Props.C04_subsetFromIntr d r h.fd fr h.ds rs (fun z hz => ((rm z).1 hz).2) rl
  obtain ⟨t1, t2⟩ := Props.C04_applyIntr l a r h.fl fr h.a1 h.len (fun z hz => ((rm z).1 hz).1) rl
  have back : ∀ j, j < r.length → ∃ k p : Nat, k < d.length ∧ p < a.length ∧ elem d k = elem r j ∧ elem a p = elem r j ∧
      elem (subsetFromIntr d r) j = (k : Int) ∧ elem (applyIntr l a r) j = elem l p := by
    intro j hj
    obtain ⟨p, p1, p2, p3⟩ := t2 j hj
    obtain ⟨q1, q2⟩ := s3 j hj
    refine ⟨(subsetFromIntr d r).first + j, p, q1, p1, q2, p2, ?_, p3⟩
    unfold elem; rw [s1]; push_cast; ring
  refine ⟨?_, ?_, rfl⟩
  · intro k p hk hp he
    obtain ⟨j, hj, hje⟩ := (rm (elem d k)).2 ⟨⟨p, hp, he⟩, ⟨k, hk, rfl⟩⟩
    obtain ⟨k', p', b1, b2, b3, b4, b5, b6⟩ := back j hj
    have hk' : k' = k := by
      rw [← hje] at b3
      unfold elem at b3
      have : d.stride * (k' : Int) = d.stride * k := by omega
      have := mul_left_cancel₀ (by have := h.ds; omega) this
      omega
    have hp' : p' = p := by
      rw [← hje, he, elem_one a h.a1, elem_one a h.a1] at b4
      omega
    subst hk' hp'
    exact ⟨j, hj, b5, b6⟩
  · intro j hj
    obtain ⟨k', p', b1, b2, b3, b4, b5, b6⟩ := back j hj
    exact ⟨k', p', b1, b2, b3.trans b4.symm, b5, b6⟩

/-- the hypotheses in every dimension -/
def SubN : List Dom → List Dom → List Dom → Prop
  | [], [], [] => True
  | a :: as, l :: ls, d :: ds => Sub1 a l d ∧ SubN as ls ds
  | _, _, _ => False

theorem subN_some : ∀ {A L D R : List Dom}, SubN A L D → intersectN A D = some R →
    (∀ k p, InRange k (lens D) → InRange p (lens A) → elemN D k = elemN A p →
      ∃ j, InRange j (lens (subsetFromIntrN D R)) ∧ elemN (subsetFromIntrN D R) j = ints k ∧
        elemN (applyIntrN L A R) j = elemN L p) ∧
    (∀ j, InRange j (lens (subsetFromIntrN D R)) → ∃ k p, InRange k (lens D) ∧ InRange p (lens A) ∧ elemN D k = elemN A p ∧
      elemN (subsetFromIntrN D R) j = ints k ∧ elemN (applyIntrN L A R) j = elemN L p) ∧
    lens (subsetFromIntrN D R) = lens (applyIntrN L A R)
  | [], [], [], R, _, hR => by
      simp only [intersectN, Option.some.injEq] at hR
      subst hR
      refine ⟨?_, ?_, rfl⟩
      · intro k p hk hp _
        cases k with
        | nil => exact ⟨[], trivial, rfl, rfl⟩
        | cons => exact hk.elim
      · intro j hj
        cases j with
        | nil => exact ⟨[], [], trivial, trivial, rfl, rfl, rfl⟩
        | cons => exact hj.elim
  | a :: A, l :: L, d :: D, R, h, hR => by
      simp only [intersectN] at hR
      split at hR
      · cases hR
      rename_i r hr
      split at hR
      · cases hR
      rename_i rs hrs
      cases hR
      obtain ⟨s1, s2, s3⟩ := sub1_some h.1 hr
      obtain ⟨t1, t2, t3⟩ := subN_some h.2 hrs
      refine ⟨?_, ?_, ?_⟩
      · intro k p hk hp he
        cases k with
        | nil => exact hk.elim
        | cons k ks => cases p with
          | nil => exact hp.elim
          | cons p ps =>
            simp only [elemN, List.cons.injEq] at he
            obtain ⟨j, j1, j2, j3⟩ := s1 k p hk.1 hp.1 he.1
            obtain ⟨js, js1, js2, js3⟩ := t1 ks ps hk.2 hp.2 he.2
            refine ⟨j :: js, ⟨j1, js1⟩, ?_, ?_⟩
            · simp only [subsetFromIntrN, elemN, j2, js2]; rfl
            · simp only [applyIntrN, elemN, j3, js3]
      · intro j hj
        cases j with
        | nil => exact hj.elim
        | cons j js =>
          obtain ⟨k, p, e1, e2, e3, e4, e5⟩ := s2 j hj.1
          obtain ⟨ks, ps, f1, f2, f3, f4, f5⟩ := t2 js hj.2
          refine ⟨k :: ks, p :: ps, ⟨e1, f1⟩, ⟨e2, f2⟩, ?_, ?_, ?_⟩
          · simp only [elemN, e3, f3]
          · simp only [subsetFromIntrN, elemN, e4, f4]; rfl
          · simp only [applyIntrN, elemN, e5, f5]
      · simp only [lens, subsetFromIntrN, applyIntrN, List.map_cons, s3] at *
        rw [t3]
  | [], [], _ :: _, _, h, _ => h.elim
  | [], _ :: _, _, _, h, _ => h.elim
  | _ :: _, [], _, _, h, _ => h.elim
  | _ :: _, _ :: _, [], _, h, _ => h.elim

theorem subN_none : ∀ {A L D : List Dom}, SubN A L D → intersectN A D = none →
    ∀ k p, InRange k (lens D) → InRange p (lens A) → elemN D k ≠ elemN A p
  | [], [], [], _, hR => by simp [intersectN] at hR
  | a :: A, l :: L, d :: D, h, hR => by
      intro k p hk hp he
      cases k with
      | nil => exact hk.elim
      | cons k ks => cases p with
        | nil => exact hp.elim
        | cons p ps =>
          simp only [elemN, List.cons.injEq] at he
          simp only [intersectN] at hR
          split at hR
          · rename_i hr
            exact (sub1_intersect h.1).2 hr _ ⟨⟨p, hp.1, he.1⟩, ⟨k, hk.1, rfl⟩⟩
          · split at hR
            · rename_i hrs
              exact subN_none h.2 hrs ks ps hk.2 hp.2 he.2
            · cases hR
  | [], [], _ :: _, h, _ => h.elim
  | [], _ :: _, _, h, _ => h.elim
  | _ :: _, [], _, h, _ => h.elim
  | _ :: _, _ :: _, [], h, _ => h.elim

/-- what the user may ask for: a non-empty domain with positive strides inside the index space -/
def SubDomOK : List Nat → List Dom → Prop
  | [], [] => True
  | n :: ns, d :: ds => (n < W₆₃ ∧ d.length < W₆₃ ∧ 0 < d.stride ∧ d.stride < W₆₃ ∧ 0 < d.length ∧ elem d (d.length - 1) < n) ∧ SubDomOK ns ds
  | _, _ => False

theorem subDom_fits {n : Nat} {d : Dom} (hn : n < W₆₃) (hl : d.length < W₆₃) (hs : 0 < d.stride) (h2 : d.stride < W₆₃)
    (he : elem d (d.length - 1) < n) : Fits d := by
  have hq : 0 ≤ d.stride * ((d.length - 1 : Nat) : Int) := mul_nonneg (by omega) (by omega)
  unfold elem at he
  refine fits_of_ends hl ⟨by omega, h2⟩ (by omega) ?_ ?_
  · intro _; unfold elem; omega
  · intro _; unfold elem; omega

theorem seg_bound (n num sb : Nat) (h : sb < num) : segmentStart n num sb + segmentSize n num sb ≤ n := by
  rw [← seg_next]
  calc segmentStart n num (sb + 1) ≤ segmentStart n num num := seg_start_mono _ _ (by omega)
    _ = n := seg_start_end _ _ (by omega)

theorem unit_fits {f len : Nat} (h : f + len < W₆₃) : Fits ⟨f, 1, len⟩ := by
  refine fits_of_ends (by simp only; omega) (show FitsSigned 1 by decide) (by simp only; omega) ?_ ?_
  · intro _; simp only [elem]; omega
  · intro h0; simp only [elem] at *; omega

/-- whole/block distributions: one patch, and it satisfies the hypotheses above -/
theorem dist_sub1 {x : Dist × Nat} (hok : x.1.OK) (hc : x.1.kind ≠ .cyclic) {sb : Nat} (hsb : sb < x.1.numSubblocks) {d : Dom}
    (hd : x.2 < W₆₃ ∧ d.length < W₆₃ ∧ 0 < d.stride ∧ d.stride < W₆₃ ∧ 0 < d.length ∧ elem d (d.length - 1) < x.2) :
    Sub1 (x.1.patchGlobalDom x.2 sb 0) (x.1.patchLocalDom x.2 sb 0) d := by
  obtain ⟨h1, h2, h3, h4, h5, h6⟩ := hd
  have hn : 0 < x.2 := by
    have hq : 0 ≤ d.stride * ((d.length - 1 : Nat) : Int) := mul_nonneg (by omega) (by omega)
    unfold elem at h6
    omega
  have fd := subDom_fits h1 h2 h3 h4 h6
  obtain ⟨dist, n⟩ := x
  cases dist with
  | whole => exact ⟨unit_fits (by simpa using h1), unit_fits (by simpa using h1), fd, rfl, rfl, Or.inl hn, h3, h5⟩
  | cyclic => exact absurd rfl hc
  | block num =>
    have hb := seg_bound n num sb hsb
    simp only at *
    refine ⟨unit_fits (by omega), unit_fits (by omega), fd, rfl, rfl, ?_, h3, h5⟩
    show 0 < segmentSize n num sb ∨ 0 < segmentStart n num sb
    by_cases h : 0 < segmentSize n num sb
    · exact Or.inl h
    · right
      unfold segmentSize at h
      have hdm := Nat.div_add_mod n num
      have hq : n / num = 0 := (Nat.add_eq_zero_iff.1 (Nat.eq_zero_of_not_pos h)).1
      rw [hq] at hdm
      have hr : n % num = n := by omega
      rw [hr, hq] at h
      unfold segmentStart
      rw [hr, hq]
      split at h <;> omega

theorem dims_subN : ∀ {dims : List (Dist × Nat)} {sbs ps : List Nat} {D : List Dom}, AMap.DimsOK dims →
    (∀ x ∈ dims, x.1.kind ≠ .cyclic) → InRange sbs (dims.map fun x => x.1.numSubblocks) →
    InRange ps (AMap.patchSizes dims sbs) → SubDomOK (dims.map fun x => x.2) D →
    SubN (AMap.globalDoms dims sbs ps) (AMap.localDoms dims sbs ps) D
  | [], [], [], [], _, _, _, _, _ => trivial
  | x :: dims, sb :: sbs, p :: ps, d :: D, h1, h2, h3, h4, h5 => by
      have hp : p = 0 := by
        have := h4.1
        have hc := h2 x (by simp)
        revert this hc
        cases x.1 <;> simp [Dist.subblockPatches, Dist.kind]
      subst hp
      exact ⟨dist_sub1 (h1 x (by simp)) (h2 x (by simp)) h3.1 h5.1,
        dims_subN (fun y hy => h1 y (by simp [hy])) (fun y hy => h2 y (by simp [hy])) h3.2 h4.2 h5.2⟩
  | [], _ :: _, _, _, _, _, h, _, _ => h.elim
  | [], [], _ :: _, _, _, _, _, h, _ => h.elim
  | [], [], [], _ :: _, _, _, _, _, h => h.elim
  | _ :: _, [], _, _, _, _, h, _, _ => h.elim
  | _ :: _, _ :: _, [], _, _, _, _, h, _ => h.elim
  | _ :: _, _ :: _, _ :: _, [], _, _, _, _, h => h.elim

theorem patchSizes_one : ∀ {dims : List (Dist × Nat)} {sbs : List Nat}, (∀ x ∈ dims, x.1.kind ≠ .cyclic) →
    InRange sbs (dims.map fun x => x.1.numSubblocks) → (AMap.patchSizes dims sbs).prod = 1
  | [], [], _, _ => rfl
  | x :: dims, sb :: sbs, h, h2 => by
      have ih := patchSizes_one (fun y hy => h y (by simp [hy])) h2.2
      have hc := h x (by simp)
      have : x.1.subblockPatches x.2 sb = 1 := by
        revert hc
        cases x.1 <;> simp [Dist.subblockPatches, Dist.kind]
      simp [AMap.patchSizes, this, ih]
  | [], _ :: _, _, h => h.elim
  | _ :: _, [], _, h => h.elim

theorem memN_iff_elemN : ∀ {D : List Dom} {z : List Int}, MemN z D ↔ ∃ k, InRange k (lens D) ∧ elemN D k = z
  | [], z => by
      constructor
      · intro h; cases z with
        | nil => exact ⟨[], trivial, rfl⟩
        | cons => exact h.elim
      · rintro ⟨k, hk, rfl⟩
        cases k with
        | nil => trivial
        | cons => exact hk.elim
  | d :: D, z => by
      constructor
      · intro h; cases z with
        | nil => exact h.elim
        | cons z zs =>
          obtain ⟨i, hi, rfl⟩ := h.1
          obtain ⟨k, hk, rfl⟩ := memN_iff_elemN.1 h.2
          exact ⟨i :: k, ⟨hi, hk⟩, rfl⟩
      · rintro ⟨k, hk, rfl⟩
        cases k with
        | nil => exact hk.elim
        | cons i k => exact ⟨⟨i, hk.1, rfl⟩, memN_iff_elemN.2 ⟨k, hk.2, rfl⟩⟩

theorem ints_inj {a b : List Nat} (h : ints a = ints b) : a = b := by
  unfold ints at h
  exact List.map_injective_iff.2 (fun x y h => by simpa using h) h

/-- positions inside an admissible sub-domain are indices of the space -/
theorem subDom_inRange : ∀ {ns : List Nat} {D : List Dom} {k : List Nat}, SubDomOK ns D → InRange k (lens D) →
    ∃ idx, InRange idx ns ∧ elemN D k = ints idx
  | [], [], [], _, _ => ⟨[], trivial, rfl⟩
  | n :: ns, d :: D, k :: ks, h, hk => by
      obtain ⟨idx, h1, h2⟩ := subDom_inRange h.2 hk.2
      obtain ⟨a1, a2, a3, a4, a5, a6⟩ := h.1
      have hk1 : k < d.length := hk.1
      have hq : 0 ≤ d.stride * (k : Int) := mul_nonneg (by omega) (by omega)
      have hq2 : d.stride * (k : Int) ≤ d.stride * ((d.length - 1 : Nat) : Int) := by
        apply mul_le_mul_of_nonneg_left _ (by omega)
        omega
      unfold elem at a6
      refine ⟨(elem d k).toNat :: idx, ⟨?_, h1⟩, ?_⟩
      · unfold elem; omega
      · simp only [elemN, h2, ints, List.map_cons, List.cons.injEq, and_true]
        unfold elem; omega
  | [], [], _ :: _, _, h => h.elim
  | [], _ :: _, _, h, _ => h.elim
  | _ :: _, [], _, h, _ => h.elim
  | _ :: _, _ :: _, [], _, h => h.elim

end Verif
