import Verif.Distributed.Model
import Mathlib.Data.List.Permutation
/-! Lemmas about intersections of patches and the chains built from them. -/
namespace Verif.Par
open Verif Spec

/-- a patch in one dimension: global domain `a`, local domain `l` -/
structure Patch1 (a l : Dom) : Prop where
  a1 : a.stride = 1
  l1 : l.stride = 1
  len : l.length = a.length
  ab : a.first + a.length < W₆₃
  lb : l.first + l.length < W₆₃
  ne : 0 < a.first + a.length

def PatchN : List Dom → List Dom → Prop
  | [], [] => True
  | a :: as, l :: ls => Patch1 a l ∧ PatchN as ls
  | _, _ => False

theorem patch_last {a l : Dom} (h : Patch1 a l) : a.last = a.first + a.length - 1 := by
  have h1 := h.a1
  by_cases h0 : 0 < a.length
  · have hf : Fits a := by
      have := unit_fits (f := a.first) (len := a.length) h.ab
      cases a; simp only at *; rw [h1]; exact this
    have := last_nat hf (s := 1) (by simpa using h1) h0
    omega
  · have hl : a.length = 0 := by omega
    have hf : 0 < a.first := by have := h.ne; omega
    have := last_empty hf (by have := h.ab; omega)
    have ha : a = ⟨a.first, 1, 0⟩ := by cases a; simp only at *; rw [h1, hl]
    rw [← ha] at this
    omega

theorem patch_intersect {a l b m : Dom} (ha : Patch1 a l) (hb : Patch1 b m) :
    intersect a b = if max a.first b.first ≤ min (a.first + a.length - 1) (b.first + b.length - 1) then
      some ⟨max a.first b.first, 1, min (a.first + a.length) (b.first + b.length) - max a.first b.first⟩ else none := by
  unfold intersect
  rw [if_pos hb.a1]
  simp only [patch_last ha, patch_last hb]
  split
  · congr 2
    have h1 := ha.ab
    have h2 := ha.ne
    have h3 := hb.ne
    have : min (a.first + a.length - 1) (b.first + b.length - 1) = min (a.first + a.length) (b.first + b.length) - 1 := by omega
    rw [Nat.mod_eq_of_lt] <;> omega
  · rfl

theorem patch_apply {a l r : Dom} (ha : Patch1 a l) (h1 : r.stride = 1) (hf : a.first ≤ r.first)
    (hl : r.first + r.length ≤ a.first + a.length) :
    applyIntr l a r = ⟨l.first + (r.first - a.first), 1, r.length⟩ := by
  unfold applyIntr
  have e1 : toIdx ((r.first : Int) - a.first) = r.first - a.first := by
    have := toIdx_of_fits (z := (r.first : Int) - a.first) (by omega) (by have := ha.ab; omega)
    omega
  have e2 : toIdx ((l.first : Int) + ((r.first - a.first : Nat) : Int) * 1) = l.first + (r.first - a.first) := by
    have := toIdx_of_fits (z := (l.first : Int) + ((r.first - a.first : Nat) : Int) * 1) (by omega)
      (by have := ha.lb; have := ha.len; omega)
    omega
  rw [e1, ha.l1, e2, h1]
  rfl

theorem elem_unit (f n k : Nat) : elem ⟨f, 1, n⟩ k = (f : Int) + k := by simp [elem]

theorem patchN_comm : ∀ {A LA B LB : List Dom}, PatchN A LA → PatchN B LB → intersectN A B = intersectN B A
  | [], [], [], [], _, _ => rfl
  | [], [], _ :: _, _ :: _, _, _ => rfl
  | _ :: _, _ :: _, [], [], _, _ => rfl
  | a :: A, l :: LA, b :: B, m :: LB, h1, h2 => by
      have : intersect a b = intersect b a := by
        rw [patch_intersect h1.1 h2.1, patch_intersect h2.1 h1.1, Nat.max_comm, Nat.min_comm, Nat.min_comm (a.first + a.length)]
      simp only [intersectN, this, patchN_comm h1.2 h2.2]
  | [], _ :: _, _, _, h, _ => h.elim
  | _ :: _, [], _, _, h, _ => h.elim
  | _, _, [], _ :: _, _, h => h.elim
  | _, _, _ :: _, [], _, h => h.elim

theorem patchN_some : ∀ {A LA B LB R : List Dom}, PatchN A LA → PatchN B LB → intersectN A B = some R →
    lens (applyIntrN LA A R) = lens R ∧ lens (applyIntrN LB B R) = lens R ∧ R.length = A.length ∧
    ∀ k, InRange k (lens R) → ∃ pa pb, InRange pa (lens A) ∧ InRange pb (lens B) ∧ elemN A pa = elemN B pb ∧
      elemN (applyIntrN LA A R) k = elemN LA pa ∧ elemN (applyIntrN LB B R) k = elemN LB pb
  | [], [], [], [], R, _, _, h => by
      simp only [intersectN, Option.some.injEq] at h
      subst h
      refine ⟨rfl, rfl, rfl, ?_⟩
      intro k hk
      exact ⟨[], [], trivial, trivial, rfl, rfl, rfl⟩
  | a :: A, l :: LA, b :: B, m :: LB, R, h1, h2, h => by
      simp only [intersectN] at h
      split at h
      · cases h
      rename_i r hr
      split at h
      · cases h
      rename_i rs hrs
      cases h
      obtain ⟨i1, i2, i3, i4⟩ := patchN_some h1.2 h2.2 hrs
      rw [patch_intersect h1.1 h2.1] at hr
      split at hr
      case isFalse => cases hr
      rename_i hle
      cases hr
      have ea := patch_apply (r := ⟨max a.first b.first, 1, min (a.first + a.length) (b.first + b.length) - max a.first b.first⟩) h1.1 rfl
        (by simp only; omega) (by simp only; omega)
      have eb := patch_apply (r := ⟨max a.first b.first, 1, min (a.first + a.length) (b.first + b.length) - max a.first b.first⟩) h2.1 rfl
        (by simp only; omega) (by simp only; omega)
      simp only [applyIntrN, lens, List.map_cons] at *
      rw [ea, eb]
      refine ⟨by rw [i1], by rw [i2], by simp [i3], ?_⟩
      intro k hk
      cases k with
      | nil => exact hk.elim
      | cons k ks =>
        obtain ⟨pa, pb, j1, j2, j3, j4, j5⟩ := i4 ks hk.2
        have hk1 := hk.1
        have := h1.1.a1
        have := h2.1.a1
        refine ⟨(max a.first b.first - a.first + k) :: pa, (max a.first b.first - b.first + k) :: pb, ⟨by omega, j1⟩, ⟨by omega, j2⟩, ?_, ?_, ?_⟩
        · simp only [elemN, j3, List.cons.injEq, and_true]
          rw [elem_one a h1.1.a1, elem_one b h2.1.a1]
          omega
        · simp only [elemN, j4, List.cons.injEq, and_true]
          rw [elem_unit, elem_one l h1.1.l1]
          omega
        · simp only [elemN, j5, List.cons.injEq, and_true]
          rw [elem_unit, elem_one m h2.1.l1]
          omega
  | [], _ :: _, _, _, _, h, _, _ => h.elim
  | _ :: _, [], _, _, _, h, _, _ => h.elim
  | _, _, [], _ :: _, _, _, h, _ => h.elim
  | _, _, _ :: _, [], _, _, h, _ => h.elim
  | [], [], _ :: _, _ :: _, _, _, _, h => by simp [intersectN] at h
  | _ :: _, _ :: _, [], [], _, _, _, h => by simp [intersectN] at h

/-- an index common to two patches is in their intersection -/
theorem patchN_mem : ∀ {A LA B LB : List Dom} {pa pb : List Nat}, PatchN A LA → PatchN B LB → InRange pa (lens A) →
    InRange pb (lens B) → elemN A pa = elemN B pb →
    ∃ R, intersectN A B = some R ∧ ∃ k, InRange k (lens R) ∧
      elemN (applyIntrN LA A R) k = elemN LA pa ∧ elemN (applyIntrN LB B R) k = elemN LB pb
  | [], [], [], [], [], [], _, _, _, _, _ => ⟨[], rfl, [], trivial, rfl, rfl⟩
  | a :: A, l :: LA, b :: B, m :: LB, x :: pa, y :: pb, h1, h2, hx, hy, he => by
      simp only [elemN, List.cons.injEq] at he
      obtain ⟨R, r1, k, r2, r3, r4⟩ := patchN_mem h1.2 h2.2 hx.2 hy.2 he.2
      have e := he.1
      rw [elem_one a h1.1.a1, elem_one b h2.1.a1] at e
      have hx1 : x < a.length := hx.1
      have hy1 : y < b.length := hy.1
      refine ⟨⟨max a.first b.first, 1, min (a.first + a.length) (b.first + b.length) - max a.first b.first⟩ :: R, ?_,
        (a.first + x - max a.first b.first) :: k, ⟨?_, r2⟩, ?_, ?_⟩
      · simp only [intersectN]
        rw [patch_intersect h1.1 h2.1, if_pos (by omega), r1]
      · show a.first + x - max a.first b.first < min (a.first + a.length) (b.first + b.length) - max a.first b.first
        omega
      · simp only [applyIntrN, elemN, r3, List.cons.injEq, and_true]
        rw [patch_apply (r := ⟨max a.first b.first, 1, min (a.first + a.length) (b.first + b.length) - max a.first b.first⟩) h1.1 rfl
          (by simp only; omega) (by simp only; omega)]
        rw [elem_unit, elem_one l h1.1.l1]
        dsimp only
        omega
      · simp only [applyIntrN, elemN, r4, List.cons.injEq, and_true]
        rw [patch_apply (r := ⟨max a.first b.first, 1, min (a.first + a.length) (b.first + b.length) - max a.first b.first⟩) h2.1 rfl
          (by simp only; omega) (by simp only; omega)]
        rw [elem_unit, elem_one m h2.1.l1]
        dsimp only
        omega
  | [], _ :: _, _, _, _, _, h, _, _, _, _ => h.elim
  | _ :: _, [], _, _, _, _, h, _, _, _, _ => h.elim
  | _, _, [], _ :: _, _, _, _, h, _, _, _ => h.elim
  | _, _, _ :: _, [], _, _, _, h, _, _, _ => h.elim
  | [], [], _, _, _ :: _, _, _, _, h, _, _ => h.elim
  | _ :: _, _ :: _, _, _, [], _, _, _, h, _, _ => h.elim
  | _, _, [], [], _, _ :: _, _, _, _, h, _ => h.elim
  | _, _, _ :: _, _ :: _, _, [], _, _, _, h, _ => h.elim
  | [], [], _ :: _, _ :: _, [], _ :: _, _, _, _, _, h => by simp [elemN] at h
  | _ :: _, _ :: _, [], [], _ :: _, [], _, _, _, _, h => by simp [elemN] at h

theorem elemN_inj : ∀ {A LA : List Dom} {x y : List Nat}, PatchN A LA → InRange x (lens A) → InRange y (lens A) →
    elemN A x = elemN A y → x = y
  | [], [], [], [], _, _, _, _ => rfl
  | a :: A, l :: LA, x :: xs, y :: ys, h, hx, hy, he => by
      simp only [elemN, List.cons.injEq] at he
      rw [elemN_inj h.2 hx.2 hy.2 he.2]
      have e := he.1
      rw [elem_one a h.1.a1, elem_one a h.1.a1] at e
      congr 1; omega
  | [], _ :: _, _, _, h, _, _, _ => h.elim
  | _ :: _, [], _, _, h, _, _, _ => h.elim
  | [], [], _ :: _, _, _, h, _, _ => h.elim
  | _ :: _, _ :: _, [], _, _, h, _, _ => h.elim
  | [], [], _, _ :: _, _, _, h, _ => h.elim
  | _ :: _, _ :: _, _, [], _, _, h, _ => h.elim

/-! ### Chains -/

/-- the dimension orders of 1-D, 2-D and 3-D layouts -/
def IsOrder (D : Nat) (order : List Nat) : Prop := order.Perm (List.range D) ∧ 1 ≤ D ∧ D ≤ 3

theorem order_cases {D : Nat} {o : List Nat} (h : IsOrder D o) :
    (D = 1 ∧ o = [0]) ∨ (D = 2 ∧ (o = [0, 1] ∨ o = [1, 0])) ∨
    (D = 3 ∧ (o = [0, 1, 2] ∨ o = [0, 2, 1] ∨ o = [1, 0, 2] ∨ o = [1, 2, 0] ∨ o = [2, 0, 1] ∨ o = [2, 1, 0])) := by
  obtain ⟨hp, h1, h3⟩ := h
  have : D = 1 ∨ D = 2 ∨ D = 3 := by omega
  have hm := List.mem_permutations'.2 hp
  rcases this with rfl | rfl | rfl
  · left
    have e : (List.range 1).permutations' = [[0]] := by decide +kernel
    rw [e] at hm
    simpa using hm
  · right; left
    have e : (List.range 2).permutations' = [[0, 1], [1, 0]] := by decide +kernel
    rw [e] at hm
    simpa using hm
  · right; right
    have e : (List.range 3).permutations' = [[0, 1, 2], [1, 0, 2], [1, 2, 0], [0, 2, 1], [2, 0, 1], [2, 1, 0]] := by decide +kernel
    rw [e] at hm
    simp only [List.mem_cons, List.not_mem_nil, or_false] at hm
    tauto

/-- two records that describe the same positions of two domains -/
def RecRel (P : Int → Int → Prop) (ra rb : Rec) : Prop := ra.len = rb.len ∧ ∀ i, i < ra.len → P (ra.at i) (rb.at i)

theorem forall2_range_map {α β : Type} {R : α → β → Prop} {n : Nat} {f : Nat → α} {g : Nat → β} (h : ∀ i, i < n → R (f i) (g i)) :
    List.Forall₂ R ((List.range n).map f) ((List.range n).map g) := by
  rw [List.forall₂_map_left_iff, List.forall₂_map_right_iff, List.forall₂_same]
  intro x hx
  exact h x (by simpa using hx)

theorem forall2_flatMap {ι α β : Type} {R : α → β → Prop} {l : List ι} {f : ι → List α} {g : ι → List β}
    (h : ∀ i ∈ l, List.Forall₂ R (f i) (g i)) : List.Forall₂ R (l.flatMap f) (l.flatMap g) := by
  induction l with
  | nil => simp
  | cons x l ih =>
    simp only [List.flatMap_cons]
    exact List.rel_append (h x (by simp)) (ih (fun i hi => h i (by simp [hi])))

theorem len1 {l : List α} (h : l.length = 1) : ∃ a, l = [a] := List.length_eq_one_iff.1 h
theorem len2 {l : List α} (h : l.length = 2) : ∃ a b, l = [a, b] := List.length_eq_two.1 h
theorem len3 {l : List α} (h : l.length = 3) : ∃ a b c, l = [a, b, c] := List.length_eq_three.1 h

theorem chain_rel {D : Nat} {o : List Nat} (ho : IsOrder D o) {A B : List Dom} {sA sB : List Int} (hA : A.length = D)
    (hsA : sA.length = D) (hsB : sB.length = D) (hl : lens A = lens B) :
    List.Forall₂ (RecRel fun x y => ∃ k, InRange k (lens A) ∧ x = offset sA (elemN A k) ∧ y = offset sB (elemN B k))
      (chainAdd o A sA) (chainAdd o B sB) := by
  have hB : B.length = D := by
    have := congrArg List.length hl
    simpa [lens, hA] using this.symm
  rcases order_cases ho with ⟨rfl, rfl⟩ | ⟨rfl, h⟩ | ⟨rfl, h⟩
  · obtain ⟨a, rfl⟩ := len1 hA
    obtain ⟨b, rfl⟩ := len1 hB
    obtain ⟨s, rfl⟩ := len1 hsA
    obtain ⟨t, rfl⟩ := len1 hsB
    simp only [lens, List.map_cons, List.map_nil, List.cons.injEq, and_true] at hl
    simp only [chainAdd, List.getD_cons_zero, List.forall₂_cons, List.Forall₂.nil, and_true, RecRel]
    refine ⟨hl, ?_⟩
    intro i hi
    refine ⟨[i], ⟨hi, trivial⟩, ?_, ?_⟩ <;> simp only [Rec.at, offset, elemN, elem] <;> ring
  · obtain ⟨a, a', rfl⟩ := len2 hA
    obtain ⟨b, b', rfl⟩ := len2 hB
    obtain ⟨s, s', rfl⟩ := len2 hsA
    obtain ⟨t, t', rfl⟩ := len2 hsB
    simp only [lens, List.map_cons, List.map_nil, List.cons.injEq, and_true] at hl
    rcases h with rfl | rfl
    all_goals
      simp only [chainAdd, List.getD_cons_zero, List.getD_cons_succ, hl.1, hl.2]
      apply forall2_range_map
      intro i hi
      refine ⟨rfl, ?_⟩
      intro j hj
    · refine ⟨[i, j], ⟨by simpa [hl.1] using hi, by simpa [hl.2] using hj, trivial⟩, ?_, ?_⟩ <;>
        simp only [Rec.at, offset, elemN, elem] <;> ring
    · refine ⟨[j, i], ⟨by simpa [hl.1] using hj, by simpa [hl.2] using hi, trivial⟩, ?_, ?_⟩ <;>
        simp only [Rec.at, offset, elemN, elem] <;> ring
  · obtain ⟨a, a', a'', rfl⟩ := len3 hA
    obtain ⟨b, b', b'', rfl⟩ := len3 hB
    obtain ⟨s, s', s'', rfl⟩ := len3 hsA
    obtain ⟨t, t', t'', rfl⟩ := len3 hsB
    simp only [lens, List.map_cons, List.map_nil, List.cons.injEq, and_true] at hl
    obtain ⟨hl1, hl2, hl3⟩ := hl
    rcases h with rfl | rfl | rfl | rfl | rfl | rfl
    all_goals
      simp only [chainAdd, List.getD_cons_zero, List.getD_cons_succ, hl1, hl2, hl3]
      apply forall2_flatMap
      intro i hi
      have hi := List.mem_range.1 hi
      apply forall2_range_map
      intro j hj
      refine ⟨rfl, ?_⟩
      intro m hm
    · refine ⟨[i, j, m], ⟨by simpa [hl1] using hi, by simpa [hl2] using hj, by simpa [hl3] using hm, trivial⟩, ?_, ?_⟩ <;>
        simp only [Rec.at, offset, elemN, elem] <;> ring
    · refine ⟨[i, m, j], ⟨by simpa [hl1] using hi, by simpa [hl2] using hm, by simpa [hl3] using hj, trivial⟩, ?_, ?_⟩ <;>
        simp only [Rec.at, offset, elemN, elem] <;> ring
    · refine ⟨[j, i, m], ⟨by simpa [hl1] using hj, by simpa [hl2] using hi, by simpa [hl3] using hm, trivial⟩, ?_, ?_⟩ <;>
        simp only [Rec.at, offset, elemN, elem] <;> ring
    · refine ⟨[m, i, j], ⟨by simpa [hl1] using hm, by simpa [hl2] using hi, by simpa [hl3] using hj, trivial⟩, ?_, ?_⟩ <;>
        simp only [Rec.at, offset, elemN, elem] <;> ring
    · refine ⟨[j, m, i], ⟨by simpa [hl1] using hj, by simpa [hl2] using hm, by simpa [hl3] using hi, trivial⟩, ?_, ?_⟩ <;>
        simp only [Rec.at, offset, elemN, elem] <;> ring
    · refine ⟨[m, j, i], ⟨by simpa [hl1] using hm, by simpa [hl2] using hj, by simpa [hl3] using hi, trivial⟩, ?_, ?_⟩ <;>
        simp only [Rec.at, offset, elemN, elem] <;> ring

/-- a chain contains every element of the domain -/
theorem chain_cover {D : Nat} {o : List Nat} (ho : IsOrder D o) {A : List Dom} {sA : List Int} (hA : A.length = D)
    (hsA : sA.length = D) {k : List Nat} (hk : InRange k (lens A)) :
    offset sA (elemN A k) ∈ Rec.offs (chainAdd o A sA) := by
  rcases order_cases ho with ⟨rfl, rfl⟩ | ⟨rfl, h⟩ | ⟨rfl, h⟩
  · obtain ⟨a, rfl⟩ := len1 hA
    obtain ⟨s, rfl⟩ := len1 hsA
    obtain ⟨x, rfl⟩ := len1 (inRange_length hk)
    have h1 : x < a.length := hk.1
    simp only [chainAdd, List.getD_cons_zero, Rec.offs, List.flatMap_cons, List.flatMap_nil, List.append_nil, List.mem_map,
      List.mem_range]
    refine ⟨x, h1, ?_⟩
    simp only [Rec.at, offset, elemN, elem]; ring
  · obtain ⟨a, a', rfl⟩ := len2 hA
    obtain ⟨s, s', rfl⟩ := len2 hsA
    obtain ⟨x, y, rfl⟩ := len2 (inRange_length hk)
    have h1 : x < a.length := hk.1
    have h2 : y < a'.length := hk.2.1
    rcases h with rfl | rfl
    all_goals
      simp only [chainAdd, List.getD_cons_zero, List.getD_cons_succ, Rec.offs, List.mem_flatMap, List.mem_map, List.mem_range]
    · refine ⟨_, ⟨x, h1, rfl⟩, y, h2, ?_⟩
      simp only [Rec.at, offset, elemN, elem]; ring
    · refine ⟨_, ⟨y, h2, rfl⟩, x, h1, ?_⟩
      simp only [Rec.at, offset, elemN, elem]; ring
  · obtain ⟨a, a', a'', rfl⟩ := len3 hA
    obtain ⟨s, s', s'', rfl⟩ := len3 hsA
    obtain ⟨x, y, z, rfl⟩ := len3 (inRange_length hk)
    have h1 : x < a.length := hk.1
    have h2 : y < a'.length := hk.2.1
    have h3 : z < a''.length := hk.2.2.1
    rcases h with rfl | rfl | rfl | rfl | rfl | rfl
    all_goals
      simp only [chainAdd, List.getD_cons_zero, List.getD_cons_succ, Rec.offs, List.mem_flatMap, List.mem_map, List.mem_range]
    · refine ⟨_, ⟨x, h1, y, h2, rfl⟩, z, h3, ?_⟩
      simp only [Rec.at, offset, elemN, elem]; ring
    · refine ⟨_, ⟨x, h1, z, h3, rfl⟩, y, h2, ?_⟩
      simp only [Rec.at, offset, elemN, elem]; ring
    · refine ⟨_, ⟨y, h2, x, h1, rfl⟩, z, h3, ?_⟩
      simp only [Rec.at, offset, elemN, elem]; ring
    · refine ⟨_, ⟨y, h2, z, h3, rfl⟩, x, h1, ?_⟩
      simp only [Rec.at, offset, elemN, elem]; ring
    · refine ⟨_, ⟨z, h3, x, h1, rfl⟩, y, h2, ?_⟩
      simp only [Rec.at, offset, elemN, elem]; ring
    · refine ⟨_, ⟨z, h3, y, h2, rfl⟩, x, h1, ?_⟩
      simp only [Rec.at, offset, elemN, elem]; ring

theorem mem_positions : ∀ {ns k : List Nat}, k ∈ positions ns ↔ InRange k ns
  | [], k => by
      cases k <;> simp [positions, InRange]
  | n :: ns, [] => by simp [positions, InRange]
  | n :: ns, x :: k => by
      simp only [positions, List.mem_flatMap, List.mem_range, List.mem_map, List.cons.injEq, inRange_cons]
      constructor
      · rintro ⟨i, hi, k', hk', rfl, rfl⟩
        exact ⟨hi, mem_positions.1 hk'⟩
      · rintro ⟨h1, h2⟩
        exact ⟨x, h1, k, mem_positions.2 h2, rfl, rfl⟩

end Verif.Par
