import Verif.PyMap.Model
import Verif.Map.Props
import Verif.Map.Subset
/-!
# C100: maps used from Python
-/
namespace Verif.Props
open Verif Spec Verif.Pmp

/-! ### helpers -/

theorem pmp_dists_prod (sizes : List Nat) : ((Pmp.dists sizes).map Dist.numSubblocks).prod = sizes.prod := by
  unfold Pmp.dists
  rw [List.map_map]
  have : Dist.numSubblocks ∘ Dist.block = id := rfl
  rw [this, List.map_id, List.prod_append, List.prod_replicate, one_pow, mul_one]

theorem pmp_dists_ok (sizes : List Nat) (h : 0 ∉ sizes) : ∀ d ∈ Pmp.dists sizes, d.OK := by
  intro d hd
  unfold Pmp.dists at hd
  rw [List.mem_map] at hd
  obtain ⟨n, hn, rfl⟩ := hd
  rw [List.mem_append] at hn
  show 0 < n
  rcases hn with hn | hn
  · exact Nat.pos_of_ne_zero fun e => h (e ▸ hn)
  · rw [List.eq_of_mem_replicate hn]; exact Nat.one_pos

theorem pmp_new {comm : List Nat} {procs : Option (List Nat)} {sizes : List Nat} {m : Map} (h : Pmp.new comm procs sizes = .ret m) :
    sizes.length ≤ 3 ∧ 0 ∉ sizes ∧ Map.mk? (Pmp.dists sizes) (procs.getD comm) = some m := by
  unfold Pmp.new at h
  by_cases h1 : 3 < sizes.length
  · rw [if_pos h1] at h; cases h
  rw [if_neg h1] at h
  by_cases h2 : 0 ∈ sizes
  · rw [if_pos h2] at h; cases h
  rw [if_neg h2] at h
  cases hk : Map.mk? (Pmp.dists sizes) (procs.getD comm) with
  | none => rw [hk] at h; cases h
  | some m' => rw [hk] at h; cases h; exact ⟨by omega, h2, rfl⟩

theorem pmp_mk {dist : List Dist} {procs : List Nat} {m : Map} (h : Map.mk? dist procs = some m) :
    (dist.map Dist.numSubblocks).prod ≤ procs.length ∧ m = ⟨dist, procs.take (dist.map Dist.numSubblocks).prod⟩ := by
  unfold Map.mk? at h
  simp only at h
  split at h
  · cases h; exact ⟨by assumption, rfl⟩
  · cases h

theorem pmp_apply {m : Map} {ap : Option AMap} {shape : List Pmp.Ent} {o : Pmp.Obj} {ext : List Nat} (hs : Pmp.extracts shape = .ret ext)
    (h : Pmp.apply ⟨m, ap⟩ shape = .ret o) : (shape.length = 1 ∨ shape.length = 2 ∨ shape.length = 3) ∧ ∃ a, m.apply? ext = some a ∧ o = ⟨m, some a⟩ := by
  unfold Pmp.apply Pmp.tupled at h
  by_cases h1 : shape.length = 1 ∨ shape.length = 2 ∨ shape.length = 3
  · rw [if_pos h1, hs] at h
    simp only [Pmp.Out.bind] at h
    cases hk : m.apply? ext with
    | none => rw [hk] at h; cases h
    | some a => rw [hk] at h; cases h; exact ⟨h1, a, rfl, rfl⟩
  · rw [if_neg h1] at h; cases h

theorem pmp_length : ∀ {shape : List Pmp.Ent} {ext : List Nat}, Pmp.extracts shape = .ret ext → ext.length = shape.length
  | [], ext, h => by cases h; rfl
  | e :: es, ext, h => by
    unfold Pmp.extracts at h
    cases h1 : e.size with
    | ret n =>
      rw [h1] at h
      simp only [Pmp.Out.bind] at h
      cases h2 : Pmp.extracts es with
      | ret ns => rw [h2] at h; cases h; simp [pmp_length h2]
      | raise e => rw [h2] at h; cases h
      | bad => rw [h2] at h; cases h
    | raise e => rw [h1] at h; cases h
    | bad => rw [h1] at h; cases h

theorem pmp_map {m : Map} {ext : List Nat} {a : AMap} (h : m.apply? ext = some a) (hd : ∀ d ∈ m.dist, d.OK) :
    a.ext = ext ∧ a.pvec = m.pvec ∧ (∀ x ∈ a.dims, x.1.OK) ∧ a.dims.length = ext.length := by
  unfold Map.apply? at h
  split at h
  case isFalse => cases h
  rename_i hc
  cases h
  have hl : (m.dist.take ext.length).length = ext.length := by rw [List.length_take]; omega
  refine ⟨?_, rfl, ?_, ?_⟩
  · show ((m.dist.take ext.length).zip ext).map (fun x => x.2) = ext
    have : (fun x : Dist × Nat => x.2) = Prod.snd := rfl
    rw [this, List.map_snd_zip (by omega)]
  · intro x hx
    exact hd _ (List.mem_of_mem_take (List.of_mem_zip hx).1)
  · show ((m.dist.take ext.length).zip ext).length = ext.length
    rw [List.length_zip, hl, Nat.min_self]

theorem pmp_indices : ∀ (idx : List Nat), (∀ i ∈ idx, i < W₆₄) → Pmp.indices (idx.map fun (i : Nat) => (i : Int)) = .ret idx
  | [], _ => rfl
  | i :: is, h => by
    have h1 := h i (by simp)
    have h2 := pmp_indices is fun j hj => h j (by simp [hj])
    rw [List.map_cons]
    unfold Pmp.indices
    rw [if_neg, h2]
    · rfl
    · rw [Int.toNat_natCast]
      intro hc
      rcases hc with hc | hc
      · exact absurd hc (Int.not_lt.2 (Int.natCast_nonneg i))
      · exact absurd h1 (Nat.not_lt.2 hc)

theorem pmp_within : ∀ (idx ext : List Nat), Pmp.within idx ext = true ↔ InRange idx ext
  | [], [] => by simp [Pmp.within]
  | [], n :: ns => by simp [Pmp.within, InRange]
  | i :: is, [] => by simp [Pmp.within, InRange]
  | i :: is, n :: ns => by simp [Pmp.within, pmp_within is ns]

theorem pmp_sub {m : Map} {a : AMap} {idx : List Nat} (hl : idx.length = 1 ∨ idx.length = 2 ∨ idx.length = 3) (hw : ∀ i ∈ idx, i < W₆₄)
    (h : InRange idx a.ext) : Pmp.subblockFrom ⟨m, some a⟩ (idx.map fun (i : Nat) => (i : Int)) = .ret (a.subblockFromGlobalIndex idx) := by
  unfold Pmp.subblockFrom Pmp.tupled
  rw [if_pos (by simpa using hl), pmp_indices idx hw]
  simp only [Pmp.Out.bind]
  rw [if_pos ((pmp_within _ _).2 h)]

/-! ### construction and application -/

/-- **C100 (construction).** A map can be made from at most three numbers of subblocks, none of them zero, whose product is at most the number of
processors (those listed, or all of them).  It has as many subblocks as the product, one in each direction not given, and uses the first
processors. -/
theorem C100_make (comm : List Nat) (procs : Option (List Nat)) (sizes : List Nat) :
    ((∃ m, Pmp.new comm procs sizes = .ret m) ↔ sizes.length ≤ 3 ∧ 0 ∉ sizes ∧ sizes.prod ≤ (procs.getD comm).length) ∧
    (∀ m, Pmp.new comm procs sizes = .ret m → m.numSubblocks = sizes.prod ∧ m.pvec = (procs.getD comm).take sizes.prod ∧
      m.dist.length = 3 ∧ ∀ d < 3, m.dist[d]? = some (.block (sizes.getD d 1))) := by
  constructor
  · constructor
    · rintro ⟨m, h⟩
      obtain ⟨h1, h2, h3⟩ := pmp_new h
      have h4 := (pmp_mk h3).1
      rw [pmp_dists_prod] at h4
      exact ⟨h1, h2, h4⟩
    · rintro ⟨h1, h2, h3⟩
      unfold Pmp.new Map.mk?
      rw [if_neg (by omega), if_neg h2]
      simp only [pmp_dists_prod]
      rw [if_pos h3]
      exact ⟨_, rfl⟩
  · intro m h
    obtain ⟨h1, h2, h3⟩ := pmp_new h
    obtain ⟨h4, rfl⟩ := pmp_mk h3
    refine ⟨?_, ?_, ?_, ?_⟩
    · exact pmp_dists_prod sizes
    · show (procs.getD comm).take _ = _
      rw [pmp_dists_prod]
    · show (Pmp.dists sizes).length = 3
      unfold Pmp.dists
      rw [List.length_map, List.length_append, List.length_replicate]
      omega
    · intro d hd
      show (Pmp.dists sizes)[d]? = _
      unfold Pmp.dists
      rw [List.getElem?_map, List.getElem?_append]
      by_cases hlt : d < sizes.length
      · rw [if_pos hlt, List.getElem?_eq_getElem hlt]
        simp [List.getD, hlt]
      · rw [if_neg hlt, List.getElem?_replicate, if_pos (by omega)]
        simp [List.getD, List.getElem?_eq_none (Nat.le_of_not_lt hlt)]

example : Pmp.new [0, 1, 2, 3, 4] none [2, 2] = .ret ⟨[.block 2, .block 2, .block 1], [0, 1, 2, 3]⟩ ∧
    Pmp.new [0, 1] (some [7, 5, 6]) [3] = .ret ⟨[.block 3, .block 1, .block 1], [7, 5, 6]⟩ ∧ Pmp.new [0] none [2] = .bad := by decide +kernel

/-- **C100 (shapes).** A number that is not negative and fits `int` stands for a size, a domain for its length; a map can be applied to one to three of them if
the directions beyond are not divided, and then has exactly these sizes. -/
theorem C100_apply (m : Map) (hm : m.dist.length = 3) (shape : List Pmp.Ent) (ext : List Nat) (hs : Pmp.extracts shape = .ret ext) :
    (∀ n : Nat, n ≤ 2147483647 → (Pmp.Ent.int n).size = .ret n) ∧ (∀ d : Dom, (Pmp.Ent.dom d).size = .ret d.length) ∧
    ((∃ o, Pmp.apply ⟨m, none⟩ shape = .ret o) ↔ (0 < ext.length ∧ ext.length ≤ 3 ∧ ∀ d x, ext.length ≤ d → m.dist[d]? = some x → x.numSubblocks = 1)) ∧
    (∀ o, Pmp.apply ⟨m, none⟩ shape = .ret o → o.map = m ∧ ∃ a, o.app = some a ∧ a.dims.map Prod.snd = ext ∧ a.pvec = m.pvec) := by
  have hl := pmp_length hs
  refine ⟨?_, fun _ => rfl, ?_, ?_⟩
  · intro n hn
    unfold Pmp.Ent.size
    simp only
    rw [if_neg (by omega)]
    unfold toIdx
    congr 1
    rw [Int.emod_eq_of_lt (by omega) (by omega), Int.toNat_natCast]
  · constructor
    · rintro ⟨o, h⟩
      obtain ⟨h1, a, h2, -⟩ := pmp_apply hs h
      refine ⟨by omega, by omega, ?_⟩
      intro d x hd hx
      unfold Map.apply? at h2
      split at h2
      case isFalse => cases h2
      rename_i hc
      apply hc.2
      rw [List.mem_iff_getElem?]
      exact ⟨d - ext.length, by rw [List.getElem?_drop]; rw [show ext.length + (d - ext.length) = d by omega]; exact hx⟩
    · rintro ⟨h1, h2, h3⟩
      unfold Pmp.apply Pmp.tupled
      rw [if_pos (by omega), hs]
      simp only [Pmp.Out.bind]
      unfold Map.apply?
      rw [if_pos]
      · exact ⟨_, rfl⟩
      · refine ⟨by omega, ?_⟩
        intro d hd
        rw [List.mem_iff_getElem?] at hd
        obtain ⟨k, hk⟩ := hd
        rw [List.getElem?_drop] at hk
        exact h3 _ d (by omega) hk
  · intro o h
    obtain ⟨h1, a, h2, rfl⟩ := pmp_apply hs h
    refine ⟨rfl, a, rfl, ?_⟩
    unfold Map.apply? at h2
    split at h2
    case isFalse => cases h2
    cases h2
    refine ⟨List.map_snd_zip ?_, rfl⟩
    rw [List.length_take]
    omega

example : (Pmp.extracts [.int 7, .dom ⟨3, 2, 5⟩] = .ret [7, 5]) ∧ Pmp.extracts [.int 2147483648] = .raise .overflow := by decide +kernel

/-- **C100 is false (negative sizes).** A negative size is not refused: it becomes the size 2^64 less. -/
theorem C100_negative_false : (∀ n : Nat, 0 < n → n ≤ 2147483648 → (Pmp.Ent.int (-(n : Int))).size = .ret (W₆₄ - n)) ∧
    (∃ o a, Pmp.apply ⟨⟨[.block 2, .block 1, .block 1], [0, 1]⟩, none⟩ [.int (-1)] = .ret o ∧ o.app = some a ∧ a.ext = [18446744073709551615]) := by
  constructor
  · intro n h1 h2
    unfold Pmp.Ent.size
    simp only
    rw [if_neg (by omega)]
    unfold toIdx
    congr 1
    omega
  · exact ⟨_, _, rfl, rfl, by decide +kernel⟩

/-! ### owners -/

/-- **C100 (owners).** For a map of distinct processors, every index of the shape it is applied to has an owner, which is one of the processors given and the
only one whose `subblock()` is the subblock of the index. -/
theorem C100_owner (comm : List Nat) (procs : Option (List Nat)) (sizes : List Nat) (m : Map) (hm : Pmp.new comm procs sizes = .ret m)
    (hn : (procs.getD comm).Nodup) (hp : (procs.getD comm).length < W₆₄) (shape : List Pmp.Ent) (ext : List Nat) (hs : Pmp.extracts shape = .ret ext)
    (o : Pmp.Obj) (ho : Pmp.apply ⟨m, none⟩ shape = .ret o) (idx : List Nat) (hi : InRange idx ext) (hw : ∀ i ∈ idx, i < W₆₄) :
    ∃ pr sb, Pmp.owner o (idx.map fun (i : Nat) => (i : Int)) = .ret pr ∧ Pmp.subblockFrom o (idx.map fun (i : Nat) => (i : Int)) = .ret sb ∧
      pr ∈ procs.getD comm ∧ sb < sizes.prod ∧ ∀ pr', Pmp.subblock o pr' = sb ↔ pr' = pr := by
  obtain ⟨hn1, hn2, hn3⟩ := pmp_new hm
  obtain ⟨hk1, hk2⟩ := pmp_mk hn3
  rw [pmp_dists_prod] at hk1 hk2
  obtain ⟨hl, a, ha, rfl⟩ := pmp_apply hs ho
  have hdm : m.dist = Pmp.dists sizes := by rw [hk2]
  obtain ⟨he, hpv, hok, -⟩ := pmp_map ha (by rw [hdm]; exact pmp_dists_ok sizes hn2)
  have hnum : a.numSubblocks = sizes.prod := by
    rw [(C10_map _ _ hn m hn3 ext a ha).2.2.2, pmp_dists_prod]
  have hmn : m.numSubblocks = sizes.prod := by
    unfold Map.numSubblocks
    rw [hdm, pmp_dists_prod]
  have hi' : InRange idx a.ext := by rw [he]; exact hi
  have hlen := inRange_length hi
  have hel := pmp_length hs
  have hsb := pmp_sub (m := m) (a := a) (idx := idx) (by omega) hw hi'
  have hlt : a.subblockFromGlobalIndex idx < sizes.prod := by
    have := ((C09_home a hok).home idx hi').1
    rw [← hnum]
    exact this
  have hplen : m.pvec.length = sizes.prod := by rw [hk2]; show ((procs.getD comm).take _).length = _; rw [List.length_take]; omega
  have hnd : m.pvec.Nodup := by rw [hk2]; exact List.Nodup.sublist (List.take_sublist _ _) hn
  generalize hS : a.subblockFromGlobalIndex idx = sb at *
  have hget : m.pvec[sb]? = some (m.pvec[sb]'(by omega)) := List.getElem?_eq_getElem (by omega)
  refine ⟨m.pvec[sb]'(by omega), sb, ?_, hsb, ?_, hlt, ?_⟩
  · unfold Pmp.owner
    rw [hsb]
    simp only [Pmp.Out.bind]
    rw [hmn, if_pos hlt, Nat.mod_eq_of_lt hlt, hget]
  · have hmem : ∀ x ∈ m.pvec, x ∈ procs.getD comm := by
      rw [hk2]
      exact fun x hx => List.mem_of_mem_take hx
    exact hmem _ (List.getElem_mem _)
  · intro pr'
    have hlt2 : sb ≠ Pmp.noSubblock := by unfold Pmp.noSubblock; omega
    constructor
    · intro h
      unfold Pmp.subblock at h
      simp only at h
      cases hr : AMap.rankFrom m.pvec pr' 0 with
      | none => rw [hr] at h; exact absurd h.symm hlt2
      | some r =>
        rw [hr] at h
        simp only at h
        by_cases hc : r < m.numSubblocks
        · rw [if_pos hc] at h
          subst h
          have h2 := (rankFrom_some hr).2
          rw [Nat.sub_zero, hget] at h2
          exact (Option.some.inj h2).symm
        · rw [if_neg hc] at h; exact absurd h.symm hlt2
    · rintro rfl
      unfold Pmp.subblock
      simp only
      rw [rankFrom_nodup hnd hget]
      simp only
      rw [if_pos (by omega)]

/-- seven rows on the processors 4, 9 and 2 -/
def pmp_ex : Pmp.Obj := ⟨⟨[.block 3, .block 1, .block 1], [4, 9, 2]⟩, some ⟨[(.block 3, 7), (.block 1, 5)], [4, 9, 2]⟩⟩

example : Pmp.new [] (some [4, 9, 2]) [3] = .ret pmp_ex.map ∧ Pmp.owner pmp_ex [2, 4] = .ret 4 ∧ Pmp.owner pmp_ex [3, 0] = .ret 9 ∧
    Pmp.owner pmp_ex [6, 0] = .ret 2 ∧ Pmp.subblock pmp_ex 9 = 1 ∧ Pmp.subblock pmp_ex 5 = Pmp.noSubblock := by decide +kernel

/-- **C100, partial (local indices).** Indices of the same subblock with the same local indices in all directions are the same.  Missing: indices outside the
shape (`C100_local_false`). -/
theorem C100_local_partial (m : Map) (a : AMap) (hok : ∀ x ∈ a.dims, x.1.OK) (h3 : a.dims.length = 1 ∨ a.dims.length = 2 ∨ a.dims.length = 3)
    (i j : List Nat) (hi : InRange i a.ext) (hj : InRange j a.ext) (hwi : ∀ x ∈ i, x < W₆₄) (hwj : ∀ x ∈ j, x < W₆₄)
    (hsb : Pmp.subblockFrom ⟨m, some a⟩ (i.map fun (x : Nat) => (x : Int)) = Pmp.subblockFrom ⟨m, some a⟩ (j.map fun (x : Nat) => (x : Int)))
    (hl : ∀ d, (hd : d < a.dims.length) → Pmp.localFrom ⟨m, some a⟩ d (i.getD d 0) = Pmp.localFrom ⟨m, some a⟩ d (j.getD d 0)) : i = j := by
  have li := inRange_length hi
  have lj := inRange_length hj
  have le : a.ext.length = a.dims.length := by unfold AMap.ext; rw [List.length_map]
  rw [pmp_sub (by omega) hwi hi, pmp_sub (by omega) hwj hj] at hsb
  have hsb' := Pmp.Out.ret.inj hsb
  have part := C09_home a hok
  have gi := part.global_local i hi
  have gj := part.global_local j hj
  have key : a.localFromGlobalIndex i = a.localFromGlobalIndex j := by
    clear gi gj hsb hsb' part h3 hwi hwj li lj le
    unfold AMap.localFromGlobalIndex
    unfold AMap.ext at hi hj
    have hl' : ∀ (d : Nat) (x : Dist × Nat), a.dims[d]? = some x → x.1.localFromGlobal? x.2 (i.getD d 0) = x.1.localFromGlobal? x.2 (j.getD d 0) := by
      intro d x hx
      have hd : d < a.dims.length := (List.getElem?_eq_some_iff.1 hx).1
      have := hl d hd
      unfold Pmp.localFrom at this
      simp only [hx] at this
      cases e1 : x.1.localFromGlobal? x.2 (i.getD d 0) <;> cases e2 : x.1.localFromGlobal? x.2 (j.getD d 0) <;> rw [e1, e2] at this <;>
        simp_all
    clear hl
    generalize a.dims = dims at *
    induction dims generalizing i j with
    | nil => cases i <;> cases j <;> simp_all [AMap.localIdx]
    | cons x xs ih =>
      cases i with
      | nil => exact absurd hi (by simp [InRange])
      | cons p ps =>
        cases j with
        | nil => exact absurd hj (by simp [InRange])
        | cons q qs =>
          rw [List.map_cons, inRange_cons] at hi hj
          unfold AMap.localIdx
          have h0 := hl' 0 x rfl
          have hx := hok x (by simp)
          simp only [List.getD_cons_zero] at h0
          rw [(C09_no_ub x.1 hx x.2 p hi.1).2, (C09_no_ub x.1 hx x.2 q hj.1).2] at h0
          rw [Option.some.inj h0]
          congr 1
          refine ih ps qs (fun y hy => hok y (by simp [hy])) hi.2 hj.2 ?_
          intro d y hy
          have := hl' (d + 1) y (by simpa using hy)
          simpa using this
  have e1 : a.view.toLocal i = a.view.toLocal j := key
  have e2 : a.view.sbOf i = a.view.sbOf j := hsb'
  rw [← gi, ← gj, e1, e2]

example : (∀ x ∈ ([(.block 3, 7), (.block 1, 5)] : List (Dist × Nat)), x.1.OK) ∧ Pmp.localFrom pmp_ex 0 4 = .ret 1 ∧ Pmp.localFrom pmp_ex 1 4 = .ret 4 := by
  decide +kernel

/-- **C100 is false (local indices).** `local_from_global_index` does not compare the index with the size.  With fewer elements than subblocks every index
beyond them divides by zero; with the same number in each subblock the index after the last has the local index 0. -/
theorem C100_local_false (m : Map) (pvec : List Nat) (num : Nat) :
    (∀ n i, n < num → n ≤ i → Pmp.localFrom ⟨m, some ⟨[(.block num, n)], pvec⟩⟩ 0 i = .bad) ∧
    (∀ k, 0 < num → 0 < k → Pmp.localFrom ⟨m, some ⟨[(.block num, num * k)], pvec⟩⟩ 0 (num * k) = .ret 0) := by
  constructor
  · intro n i h1 h2
    have e : (Dist.block num).localFromGlobal? n i = none := by
      simp only [Dist.localFromGlobal?]
      rw [Nat.div_eq_of_lt h1, Nat.mod_eq_of_lt h1, if_neg (by omega)]
      simp [Dist.mod?]
    unfold Pmp.localFrom
    simp [e]
  · intro k h1 h2
    have e : (Dist.block num).localFromGlobal? (num * k) (num * k) = some 0 := by
      simp only [Dist.localFromGlobal?]
      rw [Nat.mul_div_cancel_left _ h1, Nat.mul_mod_right, if_neg (by omega), Nat.sub_zero]
      unfold Dist.mod?
      rw [if_neg (by omega), Nat.mul_mod_left]
    unfold Pmp.localFrom
    simp [e]

/-! ### subblock domains -/

/-- **C100, partial (subblock domains).** For vectors, the domain of a subblock has as many elements as there are indices in that subblock, and the domain of a
processor that is not listed is empty.  Missing: matrices and tensors (`C100_domain_false`). -/
theorem C100_domain_partial (comm : List Nat) (procs : Option (List Nat)) (sizes : List Nat) (m : Map) (hm : Pmp.new comm procs sizes = .ret m)
    (hn : (procs.getD comm).Nodup) (hp : (procs.getD comm).length < W₆₄) (e : Pmp.Ent) (n : Nat) (hs : e.size = .ret n) (hw : n < W₆₄)
    (o : Pmp.Obj) (ho : Pmp.apply ⟨m, none⟩ [e] = .ret o) :
    (∀ sb, sb < sizes.prod →
      Pmp.subblockDomain o sb 1 = .ret ((List.range n).countP fun (i : Nat) => decide (Pmp.subblockFrom o [(i : Int)] = .ret sb))) ∧
    (∀ pr, pr ∉ procs.getD comm → Pmp.subblockDomain o (Pmp.subblock o pr) 1 = .ret 0) := by
  obtain ⟨hn1, hn2, hn3⟩ := pmp_new hm
  obtain ⟨hk1, hk2⟩ := pmp_mk hn3
  rw [pmp_dists_prod] at hk1 hk2
  have hs' : Pmp.extracts [e] = .ret [n] := by simp [Pmp.extracts, hs, Pmp.Out.bind]
  obtain ⟨-, a, ha, rfl⟩ := pmp_apply hs' ho
  have hdm : m.dist = Pmp.dists sizes := by rw [hk2]
  obtain ⟨he, hpv, hok, hdl⟩ := pmp_map ha (by rw [hdm]; exact pmp_dists_ok sizes hn2)
  have hnum : a.numSubblocks = sizes.prod := by
    rw [(C10_map _ _ hn m hn3 [n] a ha).2.2.2, pmp_dists_prod]
  have hmn : m.numSubblocks = sizes.prod := by
    unfold Map.numSubblocks
    rw [hdm, pmp_dists_prod]
  have part := C09_home a hok
  have hsub : ∀ i, i < n → Pmp.subblockFrom ⟨m, some a⟩ [(i : Int)] = .ret (a.subblockFromGlobalIndex [i]) := fun i hi =>
    pmp_sub (m := m) (a := a) (idx := [i]) (by simp) (by simp; omega) (by rw [he]; simp [hi])
  constructor
  · intro sb hsb
    have hne : sb ≠ Pmp.noSubblock := by unfold Pmp.noSubblock; omega
    unfold Pmp.subblockDomain
    simp only [true_or, if_true]
    rw [if_pos ⟨Or.inl (by omega), by simpa using hdl⟩, if_neg hne]
    congr 1
    have hcnt : ((List.range n).countP fun (i : Nat) => decide (Pmp.subblockFrom ⟨m, some a⟩ [(i : Int)] = .ret sb)) =
        ((List.range n).filter fun i => decide (a.subblockFromGlobalIndex [i] = sb)).length := by
      rw [← List.countP_eq_length_filter]
      apply List.countP_congr
      intro i hi
      rw [List.mem_range] at hi
      simp only [hsub i hi, decide_eq_true_eq, Pmp.Out.ret.injEq]
    rw [hcnt]
    -- the subblock's extent has one entry
    obtain ⟨c, hc⟩ : ∃ c, a.subblockExtent sb = [c] := by
      have hd1 : a.dims.length = 1 := by simpa using hdl
      obtain ⟨x, hx⟩ := List.length_eq_one_iff.1 hd1
      unfold AMap.subblockExtent AMap.sbSizes
      rw [hx]
      refine ⟨_, rfl⟩
    rw [hc, List.headD_cons]
    have g1 : ∀ l, l < c → ∃ i, i < n ∧ a.subblockFromGlobalIndex [i] = sb ∧ a.globalFromLocalIndex sb [l] = [i] ∧ a.localFromGlobalIndex [i] = [l] := by
      intro l hl
      obtain ⟨p1, p2, p3⟩ := part.local_global sb [l] (by show sb < a.numSubblocks; omega) (by show InRange [l] (a.subblockExtent sb); rw [hc]; simp [hl])
      have p1' : InRange (a.globalFromLocalIndex sb [l]) a.ext := p1
      rw [he] at p1'
      have q := inRange_length p1'
      obtain ⟨i, hi⟩ := List.length_eq_one_iff.1 (q.trans rfl)
      have p2' : a.subblockFromGlobalIndex (a.globalFromLocalIndex sb [l]) = sb := p2
      have p3' : a.localFromGlobalIndex (a.globalFromLocalIndex sb [l]) = [l] := p3
      rw [hi] at p1' p2' p3'
      refine ⟨i, by simpa using p1', p2', hi, p3'⟩
    have g2 : ∀ i, i < n → a.subblockFromGlobalIndex [i] = sb → ∃ l, l < c ∧ a.globalFromLocalIndex sb [l] = [i] := by
      intro i hi hb
      have hr : InRange [i] a.ext := by rw [he]; simp [hi]
      obtain ⟨h1, h2, k, h3, h4, h5⟩ := part.home [i] hr
      have hmem : InRange (a.localFromGlobalIndex [i]) (a.subblockExtent sb) := by
        have := (part.local_cover sb (a.localFromGlobalIndex [i]) (by show sb < a.numSubblocks; omega)).2
        apply this
        have hb' : a.view.sbOf [i] = sb := hb
        rw [hb'] at h2 h3 h4 h5
        refine ⟨_, h2, ?_⟩
        have hlens := part.len sb _ (by show sb < a.numSubblocks; omega) h2
        rw [hlens] at h3
        have h5' : elemN (a.view.ldom sb (a.view.patchOf [i])) k = ints (a.localFromGlobalIndex [i]) := h5
        rw [← h5']
        exact memN_iff_elemN.2 ⟨k, h3, rfl⟩
      rw [hc] at hmem
      have q := inRange_length hmem
      obtain ⟨l, hl⟩ := List.length_eq_one_iff.1 (q.trans rfl)
      rw [hl] at hmem
      refine ⟨l, by simpa using hmem, ?_⟩
      have := part.global_local [i] hr
      have this' : a.globalFromLocalIndex (a.subblockFromGlobalIndex [i]) (a.localFromGlobalIndex [i]) = [i] := this
      rw [hb, hl] at this'
      exact this'
    -- the lists are permutations of each other
    have hperm : ((List.range c).map fun l => (a.globalFromLocalIndex sb [l]).headD 0).Perm
        ((List.range n).filter fun i => decide (a.subblockFromGlobalIndex [i] = sb)) := by
      rw [List.perm_ext_iff_of_nodup]
      · intro i
        simp only [List.mem_map, List.mem_range, List.mem_filter, decide_eq_true_eq]
        constructor
        · rintro ⟨l, hl, rfl⟩
          obtain ⟨i, hi, hb, hg, -⟩ := g1 l hl
          rw [hg]
          exact ⟨hi, hb⟩
        · rintro ⟨hi, hb⟩
          obtain ⟨l, hl, hg⟩ := g2 i hi hb
          exact ⟨l, hl, by rw [hg]; rfl⟩
      · refine List.Nodup.map_on ?_ List.nodup_range
        intro l hl l' hl' heq
        rw [List.mem_range] at hl hl'
        obtain ⟨i, -, -, hg, hb⟩ := g1 l hl
        obtain ⟨i', -, -, hg', hb'⟩ := g1 l' hl'
        rw [hg, hg'] at heq
        simp only [List.headD_cons] at heq
        rw [heq, hb'] at hb
        simpa using hb.symm
      · exact List.nodup_range.filter _
    have := hperm.length_eq
    rw [List.length_map, List.length_range] at this
    exact this
  · intro pr hpr
    have hr : AMap.rankFrom m.pvec pr 0 = none := by
      rw [rankFrom_none, hk2]
      exact fun h => hpr (List.mem_of_mem_take h)
    unfold Pmp.subblockDomain Pmp.subblock
    simp only [hr, true_or, or_true, true_and, if_true]
    rw [if_pos (by simpa using hdl)]

example : Pmp.subblockDomain ⟨⟨[.block 3, .block 1, .block 1], [4, 9, 2]⟩, some ⟨[(.block 3, 7)], [4, 9, 2]⟩⟩ 0 1 = .ret 3 ∧
    Pmp.apply ⟨⟨[.block 3, .block 1, .block 1], [4, 9, 2]⟩, none⟩ [.int 7] = .ret ⟨⟨[.block 3, .block 1, .block 1], [4, 9, 2]⟩, some ⟨[(.block 3, 7)], [4, 9, 2]⟩⟩ :=
  ⟨by decide +kernel, rfl⟩

/-- **C100 is false (subblock domains of matrices and tensors).** Domains of two and three dimensions cannot be turned into Python objects: asking for the domain
of any subblock of a map applied to a matrix or a tensor raises `TypeError`. -/
theorem C100_domain_false (m : Map) (a : AMap) (hd : a.dims.length = 2 ∨ a.dims.length = 3) (sb : Nat) (hsb : sb < m.numSubblocks ∨ sb = Pmp.noSubblock) :
    Pmp.subblockDomain ⟨m, some a⟩ sb a.dims.length = .raise .type := by
  unfold Pmp.subblockDomain
  simp only
  rw [if_pos (by omega), if_pos ⟨hsb, trivial⟩, if_neg (by omega)]

/-! ### wrong arguments -/

/-- **C100, partial (wrong arguments).** Shapes and indices of no or more than three entries, and domains of no or more than three dimensions, raise `ValueError`;
indices with a negative entry raise `OverflowError`.  Missing: other wrong arguments (`C100_refused_false`). -/
theorem C100_refused_partial (o : Pmp.Obj) :
    (∀ shape, shape.length = 0 ∨ 3 < shape.length → Pmp.apply o shape = .raise .value) ∧
    (∀ idx, idx.length = 0 ∨ 3 < idx.length → Pmp.owner o idx = .raise .value ∧ Pmp.subblockFrom o idx = .raise .value) ∧
    (∀ sb d, d = 0 ∨ 3 < d → Pmp.subblockDomain o sb d = .raise .value) ∧
    (∀ idx, 0 < idx.length → idx.length ≤ 3 → (∃ z ∈ idx, z < 0) → Pmp.owner o idx = .raise .overflow) := by
  have hneg : ∀ idx : List Int, (∃ z ∈ idx, z < 0) → Pmp.indices idx = .raise .overflow := by
    intro idx
    induction idx with
    | nil => rintro ⟨z, hz, -⟩; cases hz
    | cons y ys ih =>
      rintro ⟨z, hz, hlt⟩
      unfold Pmp.indices
      by_cases hy : y < 0 ∨ W₆₄ ≤ y.toNat
      · rw [if_pos hy]
      · rw [if_neg hy, ih]
        · rfl
        · rcases List.mem_cons.1 hz with rfl | hz
          · exact absurd (Or.inl hlt) hy
          · exact ⟨z, hz, hlt⟩
  refine ⟨?_, ?_, ?_, ?_⟩
  · intro shape h
    unfold Pmp.apply Pmp.tupled
    rw [if_neg (by omega)]
  · intro idx h
    have e : Pmp.subblockFrom o idx = .raise .value := by
      unfold Pmp.subblockFrom Pmp.tupled
      rw [if_neg (by omega)]
    exact ⟨by unfold Pmp.owner; rw [e]; rfl, e⟩
  · intro sb d h
    unfold Pmp.subblockDomain
    rw [if_neg (by omega)]
  · intro idx h1 h2 h3
    unfold Pmp.owner Pmp.subblockFrom Pmp.tupled
    rw [if_pos (by omega), hneg idx h3]
    rfl

/-- **C100 is false (wrong arguments).** Asking a map that is not applied, for an index outside the shape, or with the wrong number of directions does not raise an
exception but ends the interpreter; so does applying a map that divides a direction the shape does not have. -/
theorem C100_refused_false (m : Map) (idx : List Nat) (h1 : 0 < idx.length) (h3 : idx.length ≤ 3) (hw : ∀ i ∈ idx, i < W₆₄) :
    Pmp.owner ⟨m, none⟩ (idx.map fun (i : Nat) => (i : Int)) = .bad ∧
    (∀ a : AMap, ¬ InRange idx a.ext → Pmp.owner ⟨m, some a⟩ (idx.map fun (i : Nat) => (i : Int)) = .bad) ∧
    Pmp.apply ⟨⟨[.block 2, .block 2, .block 1], [0, 1, 2, 3]⟩, none⟩ [.int 8] = .bad := by
  have e : ∀ ap, Pmp.subblockFrom ⟨m, ap⟩ (idx.map fun (i : Nat) => (i : Int)) =
      (match ap with
        | none => Pmp.Out.bad
        | some a => if Pmp.within idx a.ext then .ret (a.subblockFromGlobalIndex idx) else .bad) := by
    intro ap
    unfold Pmp.subblockFrom Pmp.tupled
    rw [if_pos (by rw [List.length_map]; omega), pmp_indices idx hw]
    rfl
  refine ⟨?_, ?_, ?_⟩
  · unfold Pmp.owner
    rw [e]
    rfl
  · intro a hr
    unfold Pmp.owner
    rw [e]
    simp only
    rw [if_neg (fun h => hr ((pmp_within _ _).1 h))]
    rfl
  · rfl

example : Pmp.owner pmp_ex [7, 0] = .bad ∧ Pmp.owner pmp_ex [3] = .bad ∧ Pmp.owner pmp_ex [-1, 0] = .raise .overflow := by decide +kernel

end Verif.Props
#print axioms Verif.Props.C100_make
#print axioms Verif.Props.C100_apply
#print axioms Verif.Props.C100_negative_false
#print axioms Verif.Props.C100_owner
#print axioms Verif.Props.C100_local_partial
#print axioms Verif.Props.C100_local_false
#print axioms Verif.Props.C100_domain_partial
#print axioms Verif.Props.C100_domain_false
#print axioms Verif.Props.C100_refused_partial
#print axioms Verif.Props.C100_refused_false
