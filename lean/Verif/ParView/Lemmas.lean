import Verif.ParView.Model
import Verif.Distributed.Props
import Verif.Map.SubsetProps
/-! Lemmas about swapped dimensions and about the loops over dimensions. -/
namespace Verif.Pv
open Verif Spec Par

theorem swp_swp {α : Type} : ∀ l : List α, swp (swp l) = l
  | [] => rfl | [_] => rfl | [_, _] => rfl | _ :: _ :: _ :: _ => rfl

theorem swp_length {α : Type} : ∀ l : List α, (swp l).length = l.length
  | [] => rfl | [_] => rfl | [_, _] => rfl | _ :: _ :: _ :: _ => rfl

theorem swp_map {α β : Type} (f : α → β) : ∀ l : List α, (swp l).map f = swp (l.map f)
  | [] => rfl | [_] => rfl | [_, _] => rfl | _ :: _ :: _ :: _ => rfl

theorem ints_swp (l : List Nat) : ints (swp l) = swp (ints l) := swp_map _ l
theorem lens_swp (l : List Dom) : lens (swp l) = swp (lens l) := swp_map _ l

theorem inRange_swp : ∀ {x y : List Nat}, InRange (swp x) (swp y) ↔ InRange x y
  | [], [] => Iff.rfl
  | [_], [_] => Iff.rfl
  | [_, _], [_, _] => ⟨fun h => ⟨h.2.1, h.1, trivial⟩, fun h => ⟨h.2.1, h.1, trivial⟩⟩
  | _ :: _ :: _ :: _, _ :: _ :: _ :: _ => Iff.rfl
  | x, y => by
      constructor <;> intro h <;> have hl := inRange_length h
      · rw [swp_length, swp_length] at hl
        rcases x with _ | ⟨a, _ | ⟨b, _ | ⟨c, x⟩⟩⟩ <;> rcases y with _ | ⟨a', _ | ⟨b', _ | ⟨c', y⟩⟩⟩ <;>
          simp_all [swp, InRange]
      · rcases x with _ | ⟨a, _ | ⟨b, _ | ⟨c, x⟩⟩⟩ <;> rcases y with _ | ⟨a', _ | ⟨b', _ | ⟨c', y⟩⟩⟩ <;>
          simp_all [swp, InRange]

theorem inRange_swp' {x y : List Nat} : InRange x (swp y) ↔ InRange (swp x) y := by
  rw [← inRange_swp, swp_swp]

theorem memN_length : ∀ {z : List Int} {d : List Dom}, MemN z d → z.length = d.length
  | [], [], _ => rfl
  | _ :: _, _ :: _, h => by simp [memN_length h.2]
  | [], _ :: _, h => h.elim
  | _ :: _, [], h => h.elim

theorem memN_swp : ∀ {z : List Int} {d : List Dom}, MemN (swp z) (swp d) ↔ MemN z d := by
  intro x y
  constructor <;> intro h <;> have hl := memN_length h
  · rw [swp_length, swp_length] at hl
    rcases x with _ | ⟨a, _ | ⟨b, _ | ⟨c, x⟩⟩⟩ <;> rcases y with _ | ⟨a', _ | ⟨b', _ | ⟨c', y⟩⟩⟩ <;>
      simp_all [swp, MemN]
  · rcases x with _ | ⟨a, _ | ⟨b, _ | ⟨c, x⟩⟩⟩ <;> rcases y with _ | ⟨a', _ | ⟨b', _ | ⟨c', y⟩⟩⟩ <;>
      simp_all [swp, MemN]

theorem memN_swp' {z : List Int} {d : List Dom} : MemN z (swp d) ↔ MemN (swp z) d := by
  rw [← memN_swp, swp_swp]

theorem elemN_swp : ∀ {d : List Dom} {k : List Nat}, k.length = d.length → elemN (swp d) (swp k) = swp (elemN d k) := by
  intro d k hl
  rcases d with _ | ⟨a, _ | ⟨b, _ | ⟨c, x⟩⟩⟩ <;> rcases k with _ | ⟨a', _ | ⟨b', _ | ⟨c', y⟩⟩⟩ <;>
    simp_all [swp, elemN]

theorem patchN_swp : ∀ {a l : List Dom}, PatchN a l → PatchN (swp a) (swp l) := by
  intro x y h
  rcases x with _ | ⟨a, _ | ⟨b, _ | ⟨c, x⟩⟩⟩ <;> rcases y with _ | ⟨a', _ | ⟨b', _ | ⟨c', y⟩⟩⟩ <;>
    simp_all [swp, PatchN]

theorem patchN_length : ∀ {a l : List Dom}, PatchN a l → l.length = a.length
  | [], [], _ => rfl
  | _ :: _, _ :: _, h => by simp [patchN_length h.2]
  | [], _ :: _, h => h.elim
  | _ :: _, [], h => h.elim

theorem len_of_inRange {k : List Nat} {d : List Dom} (h : InRange k (lens d)) : k.length = d.length := by
  have := inRange_length h
  simpa [lens] using this

theorem offset_swp : ∀ {s z : List Int}, s.length = z.length → offset (swp s) (swp z) = offset s z := by
  intro s z hl
  rcases s with _ | ⟨a, _ | ⟨b, _ | ⟨c, x⟩⟩⟩ <;> rcases z with _ | ⟨a', _ | ⟨b', _ | ⟨c', y⟩⟩⟩ <;>
    simp_all [swp, offset]
  omega

theorem elemN_len : ∀ {d : List Dom} {k : List Nat}, k.length = d.length → (elemN d k).length = d.length
  | [], [], _ => rfl
  | _ :: _, _ :: _, h => by simp only [elemN, List.length_cons]; rw [elemN_len (by simpa using h)]
  | [], _ :: _, h => by simp at h
  | _ :: _, [], h => by simp at h

/-- the transposed map of a correct map is correct for the transposed sizes -/
theorem tr_ok {ext : List Nat} {m : PMap} (h : m.OK ext) : m.tr.OK (swp ext) where
  part :=
    { home := by
        intro idx hi
        obtain ⟨h1, h2, k, h3, h4, h5⟩ := h.part.home (swp idx) (inRange_swp'.1 hi)
        have hp := h.patch _ _ h1 h2
        have hl := len_of_inRange h3
        refine ⟨h1, h2, swp k, ?_, ?_, ?_⟩
        · show InRange (swp k) (lens (swp _))
          rw [lens_swp, inRange_swp]; exact h3
        · show elemN (swp (m.view.gdom (m.view.sbOf (swp idx)) (m.view.patchOf (swp idx)))) (swp k) = _
          rw [elemN_swp hl, h4, ints_swp, swp_swp]
        · show elemN (swp (m.view.ldom (m.view.sbOf (swp idx)) (m.view.patchOf (swp idx)))) (swp k) = ints (swp _)
          rw [elemN_swp (hl.trans (patchN_length hp).symm), h5, ints_swp]
      only := by
        intro z sb p h1 h2 h3
        obtain ⟨idx, e1, e2, e3, e4⟩ := h.part.only (swp z) sb p h1 h2 (memN_swp'.1 h3)
        refine ⟨swp idx, ?_, inRange_swp.2 e2, ?_, ?_⟩
        · rw [ints_swp, ← e1, swp_swp]
        · show m.view.sbOf (swp (swp idx)) = sb
          rw [swp_swp, e3]
        · show m.view.patchOf (swp (swp idx)) = p
          rw [swp_swp, e4]
      len := by
        intro sb p h1 h2
        show lens (swp _) = lens (swp _)
        rw [lens_swp, lens_swp, h.part.len sb p h1 h2]
      local_cover := by
        intro sb l h1
        show InRange l (swp _) ↔ ∃ p, p < m.view.patches sb ∧ MemN (ints l) (swp _)
        rw [inRange_swp', h.part.local_cover sb _ h1]
        simp only [memN_swp', ints_swp]
      local_disjoint := by
        intro sb p p' z h1 h2 h3 h4 h5
        exact h.part.local_disjoint sb p p' (swp z) h1 h2 h3 (memN_swp'.1 h4) (memN_swp'.1 h5)
      global_local := by
        intro idx hi
        show swp (m.view.toGlobal (m.view.sbOf (swp idx)) (swp (swp (m.view.toLocal (swp idx))))) = idx
        rw [swp_swp, h.part.global_local _ (inRange_swp'.1 hi), swp_swp]
      local_global := by
        intro sb l h1 h2
        obtain ⟨e1, e2, e3⟩ := h.part.local_global sb (swp l) h1 (inRange_swp'.1 h2)
        refine ⟨inRange_swp.2 e1, ?_, ?_⟩
        · show m.view.sbOf (swp (swp _)) = sb
          rw [swp_swp, e2]
        · show swp (m.view.toLocal (swp (swp _))) = l
          rw [swp_swp, e3, swp_swp] }
  patch := fun sb p h1 h2 => patchN_swp (h.patch sb p h1 h2)
  dim := fun sb p h1 h2 => by
    show (swp _).length = (swp ext).length
    rw [swp_length, swp_length, h.dim sb p h1 h2]
  held := h.held
  owner := h.owner
  nodup := h.nodup
  working := h.working

theorem tr_tr (m : PMap) : m.tr.tr = m := by
  cases m with
  | mk v s p w => cases v; simp [PMap.tr, swp_swp]

theorem side_tr_tr (S : Side) : S.tr.tr = S := by
  cases S with
  | mk m s => simp [Side.tr, tr_tr, swp_swp]

/-- an element of the transposed matrix is where the element of the matrix is -/
theorem addr_tr (S : Side) (ext : List Nat) (h : S.map.OK ext) (hs : ∀ p, (S.str p).length = ext.length) (p : Nat)
    (idx : List Nat) (hi : InRange idx (swp ext)) : S.tr.addr p idx = S.addr p (swp idx) := by
  unfold Side.addr
  show offset (swp (S.str p)) (ints (swp (S.map.view.toLocal (swp idx)))) = _
  rw [ints_swp]
  apply offset_swp
  obtain ⟨h1, h2, k, h3, -, h5⟩ := h.part.home (swp idx) (inRange_swp'.1 hi)
  have hp := patchN_length (h.patch _ _ h1 h2)
  have hd := h.dim _ _ h1 h2
  rw [hs p, ← h5, elemN_len ((len_of_inRange h3).trans hp.symm), hp, hd]

theorem loop_local (chk : Bool) (m : AMap) : ∀ (pre suf : List (Dist × Nat)) (idx : List Nat), m.dims = pre ++ suf →
    idx.length = suf.length → loopDims (ofMap chk m).toLocal pre.length idx = .val (AMap.localIdx suf idx)
  | _, [], [], _, _ => rfl
  | pre, x :: suf, i :: is, h, hl => by
      have ih := loop_local chk m (pre ++ [x]) suf is (by simp [h]) (by simpa using hl)
      have hx : m.dims[pre.length]? = some x := by rw [h]; simp
      have e : (ofMap chk m).toLocal pre.length i = .val (x.1.localFromGlobal x.2 i) := by
        simp only [ofMap, hx]
      simp only [loopDims, e]
      rw [List.length_append, List.length_singleton] at ih
      rw [ih]
      rfl
  | _, [], _ :: _, _, h => by simp at h
  | _, _ :: _, [], _, h => by simp at h

theorem split_length (sizes : List Nat) (v : Nat) : (splitTuple sizes v).length = sizes.length := by
  have : ∀ (l : List Nat) (v : Nat), (splitRev l v).length = l.length := by
    intro l
    induction l with
    | nil => intro v; rfl
    | cons a as ih => intro v; simp [splitRev, ih]
  unfold splitTuple
  simp [this]

theorem loop_global (chk : Bool) (m : AMap) (sb : Option Nat)
    (hc : chk = true → combine m.sbSizes (splitTuple m.sbSizes (sb.getD noIndex)) = sb.getD noIndex) :
    ∀ (pre suf : List (Dist × Nat)) (spre ssuf idx : List Nat), m.dims = pre ++ suf →
    splitTuple m.sbSizes (sb.getD noIndex) = spre ++ ssuf → spre.length = pre.length → ssuf.length = suf.length →
    idx.length = suf.length →
    loopDims (fun d i => (ofMap chk m).toGlobal d sb i) pre.length idx = .val (AMap.globalIdx suf ssuf idx)
  | _, [], _, [], [], _, _, _, _, _ => rfl
  | pre, x :: suf, spre, s :: ssuf, i :: is, h, hs, h1, h2, h3 => by
      have ih := loop_global chk m sb hc (pre ++ [x]) suf (spre ++ [s]) ssuf is (by simp [h]) (by simp [hs]) (by simp [h1])
        (by simpa using h2) (by simpa using h3)
      have hx : m.dims[pre.length]? = some x := by rw [h]; simp
      have hss : (splitTuple m.sbSizes (sb.getD noIndex))[pre.length]? = some s := by rw [hs, ← h1]; simp
      have hg : (chk && !(combine m.sbSizes (splitTuple m.sbSizes (sb.getD noIndex)) == sb.getD noIndex)) = false := by
        cases chk with
        | false => rfl
        | true => simp [hc rfl]
      have e : (ofMap chk m).toGlobal pre.length sb i = .val (x.1.globalFromLocal x.2 s i) := by
        simp only [ofMap, Pv.pre, hx, hss, hg, Bool.false_eq_true, if_false]
      simp only [loopDims, e]
      rw [List.length_append, List.length_singleton] at ih
      rw [ih]
      rfl
  | _, [], _, _ :: _, _, _, _, _, h, _ => by simp at h
  | _, _ :: _, _, [], _, _, _, _, h, _ => by simp at h
  | _, [], _, [], _ :: _, _, _, _, _, h => by simp at h
  | _, _ :: _, _, _ :: _, [], _, _, _, _, h => by simp at h

/-- the loop over the dimensions gives the local index of the map -/
theorem map_local (chk : Bool) (m : AMap) (idx : List Nat) (h : idx.length = m.dims.length) :
    localFromGlobalIndex (ofMap chk m) idx = .val (m.localFromGlobalIndex idx) :=
  loop_local chk m [] m.dims idx rfl h

/-- the loop over the dimensions gives the global index of the map -/
theorem map_global (chk : Bool) (m : AMap) (sb : Nat) (idx : List Nat) (hs : sb < m.numSubblocks) (h : idx.length = m.dims.length) :
    globalFromLocalIndex (ofMap chk m) (some sb) idx = .val (m.globalFromLocalIndex sb idx) :=
  loop_global chk m (some sb) (fun _ => (combine_split m.sbSizes sb hs).2) [] m.dims [] _ idx rfl rfl rfl
    (by rw [split_length]; simp [AMap.sbSizes]) h

theorem localIdx_length : ∀ (dims : List (Dist × Nat)) (idx : List Nat), idx.length = dims.length →
    (AMap.localIdx dims idx).length = dims.length
  | [], [], _ => rfl
  | _ :: ds, _ :: is, h => by simp [AMap.localIdx, localIdx_length ds is (by simpa using h)]
  | [], _ :: _, h => by simp at h
  | _ :: _, [], h => by simp at h

end Verif.Pv
