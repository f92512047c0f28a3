import Verif.Distributed.Props
/-! Properties C17 and C18: block-vector assignment and `foreach_point`. -/
namespace Verif.Par
open Verif Spec

/-! ### `foreach_point` (`/repo/src/ovxx/parallel/util.hpp` l.75-104) -/

/-- the loop over one patch (l.92-100): local and global index of every call of the function; `none` = loop not finished within `fuel` -/
def visitPatch {D : Nat} (next : Trav.Idx D → Trav.Idx D → Trav.Idx D) (fuel : Nat) (ldom gdom : List Dom) :
    Option (List (List Nat × List Nat)) :=
  let ext : Trav.Idx D := fun d => (lens ldom).getD d 0
  (Trav.loop (Trav.valid ext) (next ext) fuel (fun _ => 0)).map fun ks =>
    ks.map fun k => (domainNth ldom (List.ofFn k), domainNth gdom (List.ofFn k))

/-- one patch after the other (l.87-102) -/
def visitPatches {D : Nat} (next : Trav.Idx D → Trav.Idx D → Trav.Idx D) (fuel : Nat → Nat) (v : MapView) (sb : Nat) :
    List Nat → Option (List (List Nat × List Nat))
  | [] => some []
  | p :: ps => match visitPatch next (fuel p) (v.ldom sb p) (v.gdom sb p), visitPatches next fuel v sb ps with
    | some a, some b => some (a ++ b)
    | _, _ => none

/-- `foreach_point` on process `pr` -/
def foreachPoint {D : Nat} (next : Trav.Idx D → Trav.Idx D → Trav.Idx D) (fuel : Nat → Nat) (m : PMap) (pr : Nat) :
    Option (List (List Nat × List Nat)) :=
  match m.subblock pr with
  | none => some []
  | some sb => visitPatches next fuel m.view sb (List.range (m.view.patches sb))

/-- `next(extent, index)` (domain_utils.hpp; row-major) -/
def nextD : (D : Nat) → Trav.Idx D → Trav.Idx D → Trav.Idx D
  | 1 => Trav.next1
  | 2 => Trav.next2 0 1
  | 3 => Trav.next3 0 1 2
  | _ => fun _ i => i

theorem nextD_trav {D : Nat} (h1 : 1 ≤ D) (h3 : D ≤ 3) (ext : Trav.Idx D) :
    ∃ fuel K, Trav.loop (Trav.valid ext) (nextD D ext) fuel (fun _ => 0) = some K ∧ K.Nodup ∧ ∀ j, j ∈ K ↔ ∀ d, j d < ext d := by
  have : D = 1 ∨ D = 2 ∨ D = 3 := by omega
  rcases this with rfl | rfl | rfl
  · obtain ⟨f, K, h, ht⟩ := Trav.C05_traverse1 ext
    exact ⟨f, K, h, ht.nodup, ht.complete⟩
  · obtain ⟨f, K, h, ht⟩ := Trav.C05_traverse2 0 1 (by decide) ext
    exact ⟨f, K, h, ht.nodup, ht.complete⟩
  · obtain ⟨f, K, h, ht⟩ := Trav.C05_traverse3 0 1 2 (by decide) (by decide) (by decide) ext
    exact ⟨f, K, h, ht.nodup, ht.complete⟩

theorem ofFn_inRange : ∀ {ns : List Nat} {D : Nat} (_hD : ns.length = D) (k : Trav.Idx D),
    InRange (List.ofFn k) ns ↔ ∀ d : Fin D, k d < ns.getD d 0
  | [], D, hD, k => by subst hD; simp
  | n :: ns, D, hD, k => by
      obtain ⟨D', rfl⟩ : ∃ D', D = D' + 1 := ⟨ns.length, by simpa using hD.symm⟩
      rw [List.ofFn_succ, inRange_cons, ofFn_inRange (by simpa using hD), Fin.forall_fin_succ]
      simp

theorem nth_patch : ∀ {A L : List Dom} {k : List Nat}, PatchN A L → InRange k (lens A) →
    ints (domainNth A k) = elemN A k ∧ ints (domainNth L k) = elemN L k
  | [], [], [], _, _ => ⟨rfl, rfl⟩
  | a :: A, l :: L, x :: xs, h, hx => by
      obtain ⟨i1, i2⟩ := nth_patch h.2 hx.2
      have ha : Fits a := by
        have := unit_fits (f := a.first) (len := a.length) h.1.ab
        have h1 := h.1.a1
        cases a; simp only at *; rw [h1]; exact this
      have hl : Fits l := by
        have := unit_fits (f := l.first) (len := l.length) h.1.lb
        have h1 := h.1.l1
        cases l; simp only at *; rw [h1]; exact this
      simp only [domainNth, elemN, ints, List.map_cons] at *
      rw [nth_eq ha hx.1, nth_eq hl (by rw [h.1.len]; exact hx.1), i1, i2]
      exact ⟨rfl, rfl⟩
  | [], [], _ :: _, _, h => h.elim
  | _ :: _, _ :: _, [], _, h => h.elim
  | [], _ :: _, _, h, _ => h.elim
  | _ :: _, [], _, h, _ => h.elim

/-- what `foreach_point` must do on a process that holds subblock `sb` -/
structure VisitsAll (ext : List Nat) (m : PMap) (sb : Nat) (vs : List (List Nat × List Nat)) : Prop where
  once : (vs.map Prod.snd).Nodup
  all : ∀ g, g ∈ vs.map Prod.snd ↔ InRange g ext ∧ m.view.sbOf g = sb
  loc : ∀ v ∈ vs, v.1 = m.view.toLocal v.2

theorem visitPatch_spec {ext : List Nat} {m : PMap} (h : m.OK ext) (h1 : 1 ≤ ext.length) (h3 : ext.length ≤ 3) {sb p : Nat}
    (hsb : sb < m.view.numSb) (hp : p < m.view.patches sb) :
    ∃ fuel vs, visitPatch (nextD ext.length) fuel (m.view.ldom sb p) (m.view.gdom sb p) = some vs ∧
      (vs.map Prod.snd).Nodup ∧ (∀ g, g ∈ vs.map Prod.snd ↔ InRange g ext ∧ m.view.sbOf g = sb ∧ m.view.patchOf g = p) ∧
      ∀ v ∈ vs, v.1 = m.view.toLocal v.2 := by
  have hlen := h.part.len sb p hsb hp
  have hdim : (lens (m.view.ldom sb p)).length = ext.length := by
    rw [← hlen]; simp [lens, h.dim sb p hsb hp]
  obtain ⟨fuel, K, k1, k2, k3⟩ := nextD_trav h1 h3 (fun d => (lens (m.view.ldom sb p)).getD d 0)
  have hpa := h.patch sb p hsb hp
  have hin : ∀ k, k ∈ K ↔ InRange (List.ofFn k) (lens (m.view.gdom sb p)) := by
    intro k
    rw [k3, hlen, ofFn_inRange hdim]
  have hpos : ∀ k ∈ K, ∃ idx, InRange idx ext ∧ m.view.sbOf idx = sb ∧ m.view.patchOf idx = p ∧
      domainNth (m.view.gdom sb p) (List.ofFn k) = idx ∧ domainNth (m.view.ldom sb p) (List.ofFn k) = m.view.toLocal idx := by
    intro k hk
    have hk := (hin k).1 hk
    obtain ⟨n1, n2⟩ := nth_patch hpa hk
    obtain ⟨idx, e1, e2, e3, e4⟩ := h.part.only _ sb p hsb hp (memN_iff_elemN.2 ⟨_, hk, rfl⟩)
    obtain ⟨idx', f1, f2, f3, f4⟩ := locate h hsb hp hk
    have : idx' = idx := ints_inj (by rw [← f3, e1])
    subst this
    exact ⟨idx', e2, e3, e4, ints_inj (by rw [n1, f3]), ints_inj (by rw [n2, f4])⟩
  refine ⟨fuel, K.map fun k => (domainNth (m.view.ldom sb p) (List.ofFn k), domainNth (m.view.gdom sb p) (List.ofFn k)), ?_, ?_, ?_, ?_⟩
  · unfold visitPatch
    simp only
    rw [k1]; rfl
  · rw [List.map_map]
    refine List.Nodup.map_on ?_ k2
    intro a ha b hb hab
    simp only [Function.comp] at hab
    apply List.ofFn_injective
    apply elemN_inj hpa ((hin a).1 ha) ((hin b).1 hb)
    rw [← (nth_patch hpa ((hin a).1 ha)).1, ← (nth_patch hpa ((hin b).1 hb)).1, hab]
  · intro g
    simp only [List.map_map, List.mem_map, Function.comp]
    constructor
    · rintro ⟨k, hk, rfl⟩
      obtain ⟨idx, a1, a2, a3, a4, -⟩ := hpos k hk
      rw [a4]; exact ⟨a1, a2, a3⟩
    · rintro ⟨g1, g2, g3⟩
      obtain ⟨-, -, k, f1, f2, -⟩ := h.part.home g g1
      rw [g2, g3] at f1 f2
      have hkl : k.length = ext.length := by
        rw [inRange_length f1, hlen, hdim]
      refine ⟨fun d => k.getD d 0, ?_, ?_⟩
      · rw [hin]
        have : List.ofFn (fun d : Fin ext.length => k.getD d 0) = k := by
          apply List.ext_getElem
          · simp [hkl]
          · intro i a b; simp [List.getElem?_eq_getElem b]
        rw [this]; exact f1
      · have : List.ofFn (fun d : Fin ext.length => k.getD d 0) = k := by
          apply List.ext_getElem
          · simp [hkl]
          · intro i a b; simp [List.getElem?_eq_getElem b]
        rw [this]
        exact ints_inj (by rw [(nth_patch hpa f1).1, f2])
  · intro v hv
    obtain ⟨k, hk, rfl⟩ := List.mem_map.1 hv
    obtain ⟨idx, -, -, -, a4, a5⟩ := hpos k hk
    simp only [a4, a5]

theorem visitPatches_spec {ext : List Nat} {m : PMap} (h : m.OK ext) (h1 : 1 ≤ ext.length) (h3 : ext.length ≤ 3) {sb : Nat}
    (hsb : sb < m.view.numSb) : ∀ ps : List Nat, ps.Nodup → (∀ p ∈ ps, p < m.view.patches sb) →
    ∃ fuel vs, visitPatches (nextD ext.length) fuel m.view sb ps = some vs ∧
      (vs.map Prod.snd).Nodup ∧ (∀ g, g ∈ vs.map Prod.snd ↔ InRange g ext ∧ m.view.sbOf g = sb ∧ m.view.patchOf g ∈ ps) ∧
      ∀ v ∈ vs, v.1 = m.view.toLocal v.2
  | [], _, _ => ⟨fun _ => 0, [], rfl, by simp, by simp, by simp⟩
  | p :: ps, hn, hp => by
      rw [List.nodup_cons] at hn
      obtain ⟨f, vs, a1, a2, a3, a4⟩ := visitPatches_spec h h1 h3 hsb ps hn.2 (fun x hx => hp x (by simp [hx]))
      obtain ⟨f', ws, b1, b2, b3, b4⟩ := visitPatch_spec h h1 h3 hsb (hp p (by simp))
      refine ⟨Function.update f p f', ws ++ vs, ?_, ?_, ?_, ?_⟩
      · simp only [visitPatches, Function.update_self, b1]
        have hcong : visitPatches (nextD ext.length) (Function.update f p f') m.view sb ps = visitPatches (nextD ext.length) f m.view sb ps := by
          have : ∀ qs : List Nat, p ∉ qs → visitPatches (nextD ext.length) (Function.update f p f') m.view sb qs =
              visitPatches (nextD ext.length) f m.view sb qs := by
            intro qs
            induction qs with
            | nil => intro _; rfl
            | cons q qs ih =>
              intro hq
              simp only [List.mem_cons, not_or] at hq
              simp only [visitPatches, Function.update_of_ne (Ne.symm hq.1), ih hq.2]
          exact this ps hn.1
        rw [hcong, a1]
      · rw [List.map_append, List.nodup_append']
        refine ⟨b2, a2, ?_⟩
        intro g g1 g2
        have x := (b3 g).1 g1
        have y := (a3 g).1 g2
        rw [x.2.2] at y
        exact hn.1 y.2.2
      · intro g
        rw [List.map_append, List.mem_append, a3, b3]
        simp only [List.mem_cons]
        tauto
      · intro v hv
        rcases List.mem_append.1 hv with hv | hv
        · exact b4 v hv
        · exact a4 v hv

theorem foreach_spec {ext : List Nat} {m : PMap} (h : m.OK ext) (h1 : 1 ≤ ext.length) (h3 : ext.length ≤ 3) (pr : Nat) :
    ∃ fuel vs, foreachPoint (nextD ext.length) fuel m pr = some vs ∧
      (m.subblock pr = none → vs = []) ∧ ∀ sb, m.subblock pr = some sb → VisitsAll ext m sb vs := by
  unfold foreachPoint
  cases hs : m.subblock pr with
  | none => exact ⟨fun _ => 0, [], rfl, fun _ => rfl, by simp⟩
  | some sb =>
    have hsb := ((h.held pr sb).1 hs).1
    obtain ⟨f, vs, a1, a2, a3, a4⟩ := visitPatches_spec h h1 h3 hsb (List.range (m.view.patches sb)) List.nodup_range
      (fun p hp => List.mem_range.1 hp)
    refine ⟨f, vs, a1, by simp, ?_⟩
    rintro sb' ⟨⟩
    refine ⟨a2, ?_, a4⟩
    intro g
    rw [a3, List.mem_range]
    constructor
    · rintro ⟨x, y, -⟩; exact ⟨x, y⟩
    · rintro ⟨x, y⟩
      have := (h.part.home g x).2.1
      rw [y] at this
      exact ⟨x, y, this⟩

end Verif.Par

namespace Verif.Props
open Verif Spec Par

/-- **C18** on one process: the loop ends; a process without subblock visits nothing; a process holding a subblock visits every element of
it exactly once, and the local index passed is that of the global index passed. -/
theorem C18_process (m : AMap) (hm : MapOK m) (h1 : 1 ≤ m.ext.length) (h3 : m.ext.length ≤ 3) (pr : Nat) :
    ∃ fuel vs, foreachPoint (nextD m.ext.length) fuel (PMap.ofMap m) pr = some vs ∧
      (m.subblock pr = none → vs = []) ∧ ∀ sb, m.subblock pr = some sb → VisitsAll m.ext (PMap.ofMap m) sb vs :=
  foreach_spec (ofMap_ok hm) h1 h3 pr

theorem C18_process_replicated (m : RMap) (hm : ReplOK m) (h1 : 1 ≤ m.ext.length) (h3 : m.ext.length ≤ 3) (pr : Nat) :
    ∃ fuel vs, foreachPoint (nextD m.ext.length) fuel (PMap.ofReplicated m) pr = some vs ∧
      (pr ∉ m.pset → vs = []) ∧ (pr ∈ m.pset → (vs.map Prod.snd).Nodup ∧ (∀ g, g ∈ vs.map Prod.snd ↔ InRange g m.ext) ∧
        ∀ v ∈ vs, v.1 = v.2) := by
  obtain ⟨f, vs, h, a, b⟩ := foreach_spec (ofReplicated_ok hm) h1 h3 pr
  refine ⟨f, vs, h, ?_, ?_⟩
  · intro hn; exact a ((C10_replicated m pr).2.2 hn)
  · intro hn
    obtain ⟨c1, c2, c3⟩ := b 0 ((C10_replicated m pr).1.2 hn)
    refine ⟨c1, ?_, c3⟩
    intro g
    rw [c2]
    exact ⟨fun x => x.1, fun x => ⟨x, rfl⟩⟩

/-- **C18** over all processes: whatever the processes visit (`vs pr` on process `pr`), every element is visited by exactly one process, and
there exactly once. -/
theorem C18_all (m : AMap) (hm : MapOK m) (h1 : 1 ≤ m.ext.length) (h3 : m.ext.length ≤ 3) :
    ∃ (fuel : Nat → Nat → Nat) (vs : Nat → List (List Nat × List Nat)),
      (∀ pr, foreachPoint (nextD m.ext.length) (fuel pr) (PMap.ofMap m) pr = some (vs pr)) ∧
      ∀ g, InRange g m.ext → ∃ pr, pr ∈ m.pvec ∧ ((vs pr).map Prod.snd).count g = 1 ∧
        ∀ pr', pr' ≠ pr → g ∉ (vs pr').map Prod.snd := by
  choose f vs hv using fun pr => C18_process m hm h1 h3 pr
  refine ⟨f, vs, fun pr => (hv pr).1, ?_⟩
  intro g hg
  have ok := ofMap_ok hm
  have hlt : m.view.sbOf g < m.pvec.length := by rw [hm.size]; exact (ok.part.home g hg).1
  have hs : m.subblock m.pvec[m.view.sbOf g] = some (m.view.sbOf g) := (subblock_iff hm _ _).2 (List.getElem?_eq_getElem hlt)
  refine ⟨m.pvec[m.view.sbOf g], List.getElem_mem _, ?_, ?_⟩
  · have := (hv m.pvec[m.view.sbOf g]).2.2 _ hs
    exact List.count_eq_one_of_mem this.once ((this.all g).2 ⟨hg, rfl⟩)
  · intro pr' hne hmem
    cases hs' : m.subblock pr' with
    | none => rw [(hv pr').2.1 hs'] at hmem; simp at hmem
    | some sb =>
      have h2 := ((((hv pr').2.2 _ hs').all g).1 hmem).2
      have h2 : m.view.sbOf g = sb := h2
      have e1 := (subblock_iff hm _ _).1 hs'
      rw [← h2, List.getElem?_eq_getElem hlt] at e1
      injection e1 with e1
      exact hne e1.symm

example : 1 ≤ exMapC.ext.length ∧ exMapC.ext.length ≤ 3 := by decide
example : foreachPoint (nextD 1) (fun _ => 4) (PMap.ofMap exMapC) 7 = some [([0], [0]), ([1], [2]), ([2], [4])] := by decide
example : foreachPoint (nextD 2) (fun _ => 9) (PMap.ofMap ⟨[(.cyclic 2 1, 3), (.block 2, 3)], [5, 6, 7, 8]⟩) 5 =
    some [([0, 0], [0, 0]), ([0, 1], [0, 1]), ([1, 0], [2, 0]), ([1, 1], [2, 1])] := by decide

/-! ## C17 -/

theorem blk_same {rg rl lg ll intr : Dom} (hr : Patch1 rg rl) (hl : Patch1 lg ll) (hi : intersect rg lg = some intr) (k : Nat) :
    (blkRec rg rl intr).at k = elem (applyIntr rl rg intr) k ∧ (blkRec lg ll intr).at k = elem (applyIntr ll lg intr) k ∧
    intersect lg rg = some intr := by
  have hc := patch_intersect hr hl
  rw [hi] at hc
  split at hc
  · injection hc with hc
    subst hc
    refine ⟨?_, ?_, ?_⟩
    · rw [patch_apply hr rfl (by simp only; omega) (by simp only; omega), elem_unit]
      simp only [blkRec, Rec.at]
      rename_i hle
      have := hr.ab; have := hr.lb; have := hr.len; have := hr.ne
      have e1 := toIdx_of_fits (z := ((max rg.first lg.first : Nat) : Int) - rg.first) (by omega) (by omega)
      have e2 := toIdx_of_fits (z := (rl.first : Int) + (((max rg.first lg.first : Nat) : Int) - rg.first)) (by omega) (by omega)
      rw [e1, e2]
      omega
    · rw [patch_apply hl rfl (by simp only; omega) (by simp only; omega), elem_unit]
      simp only [blkRec, Rec.at]
      rename_i hle
      have := hl.ab; have := hl.lb; have := hl.len; have := hl.ne
      have e1 := toIdx_of_fits (z := ((max rg.first lg.first : Nat) : Int) - lg.first) (by omega) (by omega)
      have e2 := toIdx_of_fits (z := (ll.first : Int) + (((max rg.first lg.first : Nat) : Int) - lg.first)) (by omega) (by omega)
      rw [e1, e2]
      omega
    · rw [patch_intersect hl hr, Nat.max_comm lg.first, Nat.min_comm (lg.first + lg.length - 1), Nat.min_comm (lg.first + lg.length),
        if_pos (by assumption)]
  · cases hc

/-- the plan of the block-vector assignment -/
def blkPlan (ext : List Nat) (L R : Side) : Plan ext L R :=
  ⟨fun _ => blkSendRecs L R, fun _ => blkRecvRecs L R, blkCopyActs L R⟩

/-- the preconditions of the block-vector strategy: one dimension, unit stride, one patch per subblock -/
structure BlkOK (n : Nat) (L R : Side) : Prop where
  lstr : ∀ p, L.str p = [1]
  rstr : ∀ p, R.str p = [1]
  lone : ∀ sb, sb < L.map.view.numSb → L.map.view.patches sb = 1
  rone : ∀ sb, sb < R.map.view.numSb → R.map.view.patches sb = 1

theorem one_dom {n : Nat} {S : Side} (hS : S.map.OK [n]) (h1 : ∀ sb, sb < S.map.view.numSb → S.map.view.patches sb = 1) {sb : Nat}
    (hsb : sb < S.map.view.numSb) : ∃ g l, S.map.view.gdom sb 0 = [g] ∧ S.map.view.ldom sb 0 = [l] ∧ Patch1 g l := by
  have hp : 0 < S.map.view.patches sb := by rw [h1 sb hsb]; omega
  obtain ⟨g, hg⟩ := len1 (hS.dim sb 0 hsb hp)
  have h2 := hS.patch sb 0 hsb hp
  rw [hg] at h2
  cases hl : S.map.view.ldom sb 0 with
  | nil => rw [hl] at h2; exact h2.elim
  | cons l ls =>
    rw [hl] at h2
    cases ls with
    | nil => exact ⟨g, l, hg, rfl, h2.1⟩
    | cons _ _ => exact h2.2.elim

theorem offset_one (x : Int) : offset [1] [x] = x := by simp [offset]

theorem blkPlan_ok {n : Nat} {L R : Side} {P : List Nat} (h : AssignOK [n] L R P) (hb : BlkOK n L R) : (blkPlan [n] L R).OK := by
  have nl : ∀ p sb, L.map.subblock p = some sb → sb < L.map.view.numSb := fun p sb hs => ((h.lmap.held p sb).1 hs).1
  have nr : ∀ p sb, R.map.subblock p = some sb → sb < R.map.view.numSb := fun p sb hs => ((h.rmap.held p sb).1 hs).1
  -- everything about one pair of subblocks
  have pair : ∀ ls rs, ls < L.map.view.numSb → rs < R.map.view.numSb →
      (blkSendRecs L R ls rs = [] ∧ blkRecvRecs L R ls rs = [] ∧ intersectN (R.map.view.gdom rs 0) (L.map.view.gdom ls 0) = none) ∨
      ∃ rg rl lg ll intr, R.map.view.gdom rs 0 = [rg] ∧ R.map.view.ldom rs 0 = [rl] ∧ L.map.view.gdom ls 0 = [lg] ∧
        L.map.view.ldom ls 0 = [ll] ∧ intersect rg lg = some intr ∧ Patch1 rg rl ∧ Patch1 lg ll ∧
        blkSendRecs L R ls rs = [blkRec rg rl intr] ∧ blkRecvRecs L R ls rs = [blkRec lg ll intr] ∧
        intersectN (R.map.view.gdom rs 0) (L.map.view.gdom ls 0) = some [intr] ∧
        ∀ p q k, k < intr.length → SameElem [n] L R p q ls rs ((blkRec rg rl intr).at k) ((blkRec lg ll intr).at k) := by
    intro ls rs hl hr
    obtain ⟨rg, rl, g1, g2, g3⟩ := one_dom h.rmap hb.rone hr
    obtain ⟨lg, ll, k1, k2, k3⟩ := one_dom h.lmap hb.lone hl
    cases hi : intersect rg lg with
    | none =>
      left
      have hi' : intersect lg rg = none := by
        cases hx : intersect lg rg with
        | none => rfl
        | some i => rw [(blk_same k3 g3 hx 0).2.2] at hi; cases hi
      refine ⟨by simp [blkSendRecs, g1, g2, k1, hi], by simp [blkRecvRecs, g1, k1, k2, hi'], by simp [g1, k1, intersectN, hi]⟩
    | some intr =>
      right
      have hin : intersectN (R.map.view.gdom rs 0) (L.map.view.gdom ls 0) = some [intr] := by simp [g1, k1, intersectN, hi]
      refine ⟨rg, rl, lg, ll, intr, g1, g2, k1, k2, hi, g3, k3, by simp [blkSendRecs, g1, g2, k1, hi],
        by simp [blkRecvRecs, g1, k1, k2, (blk_same g3 k3 hi 0).2.2], hin, ?_⟩
      intro p q k hk
      have := same_of_pos h.lmap h.rmap hl hr (by rw [hb.lone ls hl]; omega) (by rw [hb.rone rs hr]; omega) hin
        (k := [k]) ⟨hk, trivial⟩ p q
      rw [hb.lstr, hb.rstr, g1, g2, k1, k2] at this
      simp only [applyIntrN, elemN, offset_one] at this
      rw [(blk_same g3 k3 hi k).1, (blk_same g3 k3 hi k).2.1]
      exact this
  have cov : ∀ q idx, InRange idx [n] → ∃ rg rl lg ll intr, R.map.view.gdom (R.map.view.sbOf idx) 0 = [rg] ∧
      R.map.view.ldom (R.map.view.sbOf idx) 0 = [rl] ∧ L.map.view.gdom (L.map.view.sbOf idx) 0 = [lg] ∧
      L.map.view.ldom (L.map.view.sbOf idx) 0 = [ll] ∧ intersect rg lg = some intr ∧
      blkRecvRecs L R (L.map.view.sbOf idx) (R.map.view.sbOf idx) = [blkRec lg ll intr] ∧
      L.addr q idx ∈ Rec.offs [blkRec lg ll intr] := by
    intro q idx hidx
    have hl := (h.lmap.part.home idx hidx).1
    have hr := (h.rmap.part.home idx hidx).1
    obtain ⟨dp, sp, intr', k, a1, a2, a3, a4, a5⟩ := pos_of_idx h.lmap h.rmap hidx
    rw [hb.lone _ hl] at a1
    rw [hb.rone _ hr] at a2
    have : dp = 0 := by omega
    subst this
    have : sp = 0 := by omega
    subst this
    rcases pair _ _ hl hr with ⟨-, -, hn⟩ | ⟨rg, rl, lg, ll, intr, g1, g2, k1, k2, hi, g3, k3, s1, s2, hin, -⟩
    · rw [a3] at hn; cases hn
    · rw [a3] at hin
      injection hin with hin
      subst hin
      refine ⟨rg, rl, lg, ll, intr, g1, g2, k1, k2, hi, s2, ?_⟩
      obtain ⟨x, rfl⟩ := len1 (inRange_length a4)
      rw [k1, k2] at a5
      simp only [applyIntrN, elemN] at a5
      unfold Side.addr
      rw [← a5, hb.lstr, offset_one, ← (blk_same g3 k3 hi x).2.1]
      simp only [Rec.offs, List.flatMap_cons, List.flatMap_nil, List.append_nil]
      exact List.mem_map.2 ⟨x, List.mem_range.2 a4.1, rfl⟩
  constructor
  · intro p q ls rs h1 h2
    rcases pair ls rs (nl _ _ h1) (nr _ _ h2) with ⟨e1, e2, -⟩ | ⟨rg, rl, lg, ll, intr, -, -, -, -, -, -, -, s1, s2, -, hs⟩
    · simp only [blkPlan, e1, e2]; exact .nil
    · simp only [blkPlan, s1, s2]
      exact .cons ⟨rfl, fun k hk => hs p q k hk⟩ .nil
  · intro q idx hidx _
    obtain ⟨rg, rl, lg, ll, intr, -, -, -, -, -, e, hm⟩ := cov q idx hidx
    simp only [blkPlan, e]; exact hm
  · intro p a ha
    simp only [blkPlan, blkCopyActs] at ha
    split at ha
    · split at ha
      · split at ha
        · simp only [List.mem_singleton] at ha; subst ha; rfl
        · simp at ha
      · simp at ha
    · simp at ha
  · intro p src dst ha
    simp only [blkPlan, blkCopyActs] at ha
    split at ha
    · rename_i ls rs hl hr
      refine ⟨ls, rs, hl, hr, ?_⟩
      rcases pair ls rs (nl _ _ hl) (nr _ _ hr) with ⟨-, -, hn⟩ | ⟨rg, rl, lg, ll, intr, g1, g2, k1, k2, hi, -, -, -, -, -, hs⟩
      · obtain ⟨rg, rl, g1, g2, g3⟩ := one_dom h.rmap hb.rone (nr _ _ hr)
        obtain ⟨lg, ll, k1, k2, k3⟩ := one_dom h.lmap hb.lone (nl _ _ hl)
        rw [g1, k1] at hn
        rw [g1, g2, k1, k2] at ha
        cases hi : intersect rg lg with
        | none => simp [hi] at ha
        | some i => simp [intersectN, hi] at hn
      · rw [g1, g2, k1, k2] at ha
        simp only [hi, List.mem_singleton, Act.copy.injEq] at ha
        obtain ⟨rfl, rfl⟩ := ha
        simp only [Rec.offs, List.flatMap_cons, List.flatMap_nil, List.append_nil]
        exact forall2_range_map (n := intr.length) (fun k hk => hs p p k hk)
    · simp at ha
  · intro p idx hidx hl hr
    obtain ⟨rg, rl, lg, ll, intr, g1, g2, k1, k2, hi, e, hm⟩ := cov p idx hidx
    simp only [blkPlan, blkCopyActs, hl, hr, g1, g2, k1, k2, hi, touched, List.append_nil]
    exact hm

/-- **C17**: the block-vector strategy delivers every element, in every execution. -/
theorem C17_blkvec {V : Type} (n : Nat) (L R : Side) (P : List Nat) (h : AssignOK [n] L R P) (hb : BlkOK n L R)
    (g : List Nat → V) (rhs mem : Nat → Int → V) (hr : Holds [n] R g rhs) (eager : Bool) (s : St V)
    (hs : Reach eager P rhs (St.init (within P (blkProg L R)) mem) s) :
    (¬ s.final P → ∃ p ∈ P, ∃ s', Step eager rhs s p s') ∧ (s.final P → Assigned [n] L g mem s.mem) :=
  plan_exec h (blkPlan [n] L R) (blkPlan_ok h hb) g rhs mem hr eager s hs

/-- **C17** instance: block distributions on both sides, which is when the library selects this strategy -/
theorem C17_block_maps {V : Type} (n kl kr : Nat) (pl pr P : List Nat) (hl : MapOK ⟨[(.block kl, n)], pl⟩) (hr : MapOK ⟨[(.block kr, n)], pr⟩)
    (hP : P.Nodup) (h3 : ∀ p ∈ pl ++ pr, p ∈ P) (g : Nat → V) (rhs mem : Nat → Int → V)
    (hold : ∀ p i, i < n → AMap.subblock ⟨[(.block kr, n)], pr⟩ p = some ((AMap.view ⟨[(.block kr, n)], pr⟩).sbOf [i]) →
      rhs p (offset [1] (ints ((AMap.view ⟨[(.block kr, n)], pr⟩).toLocal [i]))) = g i)
    (eager : Bool) (s : St V)
    (hs : Reach eager P rhs (St.init (within P (blkProg ⟨PMap.ofMap ⟨[(.block kl, n)], pl⟩, fun _ => [1]⟩
      ⟨PMap.ofMap ⟨[(.block kr, n)], pr⟩, fun _ => [1]⟩)) mem) s) (hf : s.final P) :
    ∀ q i, i < n → AMap.subblock ⟨[(.block kl, n)], pl⟩ q = some ((AMap.view ⟨[(.block kl, n)], pl⟩).sbOf [i]) →
      s.mem q (offset [1] (ints ((AMap.view ⟨[(.block kl, n)], pl⟩).toLocal [i]))) = g i := by
  have okl := ofMap_ok hl
  have okr := ofMap_ok hr
  have hlay : Layout [n] ⟨PMap.ofMap ⟨[(.block kl, n)], pl⟩, fun _ => [1]⟩ := by
    intro p a b h1 h2 h3 h4 h5
    have hsb := h3.symm.trans h4
    injection hsb with hsb
    rw [← okl.part.global_local a h1, ← okl.part.global_local b h2]
    simp only at hsb
    rw [hsb]
    congr 1
    obtain ⟨a, rfl⟩ := len1 (inRange_length h1)
    obtain ⟨b, rfl⟩ := len1 (inRange_length h2)
    have e : ∀ i, ∃ j, (PMap.ofMap ⟨[(.block kl, n)], pl⟩).view.toLocal [i] = [j] := fun i => ⟨_, rfl⟩
    obtain ⟨x, hx⟩ := e a
    obtain ⟨y, hy⟩ := e b
    simp only [Side.addr, hx, hy, ints, List.map_cons, List.map_nil, offset_one] at h5
    rw [hx, hy]
    have : x = y := by exact_mod_cast h5
    rw [this]
  have one : ∀ k q sb, (PMap.ofMap ⟨[(.block k, n)], q⟩).view.patches sb = 1 := by
    intro k q sb
    rfl
  have hA : AssignOK [n] ⟨PMap.ofMap ⟨[(.block kl, n)], pl⟩, fun _ => [1]⟩ ⟨PMap.ofMap ⟨[(.block kr, n)], pr⟩, fun _ => [1]⟩ P :=
    ⟨okl, okr, fun _ => rfl, fun _ => rfl, hlay, hP, fun p hp => h3 p (List.mem_append_left _ (List.mem_of_mem_take hp)),
      fun p hp => h3 p (List.mem_append_right _ (List.mem_of_mem_take hp))⟩
  have := (C17_blkvec n _ _ P hA ⟨fun _ => rfl, fun _ => rfl, fun sb _ => one kl pl sb, fun sb _ => one kr pr sb⟩
    (fun idx => g (idx.headD 0)) rhs mem (by
      intro p idx hi hsb
      obtain ⟨i, rfl⟩ := len1 (inRange_length hi)
      exact hold p i hi.1 hsb) eager s hs).2 hf
  intro q i hi hsb
  exact (this q).1 [i] ⟨hi, trivial⟩ hsb

/-- example: 7 elements, two processes → three processes -/
example : MapOK ⟨[(.block 2, 7)], [1, 0]⟩ ∧ MapOK ⟨[(.block 3, 7)], [0, 1, 2]⟩ ∧
    blkProg ⟨PMap.ofMap ⟨[(.block 3, 7)], [0, 1, 2]⟩, fun _ => [1]⟩ ⟨PMap.ofMap ⟨[(.block 2, 7)], [1, 0]⟩, fun _ => [1]⟩ 0 =
      [.send 1 [0], .send 2 [1, 2], .recv 1 [0, 1, 2], .wait] := by
  refine ⟨⟨by decide, by decide, by decide, by decide⟩, ⟨by decide, by decide, by decide, by decide⟩, by decide⟩

end Verif.Props
