import Verif.ParView.Spec
import Verif.ParView.Lemmas
/-! # C90: the parallel support functions and the maps of views describe where elements are -/
namespace Verif.Props
open Verif Spec Par Pv

theorem pv_loop_get (f : Nat → Nat → Ans Nat) : ∀ (idx : List Nat) (d0 : Nat) (r : List Nat), loopDims f d0 idx = .val r →
    ∀ d i, idx[d]? = some i → ∃ j, r[d]? = some j ∧ f (d0 + d) i = .val j
  | [], _, _, _, d, i, hi => by simp at hi
  | x :: xs, d0, r, h, d, i, hi => by
      unfold loopDims at h
      cases hf : f d0 x with
      | stop => rw [hf] at h; cases h
      | bad => rw [hf] at h; cases h
      | absent => rw [hf] at h; cases h
      | val y =>
        rw [hf] at h
        simp only at h
        cases hr : loopDims f (d0 + 1) xs with
        | stop => rw [hr] at h; cases h
        | bad => rw [hr] at h; cases h
        | absent => rw [hr] at h; cases h
        | val ys =>
          rw [hr] at h
          simp only [Ans.map, Ans.val.injEq] at h
          subst h
          cases d with
          | zero =>
            simp only [List.getElem?_cons_zero, Option.some.injEq] at hi
            subst hi
            exact ⟨y, rfl, by simpa using hf⟩
          | succ d =>
            obtain ⟨j, h1, h2⟩ := pv_loop_get f xs (d0 + 1) ys hr d i (by simpa using hi)
            exact ⟨j, by simpa using h1, by rw [← h2]; congr 1; omega⟩

theorem pv_here {a : Api} {pr sb : Nat} (hp : a.subblock pr = some sb) {l idx : List Nat}
    (h : globalFromLocalIndex a (some sb) l = .val idx) (d i : Nat) (hi : l[d]? = some i) :
    ∃ j, idx[d]? = some j ∧ globalFromLocalDimHere a pr d i = .val j := by
  obtain ⟨j, h1, h2⟩ := pv_loop_get _ l 0 idx h d i hi
  refine ⟨j, h1, ?_⟩
  unfold globalFromLocalDimHere
  rw [hp]
  simpa using h2

theorem pv_pre {α : Type} {chk c : Bool} {k : Ans α} (h : c = true) : pre chk c k = k := by
  subst h; simp [pre]

/-- **C90 (distributed views).** With or without assertions, the support functions describe every element of a view distributed by
a `Map`: its subblock, which some processor holds, a position in one of the patches, its local index, and from there the global
index again, also for the functions about the local processor. -/
theorem C90_map (chk : Bool) (m : AMap) (h : MapOK m) : Describes m.ext (ofMap chk m) := by
  intro idx hi
  have ok := ofMap_ok h
  obtain ⟨h1, h2, k, h3, h4, h5⟩ := ok.part.home idx hi
  have hgl := ok.part.global_local idx hi
  have hlc := ok.part.local_cover (m.subblockFromGlobalIndex idx) (m.localFromGlobalIndex idx) h1
  have hlen : idx.length = m.dims.length := by
    have := inRange_length hi
    simpa [AMap.ext] using this
  have hln := ok.part.len _ _ h1 h2
  have hmem : MemN (ints (m.localFromGlobalIndex idx)) (m.localDomain (m.subblockFromGlobalIndex idx) (m.patchFromGlobalIndex idx)) :=
    memN_iff_elemN.2 ⟨k, by rw [hln] at h3; exact h3, h5⟩
  have hin := hlc.2 ⟨_, h2, hmem⟩
  have hg := map_global chk m (m.subblockFromGlobalIndex idx) (m.localFromGlobalIndex idx) h1 (localIdx_length _ _ hlen)
  have hg' : globalFromLocalIndex (ofMap chk m) (some (m.subblockFromGlobalIndex idx)) (m.localFromGlobalIndex idx) = .val idx := by
    rw [hg]; exact congrArg _ hgl
  have hS : subblockDomain (ofMap chk m) (some (m.subblockFromGlobalIndex idx)) =
      .val ((m.subblockExtent (m.subblockFromGlobalIndex idx)).map Dom.ofLen) := pv_pre (decide_eq_true h1)
  have hN : numPatches (ofMap chk m) (some (m.subblockFromGlobalIndex idx)) = .val (m.numPatches (m.subblockFromGlobalIndex idx)) :=
    pv_pre (decide_eq_true h1)
  have hG : globalDomain (ofMap chk m) (some (m.subblockFromGlobalIndex idx)) (m.patchFromGlobalIndex idx) =
      .val (m.globalDomain (m.subblockFromGlobalIndex idx) (m.patchFromGlobalIndex idx)) :=
    pv_pre (by rw [Bool.and_eq_true]; exact ⟨decide_eq_true h1, decide_eq_true h2⟩)
  have hL : localDomain (ofMap chk m) (some (m.subblockFromGlobalIndex idx)) (m.patchFromGlobalIndex idx) =
      .val (m.localDomain (m.subblockFromGlobalIndex idx) (m.patchFromGlobalIndex idx)) :=
    pv_pre (by rw [Bool.and_eq_true]; exact ⟨decide_eq_true h1, decide_eq_true h2⟩)
  refine ⟨m.subblockFromGlobalIndex idx, m.localFromGlobalIndex idx, _, _, _, _, _, k, rfl, h1, ?_, map_local chk m idx hlen, hg', hS,
    repl_mem.2 ⟨_, hin, rfl⟩, hN, h2, hG, hL, h3, h4, h5, ?_⟩
  · obtain ⟨pr, hpr⟩ := List.exists_mem_of_ne_nil _ (ok.owner _ h1)
    exact ⟨pr, (ok.held pr _).2 ⟨h1, hpr⟩⟩
  · intro pr hp
    refine ⟨?_, ?_, ?_, ?_, ?_, pv_here hp hg'⟩
    · unfold subblockDomainHere; rw [hp]; exact hS
    · unfold numPatchesHere; rw [hp]; exact hN
    · unfold globalDomainHere; rw [hp]; exact hG
    · unfold localDomainHere; rw [hp]; exact hL
    · unfold globalFromLocalIndexHere; rw [hp]; exact hg'

/-- a 5×6 matrix, rows cyclic over two, columns in blocks over two processors -/
def exPv : AMap := ⟨[(.cyclic 2 1, 5), (.block 2, 6)], [4, 7, 1, 3]⟩
theorem exPv_ok : MapOK exPv := ⟨by decide, by decide, by decide, by decide⟩
example : InRange [4, 5] exPv.ext ∧ subblockFromGlobalIndex (ofMap true exPv) [4, 5] = .val 1 ∧
    localFromGlobalIndex (ofMap true exPv) [4, 5] = .val [2, 2] ∧
    globalFromLocalIndexHere (ofMap true exPv) 7 [2, 2] = .val [4, 5] := by decide +kernel

/-- **C90 (only one place).** Two indices of a view with the same subblock and the same local index are the same, so no two elements
share a place. -/
theorem C90_one_place (chk : Bool) (m : AMap) (h : MapOK m) (i j : List Nat) (hi : InRange i m.ext) (hj : InRange j m.ext)
    (h1 : subblockFromGlobalIndex (ofMap chk m) i = subblockFromGlobalIndex (ofMap chk m) j)
    (h2 : localFromGlobalIndex (ofMap chk m) i = localFromGlobalIndex (ofMap chk m) j) : i = j := by
  obtain ⟨sb, l, _, _, _, _, _, _, a1, -, -, a2, a3, -⟩ := C90_map chk m h i hi
  obtain ⟨sb', l', _, _, _, _, _, _, b1, -, -, b2, b3, -⟩ := C90_map chk m h j hj
  rw [a1, b1] at h1
  rw [a2, b2] at h2
  cases h1
  cases h2
  rw [a3] at b3
  cases b3
  rfl
example : subblockFromGlobalIndex (ofMap true exPv) [4, 5] = subblockFromGlobalIndex (ofMap true exPv) [4, 5] := rfl

/-- **C90 (processors without data).** On a processor which holds nothing of a view distributed by a `Map`, the functions about
the local processor say that nothing is there. -/
theorem C90_map_nothing (chk : Bool) (m : AMap) (pr : Nat) (h : m.subblock pr = none) :
    SaysNothing m.dims.length (ofMap chk m) pr := by
  have e : (ofMap chk m).subblock pr = none := h
  refine ⟨?_, ?_, fun p => ?_, fun p => ?_, fun d i => ?_⟩
  · unfold subblockDomainHere; rw [e]; rfl
  · unfold numPatchesHere; rw [e]; rfl
  · unfold globalDomainHere; rw [e]; rfl
  · unfold localDomainHere; rw [e]; rfl
  · unfold globalFromLocalDimHere; rw [e]
example : exPv.subblock 5 = none := by decide

/-- **C90 is false (whole indices without data).** On a processor which holds nothing, `global_from_local_index(view, idx)` does not
say that there is no such index: with assertions it ends the program, without them it names an element held by another processor. -/
theorem C90_index_nothing_false : ¬ ∀ (m : AMap) (pr : Nat) (l : List Nat), MapOK m → m.subblock pr = none →
    globalFromLocalIndexHere (ofMap true m) pr l = .val (l.map fun _ => noIndex) ∨
    globalFromLocalIndexHere (ofMap false m) pr l = .val (l.map fun _ => noIndex) := by
  intro h
  have := h ⟨[(.block 2, 8)], [0, 1]⟩ 2 [1] ⟨by decide, by decide, by decide, by decide⟩ (by decide)
  have e1 : globalFromLocalIndexHere (ofMap true ⟨[(.block 2, 8)], [0, 1]⟩) 2 [1] = .stop := by decide +kernel
  have e2 : globalFromLocalIndexHere (ofMap false ⟨[(.block 2, 8)], [0, 1]⟩) 2 [1] = .val [5] := by decide +kernel
  rw [e1, e2] at this
  revert this
  decide

/-- **C90 is false (patches).** `patch_from_global_index` returns the subblock: for a view in two blocks, the patch it names for an
element of the second subblock does not exist. -/
theorem C90_patch_false : ¬ ∀ (m : AMap) (idx : List Nat), MapOK m → InRange idx m.ext →
    ∃ sb np p, subblockFromGlobalIndex (ofMap true m) idx = .val sb ∧ numPatches (ofMap true m) (some sb) = .val np ∧
      patchFromGlobalIndex (ofMap true m) idx = .val p ∧ p < np := by
  intro h
  obtain ⟨sb, np, p, h1, h2, h3, h4⟩ := h ⟨[(.block 2, 8)], [0, 1]⟩ [5] ⟨by decide, by decide, by decide, by decide⟩ (by decide)
  have e1 : subblockFromGlobalIndex (ofMap true ⟨[(.block 2, 8)], [0, 1]⟩) [5] = .val 1 := by decide
  have e3 : patchFromGlobalIndex (ofMap true ⟨[(.block 2, 8)], [0, 1]⟩) [5] = .val 1 := by decide
  rw [e1] at h1
  cases h1
  have e2 : numPatches (ofMap true ⟨[(.block 2, 8)], [0, 1]⟩) (some 1) = .val 1 := by decide
  rw [e2] at h2
  rw [e3] at h3
  cases h2
  cases h3
  omega

/-- **C90 is false (patches of cyclic views).** The patch named may also exist and be another one: the element is not in it. -/
theorem C90_patch_cyclic_false : ¬ ∀ (m : AMap) (idx : List Nat) (sb p : Nat) (G : List Dom), MapOK m → InRange idx m.ext →
    subblockFromGlobalIndex (ofMap true m) idx = .val sb → patchFromGlobalIndex (ofMap true m) idx = .val p →
    globalDomain (ofMap true m) (some sb) p = .val G → ∃ k, InRange k (lens G) ∧ elemN G k = ints idx := by
  intro h
  obtain ⟨k, hk, hG⟩ := h ⟨[(.cyclic 2 1, 8)], [0, 1]⟩ [5] 1 1 [⟨3, 1, 1⟩] ⟨by decide, by decide, by decide, by decide⟩ (by decide)
    (by decide) (by decide) (by decide +kernel)
  match k, hk with
  | [0], _ => revert hG; decide
  | [n + 1], hk => exact absurd hk.1 (by simp)

/-- **C90, partial (patches).** For views without cyclic dimensions the patch named exists exactly for the elements of the first
subblock, and contains them. Missing: all others, see `C90_patch_false`, `C90_patch_cyclic_false`. -/
theorem C90_patch_partial (chk : Bool) (m : AMap) (h : MapOK m) (hc : ∀ x ∈ m.dims, x.1.kind ≠ .cyclic) (idx : List Nat)
    (hi : InRange idx m.ext) (sb p np : Nat) (h1 : subblockFromGlobalIndex (ofMap chk m) idx = .val sb)
    (h2 : numPatches (ofMap chk m) (some sb) = .val np) (h3 : patchFromGlobalIndex (ofMap chk m) idx = .val p) :
    (p < np ↔ sb = 0) ∧
    (p < np → ∃ G k, globalDomain (ofMap chk m) (some sb) p = .val G ∧ InRange k (lens G) ∧ elemN G k = ints idx) := by
  have hps : p = sb := by
    have : subblockFromGlobalIndex (ofMap chk m) idx = patchFromGlobalIndex (ofMap chk m) idx := rfl
    rw [h1, h3] at this
    cases this
    rfl
  obtain ⟨sb', l, np', p', G, L, S, k, a1, a2, -, -, -, -, -, a6, a7, a8, -, a9, a10, -⟩ := C90_map chk m h idx hi
  rw [a1] at h1
  cases h1
  rw [a6] at h2
  cases h2
  have hone : np = 1 := by
    have e : numPatches (ofMap chk m) (some sb) = .val (m.numPatches sb) := pv_pre (decide_eq_true a2)
    rw [e] at a6
    cases a6
    exact patchSizes_one hc (combine_split m.sbSizes sb a2).1
  subst hone
  subst hps
  refine ⟨by omega, fun hp => ?_⟩
  have : p' = p := by omega
  subst this
  exact ⟨G, k, a8, a9, a10⟩
example : (∀ x ∈ (⟨[(.block 2, 8)], [0, 1]⟩ : AMap).dims, x.1.kind ≠ .cyclic) ∧
    patchFromGlobalIndex (ofMap true ⟨[(.block 2, 8)], [0, 1]⟩) [3] = .val 0 := by decide

/-! ## Replicated views -/

/-- **C90 (replicated views).** The support functions describe every element of a replicated view: it is in the one subblock, at
the same local index. -/
theorem C90_replicated (chk : Bool) (m : RMap) (h : ReplOK m) : Describes m.ext (ofRepl chk m) := by
  intro idx hi
  have hl : ∀ (f : Nat → Nat → Ans Nat), (∀ d i, f d i = .val i) → ∀ (idx : List Nat) d, loopDims f d idx = .val idx := by
    intro f hf idx
    induction idx with
    | nil => intro d; rfl
    | cons i is ih => intro d; simp only [loopDims, hf, ih]; rfl
  have hg : globalFromLocalIndex (ofRepl chk m) (some 0) idx = .val idx := hl _ (fun d i => pv_pre rfl) _ _
  refine ⟨0, idx, 1, 0, m.ext.map Dom.ofLen, m.ext.map Dom.ofLen, m.ext.map Dom.ofLen, idx, rfl, Nat.one_pos, ?_,
    hl _ (fun _ _ => rfl) _ _, hg, pv_pre rfl,
    repl_mem.2 ⟨idx, hi, rfl⟩, pv_pre rfl, Nat.one_pos, pv_pre rfl, pv_pre rfl, by rw [repl_lens]; exact hi, repl_elem hi,
    repl_elem hi, ?_⟩
  · have ok := ofReplicated_ok h
    obtain ⟨pr, hpr⟩ := List.exists_mem_of_ne_nil _ h.ne
    exact ⟨pr, (ok.held pr 0).2 ⟨Nat.one_pos, hpr⟩⟩
  · intro pr hp
    refine ⟨?_, ?_, ?_, ?_, ?_, pv_here hp hg⟩
    · unfold subblockDomainHere; rw [hp]; exact pv_pre rfl
    · unfold numPatchesHere; rw [hp]; exact pv_pre rfl
    · unfold globalDomainHere; rw [hp]; exact pv_pre rfl
    · unfold localDomainHere; rw [hp]; exact pv_pre rfl
    · unfold globalFromLocalIndexHere; rw [hp]; exact hg
example : ReplOK ⟨[3, 4], [2, 5]⟩ := ⟨by decide, by decide, by decide⟩

/-- **C90 is false (replicated views without data).** On a processor outside the set of a replicated view, the functions about the
local processor end the program when assertions are compiled in, and otherwise describe the whole view as if it were there. -/
theorem C90_replicated_nothing_false : ¬ ∀ (chk : Bool) (m : RMap) (pr : Nat), ReplOK m → m.subblock pr = none →
    SaysNothing m.ext.length (ofRepl chk m) pr := by
  intro h
  have := (h true ⟨[3], [2, 5]⟩ 0 ⟨by decide, by decide, by decide⟩ (by decide)).1
  revert this
  decide

/-- **C90 (what replicated views say without data).** Exactly: with assertions every one of these functions but the last ends the
program, without them the whole view is described. -/
theorem C90_replicated_outside (m : RMap) (pr : Nat) (h : m.subblock pr = none) :
    subblockDomainHere (ofRepl true m) pr = .stop ∧ numPatchesHere (ofRepl true m) pr = .stop ∧
    (∀ p, globalDomainHere (ofRepl true m) pr p = .stop ∧ localDomainHere (ofRepl true m) pr p = .stop) ∧
    subblockDomainHere (ofRepl false m) pr = .val (m.ext.map Dom.ofLen) ∧ numPatchesHere (ofRepl false m) pr = .val 1 ∧
    (∀ p, globalDomainHere (ofRepl false m) pr p = .val (m.ext.map Dom.ofLen)) ∧
    ∀ chk d i, globalFromLocalDimHere (ofRepl chk m) pr d i = .val noIndex := by
  have e : ∀ chk, (ofRepl chk m).subblock pr = none := fun _ => h
  unfold subblockDomainHere numPatchesHere globalDomainHere localDomainHere globalFromLocalDimHere
  simp only [e]
  simp [ofRepl, pre]
example : (⟨[3], [2, 5]⟩ : RMap).subblock 0 = none := by decide

/-! ## Functions which are missing -/

/-- **C90 is false (transposed and partial views, local views).** For views of a transposed matrix or of a sub-domain of a distributed
array, asking for the subblock of an index ends the program; for local views the question does not compile. -/
theorem C90_conversions_false : (∀ (chk : Bool) (a : Api) (idx : List Nat), subblockFromGlobalIndex (ofTrans chk a) idx = .stop) ∧
    (∀ (chk : Bool) (es : List SubsetEntry) (idx : List Nat), subblockFromGlobalIndex (ofSubset chk es) idx = .stop) ∧
    (∀ (chk : Bool) (ext : List Nat) (me : Nat) (idx : List Nat), subblockFromGlobalIndex (ofLocal chk ext me) idx = .absent) ∧
    ¬ (∀ m : AMap, MapOK m → m.dims.length = 2 → Describes (swp m.ext) (ofTrans true (ofMap true m))) ∧
    ¬ ∀ ext me, Describes ext (ofLocal true ext me) := by
  refine ⟨fun _ _ _ => rfl, fun _ _ _ => rfl, fun _ _ _ _ => rfl, fun h => ?_, fun h => ?_⟩
  · obtain ⟨sb, _, _, _, _, _, _, _, h1, -⟩ := h exPv exPv_ok rfl [0, 0] (by decide)
    cases h1
  · obtain ⟨sb, _, _, _, _, _, _, _, h1, -⟩ := h [3] 0 [0] (by decide)
    cases h1

/-- **C90 is false (one dimension of a given subblock).** `global_from_local_index(view, dim, sb, idx)` never compiles. -/
theorem C90_dim_false : ¬ ∃ (a : Api) (d : Nat) (sb : Option Nat) (i j : Nat), globalFromLocalDim a d sb i = .val j := by
  rintro ⟨a, d, sb, i, j, h⟩
  cases h

/-- **C90 is false (partial views without data).** On a processor which holds nothing of a view of a sub-domain, the functions about
the local processor end the program when assertions are compiled in, and otherwise read before the beginning of a vector. -/
theorem C90_subset_nothing_false : (∀ (es : List SubsetEntry) (pr : Nat), (ofSubset true es).subblock pr = none →
      subblockDomainHere (ofSubset true es) pr = .stop ∧ numPatchesHere (ofSubset true es) pr = .stop ∧
      subblockDomainHere (ofSubset false es) pr = .bad ∧ numPatchesHere (ofSubset false es) pr = .bad) ∧
    ¬ ∀ (m : AMap) (dom : List Dom) (es : List SubsetEntry) (pr : Nat), MapOK m → subsetMap? m dom = some es →
      (ofSubset true es).subblock pr = none → SaysNothing m.dims.length (ofSubset true es) pr := by
  have key : ∀ (es : List SubsetEntry) (pr : Nat), (ofSubset true es).subblock pr = none →
      subblockDomainHere (ofSubset true es) pr = .stop ∧ numPatchesHere (ofSubset true es) pr = .stop ∧
      subblockDomainHere (ofSubset false es) pr = .bad ∧ numPatchesHere (ofSubset false es) pr = .bad := by
    intro es pr h
    have h' : (ofSubset false es).subblock pr = none := h
    unfold subblockDomainHere numPatchesHere
    rw [h, h']
    exact ⟨rfl, rfl, rfl, rfl⟩
  refine ⟨key, fun h => ?_⟩
  have h0 : (ofSubset true [⟨0, [⟨0, 1, 2⟩], [⟨0, 1, 2⟩], [⟨1, 1, 2⟩], 0, [4]⟩]).subblock 1 = none := by decide
  have := (h ⟨[(.block 2, 8)], [0, 1]⟩ [⟨1, 1, 2⟩] _ 1 ⟨by decide, by decide, by decide, by decide⟩ (by decide +kernel) h0).1
  rw [(key _ _ h0).1] at this
  cases this

/-- **C90 is false (transposed views without data).** `no_subblock` fails the precondition of the functions of a transposed map, whatever
the map below would answer: with assertions, asking on a processor without data for the domain of a transposed matrix ends the
program. -/
theorem C90_transposed_nothing_false : (∀ (a : Api) (pr : Nat), a.subblock pr = none →
      subblockDomainHere (ofTrans true a) pr = .stop ∧
      ∀ p, globalDomainHere (ofTrans true a) pr p = .stop ∧ localDomainHere (ofTrans true a) pr p = .stop) ∧
    ¬ ∀ (m : AMap) (pr : Nat), MapOK m → m.dims.length = 2 → m.subblock pr = none →
      SaysNothing 2 (ofTrans true (ofMap true m)) pr := by
  have key : ∀ (a : Api) (pr : Nat), a.subblock pr = none → subblockDomainHere (ofTrans true a) pr = .stop ∧
      ∀ p, globalDomainHere (ofTrans true a) pr p = .stop ∧ localDomainHere (ofTrans true a) pr p = .stop := by
    intro a pr h
    have h' : (ofTrans true a).subblock pr = none := h
    unfold subblockDomainHere globalDomainHere localDomainHere
    rw [h']
    exact ⟨rfl, fun _ => ⟨rfl, rfl⟩⟩
  refine ⟨key, fun h => ?_⟩
  have h0 : exPv.subblock 5 = none := by decide
  have := (h exPv 5 exPv_ok rfl h0).1
  rw [(key _ _ h0).1] at this
  cases this

/-- **C90 (transposed views without data, without assertions).** Without assertions the transposed map passes on what the map below
says: nothing is there. -/
theorem C90_transposed_nothing (m : AMap) (pr : Nat) (hd : m.dims.length = 2) (h : m.subblock pr = none) :
    subblockDomainHere (ofTrans false (ofMap false m)) pr = .val (nothingDom 2) ∧
    numPatchesHere (ofTrans false (ofMap false m)) pr = .val 0 ∧
    ∀ p, globalDomainHere (ofTrans false (ofMap false m)) pr p = .val (nothingDom 2) ∧
      localDomainHere (ofTrans false (ofMap false m)) pr p = .val (nothingDom 2) := by
  have h' : (ofTrans false (ofMap false m)).subblock pr = none := h
  unfold subblockDomainHere numPatchesHere globalDomainHere localDomainHere
  rw [h']
  simp [ofTrans, ofMap, subblockDomain, numPatches, globalDomain, localDomain, pre, Ans.map, hd, emptyDom, nothingDom, swp, List.replicate, Dom.ofLen]
example : exPv.dims.length = 2 ∧ exPv.subblock 5 = none := by decide

/-! ## Transposed matrices -/

/-- **C90 (maps of transposed matrices).** The map of a transposed matrix partitions the transposed index space, with the same
subblocks on the same processors, and its domains are contiguous; transposing twice gives the map back. -/
theorem C90_transposed (m : PMap) (r c : Nat) (h : m.OK [r, c]) : m.tr.OK [c, r] ∧ m.tr.tr = m := ⟨tr_ok h, tr_tr m⟩
example : (PMap.ofMap exPv).OK [5, 6] := ofMap_ok exPv_ok

/-- **C90 (what the map of a transposed matrix answers).** On valid subblocks and patches `transpose_map` gives, with or without
assertions, the domains of `PMap.tr`, and the local index of every element. -/
theorem C90_transposed_answers (chk : Bool) (m : AMap) (r c : Nat) (he : m.ext = [r, c]) (sb p : Nat)
    (h1 : sb < m.numSubblocks) (h2 : p < m.numPatches sb) :
    globalDomain (ofTrans chk (ofMap chk m)) (some sb) p = .val ((PMap.ofMap m).tr.view.gdom sb p) ∧
    localDomain (ofTrans chk (ofMap chk m)) (some sb) p = .val ((PMap.ofMap m).tr.view.ldom sb p) ∧
    subblockDomain (ofTrans chk (ofMap chk m)) (some sb) = .val (((PMap.ofMap m).tr.view.sbExt sb).map Dom.ofLen) ∧
    numPatches (ofTrans chk (ofMap chk m)) (some sb) = .val ((PMap.ofMap m).tr.view.patches sb) ∧
    (∀ pr, (ofTrans chk (ofMap chk m)).subblock pr = (PMap.ofMap m).tr.subblock pr) ∧
    ∀ i j, localFromGlobalIndex (ofTrans chk (ofMap chk m)) [i, j] = .val ((PMap.ofMap m).tr.view.toLocal [i, j]) := by
  have hp : (ofMap chk m).patches (some sb) = .val (m.numPatches sb) := pv_pre (decide_eq_true h1)
  have hg : (ofMap chk m).gdom (some sb) p = .val (m.globalDomain sb p) :=
    pv_pre (by rw [Bool.and_eq_true]; exact ⟨decide_eq_true h1, decide_eq_true h2⟩)
  have hl : (ofMap chk m).ldom (some sb) p = .val (m.localDomain sb p) :=
    pv_pre (by rw [Bool.and_eq_true]; exact ⟨decide_eq_true h1, decide_eq_true h2⟩)
  have hs : (ofMap chk m).sbDom (some sb) = .val ((m.subblockExtent sb).map Dom.ofLen) := pv_pre (decide_eq_true h1)
  have hv : validSb (ofMap chk m).numSb (some sb) = true := decide_eq_true h1
  have hb : belowAns p ((ofMap chk m).patches (some sb)) = true := by rw [hp]; exact decide_eq_true h2
  refine ⟨?_, ?_, ?_, hp, fun _ => rfl, fun i j => ?_⟩
  · show pre chk _ _ = _
    rw [pv_pre (by rw [Bool.and_eq_true]; exact ⟨hv, hb⟩), hg]; rfl
  · show pre chk _ _ = _
    rw [pv_pre (by rw [Bool.and_eq_true]; exact ⟨hv, hb⟩), hl]; rfl
  · show pre chk _ _ = _
    rw [pv_pre hv, hs]
    show Ans.val (swp _) = .val ((swp _).map _)
    rw [swp_map]
    rfl
  · have hd : m.dims.length = 2 := by
      have := congrArg List.length he
      simpa [AMap.ext] using this
    obtain ⟨x, y, hxy⟩ : ∃ x y, m.dims = [x, y] := by
      match hm : m.dims, hd with
      | [x, y], _ => exact ⟨x, y, rfl⟩
    simp [localFromGlobalIndex, loopDims, ofTrans, ofMap, parentDim, hxy, Ans.map, PMap.tr, PMap.ofMap, AMap.view,
      AMap.localFromGlobalIndex, AMap.localIdx, swp]
example : exPv.ext = [5, 6] ∧ 1 < exPv.numSubblocks ∧ 2 < exPv.numPatches 1 ∧
    globalDomain (ofTrans true (ofMap true exPv)) (some 1) 2 = .val [⟨3, 1, 3⟩, ⟨4, 1, 1⟩] := by decide +kernel

theorem pv_tr_assign {r c : Nat} {L R : Side} {P : List Nat} (hl : L.map.OK [r, c]) (hr : R.map.OK [c, r])
    (h1 : ∀ p, (L.str p).length = 2) (h2 : ∀ p, (R.str p).length = 2) (hlay : Layout [r, c] L) (hP : P.Nodup)
    (h3 : ∀ p ∈ L.map.workers, p ∈ P) (h4 : ∀ p ∈ R.map.workers, p ∈ P) : AssignOK [r, c] L R.tr P :=
  ⟨hl, tr_ok hr, h1, fun p => (swp_length _).trans (h2 p), hlay, hP, h3, h4⟩

/-- **C90 (assigning a transposed matrix).** `A = B.transpose()` for matrices distributed in any two ways by maps which partition
their index spaces: chained assignment puts `B(j, i)` into every copy of `A(i, j)`, on all processors, in whatever order the
processes run, and changes nothing else. (Elements are one unit of a chain, as in `C15_chained_partial`.) -/
theorem C90_corner_turn {V : Type} (r c : Nat) (L R : Side) (P order : List Nat) (hl : L.map.OK [r, c]) (hr : R.map.OK [c, r])
    (h1 : ∀ p, (L.str p).length = 2) (h2 : ∀ p, (R.str p).length = 2) (hlay : Layout [r, c] L) (hP : P.Nodup)
    (h3 : ∀ p ∈ L.map.workers, p ∈ P) (h4 : ∀ p ∈ R.map.workers, p ∈ P) (ho : IsOrder 2 order)
    (g : List Nat → V) (rhs mem : Nat → Int → V) (hold : Holds [c, r] R g rhs) (eager : Bool) (s : St V)
    (hs : Reach eager P rhs (St.init (within P (assignProg 1 order L R.tr)) mem) s) (hf : s.final P) :
    Assigned [r, c] L (fun i => g (swp i)) mem s.mem := by
  refine C15_chained_partial [r, c] order L R.tr P (pv_tr_assign hl hr h1 h2 hlay hP h3 h4) ho _ rhs mem ?_ eager s hs hf
  intro p idx hi hsb
  rw [addr_tr R [c, r] hr (fun p => h2 p) p idx hi]
  exact hold p (swp idx) (inRange_swp'.1 (show InRange idx (swp [c, r]) from hi)) hsb

/-- **C90 (assigning to a transposed matrix).** `A.transpose() = B`: every copy of `A(j, i)` becomes `B(i, j)`, nothing else
changes. -/
theorem C90_assign_to_transposed {V : Type} (r c : Nat) (L R : Side) (P order : List Nat) (hl : L.map.OK [c, r]) (hr : R.map.OK [r, c])
    (h1 : ∀ p, (L.str p).length = 2) (h2 : ∀ p, (R.str p).length = 2) (hlay : Layout [c, r] L) (hP : P.Nodup)
    (h3 : ∀ p ∈ L.map.workers, p ∈ P) (h4 : ∀ p ∈ R.map.workers, p ∈ P) (ho : IsOrder 2 order)
    (g : List Nat → V) (rhs mem : Nat → Int → V) (hold : Holds [r, c] R g rhs) (eager : Bool) (s : St V)
    (hs : Reach eager P rhs (St.init (within P (assignProg 1 order L.tr R)) mem) s) (hf : s.final P) :
    Assigned [c, r] L (fun i => g (swp i)) mem s.mem := by
  have ha : ∀ p idx, InRange idx [r, c] → L.tr.addr p idx = L.addr p (swp idx) := fun p idx hi =>
    addr_tr L [c, r] hl (fun p => h1 p) p idx hi
  have hlay' : Layout [r, c] L.tr := by
    intro p i j hi hj h5 h6 h7
    rw [ha p i hi, ha p j hj] at h7
    have := hlay p (swp i) (swp j) (inRange_swp'.1 (show InRange i (swp [c, r]) from hi))
      (inRange_swp'.1 (show InRange j (swp [c, r]) from hj)) h5 h6 h7
    rw [← swp_swp i, this, swp_swp]
  have := C15_chained_partial [r, c] order L.tr R P
    ⟨tr_ok hl, hr, fun p => (swp_length _).trans (h1 p), h2, hlay', hP, h3, h4⟩ ho g rhs mem hold eager s hs hf
  intro q
  obtain ⟨k1, k2⟩ := this q
  constructor
  · intro idx hi hsb
    have := k1 (swp idx) (inRange_swp'.1 (show InRange idx (swp [r, c]) from hi))
      (show L.map.subblock q = some (L.map.view.sbOf (swp (swp idx))) by rw [swp_swp]; exact hsb)
    rwa [ha q _ (inRange_swp'.1 (show InRange idx (swp [r, c]) from hi)), swp_swp] at this
  · intro x hx
    refine k2 x fun idx hi hsb => ?_
    rw [ha q idx hi]
    exact hx (swp idx) (inRange_swp'.1 (show InRange idx (swp [c, r]) from hi)) hsb

/-- a 4×6 matrix by rows over processors 0 and 1, and a 6×4 matrix, too -/
def exTurnL : AMap := ⟨[(.block 2, 4), (.whole, 6)], [0, 1]⟩
def exTurnR : AMap := ⟨[(.block 2, 6), (.whole, 4)], [0, 1]⟩
example : (PMap.ofMap exTurnL).OK [4, 6] ∧ (PMap.ofMap exTurnR).OK [6, 4] :=
  ⟨ofMap_ok (m := exTurnL) ⟨by decide, by decide, by decide, by decide⟩, ofMap_ok (m := exTurnR) ⟨by decide, by decide, by decide, by decide⟩⟩

/-! ## Maps of views of views -/

/-- **C90 is false (sub-domains of transposed matrices).** The map of `A.transpose()(dom)` is the map of the whole transposed
matrix: its domains contain indices the view does not have. -/
theorem C90_subset_transposed_false : ¬ ∀ (m : AMap) (dom : List Dom) (child : Mp), MapOK m → m.dims.length = 2 →
    SubDomOK (swp m.ext) dom → (Mp.map m).transpose.project dom = some child → Inside (lens dom) (child.api true) := by
  intro h
  have := h exTurnL [⟨0, 1, 2⟩, ⟨0, 1, 2⟩] (.tr (.map exTurnL)) ⟨by decide, by decide, by decide, by decide⟩ (by decide)
    (by refine ⟨?_, ?_, trivial⟩ <;> simp only [] <;> decide) rfl 1 0 [⟨0, 1, 6⟩, ⟨2, 1, 2⟩] (by decide) (by decide +kernel)
    (by decide +kernel) [5, 3] (memN_iff_elemN.2 ⟨[5, 1], by decide, by decide⟩)
  obtain ⟨idx, h1, h2⟩ := this
  match idx, h2 with
  | [a, b], h2 =>
    simp only [ints, List.map_cons, List.map_nil, List.cons.injEq] at h1
    have := h2.1
    simp only [lens, List.map_cons] at this
    omega

/-- **C90 is false (permuted tensors).** A permuted tensor has the map of the tensor: its domains contain indices the view does not
have. -/
theorem C90_permuted_false : ¬ ∀ (m : AMap) (perm : List Nat), MapOK m → m.dims.length = 3 → perm ∈ [[1, 0, 2], [0, 2, 1], [2, 1, 0], [1, 2, 0], [2, 0, 1]] →
    Inside (permSizes perm m.ext) (((Mp.map m).permuted perm).api true) := by
  intro h
  have := h ⟨[(.block 2, 4), (.whole, 2), (.whole, 3)], [0, 1]⟩ [1, 0, 2] ⟨by decide, by decide, by decide, by decide⟩ (by decide)
    (by decide) 1 0 [⟨2, 1, 2⟩, ⟨0, 1, 2⟩, ⟨0, 1, 3⟩] (by decide) (by decide +kernel)
    (by decide +kernel) [3, 0, 0] (memN_iff_elemN.2 ⟨[1, 0, 0], by decide, by decide⟩)
  obtain ⟨idx, h1, h2⟩ := this
  match idx, h2 with
  | [a, b, c], h2 =>
    simp only [ints, List.map_cons, List.map_nil, List.cons.injEq] at h1
    have := h2.1
    simp [permSizes, AMap.ext] at this
    omega

/-- **C90 is false (diagonals).** A diagonal of a distributed matrix has the map of the matrix, whose domains have two
dimensions and contain no index of the diagonal at all. -/
theorem C90_diag_false : ∀ (chk : Bool) (m : AMap) (n : Nat), MapOK m → m.dims.length = 2 → 0 < n →
    ¬ Describes [n] ((Mp.map m).diag.api chk) := by
  intro chk m n h hd hn hdesc
  obtain ⟨sb, l, np, p, G, L, S, k, -, a2, -, -, -, -, -, a6, a7, a8, -, a9, a10, -⟩ := hdesc [0] ⟨hn, trivial⟩
  have hp : (ofMap chk m).patches (some sb) = .val (m.numPatches sb) := pv_pre (decide_eq_true a2)
  have a6' : (ofMap chk m).patches (some sb) = .val np := a6
  rw [hp] at a6'
  cases a6'
  have hg : (ofMap chk m).gdom (some sb) p = .val (m.globalDomain sb p) :=
    pv_pre (by rw [Bool.and_eq_true]; exact ⟨decide_eq_true a2, decide_eq_true a7⟩)
  have a8' : (ofMap chk m).gdom (some sb) p = .val G := a8
  rw [hg] at a8'
  cases a8'
  have hlen := (ofMap_ok h).dim sb p a2 a7
  have e := elemN_len (len_of_inRange a9)
  rw [a10] at e
  have hlen' : (m.globalDomain sb p).length = m.ext.length := hlen
  rw [hlen'] at e
  simp [ints, AMap.ext, hd] at e
example : MapOK exPv ∧ exPv.dims.length = 2 := ⟨exPv_ok, rfl⟩

/-- **C90 (sub-domains of replicated views).** The map of a sub-domain of a replicated view describes exactly the sub-domain's own
indices, on the same processors, and the local view is the same sub-domain of the local data. -/
theorem C90_replicated_subset (chk : Bool) (m : RMap) (dom : List Dom) (h : ReplOK m) (hd : ∀ d ∈ dom, 0 < d.length ∧ d.length < W₆₃) :
    ∃ child, (Mp.repl m).project dom = some child ∧ Describes (lens dom) (child.api chk) ∧
      (∀ pr, (child.api chk).subblock pr = ((Mp.repl m).api chk).subblock pr) ∧
      ∀ pr, m.subblock pr ≠ none → localSubset dom.length (.repl m) child dom pr = .val dom := by
  refine ⟨.repl ⟨lens dom, m.pset⟩, rfl, C90_replicated chk ⟨lens dom, m.pset⟩ ⟨?_, h.nodup, h.ne⟩, fun _ => rfl, fun pr hp => ?_⟩
  · intro n hn
    obtain ⟨d, h1, rfl⟩ := List.mem_map.1 hn
    exact hd d h1
  · unfold RMap.subblock at hp
    unfold localSubset
    show (match AMap.rankFrom m.pset pr 0 with | none => _ | some sb => _) = _
    cases hr : AMap.rankFrom m.pset pr 0 with
    | none => rw [hr] at hp; exact absurd rfl hp
    | some sb => rfl
example : (Mp.repl ⟨[6, 7], [2, 5]⟩).project [⟨1, 2, 2⟩, ⟨0, 1, 3⟩] = some (.repl ⟨[2, 3], [2, 5]⟩) := rfl

theorem pv_rank : ∀ (l : List Nat) (pr i : Nat), (∀ r, AMap.rankFrom l pr i = some r → i ≤ r ∧ l[r - i]? = some pr) ∧
    (AMap.rankFrom l pr i = none → pr ∉ l)
  | [], pr, i => ⟨fun r h => by simp [AMap.rankFrom] at h, fun _ => by simp⟩
  | a :: as, pr, i => by
      obtain ⟨h1, h2⟩ := pv_rank as pr (i + 1)
      unfold AMap.rankFrom
      by_cases ha : a = pr
      · rw [if_pos ha]
        exact ⟨fun r h => by cases h; simp [ha], fun h => by cases h⟩
      · rw [if_neg ha]
        refine ⟨fun r h => ?_, fun h => ?_⟩
        · obtain ⟨e1, e2⟩ := h1 r h
          refine ⟨by omega, ?_⟩
          rw [show r - i = r - (i + 1) + 1 by omega]
          simpa using e2
        · simp only [List.mem_cons, not_or]
          exact ⟨fun h' => ha h'.symm, h2 h⟩

theorem pv_entry {m : AMap} {dom : List Dom} {es : List SubsetEntry} (h : subsetMap? m dom = some es) (hs : m.pvec.length = m.numSubblocks)
    {e : SubsetEntry} (he : e ∈ es) : m.pvec[e.parentSb]? = some e.proc := by
  unfold subsetMap? at h
  split at h
  · cases h
  · cases h
    obtain ⟨sb, h1, h2⟩ := List.mem_filterMap.1 he
    rw [List.mem_range, ← hs] at h1
    unfold subsetEntry at h2
    split at h2
    · cases h2
    · cases h2
      simp [List.getD_eq_getElem?_getD, List.getElem?_eq_getElem h1]

/-- **C90 (local views of sub-domains).** For views without cyclic dimensions, the local view of `A(dom)` on a processor which holds
something of it is a part of the local data which contains, position by position, exactly the elements of the sub-domain held
there; on the others it is empty. -/
theorem C90_local_subset (m : AMap) (h : MapOK m) (hc : ∀ x ∈ m.dims, x.1.kind ≠ .cyclic) (dom : List Dom) (hD : SubDomOK m.ext dom)
    (pr : Nat) : ∃ es, (Mp.map m).project dom = some (.sub es) ∧
      ((∃ e ∈ es, e.proc = pr ∧ localSubset m.dims.length (.map m) (.sub es) dom pr = .val e.parentLocal ∧
          lens e.parentLocal = lens e.gdom ∧ (∀ z, MemN z e.gdom → ∃ k, z = ints k ∧ InRange k (lens dom)) ∧
          ∀ k idx, InRange k (lens dom) → elemN dom k = ints idx → m.subblock pr = some (m.subblockFromGlobalIndex idx) →
            ∃ j, InRange j (lens e.gdom) ∧ elemN e.gdom j = ints k ∧ elemN e.parentLocal j = ints (m.localFromGlobalIndex idx)) ∨
        ((∀ k idx, InRange k (lens dom) → elemN dom k = ints idx → m.subblock pr ≠ some (m.subblockFromGlobalIndex idx)) ∧
          localSubset m.dims.length (.map m) (.sub es) dom pr = .val (nothingDom m.dims.length))) := by
  obtain ⟨es, h1, h2, h3, h4, -, h6⟩ := C12_subset_partial m h.dims hc h.size dom hD
  have hinj : ∀ i j : List Nat, ints i = ints j → i = j := fun i j hij =>
    List.map_injective_iff.2 (fun _ _ h => Int.ofNat.inj h) hij
  have hfind : ∀ k idx, InRange k (lens dom) → elemN dom k = ints idx → m.subblock pr = some (m.subblockFromGlobalIndex idx) →
      ∃ e ∈ es, e.proc = pr ∧ e.parentSb = m.subblockFromGlobalIndex idx ∧
        ∃ j, InRange j (lens e.gdom) ∧ elemN e.gdom j = ints k ∧ elemN e.parentLocal j = ints (m.localFromGlobalIndex idx) := by
    intro k idx hk he hs
    obtain ⟨idx', -, f2, e, f3, f4, -, j, f6, f7, -, f9⟩ := h2 k hk
    rw [he] at f2
    have := hinj _ _ f2
    subst this
    refine ⟨e, f3, ?_, f4, j, f6, f7, f9⟩
    have g1 := (subblock_iff h pr _).1 hs
    have g2 := pv_entry h1 h.size f3
    rw [f4, g1] at g2
    cases g2
    rfl
  refine ⟨es, by simp only [Mp.project, h1, Option.map_some], ?_⟩
  have hloc : localSubset m.dims.length (.map m) (.sub es) dom pr = (match AMap.rankFrom (es.map SubsetEntry.proc) pr 0 with
    | none => .val (emptyDom m.dims.length)
    | some sb => match es[sb]? with
      | some e => (Mp.map m).localDom e.parentSb dom
      | none => .bad) := rfl
  obtain ⟨r1, r2⟩ := pv_rank (es.map SubsetEntry.proc) pr 0
  cases hr : AMap.rankFrom (es.map SubsetEntry.proc) pr 0 with
  | none =>
    right
    refine ⟨fun k idx hk he hs => ?_, by rw [hloc, hr]; rfl⟩
    obtain ⟨e, f1, f2, -⟩ := hfind k idx hk he hs
    exact r2 hr (List.mem_map.2 ⟨e, f1, f2⟩)
  | some r =>
    left
    obtain ⟨-, hr2⟩ := r1 r hr
    rw [Nat.sub_zero, List.getElem?_map, Option.map_eq_some_iff] at hr2
    obtain ⟨e, he, hp⟩ := hr2
    have hmem := List.mem_of_getElem? he
    obtain ⟨g1, g2, -⟩ := h3 e hmem
    refine ⟨e, hmem, hp, ?_, g2, h4 e hmem, fun k idx hk hel hs => ?_⟩
    · rw [hloc, hr]
      simp only [he, Mp.localDom, g1]
    · obtain ⟨e', f1, f2, f3, f4⟩ := hfind k idx hk hel hs
      have e1 := (subblock_iff h pr _).2 (by rw [← hp]; exact pv_entry h1 h.size hmem)
      have e2 : e.parentSb = e'.parentSb := by
        rw [hs] at e1
        exact (Option.some.inj e1).symm.trans f3.symm
      have : e = e' := List.inj_on_of_nodup_map h6 hmem f1 e2
      rw [this]
      exact f4
example : MapOK exSub ∧ localSubset 2 (.map exSub) (.sub ((subsetMap? exSub [⟨1, 2, 3⟩, ⟨2, 1, 5⟩]).getD [])) [⟨1, 2, 3⟩, ⟨2, 1, 5⟩] 4 =
    .val [⟨1, 2, 1⟩, ⟨0, 1, 3⟩] := ⟨⟨by decide, by decide, by decide, by decide⟩, by decide +kernel⟩

/-- **C90 is false (local views of sub-domains of sub-domains).** On every processor which holds something of `A(dom)(dom')`, asking
for the local view ends the program. -/
theorem C90_nested_local_false : (∀ (D : Nat) (es es' : List SubsetEntry) (dom : List Dom) (pr : Nat),
      (ofSubset true es').subblock pr ≠ none → localSubset D (.sub es) (.sub es') dom pr = .stop) ∧
    ∃ (m : AMap) (dom dom' : List Dom) (es es' : List SubsetEntry) (pr : Nat), MapOK m ∧ (Mp.map m).project dom = some (.sub es) ∧
      (Mp.sub es).project dom' = some (.sub es') ∧ localSubset 1 (.sub es) (.sub es') dom' pr = .stop := by
  have rank_lt : ∀ (l : List Nat) (pr i r : Nat), AMap.rankFrom l pr i = some r → i ≤ r ∧ r < i + l.length := by
    intro l pr
    induction l with
    | nil => intro i r h; simp [AMap.rankFrom] at h
    | cons a as ih =>
      intro i r h
      unfold AMap.rankFrom at h
      split at h
      · cases h; simp
      · have := ih _ _ h
        simp only [List.length_cons]
        omega
  have key : ∀ (D : Nat) (es es' : List SubsetEntry) (dom : List Dom) (pr : Nat),
      (ofSubset true es').subblock pr ≠ none → localSubset D (.sub es) (.sub es') dom pr = .stop := by
    intro D es es' dom pr h
    obtain ⟨r, hr⟩ := Option.ne_none_iff_exists'.1 h
    have hr' : AMap.rankFrom (es'.map SubsetEntry.proc) pr 0 = some r := hr
    have := rank_lt _ _ _ _ hr'
    simp only [List.length_map] at this
    unfold localSubset
    show (match AMap.rankFrom (es'.map SubsetEntry.proc) pr 0 with | none => _ | some sb => _) = _
    rw [hr']
    show (match es'[r]? with | some e => _ | none => _) = _
    rw [List.getElem?_eq_getElem (by omega)]
    rfl
  refine ⟨key, ⟨[(.block 2, 8)], [0, 1]⟩, [⟨1, 1, 2⟩], [⟨0, 1, 1⟩], [⟨0, [⟨0, 1, 2⟩], [⟨0, 1, 2⟩], [⟨1, 1, 2⟩], 0, [4]⟩],
    [⟨0, [⟨0, 1, 1⟩], [⟨0, 1, 1⟩], [⟨0, 1, 1⟩], 0, [4]⟩], 0, ⟨by decide, by decide, by decide, by decide⟩, ?_, ?_, ?_⟩
  · have : subsetMap? ⟨[(.block 2, 8)], [0, 1]⟩ [⟨1, 1, 2⟩] = some [⟨0, [⟨0, 1, 2⟩], [⟨0, 1, 2⟩], [⟨1, 1, 2⟩], 0, [4]⟩] := by decide +kernel
    simp only [Mp.project, this]
    rfl
  · have : ([⟨0, [⟨0, 1, 2⟩], [⟨0, 1, 2⟩], [⟨1, 1, 2⟩], 0, [4]⟩] : List SubsetEntry).zipIdx.filterMap (fun x => subEntry [⟨0, 1, 1⟩] x.2 x.1) =
        [⟨0, [⟨0, 1, 1⟩], [⟨0, 1, 1⟩], [⟨0, 1, 1⟩], 0, [4]⟩] := by decide +kernel
    simp only [Mp.project, this]
  · exact key _ _ _ _ _ (by decide)

/-- **C90 (refusals of transposed maps).** With assertions, where the map below does not say how many patches a subblock has, or where there are
not so many, the transposed map does not answer for the patch either. -/
theorem C90_transposed_refused (a : Api) (sb : Option Nat) (p : Nat) (h : ∀ n, a.patches sb = .val n → n ≤ p) :
    (ofTrans true a).gdom sb p = .stop ∧ (ofTrans true a).ldom sb p = .stop := by
  have hb : belowAns p (a.patches sb) = false := by
    cases hp : a.patches sb with
    | val n => simp only [belowAns, decide_eq_false_iff_not, Nat.not_lt]; exact h n hp
    | _ => rfl
  simp [ofTrans, pre, hb]
example : (ofSubset true []).patches none = .stop := rfl

/-- **C10 (applying a map).** A map can be applied to a domain exactly if it has a distribution for every dimension of the domain, and does not
partition any other; the applied map has the extents of the domain. -/
theorem C10_apply (m : Map) (ext : List Nat) : ((m.apply? ext).isSome = true ↔
      ext.length ≤ m.dist.length ∧ ∀ k d, m.dist[k]? = some d → ext.length ≤ k → d.numSubblocks = 1) ∧
    ∀ a, m.apply? ext = some a → a.ext = ext ∧ a.pvec = m.pvec ∧ a.dims.map Prod.fst = m.dist.take ext.length := by
  have hq : (∀ d ∈ m.dist.drop ext.length, d.numSubblocks = 1) ↔ ∀ k d, m.dist[k]? = some d → ext.length ≤ k → d.numSubblocks = 1 := by
    constructor
    · intro h k d hk hl
      refine h d (List.mem_iff_getElem?.2 ⟨k - ext.length, ?_⟩)
      rw [List.getElem?_drop, show ext.length + (k - ext.length) = k by omega, hk]
    · intro h d hd
      obtain ⟨k, hk⟩ := List.mem_iff_getElem?.1 hd
      rw [List.getElem?_drop] at hk
      exact h _ d hk (by omega)
  refine ⟨?_, fun a h => ?_⟩
  · rw [← hq]
    unfold Map.apply?
    split <;> simp_all
  · unfold Map.apply? at h
    split at h
    · rename_i hc
      obtain rfl := Option.some.inj h
      have hl : (m.dist.take ext.length).length = ext.length := by rw [List.length_take]; omega
      refine ⟨?_, rfl, ?_⟩
      · show ((m.dist.take ext.length).zip ext).map Prod.snd = ext
        exact List.map_snd_zip (by omega)
      · show ((m.dist.take ext.length).zip ext).map Prod.fst = _
        exact List.map_fst_zip (by omega)
    · cases h
example : ((⟨[.block 2, .whole], [0, 1]⟩ : Map).apply? [4, 5]).isSome = true ∧ ((⟨[.block 2, .whole], [0, 1]⟩ : Map).apply? [4]).isSome = true ∧
    ((⟨[.whole, .block 2], [0, 1]⟩ : Map).apply? [4]).isSome = false := by decide

end Verif.Props

#print axioms Verif.Props.C90_map
#print axioms Verif.Props.C90_one_place
#print axioms Verif.Props.C90_map_nothing
#print axioms Verif.Props.C90_index_nothing_false
#print axioms Verif.Props.C90_patch_false
#print axioms Verif.Props.C90_patch_cyclic_false
#print axioms Verif.Props.C90_patch_partial
#print axioms Verif.Props.C90_replicated
#print axioms Verif.Props.C90_replicated_nothing_false
#print axioms Verif.Props.C90_replicated_outside
#print axioms Verif.Props.C90_conversions_false
#print axioms Verif.Props.C90_dim_false
#print axioms Verif.Props.C90_subset_nothing_false
#print axioms Verif.Props.C90_transposed_nothing_false
#print axioms Verif.Props.C90_transposed_nothing
#print axioms Verif.Props.C90_transposed
#print axioms Verif.Props.C90_transposed_answers
#print axioms Verif.Props.C90_corner_turn
#print axioms Verif.Props.C90_assign_to_transposed
#print axioms Verif.Props.C90_subset_transposed_false
#print axioms Verif.Props.C90_permuted_false
#print axioms Verif.Props.C90_diag_false
#print axioms Verif.Props.C90_replicated_subset
#print axioms Verif.Props.C90_local_subset
#print axioms Verif.Props.C90_nested_local_false
#print axioms Verif.Props.C90_transposed_refused
#print axioms Verif.Props.C10_apply
