import Verif.Spmd.Model
import Verif.Map.Props
import Mathlib.Tactic.Linarith
import Mathlib.Data.List.Nodup
/-!
Lemmas about statements on distributed arrays.
-/
set_option linter.unusedSectionVars false
namespace Verif.Spmd
open Verif Verif.Spec Verif.Par Verif.Props

variable {A V : Type} [DecidableEq A]

/-! ### Specification -/

/-- the value of an expression at an index of the whole array, when array `a` has the values `G a` -/
def Ex.val (G : A → List Nat → V) (idx : List Nat) : Ex A V → V
  | .arr a => G a idx
  | .scal v => v
  | .gen f => f idx
  | .un f x => f (x.val G idx)
  | .bin f x y => f (x.val G idx) (y.val G idx)
  | .tern f x y z => f (x.val G idx) (y.val G idx) (z.val G idx)

/-- the values of the arrays after the statements, had there been one process with all the data -/
def values (G : A → List Nat → V) : List (Stmt A V) → A → List Nat → V
  | [] => G
  | st :: sts => values (Function.update G st.lhs fun idx => st.rhs.val G idx) sts

/-- the map is properly built -/
def DMap.OK : DMap → Prop
  | .map m rest => MapOK m ∧ ∀ d ∈ rest, d.numSubblocks = 1
  | .repl m => ReplOK m

/-- the array is properly built: one stride per dimension, distinct elements at distinct addresses, a dimension order, processes of the communicator, unit stride
if it is a vector distributed by blocks -/
structure Arr.OK (P : List Nat) (a : Arr) : Prop where
  map : a.dmap.OK
  str : ∀ p, (a.str p).length = a.dmap.ext.length
  layout : Layout a.dmap.ext a.side
  order : IsOrder a.dmap.ext.length a.order
  procs : ∀ p ∈ a.dmap.pmap.workers, p ∈ P
  unit : a.dmap.isBlock = true → ∀ p, a.str p = [1]

/-- every process stores the values of the elements it holds -/
def HoldsAll (Γ : A → Arr) (G : A → List Nat → V) (M : Nat → Mem (A ⊕ Nat) V) : Prop :=
  ∀ a, Holds (Γ a).dmap.ext (Γ a).side (G a) fun p => M p (.inl a)

/-- all operands have the shape of the left-hand side -/
def Stmt.Conform (Γ : A → Arr) (st : Stmt A V) : Prop := ∀ a ∈ st.rhs.leaves, (Γ a).dmap.ext = (Γ st.lhs).dmap.ext

/-! ### Stages -/

theorem plan_good {ext : List Nat} {L R : Side} {P : List Nat} (h : AssignOK ext L R P) (pl : Plan ext L R) (hp : pl.OK) {d r : A}
    (hd : d ≠ r) : (Stage.net d r pl.prog : Stage A V).Good P := by
  refine ⟨hd, fun p => plan_phase h.lmap h.rmap hp p, ?_⟩
  intro p q
  have e : inside P pl.prog = within P pl.prog := rfl
  rw [e, (within_eq h pl hp p q).1, (within_eq h pl hp p q).2, plan_sendsTo h.lmap h.rmap hp, plan_recvsFrom h.lmap h.rmap hp]
  rcases plan_match h.lmap h.rmap hp p q with ⟨m1, m2⟩ | ⟨so, ro, ls, rs, -, -, -, -, -, -, m1, m2, b7⟩
  · rw [m1, m2]; simp
  · rw [m1, m2]
    simp [b7.length_eq]

theorem plan_effect {ext : List Nat} {L R : Side} {P : List Nat} (h : AssignOK ext L R P) (pl : Plan ext L R) (hp : pl.OK) {d r : A}
    (g : List Nat → V) (M : Nat → Mem A V) (hr : Holds ext R g fun p => M p r) :
    Assigned ext L g (fun p => M p d) fun p => (Stage.net d r pl.prog : Stage A V).effect P M p d := by
  intro q
  simp only [Stage.effect, Function.update_self]
  have hF : run (M q r) (fun p => (sendsTo q (inside P pl.prog p)).map fun o => o.map (M p r)) (M q d) (inside P pl.prog q) =
      run (M q r) (fun p => (sendsTo q (pl.prog p)).map (fun o => o.map (M p r))) (M q d) (inside P pl.prog q) := by
    congr 1
    funext p
    have e : inside P pl.prog = within P pl.prog := rfl
    rw [e, (within_eq h pl hp p q).1]
  rw [hF]
  cases hl : L.map.subblock q with
  | none =>
    have : run (M q r) (fun p => (sendsTo q (pl.prog p)).map (fun o => o.map (M p r))) (M q d) (inside P pl.prog q) = M q d := by
      unfold inside
      split
      · exact (plan_run (mem := fun p => M p d) h.lmap h.rmap hp hr q).2 hl
      · rfl
    rw [this]
    refine ⟨?_, fun _ _ => rfl⟩
    intro idx _ hc; cases hc
  | some ls =>
    have hq : q ∈ P := h.lin q ((h.lmap.working q).2 (by rw [hl]; simp))
    simp only [inside, hq, if_true]
    obtain ⟨r1, r2⟩ := (plan_run (mem := fun p => M p d) h.lmap h.rmap hp hr q).1 ls hl
    refine ⟨?_, ?_⟩
    · intro idx hidx hsb
      obtain ⟨idx', i1, i2, i3, i4⟩ := r1 idx hidx (by injection hsb with hsb; exact hsb.symm)
      rw [i4]
      congr 1
      exact h.layout q idx' idx i1 hidx (by rw [hl, i2]) (by rw [hl]; exact hsb) i3.symm
    · intro x hx
      apply r2
      intro idx hidx hsb
      exact hx idx hidx (by rw [hsb])

theorem pmap_ok : ∀ {m : DMap}, m.OK → m.pmap.OK m.ext
  | .map _ _, h => ofMap_ok h.1
  | .repl _, h => ofReplicated_ok h

theorem isBlock_one : ∀ {m : DMap}, m.isBlock = true → (∃ n, m.ext = [n]) ∧ ∀ sb, m.pmap.view.patches sb = 1
  | .map ⟨[], _⟩ _, h => by simp [DMap.isBlock] at h
  | .map ⟨[(.block k, n)], pv⟩ _, _ => ⟨⟨n, rfl⟩, fun sb => rfl⟩
  | .map ⟨[(.whole, n)], pv⟩ _, _ => ⟨⟨n, rfl⟩, fun sb => rfl⟩
  | .map ⟨[(.cyclic _ _, _)], _⟩ _, h => by simp [DMap.isBlock] at h
  | .map ⟨_ :: _ :: _, _⟩ _, h => by simp [DMap.isBlock] at h
  | .repl _, h => by simp [DMap.isBlock] at h

/-- the strategy chosen is a plan that delivers all elements -/
theorem assignment_plan {order ext : List Nat} {lm rm : DMap} {L R : Side} {P : List Nat} (h : AssignOK ext L R P) (ho : IsOrder ext.length order)
    (hL : L.map = lm.pmap) (hR : R.map = rm.pmap) (he : lm.ext = ext)
    (hl : lm.isBlock = true → ∀ p, L.str p = [1]) (hr : rm.isBlock = true → ∀ p, R.str p = [1]) :
    ∃ pl : Plan ext L R, pl.OK ∧ assignment order lm rm L R = pl.prog := by
  unfold assignment
  split
  · rename_i hb
    rw [Bool.and_eq_true] at hb
    obtain ⟨⟨n, hn⟩, h1⟩ := isBlock_one hb.1
    obtain ⟨-, h2⟩ := isBlock_one hb.2
    rw [he] at hn
    subst hn
    exact ⟨blkPlan [n] L R, blkPlan_ok h ⟨hl hb.1, hr hb.2, fun sb _ => by rw [hL]; exact h1 sb, fun sb _ => by rw [hR]; exact h2 sb⟩, rfl⟩
  · exact ⟨chainPlan ext order L R, chainPlan_ok h ho, rfl⟩

/-! ### Temporaries -/

theorem subblockSizes_length : ∀ (ds : List (Dist × Nat)) (sbs : List Nat), sbs.length = ds.length → (AMap.subblockSizes ds sbs).length = ds.length
  | [], [], _ => rfl
  | _ :: ds, _ :: sbs, h => by simp [AMap.subblockSizes, subblockSizes_length ds sbs (by simpa using h)]
  | [], _ :: _, h => by simp at h
  | _ :: _, [], h => by simp at h

theorem splitRev_length : ∀ (ns : List Nat) (k : Nat), (splitRev ns k).length = ns.length
  | [], _ => by simp [splitRev]
  | n :: ns, k => by simp [splitRev, splitRev_length ns]

theorem splitTuple_length (ns : List Nat) (k : Nat) : (splitTuple ns k).length = ns.length := by
  simp [splitTuple, splitRev_length]

theorem sbExt_length : ∀ (m : DMap) (sb : Nat), (m.pmap.view.sbExt sb).length = m.ext.length
  | .map m _, sb => by
      show (AMap.subblockSizes m.dims (splitTuple m.sbSizes sb)).length = (m.dims.map Prod.snd).length
      rw [subblockSizes_length _ _ (by rw [splitTuple_length]; simp [AMap.sbSizes])]
      simp
  | .repl _, _ => rfl

theorem denseStr_length (order ext : List Nat) : (denseStr order ext).length = ext.length := by simp [denseStr]

theorem tmpStr_length (m : DMap) (order : List Nat) (p : Nat) : (tmpStr m order p).length = m.ext.length := by
  unfold tmpStr
  rw [denseStr_length]
  split
  · exact sbExt_length _ _
  · simp

theorem radix {n x x' y y' : Int} (h0 : 0 ≤ y) (h1 : y < n) (h0' : 0 ≤ y') (h1' : y' < n) (h : x * n + y = x' * n + y') : x = x' ∧ y = y' := by
  have hn : n ≠ 0 := by omega
  have e1 := Int.add_mul_ediv_right y x hn
  have e2 := Int.add_mul_ediv_right y' x' hn
  have d1 := Int.ediv_eq_zero_of_lt h0 h1
  have d2 := Int.ediv_eq_zero_of_lt h0' h1'
  have : x = x' := by
    have : y + x * n = y' + x' * n := by omega
    rw [this, e2, d1, d2] at e1
    omega
  subst this
  exact ⟨rfl, by omega⟩

theorem three {n1 n2 x y z x' y' z' : Int} (hy : 0 ≤ y ∧ y < n1) (hz : 0 ≤ z ∧ z < n2) (hy' : 0 ≤ y' ∧ y' < n1) (hz' : 0 ≤ z' ∧ z' < n2)
    (h : x * (n1 * n2) + y * n2 + z = x' * (n1 * n2) + y' * n2 + z') : x = x' ∧ y = y' ∧ z = z' := by
  have h' : (x * n1 + y) * n2 + z = (x' * n1 + y') * n2 + z' := by linarith [mul_assoc x n1 n2, mul_assoc x' n1 n2, add_mul (x * n1) y n2, add_mul (x' * n1) y' n2]
  obtain ⟨h1, h2⟩ := radix hz.1 hz.2 hz'.1 hz'.2 h'
  obtain ⟨h3, h4⟩ := radix hy.1 hy.2 hy'.1 hy'.2 h1
  exact ⟨h3, h4, h2⟩

theorem dense_inj {D : Nat} {order ext a b : List Nat} (ho : IsOrder D order) (he : ext.length = D) (ha : InRange a ext) (hb : InRange b ext)
    (h : offset (denseStr order ext) (ints a) = offset (denseStr order ext) (ints b)) : a = b := by
  have la := inRange_length ha
  have lb := inRange_length hb
  rcases order_cases ho with ⟨hD, rfl⟩ | ⟨hD, ho⟩ | ⟨hD, ho⟩
  · obtain ⟨n, rfl⟩ := len1 (he.trans hD)
    obtain ⟨x, rfl⟩ := len1 (la.trans (he.trans hD))
    obtain ⟨y, rfl⟩ := len1 (lb.trans (he.trans hD))
    simp [denseStr, offset, ints, List.range_succ] at h
    rw [h]
  · obtain ⟨n0, n1, rfl⟩ := len2 (he.trans hD)
    obtain ⟨x0, x1, rfl⟩ := len2 (la.trans (he.trans hD))
    obtain ⟨y0, y1, rfl⟩ := len2 (lb.trans (he.trans hD))
    obtain ⟨a0, a1, -⟩ := ha
    obtain ⟨b0, b1, -⟩ := hb
    rcases ho with rfl | rfl
    · simp [denseStr, offset, ints, List.range_succ] at h
      obtain ⟨e1, e2⟩ := radix (by omega) (by omega) (by omega) (by omega) h
      simp only [List.cons.injEq, and_true]
      omega
    · simp [denseStr, offset, ints, List.range_succ] at h
      obtain ⟨e1, e2⟩ := radix (n := n0) (x := x1) (y := x0) (x' := y1) (y' := y0) (by omega) (by omega) (by omega) (by omega) (by omega)
      simp only [List.cons.injEq, and_true]
      omega
  · obtain ⟨n0, n1, n2, rfl⟩ := len3 (he.trans hD)
    obtain ⟨x0, x1, x2, rfl⟩ := len3 (la.trans (he.trans hD))
    obtain ⟨y0, y1, y2, rfl⟩ := len3 (lb.trans (he.trans hD))
    obtain ⟨a0, a1, a2, -⟩ := ha
    obtain ⟨b0, b1, b2, -⟩ := hb
    have p0 : (0 : Int) ≤ x0 ∧ (x0 : Int) < n0 := by omega
    have p1 : (0 : Int) ≤ x1 ∧ (x1 : Int) < n1 := by omega
    have p2 : (0 : Int) ≤ x2 ∧ (x2 : Int) < n2 := by omega
    have q0 : (0 : Int) ≤ y0 ∧ (y0 : Int) < n0 := by omega
    have q1 : (0 : Int) ≤ y1 ∧ (y1 : Int) < n1 := by omega
    have q2 : (0 : Int) ≤ y2 ∧ (y2 : Int) < n2 := by omega
    rcases ho with rfl | rfl | rfl | rfl | rfl | rfl <;> simp [denseStr, offset, ints, List.range_succ] at h
    · obtain ⟨e1, e2, e3⟩ := three p1 p2 q1 q2 (x := x0) (x' := y0) (by linarith)
      simp only [List.cons.injEq, and_true]; omega
    · obtain ⟨e1, e2, e3⟩ := three p2 p1 q2 q1 (x := x0) (x' := y0) (by linarith)
      simp only [List.cons.injEq, and_true]; omega
    · obtain ⟨e1, e2, e3⟩ := three p0 p2 q0 q2 (x := x1) (x' := y1) (by linarith)
      simp only [List.cons.injEq, and_true]; omega
    · obtain ⟨e1, e2, e3⟩ := three p2 p0 q2 q0 (x := x1) (x' := y1) (by linarith)
      simp only [List.cons.injEq, and_true]; omega
    · obtain ⟨e1, e2, e3⟩ := three p0 p1 q0 q1 (x := x2) (x' := y2) (by linarith)
      simp only [List.cons.injEq, and_true]; omega
    · obtain ⟨e1, e2, e3⟩ := three p1 p0 q1 q0 (x := x2) (x' := y2) (by linarith)
      simp only [List.cons.injEq, and_true]; omega

/-- local indices of elements held lie in the local block -/
theorem toLocal_inRange {ext : List Nat} {m : PMap} (h : m.OK ext) {idx : List Nat} (hi : InRange idx ext) :
    InRange (m.view.toLocal idx) (m.view.sbExt (m.view.sbOf idx)) := by
  obtain ⟨h1, h2, k, k1, k2, k3⟩ := h.part.home idx hi
  rw [h.part.local_cover _ _ h1]
  exact ⟨_, h2, memN_iff_elemN.2 ⟨k, by rw [← h.part.len _ _ h1 h2]; exact k1, k3⟩⟩

theorem tmp_layout {m : DMap} (h : m.OK) {order : List Nat} (ho : IsOrder m.ext.length order) : Layout m.ext ⟨m.pmap, tmpStr m order⟩ := by
  intro p a b ha hb sa sb' he
  have ok := pmap_ok h
  simp only [Side.addr] at he sa sb'
  have hsb : m.pmap.view.sbOf a = m.pmap.view.sbOf b := by rw [sa] at sb'; injection sb'
  have e : tmpStr m order p = denseStr order (m.pmap.view.sbExt (m.pmap.view.sbOf a)) := by
    unfold tmpStr; rw [sa]
  rw [e] at he
  have hl := dense_inj ho (sbExt_length m _) (toLocal_inRange ok ha) (by rw [hsb]; exact toLocal_inRange ok hb) he
  rw [← ok.part.global_local a ha, ← ok.part.global_local b hb, hsb, hl]

theorem tmp_unit {m : DMap} {order : List Nat} (ho : IsOrder m.ext.length order) (hb : m.isBlock = true) (p : Nat) : tmpStr m order p = [1] := by
  obtain ⟨⟨n, hn⟩, -⟩ := isBlock_one hb
  rw [hn] at ho
  have hl := tmpStr_length m order p
  rw [hn] at hl
  rcases order_cases ho with ⟨hD, rfl⟩ | ⟨hD, -⟩ | ⟨hD, -⟩
  · unfold tmpStr at hl ⊢
    rw [denseStr_length] at hl
    obtain ⟨k, hk⟩ := len1 hl
    rw [hk]
    simp [denseStr, List.range_succ]
  · simp at hD
  · simp at hD

/-! ### Equal maps -/

theorem same_eq : ∀ {a b : DMap}, a.OK → b.OK → a.ext = b.ext → a.same b = true → a.pmap = b.pmap
  | .map a ra, .map b rb, ha, hb, he, h => by
      simp only [DMap.same, Bool.and_eq_true, beq_iff_eq] at h
      have hz : ∀ (m : AMap) (r : List Dist), (∀ d ∈ r, d.numSubblocks = 1) → (DMap.whole m r).apply? m.ext = some m := by
        intro m r hr
        unfold Map.apply? DMap.whole AMap.ext
        rw [if_pos]
        · congr 1
          cases m with
          | mk dims pv =>
            simp only [List.length_map, AMap.mk.injEq, and_true]
            rw [List.take_left' (by simp)]
            rw [List.zip_map']
            simp
        · constructor
          · simp
          · rw [List.drop_left' (by simp)]
            exact hr
      have hn : ∀ (m : AMap) (r : List Dist), MapOK m → (∀ d ∈ r, d.numSubblocks = 1) → (DMap.whole m r).pvec.length = (DMap.whole m r).numSubblocks := by
        intro m r hm hr
        have := hm.size
        unfold DMap.whole Map.numSubblocks
        simp only [List.map_append, List.prod_append]
        rw [this]
        have h1 : (r.map Dist.numSubblocks).prod = 1 := List.prod_eq_one (by
          intro x hx
          obtain ⟨d, hd, rfl⟩ := List.mem_map.1 hx
          exact hr d hd)
        rw [h1, Nat.mul_one]
        simp [AMap.numSubblocks, AMap.sbSizes, Function.comp_def]
      have hl : a.dims.length = a.ext.length := by simp [AMap.ext]
      rw [hl] at h
      have e := C13_equiv _ _ h.1 (hn a ra ha.1 ha.2) (hn b rb hb.1 hb.2) a.ext h.2 a b (hz a ra ha.2) (by
        have := hz b rb hb.2
        simp only [DMap.ext] at he
        rwa [← he] at this)
      show PMap.ofMap a = PMap.ofMap b
      rw [e]
  | .repl a, .repl b, ha, hb, he, h => by
      simp only [DMap.same, Bool.and_eq_true, beq_iff_eq, List.all_eq_true, List.mem_range] at h
      have hp : a.pset = b.pset := by
        apply List.ext_getElem?
        intro i
        by_cases hi : i < a.pset.length
        · exact h.2 i hi
        · rw [List.getElem?_eq_none (by omega), List.getElem?_eq_none (by omega)]
      cases a; cases b
      simp only [DMap.ext] at he hp
      subst he hp
      rfl
  | .map _ _, .repl _, _, _, _, h => by simp [DMap.same] at h
  | .repl _, .map _ _, _, _, _, h => by simp [DMap.same] at h

/-! ### Local assignments -/

/-- what a sweep over distinct local indices does -/
def Swept (x : A ⊕ Nat) (off : List Nat → Int) (v : List Nat → V) (ls : List (List Nat)) (m m' : Mem (A ⊕ Nat) V) : Prop :=
  (∀ a, a ≠ x → m' a = m a) ∧
  ∀ y, (∃ l ∈ ls, y = off l ∧ m' x y = v l) ∨ ((∀ l ∈ ls, y ≠ off l) ∧ m' x y = m x y)

theorem evalAt_congr {m m' : Mem (A ⊕ Nat) V} {addr : A ⊕ Nat → Int} {g : List Nat} (h : ∀ a, m a (addr a) = m' a (addr a)) :
    ∀ e : Ex (A ⊕ Nat) V, e.evalAt m addr g = e.evalAt m' addr g
  | .arr a => h a
  | .scal _ => rfl
  | .gen _ => rfl
  | .un f x => by simp only [Ex.evalAt, evalAt_congr h x]
  | .bin f x y => by simp only [Ex.evalAt, evalAt_congr h x, evalAt_congr h y]
  | .tern f x y z => by simp only [Ex.evalAt, evalAt_congr h x, evalAt_congr h y, evalAt_congr h z]

theorem sweep_swept (x : A ⊕ Nat) (str : A ⊕ Nat → List Int) (gidx : List Nat → List Nat) (e : Ex (A ⊕ Nat) V) :
    ∀ (ls : List (List Nat)) (m : Mem (A ⊕ Nat) V), ls.Pairwise (fun l l' => offset (str x) (ints l) ≠ offset (str x) (ints l')) →
    Swept x (fun l => offset (str x) (ints l)) (fun l => e.evalAt m (fun a => offset (str a) (ints l)) (gidx l)) ls m (sweep x str gidx e ls m)
  | [], m, _ => ⟨fun _ _ => rfl, fun y => .inr ⟨by simp, rfl⟩⟩
  | l :: ls, m, h => by
      rw [List.pairwise_cons] at h
      have ih := sweep_swept x str gidx e ls (Function.update m x (Function.update (m x) (offset (str x) (ints l))
        (e.evalAt m (fun a => offset (str a) (ints l)) (gidx l)))) h.2
      refine ⟨fun a ha => ?_, fun y => ?_⟩
      · have := ih.1 a ha
        rw [Function.update_of_ne ha] at this
        exact this
      · rcases ih.2 y with ⟨l', h1, h2, h3⟩ | ⟨h1, h2⟩
        · refine .inl ⟨l', List.mem_cons_of_mem _ h1, h2, ?_⟩
          refine h3.trans (evalAt_congr ?_ e)
          intro a
          by_cases ha : a = x
          · subst ha
            rw [Function.update_self, Function.update_of_ne (fun he => h.1 l' h1 he.symm)]
          · rw [Function.update_of_ne ha]
        · by_cases hy : y = offset (str x) (ints l)
          · refine .inl ⟨l, List.mem_cons_self, hy, ?_⟩
            refine h2.trans ?_
            rw [Function.update_self, hy, Function.update_self]
          · refine .inr ⟨?_, ?_⟩
            · intro l' hl'
              rcases List.mem_cons.1 hl' with rfl | hl'
              · exact hy
              · exact h1 l' hl'
            · refine h2.trans ?_
              rw [Function.update_self, Function.update_of_ne hy]

theorem positions_ne : ∀ ns : List Nat, (positions ns).Pairwise (· ≠ ·)
  | [] => by simp [positions]
  | n :: ns => by
      rw [positions, List.pairwise_flatMap]
      refine ⟨fun i _ => ?_, ?_⟩
      · rw [List.pairwise_map]
        exact (positions_ne ns).imp (fun h he => h (by injection he))
      · refine (List.nodup_range (n := n)).imp ?_
        intro a b hab x hx y hy he
        obtain ⟨x', -, rfl⟩ := List.mem_map.1 hx
        obtain ⟨y', -, rfl⟩ := List.mem_map.1 hy
        injection he with he
        exact hab he

theorem ints_toNat : ∀ l : List Nat, (ints l).map Int.toNat = l
  | [] => rfl
  | x :: l => by
      have := ints_toNat l
      simp only [ints, List.map_cons, Int.toNat_natCast] at this ⊢
      rw [this]

/-- the local index at a position of a patch -/
theorem patch_at {ext : List Nat} {m : PMap} (h : m.OK ext) {sb pt : Nat} {k : List Nat} (h1 : sb < m.view.numSb) (h2 : pt < m.view.patches sb)
    (hk : InRange k (lens (m.view.ldom sb pt))) : ∃ idx, InRange idx ext ∧ m.view.sbOf idx = sb ∧ m.view.patchOf idx = pt ∧
      elemN (m.view.gdom sb pt) k = ints idx ∧ (elemN (m.view.ldom sb pt) k).map Int.toNat = m.view.toLocal idx := by
  rw [← h.part.len sb pt h1 h2] at hk
  obtain ⟨idx, e1, e2, e3, e4⟩ := h.part.only _ sb pt h1 h2 (memN_iff_elemN.2 ⟨k, hk, rfl⟩)
  obtain ⟨idx', f1, f2, f3, f4⟩ := locate h h1 h2 hk
  have : idx' = idx := by
    have := f3.symm.trans e1
    have := congrArg (List.map Int.toNat) this
    rwa [ints_toNat, ints_toNat] at this
  subst this
  exact ⟨idx', f1, f2, e4, f3, by rw [f4, ints_toNat]⟩

theorem mem_patchIdx {m : DMap} (h : m.OK) {sb : Nat} (h1 : sb < m.pmap.view.numSb) {l : List Nat} :
    l ∈ patchIdx m sb ↔ ∃ idx, InRange idx m.ext ∧ m.pmap.view.sbOf idx = sb ∧ l = m.pmap.view.toLocal idx := by
  have ok := pmap_ok h
  unfold patchIdx
  simp only [List.mem_flatMap, List.mem_range, List.mem_map, mem_positions]
  constructor
  · rintro ⟨pt, hp, k, hk, rfl⟩
    obtain ⟨idx, i1, i2, -, -, i5⟩ := patch_at ok h1 hp hk
    exact ⟨idx, i1, i2, i5⟩
  · rintro ⟨idx, i1, rfl, rfl⟩
    obtain ⟨h1, h2, k, k1, k2, k3⟩ := ok.part.home idx i1
    refine ⟨_, h2, k, by rw [← ok.part.len _ _ h1 h2]; exact k1, ?_⟩
    rw [k3, ints_toNat]

theorem mem_sbPositions {m : DMap} (h : m.OK) {sb : Nat} (h1 : sb < m.pmap.view.numSb) {l : List Nat} :
    l ∈ positions (m.pmap.view.sbExt sb) ↔ ∃ idx, InRange idx m.ext ∧ m.pmap.view.sbOf idx = sb ∧ l = m.pmap.view.toLocal idx := by
  have ok := pmap_ok h
  rw [mem_positions]
  constructor
  · intro hl
    obtain ⟨a, b, c⟩ := ok.part.local_global sb l h1 hl
    exact ⟨_, a, b, c.symm⟩
  · rintro ⟨idx, i1, rfl, rfl⟩
    exact toLocal_inRange ok i1

theorem patchIdx_ne {m : DMap} (h : m.OK) {sb : Nat} (h1 : sb < m.pmap.view.numSb) : (patchIdx m sb).Pairwise (· ≠ ·) := by
  have ok := pmap_ok h
  unfold patchIdx
  rw [List.pairwise_flatMap]
  have inj : ∀ {pt pt' : Nat} {k k' : List Nat}, pt < m.pmap.view.patches sb → pt' < m.pmap.view.patches sb →
      InRange k (lens (m.pmap.view.ldom sb pt)) → InRange k' (lens (m.pmap.view.ldom sb pt')) →
      (elemN (m.pmap.view.ldom sb pt) k).map Int.toNat = (elemN (m.pmap.view.ldom sb pt') k').map Int.toNat → pt = pt' ∧ (pt = pt' → k = k') := by
    intro pt pt' k k' hp hp' hk hk' he
    obtain ⟨idx, i1, i2, i3, i4, i5⟩ := patch_at ok h1 hp hk
    obtain ⟨idx', j1, j2, j3, j4, j5⟩ := patch_at ok h1 hp' hk'
    rw [i5, j5] at he
    have : idx = idx' := by rw [← ok.part.global_local idx i1, ← ok.part.global_local idx' j1, i2, j2, he]
    subst this
    refine ⟨i3.symm.trans j3, ?_⟩
    rintro rfl
    rw [← ok.part.len sb pt h1 hp] at hk hk'
    exact elemN_inj (ok.patch sb pt h1 hp) hk hk' (i4.trans j4.symm)
  refine ⟨fun pt hp => ?_, ?_⟩
  · rw [List.pairwise_map]
    refine (positions_ne _).imp_of_mem ?_
    intro k k' hk hk' hne he
    have hp := List.mem_range.1 hp
    exact hne ((inj hp hp (mem_positions.1 hk) (mem_positions.1 hk') he).2 rfl)
  · refine (List.nodup_range (n := m.pmap.view.patches sb)).imp_of_mem ?_
    intro pt pt' hp hp' hne x hx y hy he
    obtain ⟨k, hk, rfl⟩ := List.mem_map.1 hx
    obtain ⟨k', hk', rfl⟩ := List.mem_map.1 hy
    exact hne (inj (List.mem_range.1 hp) (List.mem_range.1 hp') (mem_positions.1 hk) (mem_positions.1 hk') he).1

/-- a sweep over the local indices of a subblock assigns the elements held -/
theorem swept_assigned {m : DMap} {str : Nat → List Int} (hlay : Layout m.ext ⟨m.pmap, str⟩) {p sb : Nat} (hp : m.pmap.subblock p = some sb)
    {x : A ⊕ Nat} {v : List Nat → V} {ls : List (List Nat)} {mem mem' : Mem (A ⊕ Nat) V} {g : List Nat → V}
    (hs : Swept x (fun l => offset (str p) (ints l)) v ls mem mem')
    (hls : ∀ l, l ∈ ls ↔ ∃ idx, InRange idx m.ext ∧ m.pmap.view.sbOf idx = sb ∧ l = m.pmap.view.toLocal idx)
    (hv : ∀ idx, InRange idx m.ext → m.pmap.view.sbOf idx = sb → v (m.pmap.view.toLocal idx) = g idx) :
    (∀ idx, InRange idx m.ext → m.pmap.subblock p = some (m.pmap.view.sbOf idx) → mem' x (offset (str p) (ints (m.pmap.view.toLocal idx))) = g idx) ∧
    ∀ y, (∀ idx, InRange idx m.ext → m.pmap.subblock p = some (m.pmap.view.sbOf idx) → y ≠ offset (str p) (ints (m.pmap.view.toLocal idx))) →
      mem' x y = mem x y := by
  constructor
  · intro idx hi hsb
    have hsb' : m.pmap.view.sbOf idx = sb := by rw [hp] at hsb; injection hsb with h; exact h.symm
    rcases hs.2 (offset (str p) (ints (m.pmap.view.toLocal idx))) with ⟨l, h1, h2, h3⟩ | ⟨h1, -⟩
    · obtain ⟨idx', i1, i2, rfl⟩ := (hls l).1 h1
      have : idx = idx' := hlay p idx idx' hi i1 (by simpa using hsb) (by simp only; rw [i2]; exact hp) h2
      subst this
      rw [h3, hv idx hi hsb']
    · exact absurd rfl (h1 _ ((hls _).2 ⟨idx, hi, hsb', rfl⟩))
  · intro y hy
    rcases hs.2 y with ⟨l, h1, h2, h3⟩ | ⟨-, h2⟩
    · obtain ⟨idx', i1, i2, rfl⟩ := (hls l).1 h1
      exact absurd h2 (hy idx' i1 (by rw [i2]; exact hp))
    · exact h2

/-- distinct local indices of elements held have distinct addresses -/
theorem addr_ne {m : DMap} {str : Nat → List Int} (hlay : Layout m.ext ⟨m.pmap, str⟩) {p sb : Nat} (hp : m.pmap.subblock p = some sb)
    {ls : List (List Nat)} (hls : ∀ l, l ∈ ls ↔ ∃ idx, InRange idx m.ext ∧ m.pmap.view.sbOf idx = sb ∧ l = m.pmap.view.toLocal idx)
    (hne : ls.Pairwise (· ≠ ·)) : ls.Pairwise fun l l' => offset (str p) (ints l) ≠ offset (str p) (ints l') := by
  refine hne.imp_of_mem ?_
  intro l l' hl hl' hne he
  obtain ⟨i, i1, i2, rfl⟩ := (hls l).1 hl
  obtain ⟨j, j1, j2, rfl⟩ := (hls l').1 hl'
  have : i = j := hlay p i j i1 j1 (by simp only; rw [i2]; exact hp) (by simp only; rw [j2]; exact hp) he
  exact hne (by rw [this])

/-! ### Index functions -/

theorem localDoms_block : ∀ {ds : List (Dist × Nat)} {sbs pts k : List Nat} {l : List Nat}, (∀ x ∈ ds, x.1.kind = .block) →
    InRange k (lens (AMap.localDoms ds sbs pts)) → elemN (AMap.localDoms ds sbs pts) k = ints l → k = l
  | [], _, _, k, l, _, hk, he => by
      cases k with
      | nil =>
        cases l with
        | nil => rfl
        | cons => simp [AMap.localDoms, elemN, ints] at he
      | cons => simp [AMap.localDoms, lens, InRange] at hk
  | x :: ds, [], pts, k, l, _, hk, he => by
      cases k with
      | nil =>
        cases l with
        | nil => rfl
        | cons => simp [AMap.localDoms, elemN, ints] at he
      | cons => simp [AMap.localDoms, lens, InRange] at hk
  | x :: ds, s :: sbs, [], k, l, _, hk, he => by
      cases k with
      | nil =>
        cases l with
        | nil => rfl
        | cons => simp [AMap.localDoms, elemN, ints] at he
      | cons => simp [AMap.localDoms, lens, InRange] at hk
  | (d, n) :: ds, s :: sbs, pt :: pts, k, l, hb, hk, he => by
      cases k with
      | nil => simp [AMap.localDoms, lens, InRange] at hk
      | cons k ks =>
        cases l with
        | nil => simp [AMap.localDoms, elemN, ints] at he
        | cons l ls =>
          have hd := hb (d, n) (by simp)
          cases d with
          | whole => simp [Dist.kind] at hd
          | cyclic => simp [Dist.kind] at hd
          | block num =>
            simp only [AMap.localDoms, Dist.patchLocalDom, elemN, ints, List.map_cons, List.cons.injEq, elem_unit] at he
            simp only [AMap.localDoms, lens, List.map_cons, InRange] at hk
            have h1 : k = l := by have := he.1; push_cast at this; omega
            rw [h1, localDoms_block (fun x hx => hb x (List.mem_cons_of_mem _ hx)) hk.2 he.2]

theorem repl_elem : ∀ {ext k : List Nat}, InRange k ext → elemN (ext.map Dom.ofLen) k = ints k
  | [], [], _ => rfl
  | n :: ns, k :: ks, h => by
      simp only [List.map_cons, elemN, repl_elem h.2, ints]
      simp [Dom.ofLen, elem_unit]
  | [], _ :: _, h => h.elim
  | _ :: _, [], h => h.elim

/-- index functions are evaluated at the global index -/
theorem genIdx_eq {m : DMap} (h : m.OK) {idx : List Nat} (hi : InRange idx m.ext) :
    genIdx m (m.pmap.view.sbOf idx) (m.pmap.view.toLocal idx) = idx := by
  have ok := pmap_ok h
  cases m with
  | repl m =>
    unfold genIdx
    show (elemN (m.ext.map Dom.ofLen) idx).map Int.toNat = idx
    rw [repl_elem (show InRange idx m.ext from hi), ints_toNat]
  | map m rest =>
    unfold genIdx
    simp only
    split
    · rename_i hb
      obtain ⟨h1, h2, k, k1, k2, k3⟩ := ok.part.home idx hi
      have hall : ∀ x ∈ m.dims, x.1.kind = .block := by
        simp only [DMap.allBlock, DMap.whole, List.all_eq_true, beq_iff_eq] at hb
        intro x hx
        exact hb x.1 (List.mem_append_left _ (List.mem_map.2 ⟨x, hx, rfl⟩))
      have hp1 : (DMap.map m rest).pmap.view.patches ((DMap.map m rest).pmap.view.sbOf idx) = 1 := by
        show (AMap.patchSizes m.dims _).prod = 1
        have : ∀ (ds : List (Dist × Nat)) (sbs : List Nat), (∀ x ∈ ds, x.1.kind = .block) → (AMap.patchSizes ds sbs).prod = 1 := by
          intro ds
          induction ds with
          | nil => intro sbs _; simp [AMap.patchSizes]
          | cons x ds ih =>
            intro sbs hb
            cases sbs with
            | nil => simp [AMap.patchSizes]
            | cons s sbs =>
              obtain ⟨d, n⟩ := x
              have hd := hb (d, n) (by simp)
              cases d with
              | whole => simp [Dist.kind] at hd
              | cyclic => simp [Dist.kind] at hd
              | block num =>
                simp only [AMap.patchSizes, Dist.subblockPatches, List.prod_cons, Nat.one_mul]
                exact ih sbs (fun y hy => hb y (List.mem_cons_of_mem _ hy))
        exact this _ _ hall
      have hp0 : (DMap.map m rest).pmap.view.patchOf idx = 0 := by omega
      rw [hp0] at k1 k2 k3 h2
      have hk : k = (DMap.map m rest).pmap.view.toLocal idx := by
        rw [ok.part.len _ _ h1 h2] at k1
        exact localDoms_block hall k1 k3
      rw [← hk, k2, ints_toNat]
    · exact ok.part.global_local idx hi

end Verif.Spmd
