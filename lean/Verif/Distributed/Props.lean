import Verif.Distributed.Instances
import Verif.Traversal.Props
/-! Properties C14–C18: distributed blocks, distributed assignment, `foreach_point`. -/
namespace Verif.Props
open Verif Spec Par

/-! ## C14 -/

/-- a sequence of `put` operations -/
def puts {V : Type} (m : PMap) (d : LocalData V) (h : List (List Nat × V)) : LocalData V :=
  h.foldl (fun d x => put m d x.1 x.2) d

/-- a shared array and the same sequence of writes -/
def shared {V : Type} (a : List Nat → V) (h : List (List Nat × V)) : List Nat → V :=
  h.foldl (fun a x => Function.update a x.1 x.2) a

/-- every processor's local data agree with the shared array -/
def Agrees {V : Type} (ext : List Nat) (m : PMap) (d : LocalData V) (a : List Nat → V) : Prop :=
  ∀ pr idx, InRange idx ext → m.subblock pr = some (m.view.sbOf idx) → d pr (m.view.toLocal idx) = a idx

theorem put_agrees {V : Type} {ext : List Nat} {m : PMap} (hm : m.OK ext) {d : LocalData V} {a : List Nat → V}
    (h : Agrees ext m d a) {i : List Nat} (hi : InRange i ext) (v : V) :
    Agrees ext m (put m d i v) (Function.update a i v) := by
  intro pr idx hidx hsb
  unfold put
  by_cases he : idx = i
  · subst he
    rw [if_pos hsb, Function.update_self, Function.update_self]
  · rw [Function.update_of_ne he]
    split
    · rename_i hs
      rw [Function.update_of_ne]
      · exact h pr idx hidx hsb
      · intro hl
        apply he
        have hsb' : m.view.sbOf idx = m.view.sbOf i := by
          rw [hs] at hsb; injection hsb with hsb; exact hsb.symm
        rw [← hm.part.global_local idx hidx, ← hm.part.global_local i hi, hl, hsb']
    · exact h pr idx hidx hsb

theorem puts_agrees {V : Type} {ext : List Nat} {m : PMap} (hm : m.OK ext) : ∀ (h : List (List Nat × V)) {d : LocalData V}
    {a : List Nat → V}, Agrees ext m d a → (∀ x ∈ h, InRange x.1 ext) → Agrees ext m (puts m d h) (shared a h)
  | [], _, _, ha, _ => ha
  | x :: h, _, _, ha, hx => puts_agrees hm h (put_agrees hm ha (hx x (by simp)) x.2) (fun y hy => hx y (by simp [hy]))

/-- **C14** for every map: after any sequence of puts by all processes, every process reads by `get` what a shared array would
hold.  (All processes belong to the communicator; `get` broadcasts from the first owner.) -/
theorem C14_map {V : Type} (m : AMap) (hm : MapOK m) (a : List Nat → V) (d : LocalData V)
    (h0 : Agrees m.ext (PMap.ofMap m) d a) (h : List (List Nat × V)) (hh : ∀ x ∈ h, InRange x.1 m.ext) (pr : Nat) (idx : List Nat)
    (hidx : InRange idx m.ext) :
    Par.get (PMap.ofMap m) false (puts (PMap.ofMap m) d h) pr idx = some (shared a h idx) := by
  have ok := ofMap_ok hm
  have hag := puts_agrees ok h h0 hh
  have hsb := (ok.part.home idx hidx).1
  unfold Par.get
  simp only [Bool.false_eq_true, if_false]
  split
  · rename_i hp; exact absurd hp (ok.owner _ hsb)
  · rename_i root rest hp
    rw [hag root idx hidx ((ok.held root _).2 ⟨hsb, by rw [hp]; simp⟩)]

/-- **C14** for a replicated map: over part of the processes (`get` broadcasts) or over all (`get` is local). -/
theorem C14_replicated {V : Type} (m : RMap) (hm : ReplOK m) (a : List Nat → V) (d : LocalData V)
    (h0 : Agrees m.ext (PMap.ofReplicated m) d a) (h : List (List Nat × V)) (hh : ∀ x ∈ h, InRange x.1 m.ext) (all : Bool) (pr : Nat)
    (hall : all = true → pr ∈ m.pset) (idx : List Nat) (hidx : InRange idx m.ext) :
    Par.get (PMap.ofReplicated m) all (puts (PMap.ofReplicated m) d h) pr idx = some (shared a h idx) := by
  have ok := ofReplicated_ok hm
  have hag := puts_agrees ok h h0 hh
  have hsb := (ok.part.home idx hidx).1
  unfold Par.get
  cases all with
  | true =>
    simp only [if_true]
    have := hag pr idx hidx ((ok.held pr _).2 ⟨hsb, hall rfl⟩)
    rw [← this]; rfl
  | false =>
    simp only [Bool.false_eq_true, if_false]
    split
    · rename_i hp; exact absurd hp (ok.owner _ hsb)
    · rename_i root rest hp
      rw [hag root idx hidx ((ok.held root _).2 ⟨hsb, by rw [hp]; simp⟩)]

/-- example: a cyclic map of 5 elements over processors 7 and 3 -/
def exMapC : AMap := ⟨[(.cyclic 2 1, 5)], [7, 3]⟩
theorem exMapC_ok : MapOK exMapC := ⟨by decide, by decide, by decide, by decide⟩
example : Agrees exMapC.ext (PMap.ofMap exMapC) (fun _ _ => 0) (fun _ => 0) ∧
    Par.get (PMap.ofMap exMapC) false (puts (PMap.ofMap exMapC) (fun _ _ => 0) [([3], 8), ([4], 9), ([3], 6)]) 7 [3] = some 6 ∧
    shared (fun _ => 0) [([3], 8), ([4], 9), ([3], 6)] [3] = 6 := ⟨fun _ _ _ _ => rfl, by decide, by decide⟩

/-! ## C15, C16 -/

/-- the processes of the communicator run `prog` -/
def within (P : List Nat) (prog : Nat → List Act) (p : Nat) : List Act := if p ∈ P then prog p else []

/-- what the destination memory must be afterwards: every element of `lhs` held by `q` has its new value, nothing else has changed -/
def Assigned {V : Type} (ext : List Nat) (L : Side) (g : List Nat → V) (before after : Nat → Int → V) : Prop :=
  ∀ q, (∀ idx, InRange idx ext → L.map.subblock q = some (L.map.view.sbOf idx) → after q (L.addr q idx) = g idx) ∧
    ∀ x, (∀ idx, InRange idx ext → L.map.subblock q = some (L.map.view.sbOf idx) → x ≠ L.addr q idx) → after q x = before q x

/-- distinct elements of a local block have distinct addresses -/
def Layout (ext : List Nat) (S : Side) : Prop := ∀ p idx idx', InRange idx ext → InRange idx' ext →
  S.map.subblock p = some (S.map.view.sbOf idx) → S.map.subblock p = some (S.map.view.sbOf idx') →
  S.addr p idx = S.addr p idx' → idx = idx'

/-- Every element of `rhs` is stored by all its holders. -/
def Holds {V : Type} (ext : List Nat) (R : Side) (g : List Nat → V) (rhs : Nat → Int → V) : Prop :=
  ∀ p idx, InRange idx ext → R.map.subblock p = some (R.map.view.sbOf idx) → rhs p (R.addr p idx) = g idx

/-- the hypotheses common to C15 and C16 -/
structure AssignOK (ext : List Nat) (L R : Side) (P : List Nat) : Prop where
  lmap : L.map.OK ext
  rmap : R.map.OK ext
  lstr : ∀ p, (L.str p).length = ext.length
  rstr : ∀ p, (R.str p).length = ext.length
  layout : Layout ext L
  pn : P.Nodup
  lin : ∀ p ∈ L.map.workers, p ∈ P
  rin : ∀ p ∈ R.map.workers, p ∈ P

theorem within_eq {ext : List Nat} {L R : Side} {P : List Nat} (h : AssignOK ext L R P) (pl : Plan ext L R) (hp : pl.OK) (p q : Nat) :
    sendsTo q (within P pl.prog p) = sendsTo q (pl.prog p) ∧ recvsFrom p (within P pl.prog q) = recvsFrom p (pl.prog q) := by
  unfold within
  constructor
  · split
    · rfl
    · rename_i hn
      rw [plan_sendsTo h.lmap h.rmap hp]
      have : R.map.subblock p = none := by
        by_contra hc; exact hn (h.rin p ((h.rmap.working p).2 hc))
      simp [msg, this, sendsTo]
  · split
    · rfl
    · rename_i hn
      rw [plan_recvsFrom h.lmap h.rmap hp]
      have : L.map.subblock q = none := by
        by_contra hc; exact hn (h.lin q ((h.lmap.working q).2 hc))
      unfold msg
      rw [this]
      cases R.map.subblock p <;> simp [recvsFrom]

/-- execution of any plan -/
theorem plan_exec {V : Type} {ext : List Nat} {L R : Side} {P : List Nat} (h : AssignOK ext L R P) (pl : Plan ext L R) (hp : pl.OK)
    (g : List Nat → V) (rhs mem : Nat → Int → V) (hr : Holds ext R g rhs) (eager : Bool) (s : St V)
    (hs : Reach eager P rhs (St.init (within P pl.prog) mem) s) :
    (¬ s.final P → ∃ p ∈ P, ∃ s', Step eager rhs s p s') ∧ (s.final P → Assigned ext L g mem s.mem) := by
  let F := fun q => run (rhs q) (fun p => (sendsTo q (within P pl.prog p)).map (fun o => o.map (rhs p))) (mem q) (within P pl.prog q)
  have hinv : Inv P rhs F (St.init (within P pl.prog) mem) := by
    apply inv_init
    · intro p
      unfold within
      split
      · exact plan_phase h.lmap h.rmap hp p
      · exact List.Pairwise.nil
    · intro p hpn; simp [within, hpn]
    · intro p q
      rw [(within_eq h pl hp p q).1, (within_eq h pl hp p q).2, plan_sendsTo h.lmap h.rmap hp, plan_recvsFrom h.lmap h.rmap hp]
      rcases plan_match h.lmap h.rmap hp p q with ⟨m1, m2⟩ | ⟨so, ro, ls, rs, -, -, -, -, -, -, m1, m2, b7⟩
      · rw [m1, m2]; simp
      · rw [m1, m2]
        simp [b7.length_eq]
    · intro q; rfl
  have hi := inv_reach hinv hs
  refine ⟨inv_progress hi, ?_⟩
  intro hf q
  rw [inv_final hi hf q]
  have hF : F q = run (rhs q) (fun p => (sendsTo q (pl.prog p)).map (fun o => o.map (rhs p))) (mem q) (within P pl.prog q) := by
    simp only [F]
    congr 1
    funext p
    rw [(within_eq h pl hp p q).1]
  cases hl : L.map.subblock q with
  | none =>
    have : F q = mem q := by
      rw [hF]
      unfold within
      split
      · exact (plan_run h.lmap h.rmap hp hr q).2 hl
      · rfl
    rw [this]
    refine ⟨?_, fun _ _ => rfl⟩
    intro idx _ hc; cases hc
  | some ls =>
    have hq : q ∈ P := h.lin q ((h.lmap.working q).2 (by rw [hl]; simp))
    rw [hF]
    simp only [within, hq, if_true]
    obtain ⟨r1, r2⟩ := (plan_run (mem := mem) h.lmap h.rmap hp hr q).1 ls hl
    refine ⟨?_, ?_⟩
    · intro idx hidx hsb
      obtain ⟨idx', i1, i2, i3, i4⟩ := r1 idx hidx (by injection hsb with hsb; exact hsb.symm)
      rw [i4]
      congr 1
      exact h.layout q idx' idx i1 hidx (by rw [hl, i2]) (by rw [hl]; exact hsb) i3.symm
    · intro x hx
      apply r2
      intro idx hidx hsb
      exact hx idx hidx (by rw [hsb])

/-- the plan of the chained assignment for data whose element is one unit of the chain -/
def chainPlan (ext order : List Nat) (L R : Side) : Plan ext L R :=
  ⟨sendRecs order L R, recvRecs order L R, copyActs 1 L R⟩

theorem scalars_one (str : List Int) (dom : List Dom) :
    scalars 1 str dom = (positions (lens dom)).map fun k => offset str (elemN dom k) := by
  unfold scalars
  induction positions (lens dom) with
  | nil => rfl
  | cons x l ih =>
    simp only [List.flatMap_cons, ih, List.map_cons]
    simp

theorem chainPlan_ok {ext order : List Nat} {L R : Side} {P : List Nat} (h : AssignOK ext L R P) (ho : IsOrder ext.length order) :
    (chainPlan ext order L R).OK := by
  have hnum : ∀ (S : Side), S.map.OK ext → ∀ p sb, S.map.subblock p = some sb → sb < S.map.view.numSb :=
    fun S hS p sb hs => ((hS.held p sb).1 hs).1
  constructor
  · intro p q ls rs h1 h2
    exact recs_rel h.lmap h.rmap ho (h.lstr q) (h.rstr p) (hnum L h.lmap q ls h1) (hnum R h.rmap p rs h2)
  · intro q idx hidx _
    exact recs_cover h.lmap h.rmap ho (h.lstr q) hidx
  · intro p a ha
    simp only [chainPlan, copyActs] at ha
    split at ha
    · obtain ⟨dp, -, ha⟩ := List.mem_flatMap.1 ha
      obtain ⟨sp, -, ha⟩ := List.mem_flatMap.1 ha
      split at ha
      · simp only [List.mem_singleton] at ha; subst ha; rfl
      · simp at ha
    · simp at ha
  · intro p src dst ha
    simp only [chainPlan, copyActs] at ha
    split at ha
    · rename_i ls rs hl hr
      refine ⟨ls, rs, hl, hr, ?_⟩
      have n1 := hnum L h.lmap p ls hl
      have n2 := hnum R h.rmap p rs hr
      obtain ⟨dp, hdp, ha⟩ := List.mem_flatMap.1 ha
      obtain ⟨sp, hsp, ha⟩ := List.mem_flatMap.1 ha
      have hdp := List.mem_range.1 hdp
      have hsp := List.mem_range.1 hsp
      split at ha
      · rename_i intr hi
        simp only [List.mem_singleton, Act.copy.injEq] at ha
        obtain ⟨rfl, rfl⟩ := ha
        obtain ⟨e1, e2, -, -⟩ := patchN_some (h.rmap.patch rs sp n2 hsp) (h.lmap.patch ls dp n1 hdp) hi
        rw [scalars_one, scalars_one, e1, e2, List.forall₂_map_left_iff, List.forall₂_map_right_iff, List.forall₂_same]
        intro k hk
        exact same_of_pos h.lmap h.rmap n1 n2 hdp hsp hi (mem_positions.1 hk) p p
      · simp at ha
    · simp at ha
  · intro p idx hidx hl hr
    obtain ⟨dp, sp, intr, k, a1, a2, a3, a4, a5⟩ := pos_of_idx h.lmap h.rmap hidx
    have n1 := hnum L h.lmap p _ hl
    have n2 := hnum R h.rmap p _ hr
    obtain ⟨e1, e2, -, -⟩ := patchN_some (h.rmap.patch _ sp n2 a2) (h.lmap.patch _ dp n1 a1) a3
    have hmem : L.addr p idx ∈ scalars 1 (L.str p) (applyIntrN (L.map.view.ldom (L.map.view.sbOf idx) dp)
        (L.map.view.gdom (L.map.view.sbOf idx) dp) intr) := by
      rw [scalars_one, e2]
      exact List.mem_map.2 ⟨k, mem_positions.2 a4, by rw [a5]; rfl⟩
    have hact : Act.copy (scalars 1 (R.str p) (applyIntrN (R.map.view.ldom (R.map.view.sbOf idx) sp) (R.map.view.gdom (R.map.view.sbOf idx) sp) intr))
        (scalars 1 (L.str p) (applyIntrN (L.map.view.ldom (L.map.view.sbOf idx) dp) (L.map.view.gdom (L.map.view.sbOf idx) dp) intr)) ∈
        copyActs 1 L R p := by
      unfold copyActs
      rw [hl, hr]
      simp only
      refine List.mem_flatMap.2 ⟨dp, List.mem_range.2 a1, List.mem_flatMap.2 ⟨sp, List.mem_range.2 a2, ?_⟩⟩
      rw [a3]
      simp
    exact mem_touched_copy hact hmem
where
  mem_touched_copy {as : List Act} {s o : List Int} {x : Int} (h : Act.copy s o ∈ as) (hx : x ∈ o) : x ∈ touched as := by
    induction as with
    | nil => simp at h
    | cons a as ih =>
      rcases List.mem_cons.1 h with rfl | h'
      · simp [touched, hx]
      · have := ih h'
        cases a <;> simp [touched, this]


/-- **C15** (partial: data whose element is one unit of the chain, i.e. all types but interleaved complex; see `C15_complex_false`).
Chained assignment between any two arrays whose maps partition the same index space: in whatever order the processes run
and however the MPI library buffers, when all have finished every process holds the right-hand side's value in every element it
holds of the left-hand side, and no other memory has changed. -/
theorem C15_chained_partial {V : Type} (ext order : List Nat) (L R : Side) (P : List Nat) (h : AssignOK ext L R P)
    (ho : IsOrder ext.length order) (g : List Nat → V) (rhs mem : Nat → Int → V) (hr : Holds ext R g rhs) (eager : Bool) (s : St V)
    (hs : Reach eager P rhs (St.init (within P (assignProg 1 order L R)) mem) s) (hf : s.final P) : Assigned ext L g mem s.mem :=
  (plan_exec h (chainPlan ext order L R) (chainPlan_ok h ho) g rhs mem hr eager s hs).2 hf

/-- **C15**, instance: both sides are distributed by a `Map`.
Missing: interleaved complex data, as above. -/
theorem C15_maps_partial {V : Type} (l r : AMap) (hl : MapOK l) (hr : MapOK r) (hext : l.ext = r.ext) (order : List Nat)
    (ho : IsOrder l.ext.length order) (lstr rstr : Nat → List Int) (h1 : ∀ p, (lstr p).length = l.ext.length)
    (h2 : ∀ p, (rstr p).length = l.ext.length) (P : List Nat) (hP : P.Nodup) (h3 : ∀ p ∈ l.pvec ++ r.pvec, p ∈ P)
    (hlay : Layout l.ext ⟨PMap.ofMap l, lstr⟩) (g : List Nat → V) (rhs mem : Nat → Int → V)
    (hold : Holds l.ext ⟨PMap.ofMap r, rstr⟩ g rhs) (eager : Bool) (s : St V)
    (hs : Reach eager P rhs (St.init (within P (assignProg 1 order ⟨PMap.ofMap l, lstr⟩ ⟨PMap.ofMap r, rstr⟩)) mem) s)
    (hf : s.final P) : Assigned l.ext ⟨PMap.ofMap l, lstr⟩ g mem s.mem :=
  C15_chained_partial l.ext order _ _ P
    ⟨ofMap_ok hl, hext ▸ ofMap_ok hr, h1, h2, hlay, hP, fun p hp => h3 p (List.mem_append_left _ (List.mem_of_mem_take hp)),
      fun p hp => h3 p (List.mem_append_right _ (List.mem_of_mem_take hp))⟩ ho g rhs mem hold eager s hs hf

/-- **C15**, instance: from a `Map` to a `Replicated_map` (the way distributed data become local, assign_local.hpp).
Missing: interleaved complex data, as above. -/
theorem C15_replicate_partial {V : Type} (l : RMap) (r : AMap) (hl : ReplOK l) (hr : MapOK r) (hext : l.ext = r.ext) (order : List Nat)
    (ho : IsOrder l.ext.length order) (lstr rstr : Nat → List Int) (h1 : ∀ p, (lstr p).length = l.ext.length)
    (h2 : ∀ p, (rstr p).length = l.ext.length) (P : List Nat) (hP : P.Nodup) (h3 : ∀ p ∈ l.pset ++ r.pvec, p ∈ P)
    (hlay : Layout l.ext ⟨PMap.ofReplicated l, lstr⟩) (g : List Nat → V) (rhs mem : Nat → Int → V)
    (hold : Holds l.ext ⟨PMap.ofMap r, rstr⟩ g rhs) (eager : Bool) (s : St V)
    (hs : Reach eager P rhs (St.init (within P (assignProg 1 order ⟨PMap.ofReplicated l, lstr⟩ ⟨PMap.ofMap r, rstr⟩)) mem) s)
    (hf : s.final P) : Assigned l.ext ⟨PMap.ofReplicated l, lstr⟩ g mem s.mem :=
  C15_chained_partial l.ext order _ _ P
    ⟨ofReplicated_ok hl, hext ▸ ofMap_ok hr, h1, h2, hlay, hP, fun p hp => h3 p (List.mem_append_left _ hp),
      fun p hp => h3 p (List.mem_append_right _ (List.mem_of_mem_take hp))⟩ ho g rhs mem hold eager s hs hf

theorem scatter_out {V : Type} : ∀ (offs : List Int) (vals : List V) (mem : Int → V) (x : Int), x ∉ offs → scatter mem offs vals x = mem x
  | [], _, _, _, _ => by simp [scatter]
  | _ :: _, [], _, _, _ => by simp [scatter]
  | o :: os, v :: vs, mem, x, h => by
      simp only [List.mem_cons, not_or] at h
      rw [scatter, scatter_out os vs _ x h.2, Function.update_of_ne h.1]

theorem untouched {V : Type} {eager : Bool} {P : List Nat} {rhs : Nat → Int → V} {prog : Nat → List Act} {mem : Nat → Int → V} {s : St V}
    (hs : Reach eager P rhs (St.init prog mem) s) (q : Nat) (x : Int) (hx : x ∉ touched (prog q)) :
    x ∉ touched (s.todo q) ∧ s.mem q x = mem q x := by
  induction hs with
  | refl => exact ⟨hx, rfl⟩
  | step _ _ hst ih =>
    rename_i s1 s2 p _ _
    obtain ⟨i1, i2⟩ := ih
    cases hst with
    | send d offs as ht =>
      by_cases hq : q = p
      · subst hq; rw [ht] at i1
        exact ⟨by simpa [touched] using i1, i2⟩
      · exact ⟨by simpa [Function.update_of_ne hq] using i1, i2⟩
    | copy a b as ht =>
      by_cases hq : q = p
      · subst hq; rw [ht] at i1
        simp only [touched, List.mem_append, not_or] at i1
        exact ⟨by simpa using i1.2, by simp only [Function.update_self]; rw [scatter_out _ _ _ _ i1.1]; exact i2⟩
      · exact ⟨by simpa [Function.update_of_ne hq] using i1, by simpa [Function.update_of_ne hq] using i2⟩
    | recv r offs as vals vs ht _ _ =>
      by_cases hq : q = p
      · subst hq; rw [ht] at i1
        simp only [touched, List.mem_append, not_or] at i1
        exact ⟨by simpa using i1.2, by simp only [Function.update_self]; rw [scatter_out _ _ _ _ i1.1]; exact i2⟩
      · exact ⟨by simpa [Function.update_of_ne hq] using i1, by simpa [Function.update_of_ne hq] using i2⟩
    | wait as ht _ =>
      by_cases hq : q = p
      · subst hq; rw [ht] at i1
        exact ⟨by simpa [touched] using i1, i2⟩
      · exact ⟨by simpa [Function.update_of_ne hq] using i1, i2⟩

def exWhole (p : Nat) : AMap := ⟨[(.block 1, 2)], [p]⟩
theorem exWhole_ok (p : Nat) : MapOK (exWhole p) := ⟨by simp [exWhole, Dist.OK], by simp [exWhole], by simp [exWhole], rfl⟩

/-- **C15 is false for interleaved complex data** (an element is two scalars, but `element_type` is the scalar type, so chains describe
one scalar per element): two complex elements move from process 1 to process 0; in no execution is the second element (scalars
2 and 3) delivered. -/
theorem C15_complex_false : MapOK (exWhole 0) ∧ MapOK (exWhole 1) ∧
    ∀ (eager : Bool) (rhs mem : Nat → Int → Int) (s : St Int),
      Reach eager [0, 1] rhs (St.init (within [0, 1] (assignProg 2 [0] ⟨PMap.ofMap (exWhole 0), fun _ => [1]⟩
        ⟨PMap.ofMap (exWhole 1), fun _ => [1]⟩)) mem) s → s.mem 0 2 = mem 0 2 ∧ s.mem 0 3 = mem 0 3 := by
  refine ⟨exWhole_ok 0, exWhole_ok 1, ?_⟩
  intro eager rhs mem s hs
  exact ⟨(untouched hs 0 2 (by decide)).2, (untouched hs 0 3 (by decide)).2⟩

/-! C16 -/

/-- **C16**, consistency of the plans: for every ordered pair of processes, the messages `p` sends to `q` and those `q` expects from
`p` are the same in number and, message by message, walk through the same elements; nobody sends to itself or to a process that
holds the data already. -/
theorem C16_matched (ext order : List Nat) (L R : Side) (P : List Nat) (h : AssignOK ext L R P) (ho : IsOrder ext.length order) (p q : Nat) :
    List.Forall₂ (fun s r => List.Forall₂ (fun x y => ∃ idx, InRange idx ext ∧ R.map.subblock p = some (R.map.view.sbOf idx) ∧
        L.map.subblock q = some (L.map.view.sbOf idx) ∧ x = R.addr p idx ∧ y = L.addr q idx) s r)
      (sendsTo q (assignProg 1 order L R p)) (recvsFrom p (assignProg 1 order L R q)) ∧
    (sendsTo q (assignProg 1 order L R p) ≠ [] → p ≠ q ∧ ∀ rs, R.map.subblock p = some rs → R.map.subblock q ≠ some rs) := by
  have hp := chainPlan_ok (order := order) h ho
  have e1 : assignProg 1 order L R = (chainPlan ext order L R).prog := rfl
  rw [e1, plan_sendsTo h.lmap h.rmap hp, plan_recvsFrom h.lmap h.rmap hp]
  rcases plan_match h.lmap h.rmap hp p q with ⟨m1, m2⟩ | ⟨so, ro, ls, rs, b1, b2, b3, b4, -, -, m1, m2, b7⟩
  · rw [m1, m2]; simp
  · rw [m1, m2]
    refine ⟨?_, fun _ => ⟨b3.symm, ?_⟩⟩
    · refine List.Forall₂.cons ?_ .nil
      refine b7.imp ?_
      rintro x y ⟨idx, i1, i2, i3, i4, i5⟩
      exact ⟨idx, i1, by rw [i2, b2], by rw [i3, b1], i4, i5⟩
    · intro rs' hrs' hc
      rw [b2] at hrs'
      cases hrs'
      exact b4 ((h.rmap.held q rs).1 hc).2

/-- **C16**, completion: in every reachable state either all processes have finished or one can go on, and every step brings the end one
step nearer; hence every schedule completes after exactly as many steps as there are actions. -/
theorem C16_completes {V : Type} (ext order : List Nat) (L R : Side) (P : List Nat) (h : AssignOK ext L R P)
    (ho : IsOrder ext.length order) (rhs mem : Nat → Int → V) (eager : Bool) (s : St V)
    (hs : Reach eager P rhs (St.init (within P (assignProg 1 order L R)) mem) s) :
    (s.final P ∨ ∃ p ∈ P, ∃ s', Step eager rhs s p s') ∧ ∀ p ∈ P, ∀ s', Step eager rhs s p s' → s'.left P + 1 = s.left P := by
  refine ⟨?_, fun p hp s' hst => step_left h.pn hp hst⟩
  by_cases hf : s.final P
  · exact Or.inl hf
  · right
    -- progress does not depend on the contents: take the contents as the array
    let F := fun q => run (rhs q) (fun p => (sendsTo q (within P (assignProg 1 order L R) p)).map (fun o => o.map (rhs p))) (mem q)
      (within P (assignProg 1 order L R) q)
    have hp := chainPlan_ok (order := order) h ho
    have hinv : Inv P rhs F (St.init (within P (assignProg 1 order L R)) mem) := by
      apply inv_init
      · intro p
        unfold within
        split
        · exact plan_phase h.lmap h.rmap hp p
        · exact List.Pairwise.nil
      · intro p hpn; simp [within, hpn]
      · intro p q
        have e := within_eq h (chainPlan ext order L R) hp p q
        rw [show assignProg 1 order L R = (chainPlan ext order L R).prog from rfl, e.1, e.2, plan_sendsTo h.lmap h.rmap hp,
          plan_recvsFrom h.lmap h.rmap hp]
        rcases plan_match h.lmap h.rmap hp p q with ⟨m1, m2⟩ | ⟨so, ro, ls, rs, -, -, -, -, -, -, m1, m2, b7⟩
        · rw [m1, m2]; simp
        · rw [m1, m2]
          simp [b7.length_eq]
      · intro q; rfl
    exact inv_progress (inv_reach hinv hs) hf

/-! example: 5 elements, cyclic over processes 7 and 3 → block over 3 and 4, plain vectors -/
def exL : AMap := ⟨[(.block 2, 5)], [3, 4]⟩
theorem exL_ok : MapOK exL := ⟨by decide, by decide, by decide, by decide⟩
def exLS : Side := ⟨PMap.ofMap exL, fun _ => [1]⟩
def exRS : Side := ⟨PMap.ofMap exMapC, fun _ => [2]⟩
theorem exAssign : AssignOK [5] exLS exRS [3, 4, 7] :=
  ⟨ofMap_ok exL_ok, ofMap_ok exMapC_ok, fun _ => rfl, fun _ => rfl,
    by
      intro p idx idx' h h' hs hs' he
      obtain ⟨i, rfl⟩ := len1 (inRange_length h)
      obtain ⟨j, rfl⟩ := len1 (inRange_length h')
      simp only [InRange, and_true] at h h'
      rw [hs] at hs'
      revert hs' he
      clear hs
      have hc : ∀ i < 5, ∀ j < 5, some (exLS.map.view.sbOf [i]) = some (exLS.map.view.sbOf [j]) →
          offset [1] (ints (exLS.map.view.toLocal [i])) = offset [1] (ints (exLS.map.view.toLocal [j])) → [i] = [j] := by decide
      exact hc i h j h',
    by decide, by decide, by decide⟩
example : IsOrder [5].length [0] := ⟨.refl _, by decide, by decide⟩
example : assignProg 1 [0] exLS exRS 7 = [.send 3 [0, 2], .send 4 [4], .wait] ∧
    assignProg 1 [0] exLS exRS 3 = [.send 4 [2], .copy [0] [1], .recv 7 [0, 2], .wait] ∧
    assignProg 1 [0] exLS exRS 4 = [.recv 7 [1], .recv 3 [0], .wait] := by decide
example : Holds [5] exRS (fun i => i) (fun p x => if p = 7 then [x.toNat] else if x = 0 then [1] else [3]) := by
  intro p idx h hs
  obtain ⟨i, rfl⟩ := len1 (inRange_length h)
  simp only [InRange, and_true] at h
  have h1 := List.mem_of_getElem? ((subblock_iff exMapC_ok p _).1 hs)
  have hp : p = 7 ∨ p = 3 := by simpa [exMapC] using h1
  have hc : ∀ p ∈ [7, 3], ∀ i < 5, exRS.map.subblock p = some (exRS.map.view.sbOf [i]) →
      (if p = 7 then [(exRS.addr p [i]).toNat] else if exRS.addr p [i] = 0 then [1] else [3]) = [i] := by decide
  exact hc p (by simpa using hp) i h hs

end Verif.Props
