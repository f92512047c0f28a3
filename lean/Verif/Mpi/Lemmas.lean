import Verif.Mpi.Model
import Mathlib.Data.List.Perm.Basic
import Mathlib.Data.List.Nodup
import Mathlib.Tactic.ByContra
import Mathlib.Tactic.Push
/-!
Lemmas about groups, and about programs of tasks as one sequence of collective calls.
-/
namespace Verif.Mpi
open Verif

/-! ### Groups -/

theorem Group.mem_of (l : List Nat) : (Group.of l).mem = l := by
  unfold Group.of Group.mem
  by_cases h : l = []
  · simp [h]
  · simp [h]

theorem chosen_filterMap (l : List Nat) : ∀ (rs : List Int), (∀ r ∈ rs, 0 ≤ r ∧ r < (l.length : Int)) → Chosen l rs (rs.filterMap fun r => l[r.toNat]?)
  | [], _ => ⟨rfl, by intro i k h; simp at h⟩
  | r :: rs, h => by
    have ih := chosen_filterMap l rs (fun x hx => h x (List.mem_cons_of_mem _ hx))
    have h0 := h r List.mem_cons_self
    have hl : r.toNat < l.length := by omega
    have e : (r :: rs).filterMap (fun r => l[r.toNat]?) = l[r.toNat] :: rs.filterMap (fun r => l[r.toNat]?) := by
      rw [List.filterMap_cons_some]; simp [hl]
    rw [e]
    refine ⟨by simp [ih.1], ?_⟩
    intro i k hk
    cases i with
    | zero => simp at hk; subst hk; simp [hl]
    | succ i => simp at hk; simpa using ih.2 i k hk

theorem chosen_unique {l : List Nat} {rs : List Int} {r r' : List Nat} (h : Chosen l rs r) (h' : Chosen l rs r') : r = r' := by
  apply List.ext_getElem?
  intro i
  by_cases hi : i < rs.length
  · rw [h.2 i rs[i] (by simp [hi]), h'.2 i rs[i] (by simp [hi])]
  · rw [List.getElem?_eq_none (by have := h.1; omega), List.getElem?_eq_none (by have := h'.1; omega)]

theorem nodup_get {l : List Nat} (h : l.Nodup) {i j p : Nat} (hi : l[i]? = some p) (hj : l[j]? = some p) : i = j := by
  obtain ⟨hi', ei⟩ := List.getElem?_eq_some_iff.mp hi
  obtain ⟨hj', ej⟩ := List.getElem?_eq_some_iff.mp hj
  exact (List.Nodup.getElem_inj_iff h).mp (ei.trans ej.symm)

theorem nodup_of_get {l : List Nat} (h : ∀ (i j p : Nat), l[i]? = some p → l[j]? = some p → i = j) : l.Nodup := by
  rw [List.nodup_iff_injective_getElem]
  intro i j e
  apply Fin.ext
  exact h i j l[i] (by simp) (by simp [e])

theorem nodup_getI {l : List Int} (h : l.Nodup) {i j : Nat} {p : Int} (hi : l[i]? = some p) (hj : l[j]? = some p) : i = j := by
  obtain ⟨hi', ei⟩ := List.getElem?_eq_some_iff.mp hi
  obtain ⟨hj', ej⟩ := List.getElem?_eq_some_iff.mp hj
  exact (List.Nodup.getElem_inj_iff h).mp (ei.trans ej.symm)

theorem chosen_nodup {l : List Nat} {rs : List Int} {r : List Nat} (hl : l.Nodup) (hr : Ranks l.length rs) (h : Chosen l rs r) : r.Nodup := by
  apply nodup_of_get
  intro i j p hi hj
  have li : i < rs.length := by have := (List.getElem?_eq_some_iff.mp hi).1; have := h.1; omega
  have lj : j < rs.length := by have := (List.getElem?_eq_some_iff.mp hj).1; have := h.1; omega
  rw [h.2 i rs[i] (by simp [li])] at hi
  rw [h.2 j rs[j] (by simp [lj])] at hj
  have e := nodup_get hl hi hj
  have b1 := hr.2 rs[i] (List.getElem_mem li)
  have b2 := hr.2 rs[j] (List.getElem_mem lj)
  have e' : rs[i] = rs[j] := by omega
  exact nodup_getI hr.1 (p := rs[i]) (by simp [li]) (by simp [lj, e'])

theorem sublist_filter {r l : List Nat} (h : r.Sublist l) (hl : l.Nodup) : r = l.filter (fun x => x ∈ r) := by
  induction h with
  | slnil => rfl
  | @cons r l a hs ih =>
    have ha : a ∉ r := fun hm => (List.nodup_cons.mp hl).1 (hs.subset hm)
    rw [List.filter_cons_of_neg (by simpa using ha)]
    exact ih (List.nodup_cons.mp hl).2
  | @cons_cons r l a hs ih =>
    rw [List.filter_cons_of_pos (by simp)]
    congr 1
    have e := ih (List.nodup_cons.mp hl).2
    have hal := (List.nodup_cons.mp hl).1
    refine e.trans (List.filter_congr ?_)
    intro x hx
    have : x ≠ a := fun e => hal (e ▸ hx)
    simp [this]

theorem sublist_ext {r r' l : List Nat} (h : r.Sublist l) (h' : r'.Sublist l) (hl : l.Nodup) (e : ∀ p, p ∈ r ↔ p ∈ r') : r = r' := by
  rw [sublist_filter h hl, sublist_filter h' hl]
  apply List.filter_congr
  intro x _
  simp [e x]

theorem others_sub (l : List Nat) (rs : List Int) : ((l.zipIdx.filter fun x => ¬(x.2 : Int) ∈ rs).map (·.1)).Sublist l := by
  have h : ((l.zipIdx.filter fun x => ¬(x.2 : Int) ∈ rs).map (·.1)).Sublist (l.zipIdx.map (·.1)) := (List.filter_sublist).map _
  simpa using h

theorem others_mem (l : List Nat) (rs : List Int) (p : Nat) :
    p ∈ ((l.zipIdx.filter fun x => ¬(x.2 : Int) ∈ rs).map (·.1)) ↔ ∃ k : Nat, l[k]? = some p ∧ (k : Int) ∉ rs := by
  simp only [List.mem_map, List.mem_filter, decide_eq_true_eq]
  constructor
  · rintro ⟨⟨q, k⟩, ⟨h1, h2⟩, rfl⟩
    exact ⟨k, List.mem_zipIdx_iff_getElem?.mp h1, h2⟩
  · rintro ⟨k, h1, h2⟩
    exact ⟨(p, k), ⟨List.mem_zipIdx_iff_getElem?.mpr h1, h2⟩, rfl⟩

theorem others_ok {l : List Nat} (hl : l.Nodup) (rs : List Int) : Others l rs ((l.zipIdx.filter fun x => ¬(x.2 : Int) ∈ rs).map (·.1)) := by
  refine ⟨others_sub l rs, ?_⟩
  intro k p hk
  rw [others_mem]
  constructor
  · rintro ⟨j, hj, h⟩
    rwa [nodup_get hl hk hj]
  · exact fun h => ⟨k, hk, h⟩

theorem others_unique {l : List Nat} (hl : l.Nodup) {rs : List Int} {r r' : List Nat} (h : Others l rs r) (h' : Others l rs r') : r = r' := by
  apply sublist_ext h.1 h'.1 hl
  intro p
  constructor
  · intro hp
    obtain ⟨k, hk⟩ := List.mem_iff_getElem?.mp (h.1.subset hp)
    exact (h'.2 k p hk).mpr ((h.2 k p hk).mp hp)
  · intro hp
    obtain ⟨k, hk⟩ := List.mem_iff_getElem?.mp (h'.1.subset hp)
    exact (h.2 k p hk).mpr ((h'.2 k p hk).mp hp)

theorem part_filter (l : List Nat) (P : Nat → Prop) [DecidablePred P] : Part l P (l.filter fun p => P p) :=
  ⟨List.filter_sublist, by intro p; simp⟩

theorem part_unique {l : List Nat} (hl : l.Nodup) {P : Nat → Prop} {r r' : List Nat} (h : Part l P r) (h' : Part l P r') : r = r' :=
  sublist_ext h.1 h'.1 hl fun p => (h.2 p).trans (h'.2 p).symm

theorem part_nodup {l : List Nat} (hl : l.Nodup) {P : Nat → Prop} {r : List Nat} (h : Part l P r) : r.Nodup := hl.sublist h.1

theorem denotes_nodup {n : Nat} {e : GExpr} {l : List Nat} (h : Denotes n e l) : l.Nodup := by
  induction h with
  | all => exact List.nodup_range
  | incl _ hr hc ih => exact chosen_nodup ih hr hc
  | excl _ _ ho ih => exact ih.sublist ho.1
  | union _ _ hp ih1 ih2 =>
    refine List.nodup_append.mpr ⟨ih1, part_nodup ih2 hp, ?_⟩
    rintro a ha b hb rfl
    exact ((hp.2 _).mp hb).2 ha
  | inter _ _ hp ih1 _ => exact part_nodup ih1 hp
  | diff _ _ hp ih1 _ => exact part_nodup ih1 hp

/-- no range given to the function `exclude` for any iterators is empty -/
def NoEmpty : GExpr → Prop
  | .all => True
  | .incl _ e _ => NoEmpty e
  | .excl gen e rs => ¬(gen ∧ rs = []) ∧ NoEmpty e
  | .union a b | .inter a b | .diff a b => NoEmpty a ∧ NoEmpty b

theorem bind_ok {A B : Type} {r : Res A} {f : A → Res B} {b : B} (h : r.bind f = .ok b) : ∃ a, r = .ok a ∧ f a = .ok b := by
  cases r with
  | ok a => exact ⟨a, rfl, h⟩
  | ub => cases h
  | throws => cases h
  | terminate => cases h

theorem eval_sound (n : Nat) : ∀ (e : GExpr), NoEmpty e → ∀ g, eval n e = .ok g → Denotes n e g.mem := by
  intro e
  induction e with
  | all =>
    intro _ g h
    cases h
    rw [Group.mem_of]
    exact .all
  | incl gen e rs ih =>
    intro hn g h
    obtain ⟨g', h1, h2⟩ := bind_ok h
    have d := ih hn g' h1
    unfold incl at h2
    split at h2
    · next c =>
      cases h2
      refine .incl d ?_ ?_
      · rw [c.2]; exact ⟨List.nodup_nil, by simp⟩
      · rw [c.2]; exact ⟨rfl, by intro i k hk; simp at hk⟩
    · obtain ⟨l, h3, h4⟩ := bind_ok h2
      unfold mpiIncl at h3
      split at h3
      · next hr =>
        cases h3
        cases h4
        rw [Group.mem_of]
        exact .incl d hr (chosen_filterMap _ _ hr.2)
      · cases h3
  | excl gen e rs ih =>
    intro hn g h
    obtain ⟨g', h1, h2⟩ := bind_ok h
    have d := ih hn.2 g' h1
    unfold excl at h2
    rw [if_neg hn.1] at h2
    obtain ⟨l, h3, h4⟩ := bind_ok h2
    unfold mpiExcl at h3
    split at h3
    · next hr =>
      cases h3
      cases h4
      rw [Group.mem_of]
      exact .excl d hr (others_ok (denotes_nodup d) rs)
    · cases h3
  | union a b iha ihb =>
    intro hn g h
    obtain ⟨ga, h1, h2⟩ := bind_ok h
    obtain ⟨gb, h3, h4⟩ := bind_ok h2
    cases h4
    unfold gunion
    rw [Group.mem_of]
    exact .union (iha hn.1 ga h1) (ihb hn.2 gb h3) (part_filter _ (fun p => ¬p ∈ ga.mem))
  | inter a b iha ihb =>
    intro hn g h
    obtain ⟨ga, h1, h2⟩ := bind_ok h
    obtain ⟨gb, h3, h4⟩ := bind_ok h2
    cases h4
    unfold ginter
    rw [Group.mem_of]
    exact .inter (iha hn.1 ga h1) (ihb hn.2 gb h3) (part_filter _ (fun p => p ∈ gb.mem))
  | diff a b iha ihb =>
    intro hn g h
    obtain ⟨ga, h1, h2⟩ := bind_ok h
    obtain ⟨gb, h3, h4⟩ := bind_ok h2
    cases h4
    unfold gdiff
    rw [Group.mem_of]
    exact .diff (iha hn.1 ga h1) (ihb hn.2 gb h3) (part_filter _ (fun p => ¬p ∈ gb.mem))

theorem eval_complete (n : Nat) {e : GExpr} {l : List Nat} (h : Denotes n e l) : NoEmpty e → ∃ g, eval n e = .ok g ∧ g.mem = l := by
  induction h with
  | all => exact fun _ => ⟨_, rfl, Group.mem_of _⟩
  | @incl gen e rs l r d hr hc ih =>
    intro hn
    obtain ⟨g, h1, h2⟩ := ih hn
    subst h2
    have e1 : eval n (.incl gen e rs) = incl gen g rs := by simp only [eval, h1, Res.bind]
    rw [e1]
    unfold incl
    by_cases c : gen ∧ rs = []
    · rw [if_pos c]
      refine ⟨_, rfl, ?_⟩
      have := hc.1
      rw [c.2] at this
      have : r = [] := List.eq_nil_of_length_eq_zero this
      rw [this]; rfl
    · rw [if_neg c, mpiIncl, if_pos hr]
      exact ⟨_, rfl, (Group.mem_of _).trans (chosen_unique (chosen_filterMap _ _ hr.2) hc)⟩
  | @excl gen e rs l r d hr ho ih =>
    intro hn
    obtain ⟨g, h1, h2⟩ := ih hn.2
    subst h2
    have e1 : eval n (.excl gen e rs) = excl gen g rs := by simp only [eval, h1, Res.bind]
    rw [e1, excl, if_neg hn.1, mpiExcl, if_pos hr]
    exact ⟨_, rfl, (Group.mem_of _).trans (others_unique (denotes_nodup d) (others_ok (denotes_nodup d) rs) ho)⟩
  | @union a b l m r da db hp iha ihb =>
    intro hn
    obtain ⟨ga, h1, rfl⟩ := iha hn.1
    obtain ⟨gb, h3, rfl⟩ := ihb hn.2
    refine ⟨gunion ga gb, by simp only [eval, h1, h3, Res.bind], ?_⟩
    unfold gunion
    rw [Group.mem_of, part_unique (denotes_nodup db) (part_filter _ (fun p => ¬p ∈ ga.mem)) hp]
  | @inter a b l m r da db hp iha ihb =>
    intro hn
    obtain ⟨ga, h1, rfl⟩ := iha hn.1
    obtain ⟨gb, h3, rfl⟩ := ihb hn.2
    refine ⟨ginter ga gb, by simp only [eval, h1, h3, Res.bind], ?_⟩
    unfold ginter
    rw [Group.mem_of, part_unique (denotes_nodup da) (part_filter _ (fun p => p ∈ gb.mem)) hp]
  | @diff a b l m r da db hp iha ihb =>
    intro hn
    obtain ⟨ga, h1, rfl⟩ := iha hn.1
    obtain ⟨gb, h3, rfl⟩ := ihb hn.2
    refine ⟨gdiff ga gb, by simp only [eval, h1, h3, Res.bind], ?_⟩
    unfold gdiff
    rw [Group.mem_of, part_unique (denotes_nodup da) (part_filter _ (fun p => ¬p ∈ gb.mem)) hp]

/-! ### Selected processes -/

theorem sel_sub (l : List Nat) : ∀ (s : Sel), ∀ p ∈ sel l s, p ∈ l
  | .these rs, p, h => by
    simp only [sel, List.mem_filterMap] at h
    obtain ⟨r, _, h⟩ := h
    exact List.mem_of_getElem? h
  | .others rs, p, h => (others_sub l rs).subset h

theorem these_length {l : List Nat} {rs : List Int} (h : Ranks l.length rs) : (sel l (.these rs)).length = rs.length := (chosen_filterMap l rs h.2).1

theorem others_length {l : List Nat} {rs : List Int} (h : Ranks l.length rs) : (sel l (.others rs)).length = l.length - rs.length := by
  have e : (sel l (.others rs)).length = ((List.range l.length).filter fun k : Nat => ¬(k : Int) ∈ rs).length := by
    simp only [sel, List.length_map]
    have : (l.zipIdx.map (·.2)) = List.range l.length := by
      rw [List.zipIdx_map_snd, List.range_eq_range']
    rw [← this, List.filter_map, List.length_map]
    rfl
  rw [e]
  have p : (((List.range l.length).filter fun k : Nat => (k : Int) ∈ rs).map fun k : Nat => (k : Int)).Perm rs := by
    refine (List.perm_ext_iff_of_nodup ?_ h.1).mpr ?_
    · exact List.Nodup.map (fun a b e => Int.ofNat.inj e) (List.nodup_range.filter _)
    · intro z
      simp only [List.mem_map, List.mem_filter, List.mem_range, decide_eq_true_eq]
      constructor
      · rintro ⟨k, ⟨_, hk⟩, rfl⟩; exact hk
      · intro hz
        have := h.2 z hz
        exact ⟨z.toNat, ⟨by omega, by rwa [Int.toNat_of_nonneg this.1]⟩, Int.toNat_of_nonneg this.1⟩
  have q := p.length_eq
  rw [List.length_map] at q
  have t := List.length_eq_length_filter_add (l := List.range l.length) (fun k : Nat => decide ((k : Int) ∈ rs))
  rw [List.length_range] at t
  have t2 : (List.filter (fun x : Nat => !decide ((x : Int) ∈ rs)) (List.range l.length)).length = ((List.range l.length).filter fun k : Nat => ¬(k : Int) ∈ rs).length := by
    congr 1
    apply List.filter_congr
    intro x _
    simp
  omega

/-! ### Programs of tasks -/

/-- the collective calls of all processes in one sequence; `G`: those before -/
def ext : Prog → Comm → List Event → List Event
  | .skip, _, _ => []
  | .seq a b, c, G => ext a c G ++ ext b c (G ++ ext a c G)
  | .call k, c, _ => [(c, .call k)]
  | .task s b, c, G =>
    (c, .create ⟨c.name ++ [count c G], sel c.mem s⟩) :: (ext b ⟨c.name ++ [count c G], sel c.mem s⟩ (G ++ [(c, .create ⟨c.name ++ [count c G], sel c.mem s⟩)])
      ++ [(⟨c.name ++ [count c G], sel c.mem s⟩, .free)])
  | .guarded b, c, G => ext b c G

theorem ext_mem : ∀ (p : Prog) (c : Comm) (G : List Event), ∀ e ∈ ext p c G, ∀ q ∈ e.1.mem, q ∈ c.mem
  | .skip, _, _ => by intro e h; simp [ext] at h
  | .seq a b, c, G => by
    intro e h
    rcases List.mem_append.mp h with h | h
    · exact ext_mem a c G e h
    · exact ext_mem b c _ e h
  | .call k, c, G => by
    intro e h q hq
    simp only [ext, List.mem_singleton] at h
    subst h; exact hq
  | .task s b, c, G => by
    intro e h q hq
    simp only [ext, List.mem_cons, List.mem_append, List.not_mem_nil, or_false] at h
    rcases h with h | h | h
    · subst h; exact hq
    · exact sel_sub _ s q (ext_mem b _ _ e h q hq)
    · subst h; exact sel_sub _ s q hq
  | .guarded b, c, G => ext_mem b c G

/-- the calls of process `me` -/
def mine (me : Nat) (G : List Event) : List Event := G.filter fun e => me ∈ e.1.mem

theorem mine_append (me : Nat) (G H : List Event) : mine me (G ++ H) = mine me G ++ mine me H := List.filter_append _ _

theorem count_mine {me : Nat} {c : Comm} (h : me ∈ c.mem) (G : List Event) : count c (mine me G) = count c G := by
  unfold count mine
  rw [List.filter_filter]
  congr 1
  apply List.filter_congr
  intro e _
  by_cases he : e.1 = c
  · simp [he, h]
  · simp [he]

theorem mine_none {me : Nat} {G : List Event} (h : ∀ e ∈ G, me ∉ e.1.mem) : mine me G = [] := by
  unfold mine
  rw [List.filter_eq_nil_iff]
  intro e he
  simpa using h e he

theorem run_null (me : Nat) : ∀ (p : Prog) (n : Nat) (t : List Event), Sound true n p → run me p ⟨Communicator.of none, t⟩ = .ok ⟨Communicator.of none, t⟩
  | .skip, _, _, _ => rfl
  | .seq a b, n, t, h => by
    have h1 := run_null me a n t h.1
    have h2 := run_null me b n t h.2
    simp only [run, h1, Res.bind, h2]
  | .call k, _, _, h => by cases h
  | .task s b, _, _, h => by cases h.1
  | .guarded b, _, _, _ => rfl

/-- the selected ranks are different and in range -/
def SelOk (n : Nat) : Sel → Prop
  | .these rs | .others rs => Ranks n rs

/-- the selected ranks are sound for the number of processes -/
theorem sound_task {c : Bool} {l : List Nat} {s : Sel} {b : Prog} (h : Sound c l.length (.task s b)) :
    SelOk l.length s ∧ Sound true (sel l s).length b := by
  cases s with
  | these rs => exact ⟨h.2.1, by rw [these_length h.2.1]; exact h.2.2⟩
  | others rs => exact ⟨h.2.1, by rw [others_length h.2.1]; exact h.2.2⟩

theorem taskGroup_ok {c : Comm} {s : Sel} (h : SelOk c.mem.length s) :
    taskGroup (Communicator.of (some c)) s = .ok (Group.of (sel c.mem s)) := by
  cases s with
  | these rs =>
    simp only [taskGroup, Communicator.of, Communicator.group, Res.bind, incl, Bool.false_eq_true, false_and, if_false, Group.mem_of, mpiIncl]
    rw [if_pos (show Ranks c.mem.length rs from h)]
    rfl
  | others rs =>
    simp only [taskGroup, Communicator.of, Communicator.group, Res.bind, excl, Bool.false_eq_true, false_and, if_false, Group.mem_of, mpiExcl]
    rw [if_pos (show Ranks c.mem.length rs from h)]
    rfl

theorem run_mem (me : Nat) : ∀ (p : Prog) (nul : Bool) (c : Comm) (G : List Event), me ∈ c.mem → Sound nul c.mem.length p →
    run me p ⟨Communicator.of (some c), mine me G⟩ = .ok ⟨Communicator.of (some c), mine me (G ++ ext p c G)⟩
  | .skip, _, _, G, _, _ => by simp [run, ext]
  | .seq a b, nul, c, G, hm, h => by
    have h1 := run_mem me a nul c G hm h.1
    have h2 := run_mem me b nul c (G ++ ext a c G) hm h.2
    simp only [run, h1, Res.bind, h2, ext, List.append_assoc]
  | .call k, nul, c, G, hm, h => by
    have : mine me [((c, .call k) : Event)] = [(c, .call k)] := by simp [mine, hm]
    simp only [run, Communicator.of, ext, mine_append, this]
  | .guarded b, nul, c, G, hm, h => run_mem me b false c G hm h
  | .task s b, nul, c, G, hm, h => by
    obtain ⟨hr, hb⟩ := sound_task h
    have hc : mine me [((c, .create ⟨c.name ++ [count c G], sel c.mem s⟩) : Event)] = [(c, .create ⟨c.name ++ [count c G], sel c.mem s⟩)] := by simp [mine, hm]
    have e0 : run me (.task s b) ⟨Communicator.of (some c), mine me G⟩ =
        (taskBegin me ⟨Communicator.of (some c), mine me G⟩ (Group.of (sel c.mem s))).bind fun r => (run me b r.1).bind fun s => .ok (taskEnd s r.2) := by
      rw [run, taskGroup_ok hr]; rfl
    have e1 : taskBegin me ⟨Communicator.of (some c), mine me G⟩ (Group.of (sel c.mem s)) =
        .ok (⟨Communicator.of (if me ∈ sel c.mem s then some ⟨c.name ++ [count c G], sel c.mem s⟩ else none), mine me (G ++ [(c, .create ⟨c.name ++ [count c G], sel c.mem s⟩)])⟩,
          Communicator.of (some c)) := by
      have hs : ∀ p ∈ sel c.mem s, p ∈ c.mem := sel_sub c.mem s
      simp only [taskBegin, Communicator.of, Communicator.sub, Group.mem_of]
      rw [if_pos hs, mine_append, hc, count_mine hm]
      rfl
    rw [e0, e1]
    by_cases hi : me ∈ sel c.mem s
    · simp only [Res.bind, if_pos hi]
      rw [run_mem me b true ⟨c.name ++ [count c G], sel c.mem s⟩ _ hi hb]
      have hf : mine me [((⟨c.name ++ [count c G], sel c.mem s⟩, .free) : Event)] = [(⟨c.name ++ [count c G], sel c.mem s⟩, .free)] := by simp [mine, hi]
      simp only [taskEnd, setDefault, Communicator.of, ext]
      have a : ∀ (x : Event) (y : List Event) (z : Event), G ++ x :: (y ++ [z]) = ((G ++ [x]) ++ y) ++ [z] := by intro x y z; simp
      rw [a, mine_append me _ [_], hf]
    · simp only [Res.bind, if_neg hi]
      rw [run_null me b _ _ hb]
      simp only [taskEnd, setDefault, Communicator.of, ext]
      have a : ∀ (x : Event) (y : List Event), G ++ x :: y = (G ++ [x]) ++ y := by intro x y; simp
      rw [a _ (_ ++ [_]), mine_append me (G ++ [_])]
      have nn : mine me (ext b ⟨c.name ++ [count c G], sel c.mem s⟩ (G ++ [(c, .create ⟨c.name ++ [count c G], sel c.mem s⟩)]) ++
          [(⟨c.name ++ [count c G], sel c.mem s⟩, .free)]) = [] := by
        apply mine_none
        intro e he
        rcases List.mem_append.mp he with he | he
        · exact fun hq => hi (ext_mem b _ _ e he me hq)
        · simp only [List.mem_singleton] at he
          subst he; exact hi
      rw [nn, List.append_nil]

/-! ### Names -/

theorem count_append (c : Comm) (G H : List Event) : count c (G ++ H) = count c G + count c H := by
  unfold count; rw [List.filter_append, List.length_append]

/-- `e` is on `c` or on a communicator below it, made by a call numbered from `lo` up to below `hi` -/
def Below (c : Comm) (lo hi : Nat) (d : Comm) : Prop := d = c ∨ ∃ k, lo ≤ k ∧ k < hi ∧ (c.name ++ [k]) <+: d.name

theorem Below.mono {c d : Comm} {lo hi lo' hi' : Nat} (h : Below c lo hi d) (h1 : lo' ≤ lo) (h2 : hi ≤ hi') : Below c lo' hi' d := by
  rcases h with h | ⟨k, a, b, p⟩
  · exact .inl h
  · exact .inr ⟨k, by omega, by omega, p⟩

theorem prefix_inj {l : List Nat} {j k : Nat} {m : List Nat} (h : (l ++ [j]) <+: m) (h' : (l ++ [k]) <+: m) : j = k := by
  obtain ⟨x, rfl⟩ := h
  obtain ⟨y, hy⟩ := h'
  have := congrArg (fun z => z[l.length]?) hy
  simp at this
  exact this.symm

theorem below_sub {c d : Comm} {k lo hi : Nat} {m : List Nat} (h : Below ⟨c.name ++ [k], m⟩ lo hi d) : (c.name ++ [k]) <+: d.name := by
  rcases h with h | ⟨j, _, _, p⟩
  · rw [h]; exact List.prefix_refl _
  · exact (List.prefix_append _ _).trans p

theorem ext_below : ∀ (p : Prog) (c : Comm) (G : List Event), ∀ e ∈ ext p c G, Below c (count c G) (count c (G ++ ext p c G)) e.1
  | .skip, _, _ => by intro e h; simp [ext] at h
  | .seq a b, c, G => by
    intro e h
    simp only [ext] at h ⊢
    rw [← List.append_assoc, count_append c (G ++ ext a c G)]
    rcases List.mem_append.mp h with h | h
    · exact (ext_below a c G e h).mono (by omega) (by omega)
    · have := ext_below b c (G ++ ext a c G) e h
      rw [count_append c (G ++ ext a c G)] at this
      exact this.mono (by rw [count_append]; omega) (by omega)
  | .call k, c, G => by
    intro e h
    simp only [ext, List.mem_singleton] at h
    subst h; exact .inl rfl
  | .guarded b, c, G => ext_below b c G
  | .task s b, c, G => by
    intro e h
    have hk : count c G < count c (G ++ ext (.task s b) c G) := by
      rw [count_append]
      have : 0 < count c (ext (.task s b) c G) := by
        simp only [ext, count]
        rw [List.filter_cons_of_pos (by simp)]
        simp
      omega
    simp only [ext, List.mem_cons, List.mem_append, List.not_mem_nil, or_false] at h
    rcases h with h | h | h
    · subst h; exact .inl rfl
    · exact .inr ⟨_, Nat.le_refl _, hk, below_sub (ext_below b _ _ e h)⟩
    · subst h; exact .inr ⟨_, Nat.le_refl _, hk, List.prefix_refl _⟩

/-- names of the communicators created -/
def created (x : List Event) : List (List Nat) := x.filterMap fun e => match e.2 with | .create d => some d.name | _ => none

/-- every communicator created is below -/
theorem created_below : ∀ (p : Prog) (c : Comm) (G : List Event), ∀ nm ∈ created (ext p c G), ∃ k, count c G ≤ k ∧ k < count c (G ++ ext p c G) ∧ (c.name ++ [k]) <+: nm
  | .skip, _, _ => by intro e h; simp [ext, created] at h
  | .seq a b, c, G => by
    intro nm h
    simp only [ext] at h ⊢
    rw [← List.append_assoc, count_append c (G ++ ext a c G)]
    rw [created, List.filterMap_append] at h
    rcases List.mem_append.mp h with h | h
    · obtain ⟨k, h1, h2, h3⟩ := created_below a c G nm h
      exact ⟨k, h1, by omega, h3⟩
    · obtain ⟨k, h1, h2, h3⟩ := created_below b c _ nm h
      rw [count_append c (G ++ ext a c G)] at h2
      rw [count_append] at h1
      exact ⟨k, by omega, by omega, h3⟩
  | .call k, c, G => by intro e h; simp [ext, created] at h
  | .guarded b, c, G => created_below b c G
  | .task s b, c, G => by
    intro nm h
    have hk : count c G < count c (G ++ ext (.task s b) c G) := by
      rw [count_append]
      have : 0 < count c (ext (.task s b) c G) := by
        simp only [ext, count]
        rw [List.filter_cons_of_pos (by simp)]
        simp
      omega
    refine ⟨count c G, Nat.le_refl _, hk, ?_⟩
    simp only [created, ext, List.filterMap_cons, List.filterMap_append, List.mem_cons, List.mem_append] at h
    rcases h with h | h | h
    · rw [h]; exact List.prefix_refl _
    · obtain ⟨k, _, _, h3⟩ := created_below b _ _ nm h
      exact (List.prefix_append _ _).trans h3
    · simp at h

theorem created_nodup : ∀ (p : Prog) (c : Comm) (G : List Event), (created (ext p c G)).Nodup
  | .skip, _, _ => by simp [ext, created]
  | .call k, c, G => by simp [ext, created]
  | .guarded b, c, G => created_nodup b c G
  | .seq a b, c, G => by
    simp only [ext, created, List.filterMap_append]
    refine List.nodup_append.mpr ⟨created_nodup a c G, created_nodup b c _, ?_⟩
    rintro x hx y hy rfl
    obtain ⟨j, _, hj, pj⟩ := created_below a c G x hx
    obtain ⟨k, hk, _, pk⟩ := created_below b c _ x hy
    have := prefix_inj pj pk
    omega
  | .task s b, c, G => by
    have e : created (ext (.task s b) c G) = (c.name ++ [count c G]) :: created (ext b ⟨c.name ++ [count c G], sel c.mem s⟩ (G ++ [(c, .create ⟨c.name ++ [count c G], sel c.mem s⟩)])) := by
      simp [created, ext]
    rw [e]
    refine List.nodup_cons.mpr ⟨?_, created_nodup b _ _⟩
    intro h
    obtain ⟨k, _, _, h3⟩ := created_below b _ _ _ h
    have := h3.length_le
    simp at this

theorem ext_nofree : ∀ (p : Prog) (c : Comm) (G : List Event), (c, Ev.free) ∉ ext p c G
  | .skip, _, _ => by simp [ext]
  | .call k, c, G => by simp [ext]
  | .guarded b, c, G => ext_nofree b c G
  | .seq a b, c, G => by
    intro h
    rcases List.mem_append.mp h with h | h
    · exact ext_nofree a c G h
    · exact ext_nofree b c _ h
  | .task s b, c, G => by
    intro h
    simp only [ext, List.mem_cons, List.mem_append, List.not_mem_nil, or_false] at h
    rcases h with h | h | h
    · simp at h
    · have := (below_sub (ext_below b _ _ _ h)).length_le
      simp at this
      omega
    · have := congrArg (fun e : Event => e.1.name.length) h
      simp at this

/-- everything created in `x` is freed once, and not used afterwards -/
def Freed (x : List Event) : Prop := ∀ a d, (a, Ev.create d) ∈ x → ∃ l r, x = l ++ (d, .free) :: r ∧ (d, .free) ∉ l ∧ ∀ e ∈ r, e.1 ≠ d

theorem mem_created {a d : Comm} {x : List Event} (h : (a, Ev.create d) ∈ x) : d.name ∈ created x := List.mem_filterMap.mpr ⟨_, h, rfl⟩

theorem ext_freed : ∀ (p : Prog) (c : Comm) (G : List Event), Freed (ext p c G)
  | .skip, _, _ => by intro a d h; simp [ext] at h
  | .call k, c, G => by intro a d h; simp [ext] at h
  | .guarded b, c, G => ext_freed b c G
  | .seq p q, c, G => by
    intro a d h
    rcases List.mem_append.mp h with h | h
    · obtain ⟨l, r, e, h1, h2⟩ := ext_freed p c G a d h
      refine ⟨l, r ++ ext q c (G ++ ext p c G), by simp only [ext]; rw [e]; simp, h1, ?_⟩
      intro f hf
      rcases List.mem_append.mp hf with hf | hf
      · exact h2 f hf
      · intro hfd
        obtain ⟨j, _, hj, pj⟩ := created_below p c G _ (mem_created h)
        rcases ext_below q c _ f hf with h3 | ⟨k, hk, _, pk⟩
        · rw [← hfd, h3] at pj
          have := pj.length_le
          simp at this
          omega
        · rw [hfd] at pk
          have := prefix_inj pj pk
          omega
    · obtain ⟨l, r, e, h1, h2⟩ := ext_freed q c _ a d h
      refine ⟨ext p c G ++ l, r, by simp only [ext]; rw [e]; simp, ?_, h2⟩
      intro he
      rcases List.mem_append.mp he with he | he
      · obtain ⟨j, hj, _, pj⟩ := created_below q c _ _ (mem_created h)
        rcases ext_below p c G _ he with h3 | ⟨k, _, hk, pk⟩
        · have h3 : d = c := h3
          rw [h3] at pj
          have := pj.length_le
          simp at this
          omega
        · have := prefix_inj pj pk
          omega
      · exact h1 he
  | .task s b, c, G => by
    intro a d h
    simp only [ext, List.mem_cons, List.mem_append, List.not_mem_nil, or_false] at h
    rcases h with h | h | h
    · have hd : d = ⟨c.name ++ [count c G], sel c.mem s⟩ := by simpa using (Prod.mk.inj h).2
      subst hd
      refine ⟨(c, .create ⟨c.name ++ [count c G], sel c.mem s⟩) :: ext b ⟨c.name ++ [count c G], sel c.mem s⟩ _, [], by simp only [ext]; rfl, ?_, by simp⟩
      intro he
      rcases List.mem_cons.mp he with he | he
      · simp at he
      · exact ext_nofree b _ _ he
    · obtain ⟨l, r, e, h1, h2⟩ := ext_freed b _ _ a d h
      obtain ⟨k, _, _, pk⟩ := created_below b _ _ _ (mem_created h)
      have hne : d.name.length > c.name.length + 1 := by
        have := pk.length_le
        simp at this
        omega
      refine ⟨(c, .create ⟨c.name ++ [count c G], sel c.mem s⟩) :: l, r ++ [(⟨c.name ++ [count c G], sel c.mem s⟩, .free)], by simp only [ext]; rw [e]; simp, ?_, ?_⟩
      · intro he
        rcases List.mem_cons.mp he with he | he
        · simp at he
        · exact h1 he
      · intro e he
        rcases List.mem_append.mp he with he | he
        · exact h2 e he
        · simp only [List.mem_singleton] at he
          subst he
          rintro rfl
          simp at hne
    · simp at h

/-! ### Calls -/

/-- the calls among the events, with the processes that take part -/
def callsOf (t : List Event) : List (Nat × List Nat) := t.filterMap fun e => match e.2 with | .call k => some (k, e.1.mem) | _ => none

theorem callsOf_append (s t : List Event) : callsOf (s ++ t) = callsOf s ++ callsOf t := List.filterMap_append

theorem ext_calls (me : Nat) : ∀ (p : Prog) (c : Comm) (G : List Event), me ∈ c.mem → callsOf (mine me (ext p c G)) = calls me c.mem p
  | .skip, _, _, _ => rfl
  | .call k, c, G, h => by simp [ext, mine, h, callsOf, calls]
  | .guarded b, c, G, h => ext_calls me b c G h
  | .seq a b, c, G, h => by
    simp only [ext, mine_append, callsOf_append, calls]
    rw [ext_calls me a c G h, ext_calls me b c _ h]
  | .task s b, c, G, h => by
    have e : ∀ (x : Event) (y : List Event) (z : Event), mine me (x :: (y ++ [z])) = mine me [x] ++ (mine me y ++ mine me [z]) := by
      intro x y z; rw [← mine_append, ← mine_append]; rfl
    simp only [ext]
    rw [e, callsOf_append, callsOf_append]
    have e1 : callsOf (mine me [((c, .create ⟨c.name ++ [count c G], sel c.mem s⟩) : Event)]) = [] := by simp [mine, h, callsOf]
    have e2 : callsOf (mine me [((⟨c.name ++ [count c G], sel c.mem s⟩, .free) : Event)]) = [] := by
      by_cases hi : me ∈ sel c.mem s <;> simp [mine, hi, callsOf]
    rw [e1, e2, List.nil_append, List.append_nil, calls]
    by_cases hi : me ∈ sel c.mem s
    · rw [if_pos hi]; exact ext_calls me b _ _ hi
    · rw [if_neg hi, mine_none]
      · rfl
      · intro e he hq
        exact hi (ext_mem b _ _ e he me hq)

/-! ### Deadlock -/

section
variable {E : Type} {mem : E → List Nat}

/-- the states are parts of one sequence -/
def Seq (mem : E → List Nat) (T : Nat → List E) : Prop := ∃ G : List E, (∀ e ∈ G, mem e ≠ []) ∧ ∀ p, T p = G.filter fun e => p ∈ mem e

theorem filter_split {G : List E} {P : E → Bool} {e : E} {l : List E} (h : G.filter P = e :: l) : ∃ x y, G = x ++ e :: y ∧ P e = true ∧ ∀ d ∈ x, P d = false := by
  induction G with
  | nil => simp at h
  | cons a G ih =>
    by_cases ha : P a
    · rw [List.filter_cons_of_pos ha] at h
      have : a = e := (List.cons.inj h).1
      subst this
      exact ⟨[], G, rfl, ha, by simp⟩
    · rw [List.filter_cons_of_neg (by simpa using ha)] at h
      obtain ⟨x, y, h1, h2, h3⟩ := ih h
      refine ⟨a :: x, y, by rw [h1]; rfl, h2, ?_⟩
      intro d hd
      rcases List.mem_cons.mp hd with rfl | hd
      · simpa using ha
      · exact h3 d hd

theorem seq_fire {T U : Nat → List E} (h : Seq mem T) (f : Fire mem T U) : Seq mem U := by
  obtain ⟨G, h1, h2⟩ := h
  obtain ⟨e, ne, hd, tl⟩ := f
  classical
  -- the first occurrence of `e` for one of its processes
  obtain ⟨p0, hp0⟩ := List.exists_mem_of_ne_nil _ ne
  obtain ⟨l0, hl0⟩ := hd p0 hp0
  rw [h2 p0] at hl0
  obtain ⟨x, y, hG, _, hx⟩ := filter_split hl0
  -- no process of `e` has calls in `x`
  have key : ∀ p ∈ mem e, ∀ d ∈ x, p ∉ mem d := by
    intro p hp d hdx hpd
    obtain ⟨l, hl⟩ := hd p hp
    rw [h2 p] at hl
    obtain ⟨x', y', hG', _, hx'⟩ := filter_split hl
    -- compare lengths of `x` and `x'`
    have : x.length ≤ x'.length := by
      by_contra hlt
      have hlt : x'.length < x.length := by omega
      have e1 : G[x'.length]? = some e := by rw [hG']; simp
      have e2 : e ∈ x := by
        rw [hG, List.getElem?_append_left hlt] at e1
        exact List.mem_of_getElem? e1
      have := hx e e2
      simp [hp0] at this
    have hpre : d ∈ x' := by
      obtain ⟨i, hi, ei⟩ := List.mem_iff_getElem.mp hdx
      have : i < x'.length := by omega
      have e1 : G[i]? = some d := by rw [hG, List.getElem?_append_left hi, ← ei]; exact List.getElem?_eq_getElem hi
      rw [hG', List.getElem?_append_left this] at e1
      exact List.mem_of_getElem? e1
    have := hx' d hpre
    simp [hpd] at this
  refine ⟨x ++ y, fun d hd => h1 d (by rw [hG]; simp only [List.mem_append, List.mem_cons] at hd ⊢; tauto), ?_⟩
  intro p
  rw [tl p, h2 p, hG]
  by_cases hp : p ∈ mem e
  · rw [if_pos hp, List.filter_append, List.filter_append, List.filter_cons_of_pos (by simpa using hp)]
    have : x.filter (fun d => decide (p ∈ mem d)) = [] := by
      rw [List.filter_eq_nil_iff]; intro d hdx; simpa using key p hp d hdx
    rw [this]; rfl
  · rw [if_neg hp, List.filter_append, List.filter_append, List.filter_cons_of_neg (by simpa using hp)]

theorem seq_progress {T : Nat → List E} (h : Seq mem T) : (∀ p, T p = []) ∨ ∃ V, Fire mem T V := by
  obtain ⟨G, h1, h2⟩ := h
  cases G with
  | nil => left; intro p; rw [h2 p]; rfl
  | cons e G =>
    right
    refine ⟨fun p => if p ∈ mem e then (T p).tail else T p, ⟨e, h1 e List.mem_cons_self, ?_, fun _ => rfl⟩⟩
    intro p hp
    exact ⟨G.filter fun e => p ∈ mem e, by rw [h2 p, List.filter_cons_of_pos (by simpa using hp)]⟩

theorem seq_noDeadlock {T : Nat → List E} (h : Seq mem T) : NoDeadlock mem T := by
  intro U r
  have : Seq mem U := by
    induction r with
    | refl => exact h
    | step _ f ih => exact seq_fire ih f
  exact seq_progress this

end

end Verif.Mpi
