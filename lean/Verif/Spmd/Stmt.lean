import Verif.Spmd.Lemmas
/-!
One statement on distributed arrays.
-/
set_option linter.unusedSectionVars false
namespace Verif.Spmd
open Verif Verif.Spec Verif.Par Verif.Props

variable {A V : Type} [DecidableEq A]

theorem same_refl : ∀ m : DMap, m.same m = true
  | .map _ _ => by simp [DMap.same, Map.equiv, Map.distEquiv]
  | .repl _ => by simp [DMap.same]

theorem sameMap_leaves {Γ : A → Arr} {m : DMap} : ∀ {e : Ex A V}, e.sameMap Γ m = true → e.hasGen = false ∧ ∀ a ∈ e.leaves, m.same (Γ a).dmap = true
  | .arr a, h => ⟨rfl, by simpa [Ex.leaves, Ex.sameMap] using h⟩
  | .scal _, _ => ⟨rfl, by simp [Ex.leaves]⟩
  | .gen _, h => by simp [Ex.sameMap] at h
  | .un _ x, h => sameMap_leaves (e := x) h
  | .bin _ x y, h => by
      simp only [Ex.sameMap, Bool.and_eq_true] at h
      obtain ⟨a1, a2⟩ := sameMap_leaves h.1
      obtain ⟨b1, b2⟩ := sameMap_leaves h.2
      refine ⟨by simp [Ex.hasGen, a1, b1], ?_⟩
      intro a ha
      rcases List.mem_append.1 ha with ha | ha
      · exact a2 a ha
      · exact b2 a ha
  | .tern _ x y z, h => by
      simp only [Ex.sameMap, Bool.and_eq_true] at h
      obtain ⟨a1, a2⟩ := sameMap_leaves h.1.1
      obtain ⟨b1, b2⟩ := sameMap_leaves h.1.2
      obtain ⟨c1, c2⟩ := sameMap_leaves h.2
      refine ⟨by simp [Ex.hasGen, a1, b1, c1], ?_⟩
      intro a ha
      rcases List.mem_append.1 ha with ha | ha
      · exact a2 a ha
      · rcases List.mem_append.1 ha with ha | ha
        · exact b2 a ha
        · exact c2 a ha

theorem locals_eval {mem : Mem (A ⊕ Nat) V} {addr : A ⊕ Nat → Int} {g idx : List Nat} {G : A → List Nat → V} :
    ∀ {e : Ex A V}, e.hasGen = false → (∀ a ∈ e.leaves, mem (.inl a) (addr (.inl a)) = G a idx) → e.locals.evalAt mem addr g = e.val G idx
  | .arr a, _, h => h a (by simp [Ex.leaves])
  | .scal _, _, _ => rfl
  | .gen _, hg, _ => by simp [Ex.hasGen] at hg
  | .un f x, hg, h => by
      simp only [Ex.locals, Ex.evalAt, Ex.val]
      rw [locals_eval (e := x) hg h]
  | .bin f x y, hg, h => by
      simp only [Ex.hasGen, Bool.or_eq_false_iff] at hg
      simp only [Ex.locals, Ex.evalAt, Ex.val]
      rw [locals_eval hg.1 fun a ha => h a (List.mem_append_left _ ha), locals_eval hg.2 fun a ha => h a (List.mem_append_right _ ha)]
  | .tern f x y z, hg, h => by
      simp only [Ex.hasGen, Bool.or_eq_false_iff] at hg
      simp only [Ex.locals, Ex.evalAt, Ex.val]
      rw [locals_eval hg.1.1 fun a ha => h a (List.mem_append_left _ ha),
        locals_eval hg.1.2 fun a ha => h a (List.mem_append_right _ (List.mem_append_left _ ha)),
        locals_eval hg.2 fun a ha => h a (List.mem_append_right _ (List.mem_append_right _ ha))]

theorem remap_eval {mem : Mem (A ⊕ Nat) V} {addr : A ⊕ Nat → Int} {idx : List Nat} {G : A → List Nat → V} :
    ∀ {e : Ex A V} {n : Nat}, (∀ i a, e.leaves[i]? = some a → mem (.inr (n + i)) (addr (.inr (n + i))) = G a idx) →
      (e.remap n).evalAt mem addr idx = e.val G idx
  | .arr a, n, h => h 0 a rfl
  | .scal _, _, _ => rfl
  | .gen _, _, _ => rfl
  | .un f x, n, h => by
      simp only [Ex.remap, Ex.evalAt, Ex.val]
      rw [remap_eval (e := x) h]
  | .bin f x y, n, h => by
      simp only [Ex.remap, Ex.evalAt, Ex.val]
      rw [remap_eval (e := x) fun i a hi => h i a (by
          simp only [Ex.leaves]
          rw [List.getElem?_append_left (List.getElem?_eq_some_iff.1 hi).1]; exact hi),
        remap_eval (e := y) fun i a hi => by
          have := h (x.leaves.length + i) a (by
            simp only [Ex.leaves]
            rw [List.getElem?_append_right (by omega)]
            rwa [Nat.add_sub_cancel_left])
          rwa [← Nat.add_assoc] at this]
  | .tern f x y z, n, h => by
      simp only [Ex.remap, Ex.evalAt, Ex.val]
      rw [remap_eval (e := x) fun i a hi => h i a (by
          simp only [Ex.leaves]
          rw [List.getElem?_append_left (List.getElem?_eq_some_iff.1 hi).1]; exact hi),
        remap_eval (e := y) fun i a hi => by
          have := h (x.leaves.length + i) a (by
            simp only [Ex.leaves]
            rw [List.getElem?_append_right (by omega), Nat.add_sub_cancel_left,
              List.getElem?_append_left (List.getElem?_eq_some_iff.1 hi).1]
            exact hi)
          rwa [← Nat.add_assoc] at this,
        remap_eval (e := z) fun i a hi => by
          have := h (x.leaves.length + (y.leaves.length + i)) a (by
            simp only [Ex.leaves]
            rw [List.getElem?_append_right (by omega), Nat.add_sub_cancel_left, List.getElem?_append_right (by omega), Nat.add_sub_cancel_left]
            exact hi)
          rwa [← Nat.add_assoc, ← Nat.add_assoc] at this]

/-! ### Copies of the operands -/

theorem copy_ok {P : List Nat} (hP : P.Nodup) {l a : Arr} (hl : l.OK P) (ha : a.OK P) (he : a.dmap.ext = l.dmap.ext) :
    AssignOK l.dmap.ext ⟨l.dmap.pmap, tmpStr l.dmap a.order⟩ a.side P where
  lmap := pmap_ok hl.map
  rmap := by have := pmap_ok ha.map; rwa [he] at this
  lstr p := tmpStr_length _ _ _
  rstr p := by rw [← he]; exact ha.str p
  layout := tmp_layout hl.map (by have := ha.order; rwa [he] at this)
  pn := hP
  lin := hl.procs
  rin := ha.procs

theorem direct_ok {P : List Nat} (hP : P.Nodup) {l a : Arr} (hl : l.OK P) (ha : a.OK P) (he : a.dmap.ext = l.dmap.ext) :
    AssignOK l.dmap.ext l.side a.side P where
  lmap := pmap_ok hl.map
  rmap := by have := pmap_ok ha.map; rwa [he] at this
  lstr p := hl.str p
  rstr p := by rw [← he]; exact ha.str p
  layout := hl.layout
  pn := hP
  lin := hl.procs
  rin := ha.procs

theorem copy_plan {P : List Nat} (hP : P.Nodup) {l a : Arr} (hl : l.OK P) (ha : a.OK P) (he : a.dmap.ext = l.dmap.ext) :
    ∃ pl : Plan l.dmap.ext ⟨l.dmap.pmap, tmpStr l.dmap a.order⟩ a.side, pl.OK ∧
      assignment a.order l.dmap a.dmap ⟨l.dmap.pmap, tmpStr l.dmap a.order⟩ a.side = pl.prog := by
  have ho : IsOrder l.dmap.ext.length a.order := by have := ha.order; rwa [he] at this
  exact assignment_plan (copy_ok hP hl ha he) ho rfl rfl rfl (fun hb p => tmp_unit ho hb p) ha.unit

theorem copies_good {P : List Nat} (hP : P.Nodup) {Γ : A → Arr} {l : Arr} (hl : l.OK P) : ∀ {ops : List A} {n : Nat},
    (∀ a ∈ ops, (Γ a).OK P ∧ (Γ a).dmap.ext = l.dmap.ext) → ∀ st ∈ (copies Γ l.dmap n ops : List (Stage (A ⊕ Nat) V)), st.Good P
  | [], _, _, st, hs => by simp [copies] at hs
  | a :: as, n, h, st, hs => by
      rcases List.mem_cons.1 hs with rfl | hs
      · obtain ⟨h1, h2⟩ := h a List.mem_cons_self
        obtain ⟨pl, p1, p2⟩ := copy_plan hP hl h1 h2
        rw [p2]
        exact plan_good (copy_ok hP hl h1 h2) pl p1 (by simp)
      · exact copies_good hP hl (fun a ha => h a (List.mem_cons_of_mem _ ha)) st hs

theorem copies_effect {P : List Nat} (hP : P.Nodup) {Γ : A → Arr} {l : Arr} (hl : l.OK P) {G : A → List Nat → V} : ∀ {ops : List A} {n : Nat}
    {M : Nat → Mem (A ⊕ Nat) V}, (∀ a ∈ ops, (Γ a).OK P ∧ (Γ a).dmap.ext = l.dmap.ext) → HoldsAll Γ G M →
    (∀ p a, effects P (copies Γ l.dmap n ops) M p (.inl a) = M p (.inl a)) ∧
    (∀ p j, j < n → effects P (copies Γ l.dmap n ops) M p (.inr j) = M p (.inr j)) ∧
    ∀ i a, ops[i]? = some a → Holds l.dmap.ext ⟨l.dmap.pmap, tmpStr l.dmap (Γ a).order⟩ (G a) fun p => effects P (copies Γ l.dmap n ops) M p (.inr (n + i))
  | [], n, M, _, _ => ⟨fun _ _ => rfl, fun _ _ _ => rfl, fun i a h => by simp at h⟩
  | a :: as, n, M, h, hM => by
      obtain ⟨h1, h2⟩ := h a List.mem_cons_self
      obtain ⟨pl, p1, p2⟩ := copy_plan hP hl h1 h2
      have hs : Holds l.dmap.ext (Γ a).side (G a) fun p => M p (.inl a) := by have := hM a; rwa [h2] at this
      have he := plan_effect (d := (.inr n : A ⊕ Nat)) (copy_ok hP hl h1 h2) pl p1 (G a) M hs
      rw [← p2] at he
      have hu : effects P (copies Γ l.dmap n (a :: as)) M = effects P (copies Γ l.dmap (n + 1) as)
          ((Stage.net (.inr n) (.inl a) (assignment (Γ a).order l.dmap (Γ a).dmap ⟨l.dmap.pmap, tmpStr l.dmap (Γ a).order⟩ (Γ a).side) :
            Stage (A ⊕ Nat) V).effect P M) := rfl
      rw [hu]
      have hk : ∀ p b, b ≠ .inr n → (Stage.net (.inr n) (.inl a)
          (assignment (Γ a).order l.dmap (Γ a).dmap ⟨l.dmap.pmap, tmpStr l.dmap (Γ a).order⟩ (Γ a).side) :
            Stage (A ⊕ Nat) V).effect P M p b = M p b := by
        intro p b hb
        simp only [Stage.effect]
        rw [Function.update_of_ne hb]
      generalize (Stage.net (.inr n) (.inl a)
          (assignment (Γ a).order l.dmap (Γ a).dmap ⟨l.dmap.pmap, tmpStr l.dmap (Γ a).order⟩ (Γ a).side) : Stage (A ⊕ Nat) V).effect P M = M1 at he hk
      obtain ⟨i1, i2, i3⟩ := copies_effect (n := n + 1) (M := M1) hP hl (fun b hb => h b (List.mem_cons_of_mem _ hb)) (by
        intro b
        have e : (fun p => M1 p (.inl b)) = fun p => M p (.inl b) := by funext p; exact hk p _ (by simp)
        rw [e]; exact hM b)
      refine ⟨fun p b => (i1 p b).trans (hk p _ (by simp)), fun p j hj => (i2 p j (by omega)).trans (hk p _ (by
        intro hc; injection hc with hc; omega)), ?_⟩
      intro i b hi
      cases i with
      | zero =>
        simp only [List.getElem?_cons_zero, Option.some.injEq] at hi
        subst hi
        intro p idx h3 h4
        show effects P _ M1 p (.inr n) _ = _
        rw [i2 p n (by omega)]
        exact (he p).1 idx h3 h4
      | succ i =>
        have := i3 i b hi
        rwa [Nat.add_right_comm, Nat.add_assoc] at this

/-! ### Statements -/

/-- the meaning of one statement: the left-hand side receives the values of the right-hand side, everything else stays -/
def Executed (Γ : A → Arr) (G : A → List Nat → V) (st : Stmt A V) (M M' : Nat → Mem (A ⊕ Nat) V) : Prop :=
  Assigned (Γ st.lhs).dmap.ext (Γ st.lhs).side (fun idx => st.rhs.val G idx) (fun p => M p (.inl st.lhs)) (fun p => M' p (.inl st.lhs)) ∧
  ∀ p a, a ≠ st.lhs → M' p (.inl a) = M p (.inl a)

theorem worker_in {P : List Nat} {a : Arr} (h : a.OK P) {p sb : Nat} (hp : a.dmap.pmap.subblock p = some sb) : p ∈ P ∧ sb < a.dmap.pmap.view.numSb := by
  have ok := pmap_ok h.map
  exact ⟨h.procs p ((ok.working p).2 (by rw [hp]; simp)), ((ok.held p sb).1 hp).1⟩

theorem local_executed {P : List Nat} {Γ : A → Arr} {G : A → List Nat → V} {st : Stmt A V} {M : Nat → Mem (A ⊕ Nat) V} (hl : (Γ st.lhs).OK P)
    (ho : ∀ a ∈ st.rhs.leaves, (Γ a).OK P) (hc : st.Conform Γ) (hs : st.rhs.sameMap Γ (Γ st.lhs).dmap = true) (hM : HoldsAll Γ G M) :
    Executed Γ G st M ((localStage Γ st).effect P M) := by
  obtain ⟨hg, hsame⟩ := sameMap_leaves hs
  have key : ∀ p, match (Γ st.lhs).dmap.pmap.subblock p with
      | none => (localStage Γ st).effect P M p = M p
      | some sb => Swept (.inl st.lhs) (fun l => offset ((Γ st.lhs).str p) (ints l))
          (fun l => st.rhs.locals.evalAt (M p) (fun a => offset (strides Γ (Γ st.lhs).dmap [] p a) (ints l)) l)
          (positions ((Γ st.lhs).dmap.pmap.view.sbExt sb)) (M p) ((localStage Γ st).effect P M p) := by
    intro p
    cases hp : (Γ st.lhs).dmap.pmap.subblock p with
    | none =>
      simp only [localStage, Stage.effect, hp]
      split <;> rfl
    | some sb =>
      obtain ⟨hin, hsb⟩ := worker_in hl hp
      simp only [localStage, Stage.effect, hp, hin, if_true]
      exact sweep_swept _ _ _ _ _ _ (addr_ne hl.layout hp (fun l => mem_sbPositions hl.map hsb) (positions_ne _))
  constructor
  · intro p
    have hk := key p
    cases hp : (Γ st.lhs).dmap.pmap.subblock p with
    | none =>
      rw [hp] at hk
      simp only at hk ⊢
      rw [hk]
      refine ⟨?_, fun _ _ => rfl⟩
      intro idx _ h
      have : (Γ st.lhs).side.map.subblock p = none := hp
      rw [this] at h; cases h
    | some sb =>
      rw [hp] at hk
      obtain ⟨hin, hsb⟩ := worker_in hl hp
      refine swept_assigned hl.layout hp hk (fun l => mem_sbPositions hl.map hsb) ?_
      intro idx hi hsi
      apply locals_eval hg
      intro a ha
      have e := same_eq hl.map (ho a ha).map (hc a ha).symm (hsame a ha)
      have := hM a p idx (by rw [hc a ha]; exact hi) (by
        show (Γ a).dmap.pmap.subblock p = some ((Γ a).dmap.pmap.view.sbOf idx)
        rw [← e, hp, hsi])
      simp only [Side.addr, Arr.side] at this
      rw [← e] at this
      exact this
  · intro p a ha
    have hk := key p
    cases hp : (Γ st.lhs).dmap.pmap.subblock p with
    | none => rw [hp] at hk; simp only at hk; rw [hk]
    | some sb => rw [hp] at hk; exact hk.1 _ (by simpa using ha)

theorem patch_executed {P : List Nat} (hP : P.Nodup) {Γ : A → Arr} {G : A → List Nat → V} {st : Stmt A V} {M : Nat → Mem (A ⊕ Nat) V}
    (hl : (Γ st.lhs).OK P) (ho : ∀ a ∈ st.rhs.leaves, (Γ a).OK P) (hc : st.Conform Γ) (hM : HoldsAll Γ G M) :
    Executed Γ G st M (effects P (copies Γ (Γ st.lhs).dmap 0 st.rhs.leaves ++ [patchStage Γ st]) M) := by
  obtain ⟨c1, -, c3⟩ := copies_effect (n := 0) hP hl (fun a ha => ⟨ho a ha, hc a ha⟩) hM
  have hu : effects P (copies Γ (Γ st.lhs).dmap 0 st.rhs.leaves ++ [patchStage Γ st]) M =
      (patchStage Γ st).effect P (effects P (copies Γ (Γ st.lhs).dmap 0 st.rhs.leaves) M) := by
    unfold effects
    rw [List.foldl_append]
    rfl
  rw [hu]
  generalize effects P (copies Γ (Γ st.lhs).dmap 0 st.rhs.leaves) M = M1 at c1 c3
  have key : ∀ p, match (Γ st.lhs).dmap.pmap.subblock p with
      | none => (patchStage Γ st).effect P M1 p = M1 p
      | some sb => Swept (.inl st.lhs) (fun l => offset ((Γ st.lhs).str p) (ints l))
          (fun l => (st.rhs.remap 0).evalAt (M1 p) (fun a => offset (strides Γ (Γ st.lhs).dmap st.rhs.leaves p a) (ints l)) (genIdx (Γ st.lhs).dmap sb l))
          (patchIdx (Γ st.lhs).dmap sb) (M1 p) ((patchStage Γ st).effect P M1 p) := by
    intro p
    cases hp : (Γ st.lhs).dmap.pmap.subblock p with
    | none =>
      simp only [patchStage, Stage.effect, hp]
      split <;> rfl
    | some sb =>
      obtain ⟨hin, hsb⟩ := worker_in hl hp
      simp only [patchStage, Stage.effect, hp, hin, if_true]
      exact sweep_swept _ _ _ _ _ _ (addr_ne hl.layout hp (fun l => mem_patchIdx hl.map hsb) (patchIdx_ne hl.map hsb))
  constructor
  · intro p
    have hk := key p
    simp only [← c1 p]
    cases hp : (Γ st.lhs).dmap.pmap.subblock p with
    | none =>
      rw [hp] at hk
      simp only at hk ⊢
      rw [hk]
      refine ⟨?_, fun _ _ => rfl⟩
      intro idx _ h
      have : (Γ st.lhs).side.map.subblock p = none := hp
      rw [this] at h; cases h
    | some sb =>
      rw [hp] at hk
      obtain ⟨hin, hsb⟩ := worker_in hl hp
      refine swept_assigned hl.layout hp hk (fun l => mem_patchIdx hl.map hsb) ?_
      intro idx hi hsi
      subst hsi
      rw [genIdx_eq hl.map hi]
      apply remap_eval
      intro i a ha
      have := c3 i a ha p idx hi hp
      simp only [Side.addr] at this
      simp only [strides, Nat.zero_add, ha] at this ⊢
      exact this
  · intro p a ha
    have hk := key p
    rw [← c1 p a]
    cases hp : (Γ st.lhs).dmap.pmap.subblock p with
    | none => rw [hp] at hk; simp only at hk; rw [hk]
    | some sb => rw [hp] at hk; exact hk.1 _ (by simpa using ha)

theorem direct_executed {P : List Nat} (hP : P.Nodup) {Γ : A → Arr} {G : A → List Nat → V} {lhs a : A} {M : Nat → Mem (A ⊕ Nat) V}
    (hl : (Γ lhs).OK P) (ho : (Γ a).OK P) (hc : (Γ a).dmap.ext = (Γ lhs).dmap.ext) (hM : HoldsAll Γ G M) :
    Executed Γ G ⟨lhs, .arr a⟩ M (effects P [.net (.inl lhs) (.inl a) (assignment (Γ lhs).order (Γ lhs).dmap (Γ a).dmap (Γ lhs).side (Γ a).side)] M) := by
  obtain ⟨pl, p1, p2⟩ := assignment_plan (direct_ok hP hl ho hc) hl.order (lm := (Γ lhs).dmap) (rm := (Γ a).dmap) rfl rfl rfl hl.unit ho.unit
  have hs : Holds (Γ lhs).dmap.ext (Γ a).side (G a) fun p => M p (.inl a) := by have := hM a; rwa [hc] at this
  have he := plan_effect (d := (.inl lhs : A ⊕ Nat)) (direct_ok hP hl ho hc) pl p1 (G a) M hs
  rw [← p2] at he
  refine ⟨he, ?_⟩
  intro p b hb
  simp only [effects, List.foldl_cons, List.foldl_nil, Stage.effect]
  rw [Function.update_of_ne (by simpa using hb)]

theorem stages_executed {P : List Nat} (hP : P.Nodup) {Γ : A → Arr} {G : A → List Nat → V} {st : Stmt A V} {M : Nat → Mem (A ⊕ Nat) V}
    (hl : (Γ st.lhs).OK P) (ho : ∀ a ∈ st.rhs.leaves, (Γ a).OK P) (hc : st.Conform Γ) (hM : HoldsAll Γ G M) :
    Executed Γ G st M (effects P (stages Γ st) M) ∧ ∀ s ∈ stages Γ st, s.Good P := by
  unfold stages
  split
  · rename_i hs
    exact ⟨local_executed hl ho hc hs hM, by simp [localStage, Stage.Good]⟩
  · rename_i hs
    have general : Executed Γ G st M (effects P (copies Γ (Γ st.lhs).dmap 0 st.rhs.leaves ++ [patchStage Γ st]) M) ∧
        ∀ s ∈ copies Γ (Γ st.lhs).dmap 0 st.rhs.leaves ++ [patchStage Γ st], s.Good P := by
      refine ⟨patch_executed hP hl ho hc hM, ?_⟩
      intro s hs
      rcases List.mem_append.1 hs with hs | hs
      · exact copies_good hP hl (fun a ha => ⟨ho a ha, hc a ha⟩) s hs
      · rw [List.mem_singleton] at hs
        subst hs
        trivial
    obtain ⟨lhs, rhs⟩ := st
    cases rhs with
    | arr a =>
      have hne : lhs ≠ a := by
        rintro rfl
        exact hs (same_refl _)
      have ha := ho a (by simp [Ex.leaves])
      have hca : (Γ a).dmap.ext = (Γ lhs).dmap.ext := hc a (by simp [Ex.leaves])
      refine ⟨direct_executed hP hl ha hca hM, ?_⟩
      intro s hs
      simp only [List.mem_singleton] at hs
      subst hs
      obtain ⟨pl, p1, p2⟩ := assignment_plan (direct_ok hP hl ha hca) hl.order (lm := (Γ lhs).dmap) (rm := (Γ a).dmap) rfl rfl rfl hl.unit ha.unit
      rw [p2]
      exact plan_good (direct_ok hP hl ha hca) pl p1 (by simpa using hne)
    | scal => exact general
    | gen => exact general
    | un => exact general
    | bin => exact general
    | tern => exact general

end Verif.Spmd
