import Verif.ViewProg.Lemmas
/-!
Every statement that is meaningful and passes the checks is executed by the machine with the meant result.
-/
namespace Verif.VP
open Verif

variable {V : Type}

/-! ### Counted pointers held by the view variables -/

def ownCount (a : Nat) : Option (Blk V) → Nat
  | some b => b.own.count a
  | none => 0

/-- the number of counted pointers to `a` -/
def cnt (vars : List (Option (Blk V))) (a : Nat) : Nat := (vars.map (ownCount a)).sum

theorem cnt_append (vars : List (Option (Blk V))) (o : Option (Blk V)) (a : Nat) : cnt (vars ++ [o]) a = cnt vars a + ownCount a o := by
  simp [cnt]

theorem cnt_set (vars : List (Option (Blk V))) (a : Nat) : ∀ (x : Nat) (b : Blk V), vars.getD x none = some b →
    b.own.count a ≤ cnt vars a ∧ cnt (vars.set x none) a = cnt vars a - b.own.count a := by
  induction vars with
  | nil => intro x b h; simp at h
  | cons o vars ih =>
    intro x b h
    cases x with
    | zero =>
      simp only [List.getD_cons_zero] at h
      subst h
      simp [cnt, ownCount]
    | succ x =>
      simp only [List.getD_cons_succ] at h
      obtain ⟨h1, h2⟩ := ih x b h
      simp only [cnt, List.map_cons, List.sum_cons, List.set_cons_succ] at h1 h2 ⊢
      omega

theorem getD_append_one {α : Type} (l : List (Option α)) (o : Option α) (x : Nat) :
    (l ++ [o]).getD x none = if x = l.length then o else l.getD x none := by
  rw [List.getD_eq_getElem?_getD, List.getD_eq_getElem?_getD, List.getElem?_append]
  by_cases hb : x < l.length
  · rw [if_pos hb, if_neg (by omega)]
  · rw [if_neg hb]
    by_cases e : x = l.length
    · subst e; simp
    · rw [if_neg e, List.getElem?_eq_none (by simp; omega), List.getElem?_eq_none (by omega)]

theorem getD_set_none {α : Type} (l : List (Option α)) (x y : Nat) (b : α) (h : (l.set x none).getD y none = some b) :
    l.getD y none = some b ∧ y ≠ x := by
  rw [List.getD_eq_getElem?_getD, List.getElem?_set] at h
  by_cases e : x = y
  · subst e
    by_cases hx : x < l.length <;> simp [hx] at h
  · rw [if_neg e] at h
    exact ⟨by rw [List.getD_eq_getElem?_getD]; exact h, fun h => e h.symm⟩

theorem getD_some_lt {α : Type} (l : List (Option α)) (x : Nat) (b : α) (h : l.getD x none = some b) : x < l.length := by
  by_contra hn
  rw [List.getD_eq_getElem?_getD, List.getElem?_eq_none (by omega)] at h
  cases h

/-! ### The relation -/

/-- the view of the block stays inside its arrays -/
def Bnd (exts : List (List Nat)) (b : Blk V) : Prop :=
  (∀ a ∈ (den exts b).uses, a < exts.length) ∧
  ∀ i, inR (den exts b).sizes i = true → ∀ p ∈ ((den exts b).el i).locs, inR (exts.getD p.1 []) p.2 = true

/-- a reference of the machine and the view and element it stands for -/
def RefRel (exts : List (List Nat)) (vars : List (Option (Blk V))) (q : Ref) (r : Nat × Nat × List Nat) : Prop :=
  r.1 < vars.length ∧ r.2.1 < exts.length ∧ inR (exts.getD r.2.1 []) r.2.2 = true ∧
  (∀ b, vars.getD r.1 none = some b → (den exts b).arr = some r.2.1) ∧
  match q with
  | .direct a i => r.2 = (a, i)
  | .proxy x j => x = r.1 ∧ ∀ b, vars.getD x none = some b → b.resolve j = some r.2

structure Rel (m : St V) (s : SSt V) : Prop where
  len : m.heap.length = s.exts.length
  agree : Agree m.heap s.exts s.mem
  views : s.views = m.vars.map (Option.map (den s.exts))
  bnd : ∀ x b, m.live x = some b → Bnd s.exts b
  rc : RC m.heap (cnt m.vars)
  refs : List.Forall₂ (RefRel s.exts m.vars) m.refs s.refs

theorem Rel.live {m : St V} {s : SSt V} (r : Rel m s) {x : Nat} {v : SView V} (h : s.live x = some v) :
    ∃ b, m.live x = some b ∧ den s.exts b = v := by
  unfold SSt.live at h
  rw [r.views, List.getD_eq_getElem?_getD, List.getElem?_map] at h
  unfold St.live
  rw [List.getD_eq_getElem?_getD]
  cases e : m.vars[x]? with
  | none => rw [e] at h; cases h
  | some o =>
    rw [e] at h
    cases o with
    | none => cases h
    | some b =>
      simp only [Option.map_some, Option.getD_some, Option.some.injEq] at h
      exact ⟨b, rfl, h⟩

theorem Rel.own {m : St V} {s : SSt V} (r : Rel m s) {x : Nat} {b : Blk V} (h : m.live x = some b) {a : Nat} (ha : a ∈ b.own) : 0 < cnt m.vars a := by
  have := (cnt_set m.vars a x b h).1
  have := List.count_pos_iff.2 ha
  omega

theorem Rel.arrLive {m : St V} {s : SSt V} (r : Rel m s) {x : Nat} {b : Blk V} (h : m.live x = some b) {a : Nat} (ha : (den s.exts b).arr = some a) :
    (cell m.heap a).isSome = true := by
  have := r.own h (a := a) (by rw [(arr_ok ha).1]; simp)
  obtain ⟨c, hc, _⟩ := r.rc.alive this
  rw [hc]; rfl

theorem Rel.alive {m : St V} {s : SSt V} (r : Rel m s) {a : Nat} (h : s.alive a = true) : (cell m.heap a).isSome = true := by
  unfold SSt.alive at h
  rw [List.any_eq_true] at h
  obtain ⟨o, ho, hv⟩ := h
  cases o with
  | none => cases hv
  | some v =>
    simp only [beq_iff_eq] at hv
    rw [r.views, List.mem_map] at ho
    obtain ⟨o', ho', e⟩ := ho
    cases o' with
    | none => cases e
    | some b =>
      simp only [Option.map_some, Option.some.injEq] at e
      subst e
      obtain ⟨x, hx, hg⟩ := List.mem_iff_getElem.1 ho'
      refine r.arrLive (x := x) (b := b) ?_ hv
      unfold St.live
      rw [List.getD_eq_getElem?_getD, List.getElem?_eq_getElem hx, hg]
      rfl

theorem Rel.readable {m : St V} {s : SSt V} (r : Rel m s) {b : Blk V} (h : s.readable ⟨true, true⟩ (den s.exts b) = true) :
    ∀ a ∈ (den s.exts b).uses, (cell m.heap a).isSome = true := by
  unfold SSt.readable at h
  simp only [Bool.not_true, Bool.false_or, List.all_eq_true] at h
  exact fun a ha => r.alive (h a ha)

theorem Rel.setMem {m : St V} {s : SSt V} (r : Rel m s) {h' : Heap V} {mem' : Nat → List Nat → V} (sh : Shape m.heap h') (ag : Agree h' s.exts mem') :
    Rel { m with heap := h' } { s with mem := mem' } where
  len := sh.1.trans r.len
  agree := ag
  views := r.views
  bnd := r.bnd
  rc := sh.rc r.rc
  refs := r.refs

theorem RefRel.mono {exts : List (List Nat)} {vars vars' : List (Option (Blk V))} (hl : vars.length ≤ vars'.length)
    (hv : ∀ x b, x < vars.length → vars'.getD x none = some b → vars.getD x none = some b) {q : Ref} {r : Nat × Nat × List Nat}
    (h : RefRel exts vars q r) : RefRel exts vars' q r := by
  obtain ⟨h1, h2, h3, h4, h5⟩ := h
  refine ⟨by omega, h2, h3, fun b hb => h4 b (hv _ b h1 hb), ?_⟩
  cases q with
  | direct a i => exact h5
  | proxy x j =>
    obtain ⟨h6, h7⟩ := h5
    subst h6
    exact ⟨rfl, fun b hb => h7 b (hv _ b h1 hb)⟩

theorem Rel.declare {m : St V} {s : SSt V} (r : Rel m s) {b : Blk V} (ho : ∀ a ∈ b.own, 0 < cnt m.vars a) (hb : Bnd s.exts b) :
    ∃ m', m.declare b = some m' ∧ Rel m' { s with views := s.views ++ [some (den s.exts b)] } := by
  obtain ⟨h', e1, e2, e3, e4⟩ := incrs_ok b.own m.heap s.exts s.mem (cnt m.vars) r.agree r.rc ho
  refine ⟨{ m with heap := h', vars := m.vars ++ [some b] }, by simp [St.declare, e1], ?_⟩
  refine ⟨e2.trans r.len, e3, by simp [r.views], ?_, ?_, ?_⟩
  · intro x c hc
    unfold St.live at hc
    simp only at hc
    rw [getD_append_one] at hc
    by_cases e : x = m.vars.length
    · rw [if_pos e] at hc; cases hc; exact hb
    · rw [if_neg e] at hc; exact r.bnd x c hc
  · have : (fun a => cnt m.vars a + b.own.count a) = cnt (m.vars ++ [some b]) := by
      funext a
      rw [cnt_append]; rfl
    rw [← this]
    exact e4
  · refine r.refs.imp fun q p h => RefRel.mono (by simp) (fun x c hx hc => ?_) h
    rw [getD_append_one, if_neg (by omega)] at hc
    exact hc

theorem Rel.store {m : St V} {s : SSt V} (r : Rel m s) {x : Nat} {b : Blk V} (hx : m.live x = some b) (rd : Heap V → List Nat → Option V)
    (t t' : List Nat → Tm V) (tr : List (List Nat))
    (hrd : ∀ h mem, Agree h s.exts mem → Shape m.heap h → ∀ i, inR (den s.exts b).sizes i = true → rd h i = some ((t' i).eval mem))
    (ht : ∀ i, (t i).eval s.mem = (t' i).eval s.mem) {s' : SSt V} (hs : s.store ⟨true, true⟩ (den s.exts b) t t' tr = some s') :
    ∃ m', m.store b rd tr = some m' ∧ Rel m' s' := by
  unfold SSt.store at hs
  split at hs
  · rename_i hc
    simp only [Bool.and_eq_true, decide_eq_true_eq, Bool.not_true, Bool.false_or] at hc
    obtain ⟨⟨⟨h1, h2⟩, h3⟩, h4⟩ := hc
    cases hs
    obtain ⟨a, ha⟩ := Option.isSome_iff_exists.1 h1
    have hp : tr.Perm (indices (den s.exts b).sizes) := List.isPerm_iff.1 h2
    have hal := r.arrLive hx ha
    have hmem : ∀ i ∈ tr, inR (den s.exts b).sizes i = true := fun i hi => (mem_indices _ _).1 (hp.mem_iff.1 hi)
    obtain ⟨h', e1, e2, e3⟩ := storeLoop_ok ha m.heap hal rd t' (fun i => (t' i).eval s.mem) tr m.heap s.mem (Shape.refl _) r.agree
      (fun i hi => (r.bnd x b hx).2 i (hmem i hi)) (fun h mem ag sh i hi => hrd h mem ag sh i (hmem i hi))
      (hp.nodup_iff.2 (indices_nodup _))
      (fun i hi j hj hij p hpp => by
        unfold undisturbed at h4
        simp only [List.all_eq_true, Bool.or_eq_true, beq_iff_eq, bne_iff_ne] at h4
        rcases h4 i (hp.mem_iff.1 hi) j (hp.mem_iff.1 hj) with h | h
        · exact absurd h hij
        · exact h p hpp)
      (fun i _ => rfl)
    refine ⟨{ m with heap := h' }, ?_, ?_⟩
    · unfold St.store
      rw [sizes_ok r.agree b (fun a' h => by rw [(arr_ok ha).2.1] at h; simp at h; subst h; exact hal), Option.bind_some, if_pos h2, e1]
      rfl
    · rw [wr_assign _ _ _ _ _ hp h3] at e3
      have : (fun i => (t i).eval s.mem) = fun i => (t' i).eval s.mem := funext ht
      rw [this]
      exact r.setMem e2 e3
  · cases hs

theorem forall2_get {α β : Type} {R : α → β → Prop} {l : List α} {l' : List β} (h : List.Forall₂ R l l') {k : Nat} {y : β} (e : l'[k]? = some y) :
    ∃ x, l[k]? = some x ∧ R x y := by
  induction h generalizing k with
  | nil => simp at e
  | cons h1 _ ih =>
    cases k with
    | zero => simp at e; subst e; exact ⟨_, by simp, h1⟩
    | succ k => simp at e; obtain ⟨x, hx, hr⟩ := ih e; exact ⟨x, by simpa using hx, hr⟩

/-- reading through a reference whose view exists -/
theorem Rel.refGet {m : St V} {s : SSt V} (r : Rel m s) {q : Ref} {p : Nat × Nat × List Nat} (hq : RefRel s.exts m.vars q p)
    (hu : s.usable ⟨true, true⟩ p.1 = true) {h : Heap V} {mem : Nat → List Nat → V} (ag : Agree h s.exts mem) (sh : Shape m.heap h) :
    VP.refGet m.vars h q = some (mem p.2.1 p.2.2) := by
  obtain ⟨h1, h2, h3, h4, h5⟩ := hq
  unfold SSt.usable at hu
  simp only [Bool.not_true, Bool.false_or] at hu
  obtain ⟨v, hv⟩ := Option.isSome_iff_exists.1 hu
  obtain ⟨b, hb, _⟩ := r.live hv
  have ha := h4 b hb
  have hal := sh.isSome (r.arrLive hb ha)
  cases q with
  | direct a i =>
    simp only at h5
    rw [h5] at h3 hal ⊢
    exact get_ok ag (.stored a) i (by simpa [den] using hal) (by simpa [den, Tm.locs] using h3)
  | proxy x j =>
    obtain ⟨rfl, h7⟩ := h5
    simp only [VP.refGet]
    rw [show m.vars.getD p.1 none = some b from hb, Option.bind_some]
    obtain ⟨k, e1, e2⟩ := (arr_ok ha).2.2 j
    have e3 := (h7 b hb).symm.trans e1
    simp only [Option.some.injEq] at e3
    rw [get_ok ag b j (by rw [(arr_ok ha).2.1]; simpa using hal) (by rw [e2]; simp only [Tm.locs, List.mem_singleton]; rintro _ rfl; rw [e3] at h3; exact h3), e2, e3]
    rfl

theorem Rel.refPut {m : St V} {s : SSt V} (r : Rel m s) {q : Ref} {p : Nat × Nat × List Nat} (hq : RefRel s.exts m.vars q p)
    (hu : s.usable ⟨true, true⟩ p.1 = true) (v : V) :
    ∃ h', VP.refPut m.vars m.heap v q = some h' ∧ Rel { m with heap := h' } { s with mem := upd s.mem p.2.1 p.2.2 v } := by
  obtain ⟨h1, h2, h3, h4, h5⟩ := hq
  unfold SSt.usable at hu
  simp only [Bool.not_true, Bool.false_or] at hu
  obtain ⟨w, hv⟩ := Option.isSome_iff_exists.1 hu
  obtain ⟨b, hb, _⟩ := r.live hv
  have ha := h4 b hb
  have hal := r.arrLive hb ha
  obtain ⟨h', e1, e2, e3⟩ := putCell_ok r.agree v hal h3
  refine ⟨h', ?_, r.setMem e2 e3⟩
  cases q with
  | direct a i =>
    simp only at h5
    rw [h5] at e1
    exact e1
  | proxy x j =>
    obtain ⟨rfl, h7⟩ := h5
    simp only [VP.refPut]
    rw [show m.vars.getD p.1 none = some b from hb, Option.bind_some, Blk.put, h7 b hb]
    exact e1

theorem Rel.newArray {m : St V} {s : SSt V} (r : Rel m s) (ext : List Nat) (split : Bool) (v : V) :
    Rel { m with heap := m.heap ++ [some ⟨1, ext, split, fun _ => v⟩], vars := m.vars ++ [some (.stored m.heap.length)] }
      { s with
        exts := s.exts ++ [ext]
        mem := fun a i => if a = s.exts.length then v else s.mem a i
        views := s.views ++ [some ⟨ext, some s.exts.length, [s.exts.length], fun i => .at s.exts.length i⟩] } := by
  have hx : ∀ a, (s.exts ++ [ext]).getD a [] = if a = s.exts.length then ext else s.exts.getD a [] := by
    intro a
    rw [List.getD_eq_getElem?_getD, List.getD_eq_getElem?_getD, List.getElem?_append]
    by_cases hb : a < s.exts.length
    · rw [if_pos hb, if_neg (by omega)]
    · rw [if_neg hb]
      by_cases e : a = s.exts.length
      · subst e; simp
      · rw [if_neg e, List.getElem?_eq_none (by simp; omega), List.getElem?_eq_none (by omega)]
  have hden : ∀ x b, m.live x = some b → den (s.exts ++ [ext]) b = den s.exts b := fun x b hb => den_append _ _ _ (r.bnd x b hb).1
  refine ⟨by simp [r.len], ?_, ?_, ?_, ?_, ?_⟩
  · intro a c hc
    simp only at hc
    rw [cell_append] at hc
    rw [hx]
    simp only
    rw [r.len] at hc
    by_cases e : a = s.exts.length
    · rw [if_pos e] at hc ⊢
      cases hc
      exact ⟨rfl, fun i _ => by rw [if_pos e]⟩
    · rw [if_neg e] at hc ⊢
      refine ⟨(r.agree a c hc).1, fun i hi => ?_⟩
      rw [if_neg e]
      exact (r.agree a c hc).2 i hi
  · simp only [r.views, List.map_append, List.map_cons, List.map_nil, Option.map_some]
    congr 1
    · apply List.map_congr_left
      intro o ho
      cases o with
      | none => rfl
      | some b =>
        obtain ⟨x, hxl, hg⟩ := List.mem_iff_getElem.1 ho
        have : m.live x = some b := by
          unfold St.live
          rw [List.getD_eq_getElem?_getD, List.getElem?_eq_getElem hxl, hg]
          rfl
        simp only [Option.map_some, hden x b this]
    · simp only [den, hx, r.len, if_true]
  · intro x b hb
    unfold St.live at hb
    simp only at hb
    rw [getD_append_one] at hb
    by_cases e : x = m.vars.length
    · rw [if_pos e] at hb
      cases hb
      refine ⟨by simp [den, r.len], ?_⟩
      intro i hi p hp
      simp only [den, Tm.locs, List.mem_singleton] at hi hp
      subst hp
      exact hi
    · rw [if_neg e] at hb
      obtain ⟨b1, b2⟩ := r.bnd x b hb
      unfold Bnd
      simp only
      rw [hden x b hb]
      refine ⟨fun a ha => by have := b1 a ha; simp; omega, fun i hi p hp => ?_⟩
      have := b1 p.1 (locs_uses _ _ _ p hp)
      rw [hx, if_neg (by omega)]
      exact b2 i hi p hp
  · intro a
    simp only
    rw [cell_append, cnt_append]
    by_cases e : a = m.heap.length
    · right
      rw [if_pos e]
      have h0 : cnt m.vars a = 0 := by
        rcases r.rc a with h | ⟨c, hc, _⟩
        · exact h.2
        · have := cell_lt hc; omega
      subst e
      refine ⟨_, rfl, ?_, ?_⟩ <;> simp [ownCount, Blk.own, h0]
    · rw [if_neg e]
      have : ownCount a (some (Blk.stored m.heap.length) : Option (Blk V)) = 0 := by
        simp only [ownCount, Blk.own, List.count_singleton]
        rw [if_neg]
        simpa using fun h => e h.symm
      rw [this]
      exact r.rc a
  · refine r.refs.imp fun q p h => ?_
    obtain ⟨h1, h2, h3, h4, h5⟩ := h
    have h4' : ∀ b, m.vars.getD p.1 none = some b → (den (s.exts ++ [ext]) b).arr = some p.2.1 := fun b hb => by
      rw [hden p.1 b hb]; exact h4 b hb
    refine RefRel.mono (vars := m.vars) (by simp) (fun x c hxl hc => by
      rw [getD_append_one, if_neg (by omega)] at hc; exact hc) ⟨h1, by simp; omega, ?_, h4', h5⟩
    rw [hx, if_neg (by omega)]
    exact h3

/-! ### Statements -/

theorem loc_some {v : SView V} {i : List Nat} {p : Nat × List Nat} (h : v.loc i = some p) : v.el i = .at p.1 p.2 := by
  unfold SView.loc at h
  split at h
  · rename_i a j e
    cases h
    exact e
  · cases h

/-- the view of a live variable can be read -/
theorem Rel.usesLive {m : St V} {s : SSt V} (r : Rel m s) {x : Nat} {b : Blk V} (hx : m.live x = some b) (h : (den s.exts b).arr.isSome = true) :
    ∀ a ∈ (den s.exts b).uses, (cell m.heap a).isSome = true := by
  obtain ⟨a, ha⟩ := Option.isSome_iff_exists.1 h
  rw [(arr_ok ha).2.1]
  simp only [List.mem_singleton]
  rintro _ rfl
  exact r.arrLive hx ha

theorem store_arr {ck : Checks} {s s' : SSt V} {v : SView V} {t rd : List Nat → Tm V} {tr : List (List Nat)} (h : s.store ck v t rd tr = some s') :
    v.arr.isSome = true := by
  unfold SSt.store at h
  split at h
  · rename_i hc
    simp only [Bool.and_eq_true] at hc
    exact hc.1.1.1
  · cases h

theorem step_sim {m : St V} {s : SSt V} (r : Rel m s) (op : Op V) {s' : SSt V} {out : List V}
    (h : s.step ⟨true, true⟩ op = some (s', out)) : ∃ m', m.step op = some (m', out) ∧ Rel m' s' := by
  cases op with
  | new ext split v =>
    simp only [SSt.step, Option.some.injEq, Prod.mk.injEq] at h
    obtain ⟨rfl, rfl⟩ := h
    exact ⟨_, rfl, r.newArray ext split v⟩
  | copy x =>
    simp only [SSt.step, Option.map_eq_some_iff, Prod.mk.injEq] at h
    obtain ⟨v, hv, rfl, rfl⟩ := h
    obtain ⟨b, hb, rfl⟩ := r.live hv
    obtain ⟨m', e, r'⟩ := r.declare (fun a ha => r.own hb ha) (r.bnd x b hb)
    exact ⟨m', by simp [St.step, hb, e], r'⟩
  | sub x l =>
    simp only [SSt.step, Option.bind_eq_some_iff] at h
    obtain ⟨v, hv, h⟩ := h
    obtain ⟨b, hb, rfl⟩ := r.live hv
    split at h
    · rename_i hc
      simp only [Option.some.injEq, Prod.mk.injEq] at h
      obtain ⟨rfl, rfl⟩ := h
      rw [List.all_eq_true] at hc
      have hbd : Bnd s.exts (Blk.derived l b) := by
        refine ⟨(r.bnd x b hb).1, fun i hi p hp => ?_⟩
        exact (r.bnd x b hb).2 _ (hc i ((mem_indices _ _).2 hi)) p hp
      obtain ⟨m', e, r'⟩ := r.declare (b := Blk.derived l b) (fun a ha => r.own hb ha) hbd
      exact ⟨m', by simp [St.step, hb, e], r'⟩
    · cases h
  | expr f x y =>
    simp only [SSt.step, Option.bind_eq_some_iff] at h
    obtain ⟨v, hv, w, hw, h⟩ := h
    obtain ⟨b, hb, rfl⟩ := r.live hv
    obtain ⟨c, hc, rfl⟩ := r.live hw
    split at h
    · rename_i hsz
      simp only [Option.some.injEq, Prod.mk.injEq] at h
      obtain ⟨rfl, rfl⟩ := h
      have hbd : Bnd s.exts (Blk.bin f b c) := by
        constructor
        · intro a ha
          simp only [den, List.mem_append] at ha
          exact ha.elim ((r.bnd x b hb).1 a) ((r.bnd y c hc).1 a)
        · intro i hi p hp
          simp only [den, Tm.locs, List.mem_append] at hi hp
          rcases hp with hp | hp
          · exact (r.bnd x b hb).2 i hi p hp
          · exact (r.bnd y c hc).2 i (hsz ▸ hi) p hp
      have hown : ∀ a ∈ (Blk.bin f b c).own, 0 < cnt m.vars a := by
        intro a ha
        simp only [Blk.own, List.mem_append] at ha
        rcases ha with ha | ha
        · split at ha
          · cases ha
          · exact r.own hb ha
        · split at ha
          · cases ha
          · exact r.own hc ha
      obtain ⟨m', e, r'⟩ := r.declare hown hbd
      exact ⟨m', by simp [St.step, hb, hc, e], r'⟩
    · cases h
  | destroy x =>
    simp only [SSt.step, Option.map_eq_some_iff, Prod.mk.injEq] at h
    obtain ⟨v, hv, rfl, rfl⟩ := h
    obtain ⟨b, hb, rfl⟩ := r.live hv
    obtain ⟨h', e1, e2, e3, e4⟩ := decrs_ok b.own m.heap s.exts s.mem (cnt m.vars) r.agree r.rc (fun a => (cnt_set m.vars a x b hb).1)
    refine ⟨{ m with heap := h', vars := m.vars.set x none }, by simp [St.step, hb, e1], ?_⟩
    refine ⟨e2.trans r.len, e3, by simp [r.views, List.map_set], ?_, ?_, ?_⟩
    · intro y c hc
      exact r.bnd y c (getD_set_none _ _ _ _ hc).1
    · have : (fun a => cnt m.vars a - b.own.count a) = cnt (m.vars.set x none) := by
        funext a
        exact ((cnt_set m.vars a x b hb).2).symm
      rw [← this]
      exact e4
    · refine r.refs.imp fun q p h => RefRel.mono (by simp) (fun y c _ hc => (getD_set_none _ _ _ _ hc).1) h
  | put x i val =>
    simp only [SSt.step, Option.bind_eq_some_iff] at h
    obtain ⟨v, hv, p, hp, h⟩ := h
    obtain ⟨b, hb, rfl⟩ := r.live hv
    split at h
    · rename_i hc
      simp only [Bool.and_eq_true] at hc
      simp only [Option.some.injEq, Prod.mk.injEq] at h
      obtain ⟨rfl, rfl⟩ := h
      obtain ⟨a, ha⟩ := Option.isSome_iff_exists.1 hc.2
      obtain ⟨h', j, e1, e2, e3, e4⟩ := put_ok r.agree i val ha (r.arrLive hb ha) ((r.bnd x b hb).2 i hc.1)
      have e5 := e2.symm.trans (loc_some hp)
      simp only [Tm.at.injEq] at e5
      rw [e5.1, e5.2] at e4
      exact ⟨{ m with heap := h' }, by simp [St.step, hb, e1], r.setMem e3 e4⟩
    · cases h
  | get x i =>
    simp only [SSt.step, Option.bind_eq_some_iff] at h
    obtain ⟨v, hv, h⟩ := h
    obtain ⟨b, hb, rfl⟩ := r.live hv
    split at h
    · rename_i hc
      simp only [Bool.and_eq_true] at hc
      simp only [Option.some.injEq, Prod.mk.injEq] at h
      obtain ⟨rfl, rfl⟩ := h
      exact ⟨m, by simp [St.step, hb, get_ok r.agree b i (r.readable hc.2) ((r.bnd x b hb).2 i hc.1)], r⟩
    · cases h
  | assign x y tr =>
    simp only [SSt.step, Option.bind_eq_some_iff] at h
    obtain ⟨v, hv, w, hw, h⟩ := h
    obtain ⟨b, hb, rfl⟩ := r.live hv
    obtain ⟨c, hc, rfl⟩ := r.live hw
    split at h
    · rename_i hg
      simp only [Option.map_eq_some_iff, Prod.mk.injEq] at h
      obtain ⟨s1, hs, rfl, rfl⟩ := h
      have hal := r.readable hg.2
      obtain ⟨m', e, r'⟩ := r.store hb (fun h i => c.get h i) _ _ tr (fun h mem ag sh i hi =>
        get_ok ag c i (fun a ha => sh.isSome (hal a ha)) ((r.bnd y c hc).2 i (hg.1 ▸ hi))) (fun _ => rfl) hs
      exact ⟨m', by simp [St.step, hb, hc, e], r'⟩
    · cases h
  | fill x val tr =>
    simp only [SSt.step, Option.bind_eq_some_iff, Option.map_eq_some_iff, Prod.mk.injEq] at h
    obtain ⟨v, hv, s1, hs, rfl, rfl⟩ := h
    obtain ⟨b, hb, rfl⟩ := r.live hv
    obtain ⟨m', e, r'⟩ := r.store hb (fun h i => (Blk.scalar val).get h i) _ _ tr (fun h mem ag sh i hi => rfl) (fun _ => rfl) hs
    exact ⟨m', by simp [St.step, hb, e], r'⟩
  | update x f y tr =>
    simp only [SSt.step, Option.bind_eq_some_iff] at h
    obtain ⟨v, hv, w, hw, h⟩ := h
    obtain ⟨b, hb, rfl⟩ := r.live hv
    obtain ⟨c, hc, rfl⟩ := r.live hw
    split at h
    · rename_i hg
      simp only [Option.map_eq_some_iff, Prod.mk.injEq] at h
      obtain ⟨s1, hs, rfl, rfl⟩ := h
      have hal := r.readable hg.2
      have hal' := r.usesLive hb (store_arr hs)
      obtain ⟨m', e, r'⟩ := r.store hb (fun h i => (Blk.bin f b c).get h i) _ _ tr (fun h mem ag sh i hi =>
        get_ok ag (Blk.bin f b c) i
          (fun a ha => by
            simp only [den, List.mem_append] at ha
            exact ha.elim (fun ha => sh.isSome (hal' a ha)) (fun ha => sh.isSome (hal a ha)))
          (fun p hp => by
            simp only [den, Tm.locs, List.mem_append] at hp
            exact hp.elim ((r.bnd x b hb).2 i hi p) ((r.bnd y c hc).2 i (hg.1 ▸ hi) p))) (fun _ => rfl) hs
      exact ⟨m', by simp [St.step, hb, hc, e], r'⟩
    · cases h
  | updateVal x f val tr =>
    simp only [SSt.step, Option.bind_eq_some_iff, Option.map_eq_some_iff, Prod.mk.injEq] at h
    obtain ⟨v, hv, s1, hs, rfl, rfl⟩ := h
    obtain ⟨b, hb, rfl⟩ := r.live hv
    have hal' := r.usesLive hb (store_arr hs)
    obtain ⟨m', e, r'⟩ := r.store hb (fun h i => (Blk.bin f b (.scalar val)).get h i) _ _ tr (fun h mem ag sh i hi =>
        get_ok ag (Blk.bin f b (.scalar val)) i
          (fun a ha => by
            simp only [den, List.append_nil] at ha
            exact sh.isSome (hal' a ha))
          (fun p hp => by
            simp only [den, Tm.locs, List.append_nil] at hp
            exact (r.bnd x b hb).2 i hi p hp)) (fun _ => rfl) hs
    exact ⟨m', by simp [St.step, hb, e], r'⟩
  | updateRef x f k tr =>
    simp only [SSt.step, Option.bind_eq_some_iff] at h
    obtain ⟨v, hv, p, hp, h⟩ := h
    obtain ⟨b, hb, rfl⟩ := r.live hv
    obtain ⟨q, hq, hqp⟩ := forall2_get r.refs hp
    split at h
    · rename_i hu
      simp only [Option.map_eq_some_iff, Prod.mk.injEq] at h
      obtain ⟨s1, hs, rfl, rfl⟩ := h
      have hal' := r.usesLive hb (store_arr hs)
      have hsz := sizes_ok r.agree b hal'
      have hg : ∀ h mem, Agree h s.exts mem → Shape m.heap h → ∀ i, inR (den s.exts b).sizes i = true →
          b.get h i = some (((den s.exts b).el i).eval mem) := fun h mem ag sh i hi =>
        get_ok ag b i (fun a ha => sh.isSome (hal' a ha)) ((r.bnd x b hb).2 i hi)
      by_cases h3 : (den s.exts b).sizes.length = 3
      · simp only [h3, if_true] at hs
        obtain ⟨m', e, r'⟩ := r.store hb (fun h i => (b.get h i).bind fun v => (VP.refGet m.vars h q).map fun w => f v w) _ _ tr
          (fun h mem ag sh i hi => by
            rw [hg h mem ag sh i hi, r.refGet hqp hu ag sh]
            rfl) (fun _ => rfl) hs
        exact ⟨m', by simp [St.step, hb, hq, hsz, h3, e], r'⟩
      · simp only [h3, if_false] at hs
        have hs' : s.store ⟨true, true⟩ (den s.exts b) (fun i => .app f ((den s.exts b).el i) (.num (s.mem p.2.1 p.2.2)))
            (fun i => .app f ((den s.exts b).el i) (.num (s.mem p.2.1 p.2.2))) tr = some s1 := by
          rw [← hs]
          unfold SSt.store undisturbed
          simp only [Tm.locs, List.append_nil]
        obtain ⟨m', e, r'⟩ := r.store hb (fun h i => (Blk.bin f b (.scalar (s.mem p.2.1 p.2.2))).get h i) _ _ tr
          (fun h mem ag sh i hi => by
            simp only [Blk.get, hg h mem ag sh i hi, Option.bind_some, Option.map_some, Tm.eval]) (fun _ => rfl) hs'
        refine ⟨m', ?_, r'⟩
        simp only [St.step, hb, hq, hsz, Option.bind_some, h3, if_false, r.refGet hqp hu r.agree (Shape.refl _), e, Option.map_some]
    · cases h
  | deep y d tr =>
    simp only [SSt.step, Option.bind_eq_some_iff] at h
    obtain ⟨w, hw, h⟩ := h
    obtain ⟨c, hc, rfl⟩ := r.live hw
    split at h
    · rename_i hg
      simp only [Bool.and_eq_true] at hg
      simp only [Option.some.injEq, Prod.mk.injEq] at h
      obtain ⟨rfl, rfl⟩ := h
      have hal := r.readable hg.1
      have hsz := sizes_ok r.agree c hal
      have r1 := r.newArray (den s.exts c).sizes false d
      generalize hm1 : ({ m with heap := m.heap ++ [some ⟨1, (den s.exts c).sizes, false, fun _ => d⟩], vars := m.vars ++ [some (.stored m.heap.length)] } : St V) = m1 at r1
      generalize hs1 : ({ s with exts := s.exts ++ [(den s.exts c).sizes], mem := fun a i => if a = s.exts.length then d else s.mem a i, views := s.views ++ [some ⟨(den s.exts c).sizes, some s.exts.length, [s.exts.length], fun i => .at s.exts.length i⟩] } : SSt V) = s1 at r1
      have hden : den s1.exts c = den s.exts c := by rw [← hs1]; exact den_append _ _ _ (r.bnd y c hc).1
      have hlv : m1.live m.vars.length = some (.stored m.heap.length) := by
        rw [← hm1]; unfold St.live; simp only; rw [getD_append_one, if_pos rfl]
      have hlc : m1.live y = some c := by
        rw [← hm1]; unfold St.live; simp only
        rw [getD_append_one, if_neg]
        · exact hc
        · have := getD_some_lt _ _ _ hc; omega
      have hdn : den s1.exts (.stored m.heap.length : Blk V) = ⟨(den s.exts c).sizes, some s.exts.length, [s.exts.length], fun i => .at s.exts.length i⟩ := by
        rw [← hs1]; simp [den, r.len]
      have hloc : ∀ i, (den s1.exts (.stored m.heap.length : Blk V)).loc i = some (s.exts.length, i) := fun i => by rw [hdn]; rfl
      have hloc' : (den s1.exts (.stored m.heap.length : Blk V)).loc = fun i => some (s.exts.length, i) := funext hloc
      have halc : ∀ h, Shape m1.heap h → ∀ a ∈ (den s1.exts c).uses, (cell h a).isSome = true := by
        intro h sh a ha
        refine sh.isSome ?_
        rw [hden] at ha
        rw [← hm1]
        simp only
        rw [cell_append, if_neg]
        · exact hal a ha
        · have := (r.bnd y c hc).1 a ha; rw [r.len]; omega
      have hbdc : ∀ i, inR (den s.exts c).sizes i = true → ∀ p ∈ ((den s1.exts c).el i).locs, inR (s1.exts.getD p.1 []) p.2 = true :=
        fun i hi => (r1.bnd y c hlc).2 i (by rw [hden]; exact hi)
      have hne : ∀ i, ∀ p ∈ ((den s1.exts c).el i).locs, p.1 ≠ s.exts.length := by
        intro i p hp
        rw [hden] at hp
        have := (r.bnd y c hc).1 p.1 (locs_uses _ _ _ p hp)
        omega
      have hev : ∀ i, ((den s1.exts c).el i).eval s1.mem = ((den s.exts c).el i).eval s.mem := by
        intro i
        rw [hden]
        have : ∀ t : Tm V, (∀ p ∈ t.locs, p.1 ≠ s.exts.length) → t.eval s1.mem = t.eval s.mem := by
          intro t
          induction t with
          | «at» a j =>
            intro h
            have h0 := h (a, j) (by simp [Tm.locs])
            rw [← hs1]
            simp only [Tm.eval]
            rw [if_neg h0]
          | app f u w ihu ihw =>
            intro h
            simp only [Tm.locs, List.mem_append] at h
            simp only [Tm.eval, ihu (fun p hp => h p (.inl hp)), ihw (fun p hp => h p (.inr hp))]
          | num v => intro _; rfl
        refine this _ fun p hp => ?_
        have := (r.bnd y c hc).1 p.1 (locs_uses _ _ _ p hp)
        omega
      have hst : s1.store ⟨true, true⟩ (den s1.exts (.stored m.heap.length)) (den s1.exts c).el (den s1.exts c).el tr =
          some { s1 with mem := assignMem s1.mem (indices (den s.exts c).sizes) (fun i => some (s.exts.length, i)) fun i => ((den s1.exts c).el i).eval s1.mem } := by
        unfold SSt.store
        rw [hloc', if_pos]
        · rw [hdn]
        · simp only [Bool.and_eq_true, Bool.not_true, Bool.false_or, decide_eq_true_eq]
          refine ⟨⟨⟨by rw [hdn]; rfl, by rw [hdn]; exact hg.2⟩, ?_⟩, ?_⟩
          · rw [hdn]
            exact (indices_nodup _).map (fun a b h => by simpa using h)
          · unfold undisturbed
            simp only [List.all_eq_true, Bool.or_eq_true, beq_iff_eq, bne_iff_ne]
            intro i _ j _
            right
            intro p hp e
            simp only [Option.some.injEq] at e
            exact hne j p hp (by rw [← e])
      obtain ⟨m', e, r'⟩ := r1.store hlv (fun h i => c.get h i) _ _ tr (fun h mem ag sh i hi =>
        get_ok ag c i (halc h sh) (hbdc i (by rw [hdn] at hi; exact hi))) (fun _ => rfl) hst
      refine ⟨m', ?_, ?_⟩
      · simp only [St.step, hc, Option.bind_some, hsz, hm1, e, Option.map_some]
      · have hmem : assignMem s1.mem (indices (den s.exts c).sizes) (fun i => some (s.exts.length, i)) (fun i => ((den s1.exts c).el i).eval s1.mem) =
            fun a i => if a = s.exts.length then (if inR (den s.exts c).sizes i = true then ((den s.exts c).el i).eval s.mem else d) else s.mem a i := by
          funext a i
          unfold assignMem
          cases hf : (indices (den s.exts c).sizes).find? (fun k => (some (s.exts.length, k) : Option (Nat × List Nat)) == some (a, i)) with
          | some k =>
            have h1 := List.mem_of_find?_eq_some hf
            have h2 := List.find?_some hf
            simp only [beq_iff_eq, Option.some.injEq, Prod.mk.injEq] at h2
            obtain ⟨h2, rfl⟩ := h2
            simp only
            rw [if_pos h2.symm, if_pos ((mem_indices _ _).1 h1), hev]
          | none =>
            rw [List.find?_eq_none] at hf
            simp only
            rw [← hs1]
            simp only
            by_cases ha : a = s.exts.length
            · rw [if_pos ha, if_pos ha]
              rw [if_neg]
              intro hi
              exact hf i ((mem_indices _ _).2 hi) (by simp [ha])
            · rw [if_neg ha, if_neg ha]
        rw [hmem] at r'
        rw [← hs1] at r'
        exact r'
    · cases h
  | ref x i =>
    simp only [SSt.step, Option.bind_eq_some_iff] at h
    obtain ⟨v, hv, p, hp, h⟩ := h
    obtain ⟨b, hb, rfl⟩ := r.live hv
    split at h
    · rename_i hc
      simp only [Bool.and_eq_true] at hc
      simp only [Option.some.injEq, Prod.mk.injEq] at h
      obtain ⟨rfl, rfl⟩ := h
      obtain ⟨a, ha⟩ := Option.isSome_iff_exists.1 hc.2
      obtain ⟨j, e1, e2⟩ := (arr_ok ha).2.2 i
      have e5 := e2.symm.trans (loc_some hp)
      simp only [Tm.at.injEq] at e5
      have hp' : p = (a, j) := by rw [e5.1, e5.2]
      subst hp'
      have hal := r.arrLive hb ha
      have hbase : ∀ q, (match q with
          | Ref.direct a' i' => ((a, j) : Nat × List Nat) = (a', i')
          | Ref.proxy x' j' => x' = x ∧ ∀ b, m.vars.getD x' none = some b → b.resolve j' = some (a, j)) → RefRel s.exts m.vars q (x, a, j) := by
        intro q hq
        refine ⟨getD_some_lt _ _ _ hb, ?_, ?_, ?_, hq⟩
        · exact (r.bnd x b hb).1 a (by rw [(arr_ok ha).2.1]; simp)
        · exact (r.bnd x b hb).2 i hc.1 (a, j) (by rw [e2]; simp [Tm.locs])
        · intro b' hb'
          have : b' = b := by
            have h1 : m.vars.getD x none = some b := hb
            simp only at hb'
            rw [h1] at hb'
            exact (Option.some.inj hb').symm
          subst this
          exact ha
      by_cases hk : (b.addr m.heap || b.isStored) = true
      · refine ⟨{ m with refs := m.refs ++ [.direct a j] }, ?_, ?_⟩
        · simp only [St.step, hb, Option.bind_some, mkRef, hk, if_true, e1, Option.map_some]
        · exact ⟨r.len, r.agree, r.views, r.bnd, r.rc, List.rel_append r.refs (.cons (hbase _ rfl) .nil)⟩
      · refine ⟨{ m with refs := m.refs ++ [.proxy x i] }, ?_, ?_⟩
        · simp only [St.step, hb, Option.bind_some, mkRef, hk, Option.map_some]
          rfl
        · refine ⟨r.len, r.agree, r.views, r.bnd, r.rc, List.rel_append r.refs (.cons (hbase _ ⟨rfl, fun b' hb' => ?_⟩) .nil)⟩
          have : b' = b := by
            have h1 : m.vars.getD x none = some b := hb
            rw [h1] at hb'
            exact (Option.some.inj hb').symm
          subst this
          exact e1
    · cases h
  | rcopy k =>
    simp only [SSt.step, Option.map_eq_some_iff, Prod.mk.injEq] at h
    obtain ⟨p, hp, rfl, rfl⟩ := h
    obtain ⟨q, hq, hqp⟩ := forall2_get r.refs hp
    exact ⟨{ m with refs := m.refs ++ [q] }, by simp [St.step, hq],
      ⟨r.len, r.agree, r.views, r.bnd, r.rc, List.rel_append r.refs (.cons hqp .nil)⟩⟩
  | rget k =>
    simp only [SSt.step, Option.bind_eq_some_iff] at h
    obtain ⟨p, hp, h⟩ := h
    obtain ⟨q, hq, hqp⟩ := forall2_get r.refs hp
    split at h
    · rename_i hu
      simp only [Option.some.injEq, Prod.mk.injEq] at h
      obtain ⟨rfl, rfl⟩ := h
      exact ⟨m, by simp [St.step, hq, r.refGet hqp hu r.agree (Shape.refl _)], r⟩
    · cases h
  | rput k v =>
    simp only [SSt.step, Option.bind_eq_some_iff] at h
    obtain ⟨p, hp, h⟩ := h
    obtain ⟨q, hq, hqp⟩ := forall2_get r.refs hp
    split at h
    · rename_i hu
      simp only [Option.some.injEq, Prod.mk.injEq] at h
      obtain ⟨rfl, rfl⟩ := h
      obtain ⟨h', e, r'⟩ := r.refPut hqp hu v
      exact ⟨_, by simp [St.step, hq, e], r'⟩
    · cases h
  | rassign k l =>
    simp only [SSt.step, Option.bind_eq_some_iff] at h
    obtain ⟨p, hp, p', hp', h⟩ := h
    obtain ⟨q, hq, hqp⟩ := forall2_get r.refs hp
    obtain ⟨q', hq', hqp'⟩ := forall2_get r.refs hp'
    split at h
    · rename_i hu
      simp only [Option.some.injEq, Prod.mk.injEq] at h
      obtain ⟨rfl, rfl⟩ := h
      obtain ⟨h', e, r'⟩ := r.refPut hqp hu.1 (s.mem p'.2.1 p'.2.2)
      exact ⟨_, by simp [St.step, hq, hq', r.refGet hqp' hu.2 r.agree (Shape.refl _), e], r'⟩
    · cases h

theorem run_sim (p : List (Op V)) : ∀ {m : St V} {s s' : SSt V} {out : List V}, Rel m s → s.run ⟨true, true⟩ p = some (s', out) →
    ∃ m', m.run p = some (m', out) ∧ Rel m' s' := by
  induction p with
  | nil =>
    intro m s s' out r h
    simp only [SSt.run, Option.some.injEq, Prod.mk.injEq] at h
    obtain ⟨rfl, rfl⟩ := h
    exact ⟨m, rfl, r⟩
  | cons op p ih =>
    intro m s s' out r h
    simp only [SSt.run, Option.bind_eq_some_iff, Option.map_eq_some_iff, Prod.mk.injEq] at h
    obtain ⟨⟨s1, o1⟩, h1, ⟨s2, o2⟩, h2, rfl, rfl⟩ := h
    obtain ⟨m1, e1, r1⟩ := step_sim r op h1
    obtain ⟨m2, e2, r2⟩ := ih r1 h2
    exact ⟨m2, by simp [St.run, e1, e2], r2⟩

theorem Rel.init (mem : Nat → List Nat → V) : Rel ({} : St V) { mem := mem } where
  len := rfl
  agree := by intro a c h; simp [cell] at h
  views := rfl
  bnd := by intro x b h; simp [St.live] at h
  rc := by intro a; left; simp [cell, cnt]
  refs := .nil

end Verif.VP
