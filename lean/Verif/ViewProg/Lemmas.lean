import Verif.ViewProg.Spec
import Mathlib.Data.List.Nodup
import Mathlib.Data.List.Forall2
import Mathlib.Data.List.Perm.Basic
import Mathlib.Algebra.Order.Group.Nat
/-!
The machine of `Model` follows the meaning of `Spec`: the relation between their states and its preservation by every statement.
-/
namespace Verif.VP
open Verif

variable {V : Type}

/-! ### Indices -/

theorem mem_indices (s i : List Nat) : i ∈ indices s ↔ inR s i = true := by
  induction s generalizing i with
  | nil => cases i <;> simp [indices, inR]
  | cons n s ih =>
    cases i with
    | nil => simp [indices, inR]
    | cons k i =>
      simp only [indices, List.mem_flatMap, List.mem_range, List.mem_map, inR, Bool.and_eq_true, decide_eq_true_eq]
      constructor
      · rintro ⟨k', hk, j, hj, e⟩
        cases e
        exact ⟨hk, (ih _).1 hj⟩
      · rintro ⟨hk, hj⟩
        exact ⟨k, hk, i, (ih _).2 hj, rfl⟩

theorem indices_nodup (s : List Nat) : (indices s).Nodup := by
  induction s with
  | nil => simp [indices]
  | cons n s ih =>
    rw [indices, List.nodup_flatMap]
    refine ⟨fun k _ => ih.map (fun a b h => by simpa using h), ?_⟩
    refine List.nodup_range.imp_of_mem ?_
    intro a b _ _ hab
    simp only [Function.onFun, List.disjoint_left, List.mem_map]
    rintro _ ⟨x, _, rfl⟩ ⟨y, _, e⟩
    simp only [List.cons.injEq] at e
    exact hab e.1.symm

/-! ### The heap -/

theorem cell_lt {h : Heap V} {a : Nat} {c : Cell V} (e : cell h a = some c) : a < h.length := by
  by_contra hn
  unfold cell at e
  rw [List.getD_eq_getElem?_getD, List.getElem?_eq_none (by omega)] at e
  cases e

theorem cell_set (h : Heap V) (a b : Nat) (x : Option (Cell V)) (ha : a < h.length) :
    cell (h.set a x) b = if b = a then x else cell h b := by
  unfold cell
  rw [List.getD_eq_getElem?_getD, List.getD_eq_getElem?_getD, List.getElem?_set]
  by_cases e : a = b
  · subst e
    simp [ha]
  · rw [if_neg e, if_neg (fun h => e h.symm)]

theorem cell_append (h : Heap V) (x : Option (Cell V)) (b : Nat) : cell (h ++ [x]) b = if b = h.length then x else cell h b := by
  unfold cell
  rw [List.getD_eq_getElem?_getD, List.getD_eq_getElem?_getD, List.getElem?_append]
  by_cases hb : b < h.length
  · rw [if_pos hb, if_neg (by omega)]
  · rw [if_neg hb]
    by_cases e : b = h.length
    · subst e
      simp
    · rw [if_neg e, List.getElem?_eq_none (by simp; omega), List.getElem?_eq_none (by omega)]

/-- live blocks hold what the arrays hold -/
def Agree (h : Heap V) (exts : List (List Nat)) (mem : Nat → List Nat → V) : Prop :=
  ∀ a c, cell h a = some c → c.ext = exts.getD a [] ∧ ∀ i, inR c.ext i = true → c.data i = mem a i

/-- same blocks, counts and extents -/
def Shape (h h' : Heap V) : Prop :=
  h'.length = h.length ∧ ∀ a, (cell h' a).map (fun c => (c.rc, c.ext, c.split)) = (cell h a).map (fun c => (c.rc, c.ext, c.split))

theorem Shape.refl (h : Heap V) : Shape h h := ⟨rfl, fun _ => rfl⟩

theorem Shape.trans {h h' h'' : Heap V} (p : Shape h h') (q : Shape h' h'') : Shape h h'' :=
  ⟨q.1.trans p.1, fun a => (q.2 a).trans (p.2 a)⟩

theorem Shape.isSome {h h' : Heap V} (p : Shape h h') {a : Nat} (e : (cell h a).isSome = true) : (cell h' a).isSome = true := by
  have := congrArg Option.isSome (p.2 a)
  simp only [Option.isSome_map] at this
  rw [this, e]

/-- counts are right: a block is freed exactly when nothing holds it -/
def RC (h : Heap V) (cnt : Nat → Nat) : Prop :=
  ∀ a, (cell h a = none ∧ cnt a = 0) ∨ ∃ c, cell h a = some c ∧ c.rc = cnt a ∧ 0 < cnt a

theorem Shape.rc {h h' : Heap V} (p : Shape h h') {cnt : Nat → Nat} (r : RC h cnt) : RC h' cnt := by
  intro a
  have e := p.2 a
  rcases r a with ⟨h1, h2⟩ | ⟨c, h1, h2, h3⟩
  · left
    rw [h1] at e
    cases hc : cell h' a with
    | none => exact ⟨rfl, h2⟩
    | some c => rw [hc] at e; cases e
  · right
    rw [h1] at e
    cases hc : cell h' a with
    | none => rw [hc] at e; cases e
    | some c' =>
      rw [hc] at e
      simp only [Option.map_some, Option.some.injEq, Prod.mk.injEq] at e
      exact ⟨c', rfl, e.1.trans h2, h3⟩

theorem RC.alive {h : Heap V} {cnt : Nat → Nat} (r : RC h cnt) {a : Nat} (p : 0 < cnt a) : ∃ c, cell h a = some c ∧ c.rc = cnt a := by
  rcases r a with ⟨_, h2⟩ | ⟨c, h1, h2, _⟩
  · omega
  · exact ⟨c, h1, h2⟩

theorem putCell_ok {h : Heap V} {exts : List (List Nat)} {mem : Nat → List Nat → V} (ag : Agree h exts mem) {a : Nat} {i : List Nat} (v : V)
    (al : (cell h a).isSome = true) (ir : inR (exts.getD a []) i = true) :
    ∃ h', putCell h a i v = some h' ∧ Shape h h' ∧ Agree h' exts (upd mem a i v) := by
  obtain ⟨c, hc⟩ := Option.isSome_iff_exists.1 al
  have hl := cell_lt hc
  have hx := (ag a c hc).1
  refine ⟨h.set a (some { c with data := fun j => if j = i then v else c.data j }), ?_, ?_, ?_⟩
  · unfold putCell
    rw [hc, Option.bind_some, hx, if_pos ir]
  · refine ⟨by simp, fun b => ?_⟩
    rw [cell_set _ _ _ _ hl]
    by_cases e : b = a
    · subst e
      rw [if_pos rfl, hc]
      simp [hx]
    · rw [if_neg e]
  · intro b c' hb
    rw [cell_set _ _ _ _ hl] at hb
    by_cases e : b = a
    · subst e
      rw [if_pos rfl] at hb
      cases hb
      refine ⟨hx.symm ▸ rfl, fun j hj => ?_⟩
      simp only [upd, true_and]
      by_cases hji : j = i
      · rw [if_pos hji, if_pos hji]
      · rw [if_neg hji, if_neg hji]
        exact (ag b c hc).2 j hj
    · rw [if_neg e] at hb
      refine ⟨(ag b c' hb).1, fun j hj => ?_⟩
      simp only [upd, e, false_and, if_false]
      exact (ag b c' hb).2 j hj

theorem incrs_ok (l : List Nat) : ∀ (h : Heap V) (exts : List (List Nat)) (mem : Nat → List Nat → V) (cnt : Nat → Nat), Agree h exts mem → RC h cnt →
    (∀ a ∈ l, 0 < cnt a) →
    ∃ h', incrs h l = some h' ∧ h'.length = h.length ∧ Agree h' exts mem ∧ RC h' (fun a => cnt a + l.count a) := by
  induction l with
  | nil => intro h exts mem cnt ag r _; exact ⟨h, rfl, rfl, ag, by simpa using r⟩
  | cons a l ih =>
    intro h exts mem cnt ag r hp
    obtain ⟨c, hc, hr⟩ := r.alive (hp a (by simp))
    have hl := cell_lt hc
    have e : incr h a = some (h.set a (some { c with rc := c.rc + 1 })) := by simp [incr, hc]
    have ag' : Agree (h.set a (some { c with rc := c.rc + 1 })) exts mem := by
      intro b c' hb
      rw [cell_set _ _ _ _ hl] at hb
      by_cases e : b = a
      · subst e
        rw [if_pos rfl] at hb
        cases hb
        exact ag b c hc
      · rw [if_neg e] at hb
        exact ag b c' hb
    have r' : RC (h.set a (some { c with rc := c.rc + 1 })) (fun b => cnt b + if b = a then 1 else 0) := by
      intro b
      rw [cell_set _ _ _ _ hl]
      by_cases e : b = a
      · subst e
        right
        simp only [if_true]
        exact ⟨_, rfl, by simp [hr], by omega⟩
      · simp only [if_neg e, Nat.add_zero]
        exact r b
    obtain ⟨h', e1, e2, e3, e4⟩ := ih _ exts mem _ ag' r' (fun b hb => by have := hp b (by simp [hb]); omega)
    refine ⟨h', ?_, by rw [e2]; simp, e3, ?_⟩
    · unfold incrs at e1 ⊢
      rw [List.foldlM_cons, e]
      exact e1
    · convert e4 using 2 with b
      rw [List.count_cons]
      by_cases hb : b = a
      · subst hb; simp; omega
      · rw [if_neg hb]
        have : (a == b) = false := by simpa using fun h => hb h.symm
        simp [this]

theorem decrs_ok (l : List Nat) : ∀ (h : Heap V) (exts : List (List Nat)) (mem : Nat → List Nat → V) (cnt : Nat → Nat), Agree h exts mem → RC h cnt →
    (∀ a, l.count a ≤ cnt a) →
    ∃ h', decrs h l = some h' ∧ h'.length = h.length ∧ Agree h' exts mem ∧ RC h' (fun a => cnt a - l.count a) := by
  induction l with
  | nil => intro h exts mem cnt ag r _; exact ⟨h, rfl, rfl, ag, by simpa using r⟩
  | cons a l ih =>
    intro h exts mem cnt ag r hp
    have ha := hp a
    rw [List.count_cons_self] at ha
    obtain ⟨c, hc, hr⟩ := r.alive (show 0 < cnt a by omega)
    have hl := cell_lt hc
    generalize hx : (if c.rc - 1 = 0 then none else some { c with rc := c.rc - 1 } : Option (Cell V)) = x
    have e : decr h a = some (h.set a x) := by simp only [decr, hc, Option.map_some, hx]
    have ag' : Agree (h.set a x) exts mem := by
      intro b c' hb
      rw [cell_set _ _ _ _ hl] at hb
      by_cases e : b = a
      · subst e
        rw [if_pos rfl] at hb
        subst hx
        split at hb
        · cases hb
        · cases hb
          exact ag b c hc
      · rw [if_neg e] at hb
        exact ag b c' hb
    have r' : RC (h.set a x) (fun b => cnt b - if b = a then 1 else 0) := by
      intro b
      rw [cell_set _ _ _ _ hl]
      by_cases e : b = a
      · subst e
        simp only [if_true]
        subst hx
        split
        · left; exact ⟨rfl, by omega⟩
        · right; exact ⟨_, rfl, by simp [hr], by omega⟩
      · simp only [if_neg e, Nat.sub_zero]
        exact r b
    obtain ⟨h', e1, e2, e3, e4⟩ := ih _ exts mem _ ag' r' (fun b => by
      have := hp b
      rw [List.count_cons] at this
      by_cases hb : b = a
      · subst hb; simp at this ⊢; omega
      · rw [if_neg hb]; split at this <;> omega)
    refine ⟨h', ?_, by rw [e2]; simp, e3, ?_⟩
    · unfold decrs at e1 ⊢
      rw [List.foldlM_cons, e]
      exact e1
    · convert e4 using 2 with b
      rw [List.count_cons]
      by_cases hb : b = a
      · subst hb; simp; omega
      · rw [if_neg hb]
        have : (a == b) = false := by simpa using fun h => hb h.symm
        simp [this]

/-! ### Blocks and views -/

/-- the view a block stands for -/
def den (exts : List (List Nat)) : Blk V → SView V
  | .stored a => ⟨exts.getD a [], some a, [a], fun i => .at a i⟩
  | .derived l b => ⟨l.sizes (den exts b).sizes, (den exts b).arr, (den exts b).uses, fun i => (den exts b).el (l.toParent i)⟩
  | .bin f x y => ⟨(den exts x).sizes, none, (den exts x).uses ++ (den exts y).uses, fun i => .app f ((den exts x).el i) ((den exts y).el i)⟩
  | .scalar v => ⟨[], none, [], fun _ => .num v⟩

theorem den_append (exts : List (List Nat)) (e : List Nat) (b : Blk V) (h : ∀ a ∈ (den exts b).uses, a < exts.length) :
    den (exts ++ [e]) b = den exts b := by
  induction b with
  | stored a =>
    have := h a (by simp [den])
    simp only [den, SView.mk.injEq, and_true]
    rw [List.getD_eq_getElem?_getD, List.getD_eq_getElem?_getD, List.getElem?_append_left this]
  | derived l b ih =>
    simp only [den] at h ⊢
    rw [ih h]
  | bin f x y ihx ihy =>
    simp only [den, List.mem_append] at h ⊢
    rw [ihx (fun a ha => h a (.inl ha)), ihy (fun a ha => h a (.inr ha))]
  | scalar v => rfl

theorem locs_uses (exts : List (List Nat)) (b : Blk V) (i : List Nat) : ∀ p ∈ ((den exts b).el i).locs, p.1 ∈ (den exts b).uses := by
  induction b generalizing i with
  | stored a => simp [den, Tm.locs]
  | derived l b ih => exact ih _
  | bin f x y ihx ihy =>
    intro p hp
    simp only [den, Tm.locs, List.mem_append] at hp ⊢
    exact hp.imp (ihx i p) (ihy i p)
  | scalar v => simp [den, Tm.locs]

theorem get_ok {h : Heap V} {exts : List (List Nat)} {mem : Nat → List Nat → V} (ag : Agree h exts mem) (b : Blk V) (i : List Nat)
    (al : ∀ a ∈ (den exts b).uses, (cell h a).isSome = true) (ir : ∀ p ∈ ((den exts b).el i).locs, inR (exts.getD p.1 []) p.2 = true) :
    b.get h i = some (((den exts b).el i).eval mem) := by
  induction b generalizing i with
  | stored a =>
    obtain ⟨c, hc⟩ := Option.isSome_iff_exists.1 (al a (by simp [den]))
    have hx := ag a c hc
    have hi : inR (exts.getD a []) i = true := ir (a, i) (by simp [den, Tm.locs])
    rw [← hx.1] at hi
    simp only [Blk.get, hc, Option.bind_some, hi, if_true, den, Tm.eval]
    rw [hx.2 i hi]
  | derived l b ih => exact ih _ al ir
  | bin f x y ihx ihy =>
    simp only [den, Tm.locs, List.mem_append] at al ir
    simp only [Blk.get, ihx i (fun a h => al a (.inl h)) (fun p h => ir p (.inl h)), ihy i (fun a h => al a (.inr h)) (fun p h => ir p (.inr h)),
      Option.bind_some, Option.map_some, den, Tm.eval]
  | scalar v => rfl

theorem sizes_ok {h : Heap V} {exts : List (List Nat)} {mem : Nat → List Nat → V} (ag : Agree h exts mem) (b : Blk V)
    (al : ∀ a ∈ (den exts b).uses, (cell h a).isSome = true) : b.sizes h = some (den exts b).sizes := by
  induction b with
  | stored a =>
    obtain ⟨c, hc⟩ := Option.isSome_iff_exists.1 (al a (by simp [den]))
    simp only [Blk.sizes, hc, Option.map_some, den, (ag a c hc).1]
  | derived l b ih => simp only [Blk.sizes, ih al, Option.map_some, den]
  | bin f x y ihx ihy =>
    simp only [den, List.mem_append] at al
    simp only [Blk.sizes, ihx (fun a h => al a (.inl h)), den]
  | scalar v => rfl

theorem arr_ok {exts : List (List Nat)} {b : Blk V} {a : Nat} (h : (den exts b).arr = some a) :
    b.own = [a] ∧ (den exts b).uses = [a] ∧ ∀ i, ∃ j, b.resolve i = some (a, j) ∧ (den exts b).el i = .at a j := by
  induction b with
  | stored a' =>
    simp only [den, Option.some.injEq] at h
    subst h
    exact ⟨rfl, rfl, fun i => ⟨i, rfl, rfl⟩⟩
  | derived l b ih =>
    obtain ⟨h1, h2, h3⟩ := ih h
    exact ⟨h1, h2, fun i => h3 _⟩
  | bin f x y _ _ => cases h
  | scalar v => cases h

theorem put_ok {h : Heap V} {exts : List (List Nat)} {mem : Nat → List Nat → V} (ag : Agree h exts mem) {b : Blk V} {a : Nat} (i : List Nat) (v : V)
    (ha : (den exts b).arr = some a) (al : (cell h a).isSome = true) (ir : ∀ p ∈ ((den exts b).el i).locs, inR (exts.getD p.1 []) p.2 = true) :
    ∃ h' j, b.put h i v = some h' ∧ (den exts b).el i = .at a j ∧ Shape h h' ∧ Agree h' exts (upd mem a j v) := by
  obtain ⟨_, _, h3⟩ := arr_ok ha
  obtain ⟨j, e1, e2⟩ := h3 i
  have hj : inR (exts.getD a []) j = true := ir (a, j) (by rw [e2]; simp [Tm.locs])
  obtain ⟨h', p1, p2, p3⟩ := putCell_ok ag v al hj
  exact ⟨h', j, by simp only [Blk.put, e1, Option.bind_some, p1], e2, p2, p3⟩

/-! ### Loops -/

theorem eval_upd (mem : Nat → List Nat → V) (a : Nat) (i : List Nat) (v : V) (t : Tm V) (h : ∀ p ∈ t.locs, p ≠ (a, i)) :
    t.eval (upd mem a i v) = t.eval mem := by
  induction t with
  | «at» b j =>
    have := h (b, j) (by simp [Tm.locs])
    simp only [Tm.eval, upd]
    rw [if_neg]
    rintro ⟨rfl, rfl⟩
    exact this rfl
  | app f s t ihs iht =>
    simp only [Tm.locs, List.mem_append] at h
    simp only [Tm.eval, ihs (fun p hp => h p (.inl hp)), iht (fun p hp => h p (.inr hp))]
  | num v => rfl

/-- stores one after the other -/
def wr (loc : List Nat → Option (Nat × List Nat)) (val : List Nat → V) : (Nat → List Nat → V) → List (List Nat) → Nat → List Nat → V
  | mem, [] => mem
  | mem, i :: l => match loc i with
    | some p => wr loc val (upd mem p.1 p.2 (val i)) l
    | none => wr loc val mem l

theorem wr_other (loc : List Nat → Option (Nat × List Nat)) (val : List Nat → V) (l : List (List Nat)) : ∀ (mem : Nat → List Nat → V) (a : Nat)
    (j : List Nat), (∀ i ∈ l, loc i ≠ some (a, j)) → wr loc val mem l a j = mem a j := by
  induction l with
  | nil => intro mem a j _; rfl
  | cons i l ih =>
    intro mem a j h
    have h1 := h i (by simp)
    have h2 : ∀ i ∈ l, loc i ≠ some (a, j) := fun k hk => h k (by simp [hk])
    rw [wr]
    cases e : loc i with
    | none => exact ih mem a j h2
    | some p =>
      simp only
      rw [ih _ a j h2, upd, if_neg]
      rintro ⟨e1, e2⟩
      exact h1 (by rw [e, e1, e2])

theorem wr_hit (loc : List Nat → Option (Nat × List Nat)) (val : List Nat → V) (l : List (List Nat)) : ∀ (mem : Nat → List Nat → V) (i : List Nat)
    (a : Nat) (j : List Nat), l.Nodup → (∀ x ∈ l, ∀ y ∈ l, loc x = loc y → x = y) → i ∈ l → loc i = some (a, j) →
    wr loc val mem l a j = val i := by
  induction l with
  | nil => intro mem i a j _ _ hi; cases hi
  | cons k l ih =>
    intro mem i a j hn hinj hi hloc
    rw [List.nodup_cons] at hn
    by_cases e : k = i
    · subst e
      rw [wr, hloc]
      simp only
      rw [wr_other]
      · simp [upd]
      · intro x hx hc
        have := hinj x (by simp [hx]) k (by simp) (hc.trans hloc.symm)
        subst this
        exact hn.1 hx
    · have hi' : i ∈ l := by
        rcases List.mem_cons.1 hi with h | h
        · exact absurd h.symm e
        · exact h
      have hinj' : ∀ x ∈ l, ∀ y ∈ l, loc x = loc y → x = y := fun x hx y hy => hinj x (by simp [hx]) y (by simp [hy])
      rw [wr]
      cases loc k with
      | none => exact ih mem i a j hn.2 hinj' hi' hloc
      | some p => exact ih _ i a j hn.2 hinj' hi' hloc

theorem wr_assign (loc : List Nat → Option (Nat × List Nat)) (val : List Nat → V) (mem : Nat → List Nat → V) (tr l : List (List Nat))
    (hp : tr.Perm l) (hn : (l.map loc).Nodup) : wr loc val mem tr = assignMem mem l loc val := by
  have hinj : ∀ x ∈ l, ∀ y ∈ l, loc x = loc y → x = y := List.inj_on_of_nodup_map hn
  have hnl : l.Nodup := List.Nodup.of_map _ hn
  funext a j
  rw [assignMem]
  cases hf : l.find? (fun i => loc i == some (a, j)) with
  | none =>
    simp only
    rw [List.find?_eq_none] at hf
    refine wr_other loc val tr mem a j fun i hi he => ?_
    exact hf i (hp.mem_iff.1 hi) (by simp [he])
  | some i =>
    simp only
    have h1 := List.mem_of_find?_eq_some hf
    have h2 : loc i = some (a, j) := by simpa using List.find?_some hf
    exact wr_hit loc val tr mem i a j (hp.nodup_iff.2 hnl) (fun x hx y hy => hinj x (hp.mem_iff.1 hx) y (hp.mem_iff.1 hy))
      (hp.mem_iff.2 h1) h2

theorem storeLoop_ok {exts : List (List Nat)} {b : Blk V} {a : Nat} (ha : (den exts b).arr = some a) (h0 : Heap V)
    (al : (cell h0 a).isSome = true) (rd : Heap V → List Nat → Option V) (t : List Nat → Tm V) (val : List Nat → V) (tr : List (List Nat)) :
    ∀ (h : Heap V) (mem : Nat → List Nat → V), Shape h0 h → Agree h exts mem →
    (∀ i ∈ tr, ∀ p ∈ ((den exts b).el i).locs, inR (exts.getD p.1 []) p.2 = true) →
    (∀ h mem, Agree h exts mem → Shape h0 h → ∀ i ∈ tr, rd h i = some ((t i).eval mem)) →
    tr.Nodup → (∀ i ∈ tr, ∀ j ∈ tr, i ≠ j → ∀ p ∈ (t j).locs, (den exts b).loc i ≠ some p) →
    (∀ i ∈ tr, (t i).eval mem = val i) →
    ∃ h', storeLoop h b rd tr = some h' ∧ Shape h0 h' ∧ Agree h' exts (wr (den exts b).loc val mem tr) := by
  induction tr with
  | nil => intro h mem sh ag _ _ _ _ _; exact ⟨h, rfl, sh, ag⟩
  | cons i tr ih =>
    intro h mem sh ag hir hrd hn hdis hval
    rw [List.nodup_cons] at hn
    obtain ⟨h1, j, p1, p2, p3, p4⟩ := put_ok ag i (val i) ha (sh.isSome al) (hir i (by simp))
    have hloc : (den exts b).loc i = some (a, j) := by simp [SView.loc, p2]
    have e1 : rd h i = some (val i) := by rw [hrd h mem ag sh i (by simp), hval i (by simp)]
    obtain ⟨h', q1, q2, q3⟩ := ih h1 (upd mem a j (val i)) (sh.trans p3) p4 (fun k hk => hir k (by simp [hk]))
      (fun h mem ag sh k hk => hrd h mem ag sh k (by simp [hk])) hn.2
      (fun x hx y hy => hdis x (by simp [hx]) y (by simp [hy]))
      (fun k hk => by
        rw [eval_upd, hval k (by simp [hk])]
        intro p hp e
        refine hdis i (by simp) k (by simp [hk]) (fun h => hn.1 (h ▸ hk)) p hp ?_
        rw [hloc, e])
    refine ⟨h', ?_, q2, ?_⟩
    · unfold storeLoop at q1 ⊢
      rw [List.foldlM_cons]
      simp only [e1, Option.bind_some, p1]
      exact q1
    · rw [wr, hloc]
      exact q3

end Verif.VP
