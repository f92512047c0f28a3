import Verif.ViewProg.Sim
import Mathlib.Tactic.NormNum
/-!
C80: programs of views behave as if views were tables of references to elements of arrays that are never freed.
-/
namespace Verif.Props
open Verif Verif.VP

variable {V : Type}

/-- the numbers a program should read -/
def vpMeant (d : V) (p : List (Op V)) : Option (List V) := (SSt.run ⟨false, false⟩ { mem := fun _ _ => d } p).map Prod.snd

/-- the numbers a program reads; `none` if it runs into undefined behaviour -/
def vpRead (p : List (Op V)) : Option (List V) := (St.run {} p).map Prod.snd

/-- no unevaluated expressions are stored and no references to elements are kept -/
def vpPlain : Op V → Bool
  | .expr _ _ _ | .ref _ _ | .rcopy _ | .rget _ | .rput _ _ | .rassign _ _ | .updateRef _ _ _ _ => false
  | _ => true

/-! ### The checks only reject -/

theorem vpStore_weaken {ck : Checks} {s s' : SSt V} {v : SView V} {t rd : List Nat → Tm V} {tr : List (List Nat)}
    (h : s.store ck v t rd tr = some s') : s.store ⟨false, false⟩ v t rd tr = some s' := by
  unfold SSt.store at h ⊢
  split at h
  · rename_i hc
    simp only [Bool.and_eq_true] at hc
    rw [if_pos (by simp [hc.1])]
    exact h
  · cases h

theorem vpStep_weaken {ck : Checks} {s : SSt V} {op : Op V} {r : SSt V × List V} (h : s.step ck op = some r) :
    s.step ⟨false, false⟩ op = some r := by
  have hr : ∀ v, s.readable ⟨false, false⟩ v = true := fun v => by simp [SSt.readable]
  have hu : ∀ x, s.usable ⟨false, false⟩ x = true := fun v => by simp [SSt.usable]
  cases op <;> simp only [SSt.step, Option.bind_eq_some_iff, Option.map_eq_some_iff] at h ⊢ <;> try exact h
  · obtain ⟨v, hv, h⟩ := h
    refine ⟨v, hv, ?_⟩
    split at h
    · rename_i hc
      simp only [Bool.and_eq_true] at hc
      rw [if_pos (by simp [hc.1, hr])]
      exact h
    · cases h
  · obtain ⟨v, hv, w, hw, h⟩ := h
    refine ⟨v, hv, w, hw, ?_⟩
    split at h
    · rename_i hc
      rw [if_pos ⟨hc.1, hr w⟩]
      obtain ⟨s1, h1, h2⟩ := Option.map_eq_some_iff.1 h
      exact Option.map_eq_some_iff.2 ⟨s1, vpStore_weaken h1, h2⟩
    · cases h
  · obtain ⟨v, hv, s1, h1, h2⟩ := h
    exact ⟨v, hv, s1, vpStore_weaken h1, h2⟩
  · obtain ⟨v, hv, w, hw, h⟩ := h
    refine ⟨v, hv, w, hw, ?_⟩
    split at h
    · rename_i hc
      rw [if_pos ⟨hc.1, hr w⟩]
      obtain ⟨s1, h1, h2⟩ := Option.map_eq_some_iff.1 h
      exact Option.map_eq_some_iff.2 ⟨s1, vpStore_weaken h1, h2⟩
    · cases h
  · obtain ⟨v, hv, s1, h1, h2⟩ := h
    exact ⟨v, hv, s1, vpStore_weaken h1, h2⟩
  · obtain ⟨v, hv, q, hq, h⟩ := h
    refine ⟨v, hv, q, hq, ?_⟩
    split at h
    · rw [if_pos (hu _)]
      obtain ⟨s1, h1, h2⟩ := Option.map_eq_some_iff.1 h
      exact Option.map_eq_some_iff.2 ⟨s1, vpStore_weaken h1, h2⟩
    · cases h
  · obtain ⟨v, hv, h⟩ := h
    refine ⟨v, hv, ?_⟩
    split at h
    · rename_i hc
      simp only [Bool.and_eq_true] at hc
      rw [if_pos (by simp [hc.2, hr])]
      exact h
    · cases h
  · obtain ⟨q, hq, h⟩ := h
    refine ⟨q, hq, ?_⟩
    split at h
    · rw [if_pos (hu _)]; exact h
    · cases h
  · obtain ⟨q, hq, h⟩ := h
    refine ⟨q, hq, ?_⟩
    split at h
    · rw [if_pos (hu _)]; exact h
    · cases h
  · obtain ⟨q, hq, p, hp, h⟩ := h
    refine ⟨q, hq, p, hp, ?_⟩
    split at h
    · rw [if_pos ⟨hu _, hu _⟩]; exact h
    · cases h

theorem vpRun_weaken (ck : Checks) (p : List (Op V)) : ∀ {s : SSt V} {r : SSt V × List V}, s.run ck p = some r → s.run ⟨false, false⟩ p = some r := by
  induction p with
  | nil => intro s r h; exact h
  | cons op p ih =>
    intro s r h
    simp only [SSt.run, Option.bind_eq_some_iff, Option.map_eq_some_iff] at h ⊢
    obtain ⟨r1, h1, r2, h2, h3⟩ := h
    exact ⟨r1, vpStep_weaken h1, r2, ih h2, h3⟩

/-! ### Programs without stored expressions and references need no condition on lifetimes -/

/-- all views are views of arrays -/
def vpArrays (s : SSt V) : Prop := ∀ x v, s.live x = some v → ∃ a, v.arr = some a ∧ v.uses = [a]

theorem vpArrays_append {s : SSt V} (h : vpArrays s) {v : SView V} (hv : ∃ a, v.arr = some a ∧ v.uses = [a]) (exts : List (List Nat))
    (mem : Nat → List Nat → V) : vpArrays { s with exts := exts, mem := mem, views := s.views ++ [some v] } := by
  intro x w hw
  unfold SSt.live at hw
  simp only at hw
  rw [getD_append_one] at hw
  split at hw
  · cases hw; exact hv
  · exact h x w hw

theorem vpArrays_readable {s : SSt V} (h : vpArrays s) {x : Nat} {v : SView V} (hv : s.live x = some v) (ck : Checks) : s.readable ck v = true := by
  obtain ⟨a, h1, h2⟩ := h x v hv
  unfold SSt.readable
  simp only [h2, List.all_cons, List.all_nil, Bool.and_true, Bool.or_eq_true]
  right
  unfold SSt.alive
  rw [List.any_eq_true]
  refine ⟨some v, ?_, by simp [h1]⟩
  have hl := getD_some_lt _ _ _ hv
  unfold SSt.live at hv
  rw [List.getD_eq_getElem?_getD, List.getElem?_eq_getElem hl] at hv
  simp only [Option.getD_some] at hv
  rw [← hv]
  exact List.getElem_mem hl

theorem vpStore_life {o l l' : Bool} (s : SSt V) (v : SView V) (t rd : List Nat → Tm V) (tr : List (List Nat)) :
    s.store ⟨o, l⟩ v t rd tr = s.store ⟨o, l'⟩ v t rd tr := rfl

theorem vpStore_arrays {ck : Checks} {s s' : SSt V} {v : SView V} {t rd : List Nat → Tm V} {tr : List (List Nat)}
    (h : s.store ck v t rd tr = some s') (ha : vpArrays s) : vpArrays s' := by
  unfold SSt.store at h
  split at h
  · cases h; exact ha
  · cases h

theorem vpStep_plain {o : Bool} {s : SSt V} (ha : vpArrays s) {op : Op V} (hp : vpPlain op = true) {r : SSt V × List V}
    (h : s.step ⟨o, false⟩ op = some r) : s.step ⟨o, true⟩ op = some r ∧ vpArrays r.1 := by
  cases op with
  | new ext split v =>
    refine ⟨h, ?_⟩
    simp only [SSt.step, Option.some.injEq] at h
    subst h
    exact vpArrays_append ha ⟨_, rfl, rfl⟩ _ _
  | copy x =>
    refine ⟨h, ?_⟩
    simp only [SSt.step, Option.map_eq_some_iff] at h
    obtain ⟨v, hv, rfl⟩ := h
    exact vpArrays_append ha (ha x v hv) _ _
  | sub x l =>
    refine ⟨h, ?_⟩
    simp only [SSt.step, Option.bind_eq_some_iff] at h
    obtain ⟨v, hv, h⟩ := h
    split at h
    · cases h
      exact vpArrays_append ha (v := ⟨l.sizes v.sizes, v.arr, v.uses, fun i => v.el (l.toParent i)⟩) (ha x v hv) s.exts s.mem
    · cases h
  | destroy x =>
    refine ⟨h, ?_⟩
    simp only [SSt.step, Option.map_eq_some_iff] at h
    obtain ⟨v, hv, rfl⟩ := h
    intro y w hw
    exact ha y w (getD_set_none _ _ _ _ hw).1
  | put x i val =>
    refine ⟨h, ?_⟩
    simp only [SSt.step, Option.bind_eq_some_iff] at h
    obtain ⟨v, hv, p, hp, h⟩ := h
    split at h
    · cases h; exact ha
    · cases h
  | get x i =>
    simp only [SSt.step, Option.bind_eq_some_iff] at h ⊢
    obtain ⟨v, hv, h⟩ := h
    split at h
    · rename_i hc
      simp only [Bool.and_eq_true] at hc
      cases h
      exact ⟨⟨v, hv, by rw [if_pos (by simp [hc.1, vpArrays_readable ha hv])]⟩, ha⟩
    · cases h
  | assign x y tr =>
    simp only [SSt.step, Option.bind_eq_some_iff] at h ⊢
    obtain ⟨v, hv, w, hw, h⟩ := h
    split at h
    · rename_i hc
      obtain ⟨s1, h1, rfl⟩ := Option.map_eq_some_iff.1 h
      refine ⟨⟨v, hv, w, hw, ?_⟩, vpStore_arrays h1 ha⟩
      rw [if_pos ⟨hc.1, vpArrays_readable ha hw _⟩]
      exact h
    · cases h
  | fill x val tr =>
    refine ⟨h, ?_⟩
    simp only [SSt.step, Option.bind_eq_some_iff] at h
    obtain ⟨v, hv, h⟩ := h
    obtain ⟨s1, h1, rfl⟩ := Option.map_eq_some_iff.1 h
    exact vpStore_arrays h1 ha
  | update x f y tr =>
    simp only [SSt.step, Option.bind_eq_some_iff] at h ⊢
    obtain ⟨v, hv, w, hw, h⟩ := h
    split at h
    · rename_i hc
      obtain ⟨s1, h1, rfl⟩ := Option.map_eq_some_iff.1 h
      refine ⟨⟨v, hv, w, hw, ?_⟩, vpStore_arrays h1 ha⟩
      rw [if_pos ⟨hc.1, vpArrays_readable ha hw _⟩]
      exact h
    · cases h
  | updateVal x f val tr =>
    refine ⟨h, ?_⟩
    simp only [SSt.step, Option.bind_eq_some_iff] at h
    obtain ⟨v, hv, h⟩ := h
    obtain ⟨s1, h1, rfl⟩ := Option.map_eq_some_iff.1 h
    exact vpStore_arrays h1 ha
  | deep y d tr =>
    simp only [SSt.step, Option.bind_eq_some_iff] at h ⊢
    obtain ⟨w, hw, h⟩ := h
    split at h
    · rename_i hc
      simp only [Bool.and_eq_true] at hc
      cases h
      exact ⟨⟨w, hw, by rw [if_pos (by simp [hc.2, vpArrays_readable ha hw])]⟩, vpArrays_append ha ⟨_, rfl, rfl⟩ _ _⟩
    · cases h
  | expr f x y => cases hp
  | updateRef x f r tr => cases hp
  | ref x i => cases hp
  | rcopy r => cases hp
  | rget r => cases hp
  | rput r v => cases hp
  | rassign r t => cases hp

theorem vpRun_plain {o : Bool} (p : List (Op V)) : ∀ {s : SSt V} {r : SSt V × List V}, vpArrays s → (∀ op ∈ p, vpPlain op = true) →
    s.run ⟨o, false⟩ p = some r → s.run ⟨o, true⟩ p = some r := by
  induction p with
  | nil => intro s r _ _ h; exact h
  | cons op p ih =>
    intro s r ha hp h
    simp only [SSt.run, Option.bind_eq_some_iff, Option.map_eq_some_iff] at h ⊢
    obtain ⟨r1, h1, r2, h2, h3⟩ := h
    obtain ⟨h1', ha'⟩ := vpStep_plain ha (hp op (by simp)) h1
    exact ⟨r1, h1', r2, ih ha' (fun o ho => hp o (by simp [ho])) h2, h3⟩

theorem vpSum_pos : ∀ l : List Nat, 0 < l.sum → ∃ k ∈ l, 0 < k
  | [], h => by simp at h
  | n :: l, h => by
    by_cases hn : 0 < n
    · exact ⟨n, by simp, hn⟩
    · obtain ⟨k, hk, h0⟩ := vpSum_pos l (by rw [List.sum_cons] at h; omega)
      exact ⟨k, by simp [hk], h0⟩

/-! ### Properties -/

/-- **C80, partial (programs).** A meaningful program runs without touching a freed block or a destroyed view and reads the numbers it should, if no statement
reads an element at one index after having stored it at another, unevaluated expressions are read while there are views of their arrays, and
references are used while their views exist.
Missing: overlapping operands (`C80_overlap_false`, `C80_scalar_false`), expressions that outlive their operands (`C80_expression_false`), references that outlive their views
(`C80_proxy_false`). -/
theorem C80_program_partial (d : V) (p : List (Op V)) (out : List V)
    (h : (SSt.run ⟨true, true⟩ { mem := fun _ _ => d } p).map Prod.snd = some out) : vpMeant d p = some out ∧ vpRead p = some out := by
  obtain ⟨r, h1, rfl⟩ := Option.map_eq_some_iff.1 h
  refine ⟨by rw [vpMeant, vpRun_weaken _ p h1]; rfl, ?_⟩
  obtain ⟨m', e, _⟩ := run_sim p (Rel.init _) (show _ = some (r.1, r.2) from h1)
  rw [vpRead, e]
  rfl

/-- **C80, partial (programs without kept references).** If no expression is stored and no reference kept, no condition on lifetimes is needed: whatever views are destroyed
when, subviews and copies stay valid.
Missing: overlapping operands (`C80_overlap_false`). -/
theorem C80_plain_partial (d : V) (p : List (Op V)) (hp : ∀ op ∈ p, vpPlain op = true) (out : List V)
    (h : (SSt.run ⟨true, false⟩ { mem := fun _ _ => d } p).map Prod.snd = some out) : vpMeant d p = some out ∧ vpRead p = some out := by
  obtain ⟨r, h1, rfl⟩ := Option.map_eq_some_iff.1 h
  refine C80_program_partial d p r.2 ?_
  rw [vpRun_plain p (by intro x v hv; simp [SSt.live] at hv) hp h1]
  rfl

/-- **C80 (memory).** After such a program a block is allocated exactly if some view holds it; a block with a view of it is allocated; and when all views are
gone nothing is left. -/
theorem C80_memory (d : V) (p : List (Op V)) (r : SSt V × List V) (h : SSt.run ⟨true, true⟩ { mem := fun _ _ => d } p = some r) :
    ∃ m, St.run {} p = some (m, r.2) ∧
      (∀ a, (cell m.heap a).isSome = true ↔ ∃ x b, m.live x = some b ∧ a ∈ b.own) ∧
      (∀ a, r.1.alive a = true → (cell m.heap a).isSome = true) ∧
      ((∀ x, r.1.live x = none) → ∀ a, cell m.heap a = none) := by
  obtain ⟨m, e, rl⟩ := run_sim p (Rel.init _) (show _ = some (r.1, r.2) from h)
  have key : ∀ a, (cell m.heap a).isSome = true ↔ ∃ x b, m.live x = some b ∧ a ∈ b.own := by
    intro a
    constructor
    · intro hs
      rcases rl.rc a with ⟨h1, _⟩ | ⟨c, _, _, h3⟩
      · rw [h1] at hs; cases hs
      · unfold cnt at h3
        obtain ⟨k, hk, hk0⟩ := vpSum_pos _ h3
        obtain ⟨o, ho, rfl⟩ := List.mem_map.1 hk
        cases o with
        | none => simp [ownCount] at hk0
        | some b =>
          obtain ⟨x, hx, hg⟩ := List.mem_iff_getElem.1 ho
          refine ⟨x, b, ?_, List.count_pos_iff.1 hk0⟩
          unfold St.live
          rw [List.getD_eq_getElem?_getD, List.getElem?_eq_getElem hx, hg]
          rfl
    · rintro ⟨x, b, hb, ha⟩
      obtain ⟨c, hc, _⟩ := rl.rc.alive (rl.own hb ha)
      rw [hc]; rfl
  refine ⟨m, e, key, fun a ha => rl.alive ha, fun hn a => ?_⟩
  by_contra hc
  obtain ⟨x, b, hb, _⟩ := (key a).1 (Option.isSome_iff_ne_none.2 hc)
  have := hn x
  unfold SSt.live at this
  rw [rl.views, List.getD_eq_getElem?_getD, List.getElem?_map] at this
  unfold St.live at hb
  rw [List.getD_eq_getElem?_getD] at hb
  cases ho : m.vars[x]? with
  | none => rw [ho] at hb; cases hb
  | some o =>
    rw [ho] at hb this
    simp only [Option.getD_some] at hb
    subst hb
    cases this

/-- a 2×3 matrix, its transpose, a row of the transpose; the matrix is destroyed, the row doubled by an expression of itself, a copy made and changed, a reference used -/
def vpSample : List (Op Int) :=
  [.new [2, 3] false 1, .put 0 [0, 1] 5, .put 0 [1, 1] 7, .sub 0 .transposed, .sub 1 (.sliced 0 1), .destroy 0,
   .expr (· + ·) 2 2, .assign 2 3 [[0], [1]], .deep 1 0 (indices [3, 2]), .put 4 [1, 0] 100, .ref 2 [1], .rput 0 (-1), .updateRef 2 (· * ·) 0 [[1], [0]],
   .get 1 [1, 0], .get 1 [1, 1], .get 4 [1, 0], .get 4 [1, 1], .rget 0]

example : vpMeant 0 vpSample = some [-10, 1, 100, 14, 1] ∧ vpRead vpSample = some [-10, 1, 100, 14, 1] :=
  C80_program_partial 0 vpSample [-10, 1, 100, 14, 1] (by decide +kernel)

example : vpRead ([.new [2, 3] false 1, .put 0 [0, 1] 5, .sub 0 .transposed, .copy 1, .destroy 1, .destroy 0, .get 2 [1, 0]] : List (Op Int)) = some [5] :=
  (C80_plain_partial 0 _ (by decide) [5] (by decide +kernel)).2

/-- a program that destroys all its views -/
def vpAll : List (Op Int) :=
  [.new [3] false 1, .copy 0, .sub 0 (.subset [⟨0, 1, 2⟩]), .destroy 0, .deep 2 0 [[0], [1]], .get 3 [1], .destroy 1, .destroy 3, .destroy 2]

example : ∃ m, St.run {} vpAll = some (m, [1]) ∧ ∀ a, cell m.heap a = none := by
  have hd : (SSt.run ⟨true, true⟩ { mem := fun _ _ => (0 : Int) } vpAll).all (fun r => r.2 == [1] && r.1.views.all Option.isNone) = true := by
    decide +kernel
  have hs : (SSt.run ⟨true, true⟩ { mem := fun _ _ => (0 : Int) } vpAll).isSome = true := by decide +kernel
  obtain ⟨r, hr⟩ := Option.isSome_iff_exists.1 hs
  rw [hr] at hd
  simp only [Option.all_some, Bool.and_eq_true, beq_iff_eq] at hd
  obtain ⟨m, h1, _, _, h2⟩ := C80_memory 0 _ r hr
  rw [hd.1] at h1
  refine ⟨m, h1, h2 fun x => ?_⟩
  have := hd.2
  rw [List.all_eq_true] at this
  unfold SSt.live
  rw [List.getD_eq_getElem?_getD]
  cases e : r.1.views[x]? with
  | none => rfl
  | some o => exact Option.isNone_iff_eq_none.1 (this o (List.mem_of_getElem? e))

/-- **C80 is false (sizes).** The sum of a vector of two and a vector of one element is accepted (the comparison of the sizes is commented out); its first element can be read, its
second is read outside the operand. -/
theorem C80_sizes_false :
    vpMeant 0 ([.new [2] false 1, .new [1] false 2, .expr (· + ·) 0 1, .get 2 [0]] : List (Op Int)) = none ∧
    vpRead ([.new [2] false 1, .new [1] false 2, .expr (· + ·) 0 1, .get 2 [0]] : List (Op Int)) = some [3] ∧
    vpRead ([.new [2] false 1, .new [1] false 2, .expr (· + ·) 0 1, .get 2 [1]] : List (Op Int)) = none := by
  decide +kernel

/-- **C80 is false (overlap).** `t += t.transpose<2,1,0>()` reads elements it has already changed. -/
theorem C80_overlap_false : ¬ ∀ (p : List (Op Int)) (out : List Int), (∀ op ∈ p, vpPlain op = true) → vpMeant 0 p = some out → vpRead p = some out := by
  intro h
  have := h [.new [2, 1, 2] false 0, .put 0 [0, 0, 1] 5, .put 0 [1, 0, 0] 7, .sub 0 (.permuted [2, 1, 0]), .update 0 (· + ·) 1 (indices [2, 1, 2]),
    .get 0 [0, 0, 1], .get 0 [1, 0, 0]] [12, 12] (by decide) (by decide +kernel)
  revert this
  decide +kernel

/-- the program `x *= x(0,…)` on ones and twos -/
def vpScale (ext first : List Nat) : List (Op Int) :=
  [.new ext false 2, .ref 0 first, .updateRef 0 (· * ·) 0 (indices ext)] ++ (indices ext).map (.get 0)

/-- **C80 is false (scaling a tensor by one of its elements).** `t *= t(0,0,0)` multiplies the first element by itself and all others by the square; the same statement on
a vector or matrix is right. -/
theorem C80_scalar_false :
    vpMeant 0 (vpScale [2, 1, 1] [0, 0, 0]) = some [4, 4] ∧ vpRead (vpScale [2, 1, 1] [0, 0, 0]) = some [4, 8] ∧
    vpMeant 0 (vpScale [2, 1] [0, 0]) = some [4, 4] ∧ vpRead (vpScale [2, 1] [0, 0]) = some [4, 4] := by
  decide +kernel

/-- **C80 is false (expressions).** An unevaluated expression does not keep its operands: reading `e = a + b` after `a` is gone is undefined behaviour, though `b`'s
subview is kept. -/
theorem C80_expression_false :
    vpMeant 0 ([.new [2] false 1, .new [2] false 2, .expr (· + ·) 0 1, .destroy 0, .get 2 [0]] : List (Op Int)) = some [3] ∧
    vpRead ([.new [2] false 1, .new [2] false 2, .expr (· + ·) 0 1, .destroy 0, .get 2 [0]] : List (Op Int)) = none ∧
    vpRead ([.new [2] false 1, .new [2] false 2, .sub 1 (.subset [⟨0, 1, 2⟩]), .expr (· + ·) 0 2, .destroy 1, .destroy 2, .get 3 [0]] : List (Op Int)) = some [3] := by
  decide +kernel

/-- **C80 is false (references).** The reference `m.row(0)(1)` is a proxy that points into the temporary row: used after the statement it is undefined behaviour, though `m` still
exists; the same reference made from the matrix itself works. -/
theorem C80_proxy_false :
    vpMeant 0 ([.new [2, 3] false 1, .sub 0 (.sliced 0 0), .ref 1 [1], .destroy 1, .rput 0 8, .get 0 [0, 1]] : List (Op Int)) = some [8] ∧
    vpRead ([.new [2, 3] false 1, .sub 0 (.sliced 0 0), .ref 1 [1], .destroy 1, .rput 0 8, .get 0 [0, 1]] : List (Op Int)) = none ∧
    vpRead ([.new [2, 3] false 1, .ref 0 [0, 1], .rput 0 8, .get 0 [0, 1]] : List (Op Int)) = some [8] ∧
    vpRead ([.new [2, 3] false 1, .sub 0 .transposed, .ref 1 [1, 0], .destroy 1, .rput 0 8, .get 0 [0, 1]] : List (Op Int)) = some [8] := by
  decide +kernel

/-- **C80 is false (exchange).** `std::swap` of two elements of a row copies the proxy instead of the number (`T tmp(a); a = b; b = tmp`) and loses one of them. -/
theorem C80_swap_false :
    vpRead ([.new [2, 2] false 0, .put 0 [0, 0] 3, .put 0 [0, 1] 4, .sub 0 (.sliced 0 0), .ref 1 [0], .ref 1 [1],
      .rcopy 0, .rassign 0 1, .rassign 1 2, .get 1 [0], .get 1 [1]] : List (Op Int)) = some [4, 4] := by
  decide +kernel

/-- **C80, partial (distribution of copies).** A view constructed from a view with another block type gets the distribution of its source.
Missing: vectors from modifiable vectors (`C80_map_false`). -/
theorem C80_map_partial {M : Type} (dim : Nat) (cst : Bool) (src dflt : M) (h : dim ≠ 1 ∨ cst = true) : convMap dim cst src dflt = src := by
  unfold convMap
  rw [if_neg]
  rintro ⟨h1, h2⟩
  rcases h with h | h
  · exact h h1
  · rw [h2] at h; cases h

example : convMap 2 false "block" "default" = "block" := C80_map_partial 2 false _ _ (.inl (by decide))

/-- **C80 is false (distribution of copies).** A vector constructed from a modifiable vector has the default map, not that of its source. -/
theorem C80_map_false {M : Type} (src dflt : M) (h : src ≠ dflt) : convMap 1 false src dflt ≠ src := fun e => h e.symm

/-- **C80 is false (local copies).** `as_local_view` gives a read-only view for a modifiable view and a modifiable one for a read-only view. -/
theorem C80_local_false (cst : Bool) : localConst cst ≠ cst := by
  cases cst <;> decide

/-- **C80, partial (ranges).** `view(i…)` and `view.get(i…)` accept the same indices and mean the same element for vectors and matrices, and for tensors inside the sizes.
Missing: tensor indices outside the sizes (`C80_range_false`). -/
theorem C80_range_partial (s i : List Nat) (h : s.length ≠ 3 ∨ inR s i = true) : elemOffset s i = getOffset s i := by
  match s, i with
  | [], _ => rfl
  | [_], [_] => rfl
  | [_], [] => rfl
  | [_], _ :: _ :: _ => rfl
  | [_, _], [_, _] => rfl
  | [_, _], [] => rfl
  | [_, _], [_] => rfl
  | [_, _], _ :: _ :: _ :: _ => rfl
  | [n, m, o], [i, j, k] =>
    rcases h with h | h
    · exact absurd rfl h
    · simp only [inR, Bool.and_eq_true, decide_eq_true_eq, and_true] at h
      simp only [elemOffset, getOffset]
      rw [if_pos h]
  | [_, _, _], [] => rfl
  | [_, _, _], [_] => rfl
  | [_, _, _], [_, _] => rfl
  | [_, _, _], _ :: _ :: _ :: _ :: _ => rfl
  | _ :: _ :: _ :: _ :: _, _ => rfl

/-- **C80 is false (ranges).** A tensor's `operator()` checks nothing: `t(0,0,4)` of a 2×3×4 tensor is `t(0,1,0)`. -/
theorem C80_range_false : getOffset [2, 3, 4] [0, 0, 4] = none ∧ elemOffset [2, 3, 4] [0, 0, 4] = elemOffset [2, 3, 4] [0, 1, 0] ∧
    (elemOffset [2, 3, 4] [0, 0, 4]).isSome = true := by
  decide

/-- **C80 (layers).** What a layer asks its parent for: slices put their own indices in the dimensions they name and transposed blocks exchange the
two indices. -/
theorem C80_layers (i j k l : Nat) : (Layer.sliced2 0 1 i j).toParent [k] = [i, j, k] ∧ (Layer.sliced2 0 2 i j).toParent [k] = [i, k, j] ∧
    (Layer.sliced2 1 2 i j).toParent [k] = [k, i, j] ∧ (Layer.sliced 0 i).toParent [k, l] = [i, k, l] ∧
    (Layer.sliced 1 i).toParent [k, l] = [k, i, l] ∧ (Layer.sliced 2 i).toParent [k, l] = [k, l, i] ∧ Layer.transposed.toParent [k, l] = [l, k] :=
  ⟨rfl, rfl, rfl, rfl, rfl, rfl, rfl⟩

end Verif.Props
