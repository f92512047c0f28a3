import Verif.Expr.Model
import Verif.Map.Spec
import Mathlib.Data.List.Nodup
/-! Properties C29 (expression assignment) and C30 (dispatcher). -/
namespace Verif.Props
open Verif Ex

variable {A V : Type}

/-- the value of an expression at an index, over the memory before the assignment (specification) -/
def value (m : A → V) : Expr A V → Idx → V
  | .block a, i => m (a i)
  | .scalar v, _ => v
  | .generator f, i => f i
  | .unary f x, i => f (value m x i)
  | .binary f x y, i => f (value m x i) (value m y i)
  | .ternary f x y z, i => f (value m x i) (value m y i) (value m z i)
  | .whole f, i => f m i

/-- every block in the expression meets the left-hand side only at the same index -/
def SameIndex (sz : List Nat) (lhs : Idx → A) : Expr A V → Prop
  | .block a => ∀ i j, InRange i sz → InRange j sz → a i = lhs j → i = j
  | .scalar _ | .generator _ | .whole _ => True
  | .unary _ x => SameIndex sz lhs x
  | .binary _ x y => SameIndex sz lhs x ∧ SameIndex sz lhs y
  | .ternary _ x y z => SameIndex sz lhs x ∧ SameIndex sz lhs y ∧ SameIndex sz lhs z

theorem nodup_flatMap_range {β : Type} (n : Nat) (f : Nat → List β) (h1 : ∀ i, (f i).Nodup) (h2 : ∀ i j, i ≠ j → ∀ x, x ∈ f i → x ∉ f j) :
    ((List.range n).flatMap f).Nodup := by
  rw [List.nodup_flatMap]
  refine ⟨fun i _ => h1 i, ?_⟩
  apply List.Pairwise.imp _ (List.nodup_range (n := n))
  intro i j hne x hx hy
  exact h2 i j hne x hx hy

theorem nodup_map_range {β : Type} (n : Nat) (f : Nat → β) (h : ∀ i j, f i = f j → i = j) : ((List.range n).map f).Nodup :=
  List.nodup_range.map (fun i j => h i j)

/-- all loop nests visit each index of the extent exactly once -/
theorem loop_visits {sz o : List Nat} {l : List Idx} (h : Loop sz o l) : l.Nodup ∧ ∀ i, i ∈ l ↔ InRange i sz := by
  have m1 : ∀ (i : Idx) (n : Nat), InRange i [n] ↔ ∃ a, a < n ∧ [a] = i := by
    intro i n
    constructor
    · intro h
      match i, h with
      | [a], h => exact ⟨a, h.1, rfl⟩
    · rintro ⟨a, ha, rfl⟩; exact ⟨ha, trivial⟩
  have m2 : ∀ (i : Idx) (n m : Nat), InRange i [n, m] ↔ ∃ a b, a < n ∧ b < m ∧ [a, b] = i := by
    intro i n m
    constructor
    · intro h
      match i, h with
      | [a, b], h => exact ⟨a, b, h.1, h.2.1, rfl⟩
    · rintro ⟨a, b, ha, hb, rfl⟩; exact ⟨ha, hb, trivial⟩
  have m3 : ∀ (i : Idx) (n m p : Nat), InRange i [n, m, p] ↔ ∃ a b c, a < n ∧ b < m ∧ c < p ∧ [a, b, c] = i := by
    intro i n m p
    constructor
    · intro h
      match i, h with
      | [a, b, c], h => exact ⟨a, b, c, h.1, h.2.1, h.2.2.1, rfl⟩
    · rintro ⟨a, b, c, ha, hb, hc, rfl⟩; exact ⟨ha, hb, hc, trivial⟩
  cases h with
  | d1 n =>
    refine ⟨nodup_map_range _ _ (by intro i j h; simpa using h), ?_⟩
    intro i
    rw [m1]; simp [visit1]
  | row r c =>
    refine ⟨nodup_flatMap_range _ _ (fun i => nodup_map_range _ _ (by intro a b h; simpa using h)) ?_, ?_⟩
    · intro i j hne x hx hy
      simp only [List.mem_map] at hx hy
      obtain ⟨a, -, rfl⟩ := hx
      obtain ⟨b, -, h⟩ := hy
      simp_all
    · intro i
      rw [m2]; simp only [visit2row, List.mem_flatMap, List.mem_map, List.mem_range]
      constructor
      · rintro ⟨a, ha, b, hb, h⟩; exact ⟨a, b, ha, hb, h⟩
      · rintro ⟨a, b, ha, hb, h⟩; exact ⟨a, ha, b, hb, h⟩
  | col r c =>
    refine ⟨nodup_flatMap_range _ _ (fun i => nodup_map_range _ _ (by intro a b h; simpa using h)) ?_, ?_⟩
    · intro i j hne x hx hy
      simp only [List.mem_map] at hx hy
      obtain ⟨a, -, rfl⟩ := hx
      obtain ⟨b, -, h⟩ := hy
      simp_all
    · intro i
      rw [m2]; simp only [visit2col, List.mem_flatMap, List.mem_map, List.mem_range]
      constructor
      · rintro ⟨a, ha, b, hb, h⟩; exact ⟨b, a, hb, ha, h⟩
      · rintro ⟨a, b, ha, hb, h⟩; exact ⟨b, hb, a, ha, h⟩
  | d012 a b c =>
    refine ⟨nodup_flatMap_range _ _ (fun i => nodup_flatMap_range _ _ (fun j => nodup_map_range _ _ (by intro a b h; simpa using h)) ?_) ?_, ?_⟩
    · intro i j hne x hx hy
      simp only [List.mem_map] at hx hy
      obtain ⟨a, -, rfl⟩ := hx
      obtain ⟨b, -, h⟩ := hy
      simp_all
    · intro i j hne x hx hy
      simp only [List.mem_flatMap, List.mem_map] at hx hy
      obtain ⟨a, -, a', -, rfl⟩ := hx
      obtain ⟨b, -, b', -, h⟩ := hy
      simp_all
    · intro i
      rw [m3]; simp only [visit012, List.mem_flatMap, List.mem_map, List.mem_range]
      constructor
      · rintro ⟨a, ha, b, hb, c, hc, h⟩; exact ⟨a, b, c, ha, hb, hc, h⟩
      · rintro ⟨a, b, c, ha, hb, hc, h⟩; exact ⟨a, ha, b, hb, c, hc, h⟩
  | d021 a b c =>
    refine ⟨nodup_flatMap_range _ _ (fun i => nodup_flatMap_range _ _ (fun j => nodup_map_range _ _ (by intro a b h; simpa using h)) ?_) ?_, ?_⟩
    · intro i j hne x hx hy
      simp only [List.mem_map] at hx hy
      obtain ⟨a, -, rfl⟩ := hx
      obtain ⟨b, -, h⟩ := hy
      simp_all
    · intro i j hne x hx hy
      simp only [List.mem_flatMap, List.mem_map] at hx hy
      obtain ⟨a, -, a', -, rfl⟩ := hx
      obtain ⟨b, -, b', -, h⟩ := hy
      simp_all
    · intro i
      rw [m3]; simp only [visit021, List.mem_flatMap, List.mem_map, List.mem_range]
      constructor
      · rintro ⟨a, ha, c, hc, b, hb, h⟩; exact ⟨a, b, c, ha, hb, hc, h⟩
      · rintro ⟨a, b, c, ha, hb, hc, h⟩; exact ⟨a, ha, c, hc, b, hb, h⟩
  | d102 a b c =>
    refine ⟨nodup_flatMap_range _ _ (fun i => nodup_flatMap_range _ _ (fun j => nodup_map_range _ _ (by intro a b h; simpa using h)) ?_) ?_, ?_⟩
    · intro i j hne x hx hy
      simp only [List.mem_map] at hx hy
      obtain ⟨a, -, rfl⟩ := hx
      obtain ⟨b, -, h⟩ := hy
      simp_all
    · intro i j hne x hx hy
      simp only [List.mem_flatMap, List.mem_map] at hx hy
      obtain ⟨a, -, a', -, rfl⟩ := hx
      obtain ⟨b, -, b', -, h⟩ := hy
      simp_all
    · intro i
      rw [m3]; simp only [visit102, List.mem_flatMap, List.mem_map, List.mem_range]
      constructor
      · rintro ⟨b, hb, a, ha, c, hc, h⟩; exact ⟨a, b, c, ha, hb, hc, h⟩
      · rintro ⟨a, b, c, ha, hb, hc, h⟩; exact ⟨b, hb, a, ha, c, hc, h⟩
  | d120 a b c =>
    refine ⟨nodup_flatMap_range _ _ (fun i => nodup_flatMap_range _ _ (fun j => nodup_map_range _ _ (by intro a b h; simpa using h)) ?_) ?_, ?_⟩
    · intro i j hne x hx hy
      simp only [List.mem_map] at hx hy
      obtain ⟨a, -, rfl⟩ := hx
      obtain ⟨b, -, h⟩ := hy
      simp_all
    · intro i j hne x hx hy
      simp only [List.mem_flatMap, List.mem_map] at hx hy
      obtain ⟨a, -, a', -, rfl⟩ := hx
      obtain ⟨b, -, b', -, h⟩ := hy
      simp_all
    · intro i
      rw [m3]; simp only [visit120, List.mem_flatMap, List.mem_map, List.mem_range]
      constructor
      · rintro ⟨b, hb, c, hc, a, ha, h⟩; exact ⟨a, b, c, ha, hb, hc, h⟩
      · rintro ⟨a, b, c, ha, hb, hc, h⟩; exact ⟨b, hb, c, hc, a, ha, h⟩
  | d201 a b c =>
    refine ⟨nodup_flatMap_range _ _ (fun i => nodup_flatMap_range _ _ (fun j => nodup_map_range _ _ (by intro a b h; simpa using h)) ?_) ?_, ?_⟩
    · intro i j hne x hx hy
      simp only [List.mem_map] at hx hy
      obtain ⟨a, -, rfl⟩ := hx
      obtain ⟨b, -, h⟩ := hy
      simp_all
    · intro i j hne x hx hy
      simp only [List.mem_flatMap, List.mem_map] at hx hy
      obtain ⟨a, -, a', -, rfl⟩ := hx
      obtain ⟨b, -, b', -, h⟩ := hy
      simp_all
    · intro i
      rw [m3]; simp only [visit201, List.mem_flatMap, List.mem_map, List.mem_range]
      constructor
      · rintro ⟨c, hc, a, ha, b, hb, h⟩; exact ⟨a, b, c, ha, hb, hc, h⟩
      · rintro ⟨a, b, c, ha, hb, hc, h⟩; exact ⟨c, hc, a, ha, b, hb, h⟩
  | d210 a b c =>
    refine ⟨nodup_flatMap_range _ _ (fun i => nodup_flatMap_range _ _ (fun j => nodup_map_range _ _ (by intro a b h; simpa using h)) ?_) ?_, ?_⟩
    · intro i j hne x hx hy
      simp only [List.mem_map] at hx hy
      obtain ⟨a, -, rfl⟩ := hx
      obtain ⟨b, -, h⟩ := hy
      simp_all
    · intro i j hne x hx hy
      simp only [List.mem_flatMap, List.mem_map] at hx hy
      obtain ⟨a, -, a', -, rfl⟩ := hx
      obtain ⟨b, -, b', -, h⟩ := hy
      simp_all
    · intro i
      rw [m3]; simp only [visit210, List.mem_flatMap, List.mem_map, List.mem_range]
      constructor
      · rintro ⟨c, hc, b, hb, a, ha, h⟩; exact ⟨a, b, c, ha, hb, hc, h⟩
      · rintro ⟨a, b, c, ha, hb, hc, h⟩; exact ⟨c, hc, b, hb, a, ha, h⟩

/-- the evaluated expression yields the old value at an index all of whose operands are still unchanged -/
theorem get_evaluated (sz : List Nat) (lhs : Idx → A) (m m' : A → V) (i : Idx) (hi : InRange i sz)
    (hm : ∀ a, (∀ j, InRange j sz → j ≠ i → a ≠ lhs j) → m' a = m a) :
    ∀ e : Expr A V, SameIndex sz lhs e → Ex.get m' (evaluate m e) i = value m e i
  | .block a, h => by
      simp only [evaluate, Ex.get, value]
      exact hm _ (fun j hj hne he => hne (h i j hi hj he).symm)
  | .scalar _, _ => rfl
  | .generator _, _ => rfl
  | .whole _, _ => rfl
  | .unary f x, h => by
      simp only [evaluate, Ex.get, value]
      rw [get_evaluated sz lhs m m' i hi hm x h]
  | .binary f x y, h => by
      simp only [evaluate, Ex.get, value]
      rw [get_evaluated sz lhs m m' i hi hm x h.1, get_evaluated sz lhs m m' i hi hm y h.2]
  | .ternary f x y z, h => by
      simp only [evaluate, Ex.get, value]
      rw [get_evaluated sz lhs m m' i hi hm x h.1, get_evaluated sz lhs m m' i hi hm y h.2.1, get_evaluated sz lhs m m' i hi hm z h.2.2]

theorem assignLoop_spec [DecidableEq A] (sz : List Nat) (lhs : Idx → A) (hinj : ∀ i j, InRange i sz → InRange j sz → lhs i = lhs j → i = j)
    (e : Expr A V) (he : SameIndex sz lhs e) (m0 : A → V) :
    ∀ (l : List Idx) (m : A → V), l.Nodup → (∀ i ∈ l, InRange i sz) →
      (∀ a, (∀ j, InRange j sz → j ∉ l → a ≠ lhs j) → m a = m0 a) →
      (∀ i ∈ l, assignLoop lhs (evaluate m0 e) m l (lhs i) = value m0 e i) ∧
      ∀ a, (∀ i ∈ l, a ≠ lhs i) → assignLoop lhs (evaluate m0 e) m l a = m a
  | [], m, _, _, _ => ⟨fun i h => by simp at h, fun _ _ => rfl⟩
  | i :: l, m, hn, hr, hm => by
      have hi := hr i (by simp)
      have hnd := List.nodup_cons.1 hn
      have hg : Ex.get m (evaluate m0 e) i = value m0 e i := by
        apply get_evaluated sz lhs m0 m i hi _ e he
        intro a ha
        apply hm a
        intro j hj hjl
        exact ha j hj (fun h => hjl (by simp [h]))
      have ih := assignLoop_spec sz lhs hinj e he m0 l (Function.update m (lhs i) (Ex.get m (evaluate m0 e) i)) hnd.2 (fun j hj => hr j (by simp [hj]))
        (by
          intro a ha
          rw [Function.update_of_ne (ha i hi hnd.1)]
          apply hm a
          intro j hj hjl
          exact ha j hj (fun h => hjl (by simp [h])))
      have hstep : assignLoop lhs (evaluate m0 e) m (i :: l) = assignLoop lhs (evaluate m0 e) (Function.update m (lhs i) (Ex.get m (evaluate m0 e) i)) l := rfl
      rw [hstep]
      constructor
      · intro j hj
        rcases List.mem_cons.1 hj with rfl | hj
        · rw [ih.2 (lhs j) (fun k hk he => hnd.1 (by rw [hinj j k hi (hr k (by simp [hk])) he]; exact hk)), Function.update_self, hg]
        · exact ih.1 j hj
      · intro a ha
        rw [ih.2 a (fun j hj => ha j (by simp [hj])), Function.update_of_ne (ha i (by simp))]

/-- **C29.** Assigning any expression of element-wise (and cached) operations stores at each index of the left-hand side the value of the
expression over the old memory, provided operands meet the left-hand side at equal indices only; nothing else changes. -/
theorem C29_assign [DecidableEq A] (sz o : List Nat) (l : List Idx) (hl : Loop sz o l) (lhs : Idx → A)
    (hinj : ∀ i j, InRange i sz → InRange j sz → lhs i = lhs j → i = j) (e : Expr A V) (he : SameIndex sz lhs e) (m : A → V) :
    (∀ i, InRange i sz → loopFusion lhs e m l (lhs i) = value m e i) ∧
    ∀ a, (∀ i, InRange i sz → a ≠ lhs i) → loopFusion lhs e m l a = m a := by
  obtain ⟨hn, hm⟩ := loop_visits hl
  obtain ⟨h1, h2⟩ := assignLoop_spec sz lhs hinj e he m l m hn (fun i hi => (hm i).1 hi) (fun _ _ => rfl)
  exact ⟨fun i hi => h1 i ((hm i).2 hi), fun a ha => h2 a (fun i hi => ha i ((hm i).1 hi))⟩

/-- every dimension order of a left-hand side has a loop nest -/
theorem C29_all_orders : (∀ n, ∃ l, Loop [n] [0] l) ∧ (∀ a b, ∀ o ∈ [[0, 1], [1, 0]], ∃ l, Loop [a, b] o l) ∧
    ∀ a b c, ∀ o ∈ [[0, 1, 2], [0, 2, 1], [1, 0, 2], [1, 2, 0], [2, 0, 1], [2, 1, 0]], ∃ l, Loop [a, b, c] o l := by
  refine ⟨fun n => ⟨_, .d1 n⟩, ?_, ?_⟩
  · intro a b o ho
    simp only [List.mem_cons, List.not_mem_nil, or_false] at ho
    rcases ho with rfl | rfl
    · exact ⟨_, .row a b⟩
    · exact ⟨_, .col a b⟩
  · intro a b c o ho
    simp only [List.mem_cons, List.not_mem_nil, or_false] at ho
    rcases ho with rfl | rfl | rfl | rfl | rfl | rfl
    · exact ⟨_, .d012 a b c⟩
    · exact ⟨_, .d021 a b c⟩
    · exact ⟨_, .d102 a b c⟩
    · exact ⟨_, .d120 a b c⟩
    · exact ⟨_, .d201 a b c⟩
    · exact ⟨_, .d210 a b c⟩

/-- instance: `v = v * w + 1` on a vector of three elements -/
example : let lhs : Idx → Int := fun i => i.getD 0 0
    let e : Expr Int Int := .ternary (fun x y z => x * y + z) (.block lhs) (.block fun i => 10 + i.getD 0 0) (.scalar 1)
    SameIndex [3] lhs e ∧ (∀ i j, InRange i [3] → InRange j [3] → lhs i = lhs j → i = j) ∧ loopFusion lhs e id (visit1 3) 2 = 2 * 12 + 1 := by
  refine ⟨⟨?_, ?_, trivial⟩, ?_, by decide⟩
  · intro i j hi hj h
    match i, j, hi, hj with
    | [a], [b], _, _ =>
      simp at h
      simp only [List.cons.injEq, and_true]; omega
  · intro i j hi hj h
    match i, j, hi, hj with
    | [a], [b], hi, hj =>
      have h1 := hi.1
      have h2 := hj.1
      simp at h
      omega
  · intro i j hi hj h
    match i, j, hi, hj with
    | [a], [b], _, _ =>
      simp at h
      simp only [List.cons.injEq, and_true]; omega

/-- The condition on the operands is needed: `v(1:2) = v(0:1)` overwrites the element it reads next. -/
example : loopFusion (fun i => (i.getD 0 0 : Int) + 1) (.block fun i => (i.getD 0 0 : Int)) id (visit1 2) 2 = 0 := by decide

/-! ### C30 -/

section
variable {Args S : Type}

/-- **C30.** The first backend in the list that is valid at compile time and at run time is executed, exactly once, and no other; if there
is none, the error is raised and nothing has been executed. -/
theorem C30_first (b : Backend Args S) (rest : List (Backend Args S)) (args : Args) (s : S) :
    (∃ pre c post, b :: rest = pre ++ c :: post ∧ (∀ x ∈ pre, ¬ (x.ct = true ∧ x.rt args = true)) ∧ c.ct = true ∧ c.rt args = true ∧
      dispatch b rest args s = .done (c.exec args s)) ∨
    ((∀ x ∈ b :: rest, ¬ (x.ct = true ∧ x.rt args = true)) ∧ dispatch b rest args s = .noBackend s) := by
  induction rest generalizing b with
  | nil =>
    by_cases h : b.ct = true ∧ b.rt args = true
    · exact Or.inl ⟨[], b, [], rfl, by simp, h.1, h.2, by simp [dispatch, h]⟩
    · refine Or.inr ⟨by simpa using h, ?_⟩
      cases hc : b.ct <;> cases hr : b.rt args <;> simp_all [dispatch]
  | cons b' rest ih =>
    by_cases h : b.ct = true ∧ b.rt args = true
    · exact Or.inl ⟨[], b, b' :: rest, rfl, by simp, h.1, h.2, by simp [dispatch, h]⟩
    · have hd : dispatch b (b' :: rest) args s = dispatch b' rest args s := by
        cases hc : b.ct <;> cases hr : b.rt args <;> simp_all [dispatch]
      rcases ih b' with ⟨pre, c, post, e, hp, hc, hr, hx⟩ | ⟨hall, hx⟩
      · refine Or.inl ⟨b :: pre, c, post, by rw [e]; rfl, ?_, hc, hr, hd.trans hx⟩
        intro x hx
        rcases List.mem_cons.1 hx with rfl | hx
        · exact h
        · exact hp x hx
      · refine Or.inr ⟨?_, hd.trans hx⟩
        intro x hx
        rcases List.mem_cons.1 hx with rfl | hx
        · exact h
        · exact hall x hx

/-- three backends: not compiled in, rejecting, accepting -/
example : dispatch (Args := Nat) (S := List Nat) ⟨false, fun _ => true, fun _ s => 0 :: s⟩
    [⟨true, fun n => n > 10, fun _ s => 1 :: s⟩, ⟨true, fun _ => true, fun _ s => 2 :: s⟩] 5 [] = .done [2] := by decide

end

end Verif.Props
