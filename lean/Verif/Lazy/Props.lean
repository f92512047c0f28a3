import Verif.Lazy.Spec
import Mathlib.Tactic.Basic
/-!
C88: operations inside expressions are evaluated once, from the memory at the time of the assignment.
-/
namespace Verif.Props
open Verif Lz Function

variable {A V : Type}

theorem lz_val_fill (m : A → V) (e : E A V) : ∀ i, val m (fill m e) i = val m e i := by
  induction e with
  | leaf a => intro i; rfl
  | scalar v => intro i; rfl
  | un k f x ih => intro i; simp only [fill, val, ih]
  | bin k f x y ih1 ih2 => intro i; simp only [fill, val, ih1, ih2]
  | view k g x ih => intro i; simp only [fill, val, ih]
  | other g x ih => intro i; simp only [fill, val, ih]
  | op k F x c ih => intro i; cases c <;> rfl
  | op2 k F x y c ih1 ih2 => intro i; cases c <;> rfl

theorem lz_cost_fill (m : A → V) (e : E A V) : cost (fill m e) = 0 := by
  induction e with
  | leaf a => rfl
  | scalar v => rfl
  | un k f x ih => simp only [fill, cost, ih]
  | bin k f x y ih1 ih2 => simp only [fill, cost, ih1, ih2]
  | view k g x ih => simp only [fill, cost, ih]
  | other g x ih => simp only [fill, cost, ih]
  | op k F x c ih => cases c <;> rfl
  | op2 k F x y c ih1 ih2 => cases c <;> rfl

theorem lz_touches_fill (m : A → V) (e : E A V) : ∀ i, touches (fill m e) i = touches e i := by
  induction e with
  | leaf a => intro i; rfl
  | scalar v => intro i; rfl
  | un k f x ih => intro i; simp only [fill, touches, ih]
  | bin k f x y ih1 ih2 => intro i; simp only [fill, touches, ih1, ih2]
  | view k g x ih => intro i; simp only [fill, touches, ih]
  | other g x ih => intro i; simp only [fill, touches, ih]
  | op k F x c ih => intro i; cases c <;> rfl
  | op2 k F x y c ih1 ih2 => intro i; cases c <;> rfl

theorem lz_own (m : A → V) (e : E A V) :
    (∀ i, val m (own m e) i = val m e i) ∧ (∀ i, touches (own m e) i = touches e i) ∧ cost (own m e) + ownCost e = cost e := by
  cases e with
  | op k F x c => exact ⟨lz_val_fill m _, lz_touches_fill m _, by unfold own ownCost; simp only; rw [lz_cost_fill, Nat.zero_add]⟩
  | op2 k F x y c => exact ⟨lz_val_fill m _, lz_touches_fill m _, by unfold own ownCost; simp only; rw [lz_cost_fill, Nat.zero_add]⟩
  | leaf a => exact ⟨fun _ => rfl, fun _ => rfl, rfl⟩
  | scalar v => exact ⟨fun _ => rfl, fun _ => rfl, rfl⟩
  | un k f x => exact ⟨fun _ => rfl, fun _ => rfl, rfl⟩
  | bin k f x y => exact ⟨fun _ => rfl, fun _ => rfl, rfl⟩
  | view k g x => exact ⟨fun _ => rfl, fun _ => rfl, rfl⟩
  | other g x => exact ⟨fun _ => rfl, fun _ => rfl, rfl⟩

theorem lz_coh_fill (m : A → V) (e : E A V) : Coherent e → Coherent (fill m e) := by
  induction e with
  | leaf a => intro _; trivial
  | scalar v => intro _; trivial
  | un k f x ih => exact ih
  | bin k f x y ih1 ih2 => exact fun h => ⟨ih1 h.1, ih2 h.2⟩
  | view k g x ih => exact ih
  | other g x ih => exact ih
  | op k F x c ih =>
    intro h
    cases c with
    | some c => exact h
    | none => exact ⟨fun _ => lz_cost_fill m x, ih h.2⟩
  | op2 k F x y c ih1 ih2 =>
    intro h
    cases c with
    | some c => exact h
    | none => exact ⟨fun _ => ⟨lz_cost_fill m x, lz_cost_fill m y⟩, ih1 h.2.1, ih2 h.2.2⟩

theorem lz_own_coh (m : A → V) (e : E A V) (h : Coherent e) : Coherent (own m e) := by
  cases e with
  | op k F x c => exact lz_coh_fill m _ h
  | op2 k F x y c => exact lz_coh_fill m _ h
  | leaf a => exact h
  | scalar v => exact h
  | un k f x => exact h
  | bin k f x y => exact h
  | view k g x => exact h
  | other g x => exact h

/-- the traversal changes no value, and what it spends is saved later -/
theorem lz_visit (m : A → V) (e : E A V) :
    (∀ i, val m (visit m e) i = val m e i) ∧ (∀ i, touches (visit m e) i = touches e i) ∧
      (Coherent e → cost (visit m e) + visitCost m e = cost e ∧ Coherent (visit m e)) := by
  have key : ∀ x : E A V, ((∀ i, val m (visit m x) i = val m x i) ∧ (∀ i, touches (visit m x) i = touches x i) ∧
      (Coherent x → cost (visit m x) + visitCost m x = cost x ∧ Coherent (visit m x))) →
      (∀ i, val m (if x.const then own m x else visit m x) i = val m x i) ∧
      (∀ i, touches (if x.const then own m x else visit m x) i = touches x i) ∧
      (Coherent x → cost (if x.const then own m x else visit m x) + (if x.const then ownCost x else visitCost m x) = cost x ∧
        Coherent (if x.const then own m x else visit m x)) := by
    intro x hx
    by_cases hc : x.const = true
    · simp only [hc, if_true]
      exact ⟨(lz_own m x).1, (lz_own m x).2.1, fun h => ⟨(lz_own m x).2.2, lz_own_coh m x h⟩⟩
    · rw [if_neg hc, if_neg hc]; exact hx
  induction e with
  | leaf a => exact ⟨fun _ => rfl, fun _ => rfl, fun h => ⟨rfl, h⟩⟩
  | scalar v => exact ⟨fun _ => rfl, fun _ => rfl, fun h => ⟨rfl, h⟩⟩
  | other g x _ => exact ⟨fun _ => rfl, fun _ => rfl, fun h => ⟨rfl, h⟩⟩
  | un k f x ih =>
    obtain ⟨h1, h2, h3⟩ := key x ih
    refine ⟨fun i => by simp only [visit, val, h1], fun i => by simp only [visit, touches, h2], ?_⟩
    exact fun h => h3 h
  | view k g x ih =>
    obtain ⟨h1, h2, h3⟩ := key x ih
    refine ⟨fun i => by simp only [visit, val, h1], fun i => by simp only [visit, touches, h2], ?_⟩
    exact fun h => h3 h
  | bin k f x y ih1 ih2 =>
    obtain ⟨h1, h2, h3⟩ := key x ih1
    obtain ⟨g1, g2, g3⟩ := key y ih2
    refine ⟨fun i => by simp only [visit, val, h1, g1], fun i => by simp only [visit, touches, h2, g2], ?_⟩
    intro h
    have a := h3 h.1
    have b := g3 h.2
    refine ⟨?_, a.2, b.2⟩
    have a1 := a.1
    have b1 := b.1
    simp only [visit, cost, visitCost]; omega
  | op k F x c ih =>
    obtain ⟨h1, h2, h3⟩ := key x ih
    refine ⟨fun i => ?_, fun i => ?_, ?_⟩
    · simp only [visit]; rw [(lz_own m _).1 i]
      cases c with
      | some c => rfl
      | none => simp only [val]; rw [funext h1]
    · simp only [visit]; rw [(lz_own m _).2.1 i]; rfl
    · intro h
      have a := h3 h.2
      have a1 := a.1
      have o := (lz_own m (.op k F (if x.const then own m x else visit m x) c)).2.2
      refine ⟨?_, lz_own_coh m _ ⟨fun hc => ?_, a.2⟩⟩
      · cases c with
        | some c =>
          have := h.1 (by simp)
          simp only [visit, visitCost]
          simp only [cost] at o ⊢
          omega
        | none =>
          simp only [visit, visitCost]
          simp only [cost] at o ⊢
          omega
      · have := h.1 hc; omega
  | op2 k F x y c ih1 ih2 =>
    obtain ⟨h1, h2, h3⟩ := key x ih1
    obtain ⟨g1, g2, g3⟩ := key y ih2
    refine ⟨fun i => ?_, fun i => ?_, ?_⟩
    · simp only [visit]; rw [(lz_own m _).1 i]
      cases c with
      | some c => rfl
      | none => simp only [val]; rw [funext h1, funext g1]
    · simp only [visit]; rw [(lz_own m _).2.1 i]; rfl
    · intro h
      have a := h3 h.2.1
      have b := g3 h.2.2
      have a1 := a.1
      have b1 := b.1
      have o := (lz_own m (.op2 k F (if x.const then own m x else visit m x) (if y.const then own m y else visit m y) c)).2.2
      refine ⟨?_, lz_own_coh m _ ⟨fun hc => ?_, a.2, b.2⟩⟩
      · cases c with
        | some c =>
          have := h.1 (by simp)
          simp only [visit, visitCost]
          simp only [cost] at o ⊢
          omega
        | none =>
          simp only [visit, visitCost]
          simp only [cost] at o ⊢
          omega
      · have := h.1 hc; constructor <;> omega

theorem lz_fresh (e : E A V) : Fresh e → (∀ m : A → V, val m e = den m e) ∧ cost e = ops e ∧ Coherent e := by
  induction e with
  | leaf a => intro _; exact ⟨fun _ => rfl, rfl, trivial⟩
  | scalar v => intro _; exact ⟨fun _ => rfl, rfl, trivial⟩
  | un k f x ih =>
    intro h; obtain ⟨a, b, c⟩ := ih h
    exact ⟨fun m => by funext i; simp only [val, den, a], by simp only [cost, ops, b], c⟩
  | view k g x ih =>
    intro h; obtain ⟨a, b, c⟩ := ih h
    exact ⟨fun m => by funext i; simp only [val, den, a], by simp only [cost, ops, b], c⟩
  | other g x ih =>
    intro h; obtain ⟨a, b, c⟩ := ih h
    exact ⟨fun m => by funext i; simp only [val, den, a], by simp only [cost, ops, b], c⟩
  | bin k f x y ih1 ih2 =>
    intro h; obtain ⟨a, b, c⟩ := ih1 h.1; obtain ⟨a', b', c'⟩ := ih2 h.2
    exact ⟨fun m => by funext i; simp only [val, den, a, a'], by simp only [cost, ops, b, b'], c, c'⟩
  | op k F x c ih =>
    intro h; obtain ⟨a, b, d⟩ := ih h.2; obtain ⟨rfl, _⟩ := h
    exact ⟨fun m => by funext i; simp only [val, den, a], by simp only [cost, ops, b], fun h => absurd rfl h, d⟩
  | op2 k F x y c ih1 ih2 =>
    intro h; obtain ⟨a, b, d⟩ := ih1 h.2.1; obtain ⟨a', b', d'⟩ := ih2 h.2.2; obtain ⟨rfl, _⟩ := h
    exact ⟨fun m => by funext i; simp only [val, den, a, a'], by simp only [cost, ops, b, b'], fun h => absurd rfl h, d, d'⟩

/-- once evaluated, only what is read element by element matters -/
theorem lz_frame (e : E A V) : cost e = 0 → ∀ (m m' : A → V) (i : Nat), (∀ a ∈ touches e i, m a = m' a) → val m e i = val m' e i := by
  induction e with
  | leaf a => intro _ m m' i h; exact h _ (by simp [touches])
  | scalar v => intro _ m m' i h; rfl
  | un k f x ih => intro hc m m' i h; simp only [val]; rw [ih hc m m' i h]
  | view k g x ih => intro hc m m' i h; exact ih hc m m' (g i) h
  | other g x ih => intro hc m m' i h; exact ih hc m m' (g i) h
  | bin k f x y ih1 ih2 =>
    intro hc m m' i h
    simp only [cost] at hc
    simp only [val]
    rw [ih1 (by omega) m m' i (fun a ha => h a (by simp [touches, ha])), ih2 (by omega) m m' i (fun a ha => h a (by simp [touches, ha]))]
  | op k F x c ih =>
    intro hc m m' i h
    cases c with
    | some c => rfl
    | none => simp only [cost] at hc; omega
  | op2 k F x y c ih1 ih2 =>
    intro hc m m' i h
    cases c with
    | some c => rfl
    | none => simp only [cost] at hc; omega

variable [DecidableEq A]

theorem lz_loop (lhs : Nat → A) (D : Nat → V) (l : List Nat) : ∀ s : State A V, Safe lhs s.e l → (∀ i ∈ l, val s.m s.e i = D i) →
    (∀ i ∈ l, (l.foldl (step lhs) s).m (lhs i) = D i) ∧
    (∀ a, (∀ i ∈ l, lhs i ≠ a) → (l.foldl (step lhs) s).m a = s.m a) := by
  induction l with
  | nil => intro s _ _; exact ⟨fun i hi => absurd hi (List.not_mem_nil), fun a _ => rfl⟩
  | cons j l ih =>
    intro s hs hv
    unfold Safe at hs
    rw [List.pairwise_cons] at hs
    have hv' : ∀ i ∈ l, val (step lhs s j).m (step lhs s j).e i = D i := by
      intro i hi
      rw [← hv i (List.mem_cons_of_mem _ hi), ← lz_val_fill s.m s.e i]
      refine lz_frame (fill s.m s.e) (lz_cost_fill _ _) _ _ i ?_
      intro a ha
      rw [lz_touches_fill] at ha
      refine Function.update_of_ne ?_ _ _
      rintro rfl
      exact (hs.1 i hi).1 ha
    have hs' : Safe lhs (step lhs s j).e l := by
      unfold Safe
      refine hs.2.imp ?_
      intro x y h
      refine ⟨?_, h.2⟩
      change _ ∉ touches (fill s.m s.e) y
      rw [lz_touches_fill]; exact h.1
    obtain ⟨a, b⟩ := ih (step lhs s j) hs' hv'
    refine ⟨?_, ?_⟩
    · intro i hi
      rw [List.foldl_cons]
      rcases List.mem_cons.1 hi with rfl | hi
      · rw [b (lhs i) (fun x hx => fun h => (hs.1 x hx).2 h.symm)]
        change Function.update s.m (lhs i) (val s.m s.e i) (lhs i) = _
        rw [Function.update_self]
        exact hv i (List.mem_cons_self ..)
      · exact a i hi
    · intro c hc
      rw [List.foldl_cons, b c (fun i hi => hc i (List.mem_cons_of_mem _ hi))]
      exact Function.update_of_ne (fun h => hc j (List.mem_cons_self ..) h.symm) _ _

theorem lz_count (lhs : Nat → A) (l : List Nat) : ∀ s : State A V, l ≠ [] →
    (l.foldl (step lhs) s).n = s.n + cost s.e ∧ cost (l.foldl (step lhs) s).e = 0 := by
  induction l with
  | nil => intro s h; exact absurd rfl h
  | cons j l ih =>
    intro s _
    rw [List.foldl_cons]
    by_cases hl : l = []
    · subst hl; exact ⟨rfl, lz_cost_fill _ _⟩
    · obtain ⟨a, b⟩ := ih (step lhs s j) hl
      refine ⟨?_, b⟩
      rw [a]
      change s.n + cost s.e + cost (fill s.m s.e) = _
      rw [lz_cost_fill, Nat.add_zero]

theorem lz_coh_loop (lhs : Nat → A) (l : List Nat) : ∀ s : State A V, Coherent s.e → Coherent (l.foldl (step lhs) s).e := by
  induction l with
  | nil => intro s h; exact h
  | cons j l ih => intro s h; exact ih (step lhs s j) (lz_coh_fill _ _ h)

theorem lz_reads_loop (lhs : Nat → A) (l : List Nat) : ∀ (s : State A V) (i : Nat),
    touches (l.foldl (step lhs) s).e i = touches s.e i := by
  induction l with
  | nil => intro s i; rfl
  | cons j l ih => intro s i; rw [List.foldl_cons, ih]; exact lz_touches_fill _ _ i

/-- **C88 (assignment).** Whatever the expression, wherever in it operations are, and whichever of them the traversal reaches: an assignment
that writes no element before the expression has read it element by element, and none twice, leaves in each element the value the
expression has on the memory before the assignment; operations may read all of the destination.  Nothing else changes. -/
theorem C88_assign (m : A → V) (e : E A V) (lhs : Nat → A) (l : List Nat) (hf : Fresh e) (hs : Safe lhs e l) :
    (∀ i ∈ l, (assign lhs l ⟨m, e, 0⟩).m (lhs i) = den m e i) ∧
    (∀ a, (∀ i ∈ l, lhs i ≠ a) → (assign lhs l ⟨m, e, 0⟩).m a = m a) := by
  refine lz_loop lhs (den m e) l (evaluate ⟨m, e, 0⟩) ?_ ?_
  · unfold Safe
    refine hs.imp ?_
    intro x y h
    refine ⟨?_, h.2⟩
    change _ ∉ touches (visit m e) y
    rw [(lz_visit m e).2.1]; exact h.1
  · intro i _
    change val m (visit m e) i = _
    rw [(lz_visit m e).1, (lz_fresh e hf).1]

/-- `v = v + reverse(v)` on three elements -/
def lzRev : E Nat Int := .bin true (· + ·) (.leaf id) (.op true (fun f i => f (2 - i)) (.leaf id) none)

example : Fresh lzRev ∧ Safe id lzRev [0, 1, 2] ∧
    ([0, 1, 2].map (assign id [0, 1, 2] ⟨fun i => (i : Int) * i, lzRev, 0⟩).m) = [4, 2, 4] := by
  refine ⟨⟨trivial, rfl, trivial⟩, ?_, by decide⟩
  unfold Safe lzRev
  simp [touches]

/-- **C88 (once).** An assignment of at least one element applies each operation in the expression exactly once, by the traversal or by the
first element; assigning the same expression again applies none. -/
theorem C88_once (m : A → V) (e : E A V) (lhs lhs' : Nat → A) (l l' : List Nat) (hf : Fresh e) (hl : l ≠ []) (hl' : l' ≠ []) :
    (assign lhs l ⟨m, e, 0⟩).n = ops e ∧
    (assign lhs' l' (assign lhs l ⟨m, e, 0⟩)).n = ops e := by
  obtain ⟨_, h2, h3⟩ := lz_fresh e hf
  have hv := (lz_visit m e).2.2 h3
  have hc := lz_count lhs l (evaluate ⟨m, e, 0⟩) hl
  have h1 : (assign lhs l ⟨m, e, 0⟩).n = ops e := by
    unfold assign
    rw [hc.1]
    change 0 + visitCost m e + cost (visit m e) = _
    have := hv.1
    omega
  refine ⟨h1, ?_⟩
  have hk : Coherent (assign lhs l ⟨m, e, 0⟩).e := lz_coh_loop lhs l _ hv.2
  have h0 : cost (assign lhs l ⟨m, e, 0⟩).e = 0 := hc.2
  generalize assign lhs l ⟨m, e, 0⟩ = s at *
  have hv' := (lz_visit s.m s.e).2.2 hk
  unfold assign
  rw [(lz_count lhs' l' (evaluate s) hl').1]
  change s.n + visitCost s.m s.e + cost (visit s.m s.e) = _
  have := hv'.1
  omega

example : (assign id [0, 1, 2] ⟨fun i => (i : Int) * i, lzRev, 0⟩).n = 1 := by decide

omit [DecidableEq A] in
/-- a block with no operation pending costs nothing, and conversely -/
theorem lz_ready (e : E A V) : Ready e ↔ cost e = 0 := by
  induction e with
  | leaf a => exact ⟨fun _ => rfl, fun _ => trivial⟩
  | scalar v => exact ⟨fun _ => rfl, fun _ => trivial⟩
  | un k f x ih => exact ih
  | view k g x ih => exact ih
  | other g x ih => exact ih
  | bin k f x y ih1 ih2 =>
    unfold Ready cost
    rw [ih1, ih2]; omega
  | op k F x c ih => cases c <;> simp [Ready, cost]
  | op2 k F x y c ih1 ih2 => cases c <;> simp [Ready, cost]

omit [DecidableEq A] in
theorem lz_own_ready (m : A → V) (x : E A V) :
    cost (own m x) = 0 ↔ (∃ k F y c, x = .op k F y c) ∨ (∃ k F y z c, x = .op2 k F y z c) ∨ Ready x := by
  rw [lz_ready]
  cases x with
  | op k F x c => exact ⟨fun _ => Or.inl ⟨k, F, x, c, rfl⟩, fun _ => lz_cost_fill m _⟩
  | op2 k F x y c => exact ⟨fun _ => Or.inr (Or.inl ⟨k, F, x, y, c, rfl⟩), fun _ => lz_cost_fill m _⟩
  | leaf a => simp [own]
  | scalar a => simp [own]
  | un k f x => simp [own]
  | bin k f x y => simp [own]
  | view k g x => simp [own]
  | other g x => simp [own]

omit [DecidableEq A] in
/-- **C88, partial (reach of the traversal).** `expr::evaluate` leaves no operation to be evaluated by the elements exactly if each is the
assigned block itself or an argument of a block it descends to, which it does from the assigned block and from blocks whose types are
not `const`.  Missing: operations below a `const` block, which all operators and functions return, and below a diagonal. -/
theorem C88_visit_partial (m : A → V) (e : E A V) : Ready (visit m e) ↔ Reached e := by
  rw [lz_ready]
  induction e with
  | leaf a => exact ⟨fun _ => trivial, fun _ => rfl⟩
  | scalar v => exact ⟨fun _ => trivial, fun _ => rfl⟩
  | op k F x c ih => exact ⟨fun _ => trivial, fun _ => lz_cost_fill m _⟩
  | op2 k F x y c ih1 ih2 => exact ⟨fun _ => trivial, fun _ => lz_cost_fill m _⟩
  | other g x ih => exact (lz_ready (.other g x)).symm
  | un k f x ih =>
    unfold Reached
    simp only [visit, cost]
    by_cases hc : x.const = true
    · rw [if_pos hc, if_pos hc]; exact lz_own_ready m x
    · rw [if_neg hc, if_neg hc]; exact ih
  | view k g x ih =>
    unfold Reached
    simp only [visit, cost]
    by_cases hc : x.const = true
    · rw [if_pos hc, if_pos hc]; exact lz_own_ready m x
    · rw [if_neg hc, if_neg hc]; exact ih
  | bin k f x y ih1 ih2 =>
    unfold Reached
    simp only [visit, cost]
    rw [Nat.add_eq_zero_iff]
    refine and_congr ?_ ?_
    · by_cases hc : x.const = true
      · rw [if_pos hc, if_pos hc]; exact lz_own_ready m x
      · rw [if_neg hc, if_neg hc]; exact ih1
    · by_cases hc : y.const = true
      · rw [if_pos hc, if_pos hc]; exact lz_own_ready m y
      · rw [if_neg hc, if_neg hc]; exact ih2

example : Reached lzRev := ⟨by simp [E.const, Ready], by simp [E.const]⟩

/-- **C88 is false (nodes of an expression).** "Traversal traverses expression block trees, applying the given functor to each node" is
false: in `w = v + (v + reverse(v))` the sum in parentheses has a `const` type, so its arguments are not visited; nor is the argument of a
diagonal.  The operation is left to the first element of the loop. -/
theorem C88_visit_false :
    ¬ (∀ (m : Nat → Int) (e : E Nat Int), Ready (visit m e)) ∧
    ¬ Ready (visit (fun i : Nat => (i : Int)) (.bin true (· + ·) (.leaf id) lzRev)) ∧
    ¬ Ready (visit (fun i : Nat => (i : Int)) (.un true (fun v => -v) (.other (· * 4) lzRev))) := by
  have h : ¬ Ready (visit (fun i : Nat => (i : Int)) (.bin true (· + ·) (.leaf id) lzRev)) := by rw [lz_ready]; decide
  exact ⟨fun a => h (a _ _), h, by rw [lz_ready]; decide⟩

/-- `reverse(v)` on three elements, not read yet -/
def lzKept : E Nat Int := .op true (fun f i => f (2 - i)) (.leaf id) none

/-- memory before and after `v` is changed -/
def lzOld : Nat → Int := fun i => i
def lzNew : Nat → Int := fun _ => 7

/-- **C88 is false (kept expressions).** A kept expression does not keep its meaning: `e = reverse(v)`, not read so far, has in `w = e + 0`
the values `v` has then; if an element of `e` was read before `v` was changed, it has the old ones, unlike `w = reverse(v) + 0`
and unlike `v + 0` kept the same way. -/
theorem C88_kept_false :
    (assign (· + 10) [0] ⟨lzNew, .un true id lzKept, 0⟩).m 10 = 7 ∧
    (assign (· + 10) [0] ⟨lzNew, .un true id (fill lzOld lzKept), 0⟩).m 10 = 2 ∧
    (assign (· + 10) [0] ⟨lzNew, fill lzOld (.un true id (.leaf id)), 0⟩).m 10 = 7 := by
  refine ⟨by decide, by decide, by decide⟩

/-- **C88 is false (copies).** An operation is not always applied once: two assignments from copies of an expression made before it was
read apply it twice, from one expression only once. -/
theorem C88_copies_false :
    (assign (· + 10) [0, 1] { assign (· + 10) [0, 1] ⟨lzOld, .un true id lzKept, 0⟩ with e := .un true id lzKept }).n = 2 ∧
    (assign (· + 10) [0, 1] (assign (· + 10) [0, 1] ⟨lzOld, .un true id lzKept, 0⟩)).n = 1 := by
  refine ⟨by decide, by decide⟩

/-- **C88 is false (overlap).** The condition of `C88_assign` cannot be left out: writing `v(i+1) = v(i) + reverse(v)(i)` from the front
does not give the values on the memory before, though the operation itself has them. -/
theorem C88_overlap_false :
    ¬ (∀ (m : Nat → Int) (e : E Nat Int) (lhs : Nat → Nat) (l : List Nat), Fresh e → l.Pairwise (fun j i => lhs j ≠ lhs i) →
      ∀ i ∈ l, (assign lhs l ⟨m, e, 0⟩).m (lhs i) = den m e i) := by
  intro h
  have := h (fun i => (i : Int) * i) lzRev (· + 1) [0, 1] ⟨trivial, rfl, trivial⟩ (by decide) 1 (by decide)
  exact absurd this (by decide)

omit [DecidableEq A] in
/-- **C88 (stable).** Between its first reading and the end of its life an expression with all operations evaluated and nothing else read
from memory has the same values, whatever is written. -/
theorem C88_stable (m m' : A → V) (e : E A V) (hf : Fresh e) (ht : ∀ i, touches e i = []) :
    ∀ i, val m' (fill m e) i = den m e i := by
  intro i
  rw [← (lz_fresh e hf).1, ← lz_val_fill m e i]
  refine lz_frame _ (lz_cost_fill m e) _ _ i ?_
  intro a ha
  rw [lz_touches_fill, ht] at ha
  exact absurd ha List.not_mem_nil

example : ∀ i, touches (.un true (fun v : Int => -v) (.op true (fun f i => f (2 - i)) (.leaf (id : Nat → Nat)) none)) i = [] :=
  fun _ => rfl

end Verif.Props

#print axioms Verif.Props.C88_assign
#print axioms Verif.Props.C88_once
#print axioms Verif.Props.C88_visit_partial
#print axioms Verif.Props.C88_visit_false
#print axioms Verif.Props.C88_kept_false
#print axioms Verif.Props.C88_copies_false
#print axioms Verif.Props.C88_overlap_false
#print axioms Verif.Props.C88_stable
