import Verif.UserElt.Model
import Mathlib.Tactic.NormNum
/-!
C91: views made with user-supplied element functions.
-/
namespace Verif.Props
open Verif.Ue

/-- A view whose elements are values of the element type of its block. -/
def UeWf (v : Vw) : Prop := ∀ i, HasTy v.blk (v.get i)

theorem ue_into_int_of (n : ℤ) : into .int (n : ℚ) = n := by
  unfold into
  split <;> simp

theorem ue_int (x : ℚ) : ∃ z : ℤ, into .int x = z := by
  by_cases h : 0 ≤ x
  · exact ⟨⌊x⌋, by simp only [into, if_pos h]⟩
  · exact ⟨⌈x⌉, by simp only [into, if_neg h]⟩

theorem ue_into_into (t : Ty) (x : ℚ) : into t (into t x) = into t x := by
  cases t
  · obtain ⟨z, hz⟩ := ue_int x
    rw [hz]; exact ue_into_int_of z
  · rfl

theorem ue_call_has (f : Fn) (xs : List ℚ) : into f.res (f.call xs) = f.call xs := ue_into_into _ _

theorem ue_zip (ts : List Ty) : ∀ xs : List ℚ, List.zipWith into ts (List.zipWith into ts xs) = List.zipWith into ts xs := by
  induction ts with
  | nil => intro xs; rfl
  | cons t ts ih =>
    intro xs
    cases xs with
    | nil => rfl
    | cons x xs => simp only [List.zipWith_cons_cons, ue_into_into, ih]

theorem ue_call_zip (f : Fn) (xs : List ℚ) : f.call (List.zipWith into f.args xs) = f.call xs := by
  unfold Fn.call callValue; rw [ue_zip]

/-- whichever specialisation is chosen, its `operator()` is the user's function followed by the conversion to `R` -/
theorem ue_apply12 (R : Ty) (f : Fn) (As : List Ty) (xs : List ℚ) (h : List.zipWith into As xs = xs) :
    (traits12 R f).apply R f As xs = into R (f.call xs) ∧ (traits12 R f).res R f = R := by
  unfold traits12
  cases f.kind with
  | ptr =>
    by_cases hr : f.res = R
    · subst hr; simp [Traits.apply, Traits.res, ue_call_has]
    · simp [hr, Traits.apply, Traits.res, h]
  | adaptable =>
    by_cases hr : f.res = R
    · subst hr; simp [Traits.apply, Traits.res, ue_call_zip]
    · simp [hr, Traits.apply, Traits.res, h]
  | object => simp [Traits.apply, Traits.res, h]

theorem ue_apply3 (R : Ty) (f : Fn) (As : List Ty) (xs : List ℚ) (h : List.zipWith into As xs = xs) :
    (traits3 R f).apply R f As xs = into R (f.call xs) ∧ (traits3 R f).res R f = R := by
  unfold traits3
  cases f.kind with
  | ptr =>
    by_cases hr : f.res = R
    · subst hr; simp [Traits.apply, Traits.res, ue_call_has]
    · simp [hr, Traits.apply, Traits.res, h]
  | adaptable => simp [Traits.apply, Traits.res, h]
  | object => simp [Traits.apply, Traits.res, h]

theorem ue_resTy12 {R : Option Ty} {f : Fn} {ts : List Ty} {o : Overload} (h : overload12 R f ts = some o) : resTy o R f = R.getD f.res := by
  unfold overload12 at h
  cases R with
  | none => cases o <;> rfl
  | some r =>
    cases hk : f.kind <;> rw [hk] at h <;> simp only at h
    · split at h
      · rename_i hc; cases h; exact hc.2
      · cases h; rfl
    · cases h; rfl
    · cases h; rfl

theorem ue_resTy3 {R : Option Ty} {f : Fn} {ts : List Ty} {o : Overload} (h : overload3 R f ts = some o) : resTy o R f = R.getD f.res := by
  unfold overload3 at h
  cases R with
  | none => cases o <;> rfl
  | some r =>
    cases hk : f.kind <;> rw [hk] at h <;> simp only at h
    · split at h
      · rename_i hc; cases h; exact hc.2
      · cases h; rfl
    · cases h; rfl
    · cases h; rfl

/-- What a view of user-function results is expected to hold: the function's value at the elements of the arguments, converted to the requested
result type (the function's own where none is requested). -/
def UeElements (R : Option Ty) (f : Fn) (vs : List Vw) (w : Vw) : Prop :=
  w.blk = R.getD f.res ∧ UeWf w ∧ ∀ i, w.get i = into (R.getD f.res) (callValue f.args f.res f.body (vs.map (·.get i)))

/-- **C91 (values of unary calls).** Wherever `unary(f, v)` or `unary<R>(f, v)` compiles, the block of the result holds `f` of the elements of `v`, converted to
the result type, and has as many elements as `v`. -/
theorem C91_unary (R : Option Ty) (f : Fn) (v w : Vw) (hv : UeWf v) (h : unary R f v = some w) :
    UeElements R f [v] w ∧ w.size = v.size := by
  unfold unary at h
  split at h
  · split at h
    · cases h
    · cases h
    · rename_i o ho hov
      split at h
      · have hw := Option.some.inj h
        subst hw
        have hr := ue_resTy12 hov
        have hz : ∀ i, List.zipWith into [v.blk] [v.get i] = [v.get i] := fun i => by simp [hv i |> (fun h : into _ _ = _ => h)]
        refine ⟨⟨?_, ?_, ?_⟩, rfl⟩
        · show (traits12 (resTy o R f) f).res (resTy o R f) f = _
          rw [(ue_apply12 (resTy o R f) f _ _ (hz 0)).2, hr]
        · intro i
          show into ((traits12 (resTy o R f) f).res (resTy o R f) f) ((traits12 (resTy o R f) f).apply (resTy o R f) f [v.blk] [v.get i]) = (traits12 (resTy o R f) f).apply (resTy o R f) f [v.blk] [v.get i]
          rw [(ue_apply12 (resTy o R f) f _ _ (hz i)).1, (ue_apply12 (resTy o R f) f _ _ (hz i)).2, ue_into_into]
        · intro i
          show (traits12 (resTy o R f) f).apply (resTy o R f) f [v.blk] [v.get i] = _
          rw [(ue_apply12 (resTy o R f) f _ _ (hz i)).1, hr]; rfl
      · cases h
  · cases h

/-- **C91 (values of binary calls).** The same for `binary`. -/
theorem C91_binary (R : Option Ty) (f : Fn) (u v w : Vw) (hu : UeWf u) (hv : UeWf v) (h : binary R f u v = some w) :
    UeElements R f [u, v] w ∧ w.size = u.size ∧ w.nom = w.blk := by
  unfold binary at h
  split at h
  · split at h
    · split at h
      · cases h
      · rename_i o hov
        have hw := Option.some.inj h
        subst hw
        have hr := ue_resTy12 hov
        have hz : ∀ i, List.zipWith into [u.blk, v.blk] [u.get i, v.get i] = [u.get i, v.get i] := fun i => by
          have h1 : into _ _ = _ := hu i
          have h2 : into _ _ = _ := hv i
          simp [h1, h2]
        refine ⟨⟨?_, ?_, ?_⟩, rfl, rfl⟩
        · show (traits12 (resTy o R f) f).res (resTy o R f) f = _
          rw [(ue_apply12 (resTy o R f) f _ _ (hz 0)).2, hr]
        · intro i
          show into ((traits12 (resTy o R f) f).res (resTy o R f) f) ((traits12 (resTy o R f) f).apply (resTy o R f) f [u.blk, v.blk] [u.get i, v.get i]) = (traits12 (resTy o R f) f).apply (resTy o R f) f [u.blk, v.blk] [u.get i, v.get i]
          rw [(ue_apply12 (resTy o R f) f _ _ (hz i)).1, (ue_apply12 (resTy o R f) f _ _ (hz i)).2, ue_into_into]
        · intro i
          show (traits12 (resTy o R f) f).apply (resTy o R f) f [u.blk, v.blk] [u.get i, v.get i] = _
          rw [(ue_apply12 (resTy o R f) f _ _ (hz i)).1, hr]; rfl
    · cases h
  · cases h

/-- **C91 (values of ternary calls).** The same for `ternary`. -/
theorem C91_ternary (R : Option Ty) (f : Fn) (t u v w : Vw) (ht : UeWf t) (hu : UeWf u) (hv : UeWf v) (h : ternary R f t u v = some w) :
    UeElements R f [t, u, v] w ∧ w.size = t.size ∧ w.nom = w.blk := by
  unfold ternary at h
  split at h
  · split at h
    · split at h
      · cases h
      · rename_i o hov
        split at h
        · have hw := Option.some.inj h
          subst hw
          have hr := ue_resTy3 hov
          have hz : ∀ i, List.zipWith into [t.blk, u.blk, v.blk] [t.get i, u.get i, v.get i] = [t.get i, u.get i, v.get i] := fun i => by
            have h0 : into _ _ = _ := ht i
            have h1 : into _ _ = _ := hu i
            have h2 : into _ _ = _ := hv i
            simp [h0, h1, h2]
          refine ⟨⟨?_, ?_, ?_⟩, rfl, rfl⟩
          · show (traits3 (resTy o R f) f).res (resTy o R f) f = _
            rw [(ue_apply3 (resTy o R f) f _ _ (hz 0)).2, hr]
          · intro i
            show into ((traits3 (resTy o R f) f).res (resTy o R f) f) ((traits3 (resTy o R f) f).apply (resTy o R f) f [t.blk, u.blk, v.blk] [t.get i, u.get i, v.get i]) = (traits3 (resTy o R f) f).apply (resTy o R f) f [t.blk, u.blk, v.blk] [t.get i, u.get i, v.get i]
            rw [(ue_apply3 (resTy o R f) f _ _ (hz i)).1, (ue_apply3 (resTy o R f) f _ _ (hz i)).2, ue_into_into]
          · intro i
            show (traits3 (resTy o R f) f).apply (resTy o R f) f [t.blk, u.blk, v.blk] [t.get i, u.get i, v.get i] = _
            rw [(ue_apply3 (resTy o R f) f _ _ (hz i)).1, hr]; rfl
        · cases h
    · cases h
  · cases h

/-- the user functions of the examples: half of the argument, the sum of all arguments -/
def ueHalf (k : Kind) (a r : Ty) : Fn := ⟨k, [a], r, fun xs => xs.sum / 2⟩
def ueSum (k : Kind) (as : List Ty) (r : Ty) : Fn := ⟨k, as, r, List.sum⟩

theorem ue_vec_wf (t : Ty) (n : Nat) (g : Nat → ℚ) : UeWf (vec t n g) := fun _ => ue_into_into _ _

/-- the test of the library: `unary(my_unary, input)` with a function from real to integer numbers -/
example : (unary none (ueHalf .ptr .real .int) (vec .real 3 fun _ => 3)).map (·.get 1) = some 1 := by
  simp [unary, overload12, ueHalf, vec, traits12, resTy, Traits.apply, Fn.call, callValue, into]; norm_num

example : (ternary (some .int) (ueSum .object [.real, .real, .real] .real) (vec .real 3 fun _ => 3/2) (vec .real 3 fun _ => 3/5) (vec .real 3 fun _ => 9/10)).map
    (·.get 1) = some 3 := by
  simp [ternary, overload3, ueSum, vec, traits3, resTy, Traits.apply, Fn.call, callValue, into]; norm_num

/-- **C91 (which unary calls compile).** For a function of one parameter, `unary` compiles exactly when the view's nominal type is the type of its
elements and either a result type is given or the function is a pointer with exactly that parameter type. -/
theorem C91_unary_compiles (R : Option Ty) (f : Fn) (v : Vw) (hf : f.args.length = 1) :
    (unary R f v).isSome ↔ v.nom = v.blk ∧ (R ≠ none ∨ f.kind = .ptr ∧ f.args = [v.nom]) := by
  unfold unary
  rw [if_pos hf]
  unfold overload12
  cases R with
  | none =>
    cases hk : f.kind <;> simp only
    · by_cases ha : f.args = [v.nom]
      · by_cases hn : v.nom = v.blk <;> simp [ha, hn]
      · simp [ha]
    · simp
    · simp
  | some r =>
    cases hk : f.kind <;> simp only
    · by_cases ha : f.args = [v.nom] ∧ f.res = r
      · rw [if_pos ha]; by_cases hn : v.nom = v.blk <;> simp [hn]
      · rw [if_neg ha]; by_cases hn : v.nom = v.blk <;> simp [hn]
    · by_cases hn : v.nom = v.blk <;> simp [hn]
    · by_cases hn : v.nom = v.blk <;> simp [hn]

/-- **C91 (which binary calls compile).** For a function of two parameters, `binary` compiles exactly when both views are writable or both are read-only, and a
result type is given, or the function is adaptable, or it is a pointer with exactly the nominal types. -/
theorem C91_binary_compiles (R : Option Ty) (f : Fn) (u v : Vw) (hf : f.args.length = 2) :
    (binary R f u v).isSome ↔ u.ro = v.ro ∧ (R ≠ none ∨ f.kind = .adaptable ∨ f.kind = .ptr ∧ f.args = [u.nom, v.nom]) := by
  unfold binary
  rw [if_pos hf]
  by_cases hro : u.ro = v.ro
  · rw [if_pos hro]
    unfold overload12
    cases R with
    | none =>
      cases hk : f.kind <;> simp only
      · by_cases ha : f.args = [u.nom, v.nom] <;> simp [ha, hro]
      · simp [hro]
      · simp
    | some r =>
      cases hk : f.kind <;> simp only
      · by_cases ha : f.args = [u.nom, v.nom] ∧ f.res = r
        · rw [if_pos ha]; simp [hro]
        · rw [if_neg ha]; simp [hro]
      · simp [hro]
      · simp [hro]
  · rw [if_neg hro]; simp [hro]

/-- **C91 (which ternary calls compile).** For a function of three parameters, `ternary` compiles exactly when all views are writable or all read-only, their nominal
types are those of their elements, and a result type is given or the function is a pointer with exactly these types. -/
theorem C91_ternary_compiles (R : Option Ty) (f : Fn) (t u v : Vw) (hf : f.args.length = 3) :
    (ternary R f t u v).isSome ↔ (t.ro = u.ro ∧ u.ro = v.ro) ∧ (t.nom = t.blk ∧ u.nom = u.blk ∧ v.nom = v.blk) ∧
      (R ≠ none ∨ f.kind = .ptr ∧ f.args = [t.nom, u.nom, v.nom]) := by
  unfold ternary
  rw [if_pos hf]
  have hl : ([t.nom, u.nom, v.nom] = [t.blk, u.blk, v.blk]) ↔ (t.nom = t.blk ∧ u.nom = u.blk ∧ v.nom = v.blk) := by simp
  rw [← hl]
  by_cases hro : t.ro = u.ro ∧ u.ro = v.ro
  · rw [if_pos hro]
    unfold overload3
    by_cases hn : [t.nom, u.nom, v.nom] = [t.blk, u.blk, v.blk]
    · simp only [if_pos hn]
      cases R with
      | none =>
        cases hk : f.kind <;> simp only
        · by_cases ha : f.args = [t.nom, u.nom, v.nom]
          · rw [if_pos ha]; exact ⟨fun _ => ⟨hro, hn, Or.inr ⟨trivial, ha⟩⟩, fun _ => rfl⟩
          · rw [if_neg ha]; simp [ha]
        · simp
        · simp
      | some r =>
        cases hk : f.kind <;> simp only
        · by_cases ha : f.args = [t.nom, u.nom, v.nom] ∧ f.res = r
          · rw [if_pos ha]; exact ⟨fun _ => ⟨hro, hn, Or.inl (by simp)⟩, fun _ => rfl⟩
          · rw [if_neg ha]; exact ⟨fun _ => ⟨hro, hn, Or.inl (by simp)⟩, fun _ => rfl⟩
        · exact ⟨fun _ => ⟨hro, hn, Or.inl (by simp)⟩, fun _ => rfl⟩
        · exact ⟨fun _ => ⟨hro, hn, Or.inl (by simp)⟩, fun _ => rfl⟩
    · simp only [if_neg hn]
      constructor
      · intro h; split at h <;> simp at h
      · intro h; exact absurd h.2.1 hn
  · rw [if_neg hro]; simp [hro]

/-- **C91 is false (adaptable unary objects).** `fns_userelt.hpp` l.225-240 is an overload of `unary` for objects with `result_type`, but it calls `std::ptr_fun` with the
object: no call of it compiles, while the corresponding call of `binary` compiles for all functions and views of one kind. -/
theorem C91_unary_adaptable_false :
    (∀ (f : Fn) (v : Vw), f.kind = .adaptable → unary none f v = none) ∧
    (∀ (f : Fn) (u v : Vw), f.kind = .adaptable → f.args.length = 2 → u.ro = v.ro → (binary none f u v).isSome) := by
  constructor
  · intro f v hk
    unfold unary
    split
    · simp only [overload12, hk]
    · rfl
  · intro f u v hk hl hro
    exact (C91_binary_compiles none f u v hl).2 ⟨hro, Or.inr (Or.inl hk)⟩

/-- the adaptable object whose binary call compiles -/
example : (binary none (ueSum .adaptable [.real, .real] .int) (vec .real 3 fun _ => 3/2) (vec .real 3 fun _ => 3/5)).map (·.get 1) = some 2 := by
  simp [binary, overload12, ueSum, vec, traits12, resTy, Traits.apply, Fn.call, callValue, into]; norm_num

/-- **C91 is false (adaptable ternary objects).** There is no overload of `ternary` for objects without an explicit result type. -/
theorem C91_ternary_adaptable_false : ∀ (f : Fn) (t u v : Vw), f.kind ≠ .ptr → ternary none f t u v = none := by
  intro f t u v hk
  unfold ternary
  split
  · split
    · cases h : f.kind
      · exact absurd h hk
      · simp only [overload3, h]
      · simp only [overload3, h]
    · rfl
  · rfl

/-- **C91 is false (element type of unary results).** The view returned by `unary` has the element type of the argument as template argument, whatever the
function returns (`operators.hpp` l.30-32): for every function whose result type differs, the view's type is not that of its elements. -/
theorem C91_unary_type_false (R : Option Ty) (f : Fn) (v w : Vw) (hv : UeWf v) (h : unary R f v = some w) :
    w.nom = v.nom ∧ (R.getD f.res ≠ v.nom → w.nom ≠ w.blk) := by
  have h1 := (C91_unary R f v w hv h).1.1
  have h2 : w.nom = v.nom := by
    unfold unary at h
    split at h
    · split at h
      · cases h
      · cases h
      · split at h
        · have := Option.some.inj h; subst this; rfl
        · cases h
    · cases h
  exact ⟨h2, fun hne he => hne (by rw [← h1, ← he, h2])⟩

example : ((unary none (ueHalf .ptr .int .real) (vec .int 3 fun _ => 1)).map fun w => (w.nom, w.blk)) = some (.int, .real) := by
  simp [unary, overload12, ueHalf, vec, traits12, resTy, Traits.res]

/-- **C91 is false (functions of functions).** A view made by `unary` with a function that changes the type is not accepted by `unary` again, nor as an argument of `ternary`: for no
function, explicit result type or other views does the call compile. -/
theorem C91_nested_false (R : Option Ty) (f : Fn) (v w : Vw) (hv : UeWf v) (h : unary R f v = some w) (hne : R.getD f.res ≠ v.nom) :
    (∀ R' g, unary R' g w = none) ∧ (∀ R' g a b, ternary R' g w a b = none ∧ ternary R' g a w b = none ∧ ternary R' g a b w = none) := by
  have hw := (C91_unary_type_false R f v w hv h).2 hne
  refine ⟨?_, ?_⟩
  · intro R' g
    by_cases hl : g.args.length = 1
    · have := (C91_unary_compiles R' g w hl)
      cases hu : unary R' g w with
      | none => rfl
      | some z => rw [hu] at this; exact absurd (this.1 rfl).1 hw
    · unfold unary; rw [if_neg hl]
  · have key : ∀ R' g a b c, (a = w ∨ b = w ∨ c = w) → ternary R' g a b c = none := by
      intro R' g a b c hor
      by_cases hl : g.args.length = 3
      · have ht := (C91_ternary_compiles R' g a b c hl)
        cases hu : ternary R' g a b c with
        | none => rfl
        | some z =>
          rw [hu] at ht
          obtain ⟨_, ⟨ha, hb, hc⟩, _⟩ := ht.1 rfl
          rcases hor with rfl | rfl | rfl
          · exact absurd ha hw
          · exact absurd hb hw
          · exact absurd hc hw
      · unfold ternary; rw [if_neg hl]
    intro R' g a b
    exact ⟨key _ _ _ _ _ (Or.inl rfl), key _ _ _ _ _ (Or.inr (Or.inl rfl)), key _ _ _ _ _ (Or.inr (Or.inr rfl))⟩

/-- **C91, partial (functions of functions).** Where the inner function keeps the type, `unary<R>(g, unary(f, v))` compiles for every `g` of one parameter and holds `g` of `f` of the
elements.  Missing: inner functions that change the type, see `C91_nested_false`. -/
theorem C91_nested_partial (R : Option Ty) (f : Fn) (v w : Vw) (hv : UeWf v) (h : unary R f v = some w) (heq : R.getD f.res = v.nom) (r : Ty) (g : Fn)
    (hg : g.args.length = 1) :
    ∃ z, unary (some r) g w = some z ∧ z.blk = r ∧ z.size = v.size ∧
      ∀ i, z.get i = into r (callValue g.args g.res g.body [into v.nom (callValue f.args f.res f.body [v.get i])]) := by
  obtain ⟨⟨hb, hwf, hget⟩, hsz⟩ := C91_unary R f v w hv h
  have hn := (C91_unary_type_false R f v w hv h).1
  have hc : (unary (some r) g w).isSome := (C91_unary_compiles (some r) g w hg).2 ⟨by rw [hn, hb, heq], Or.inl (by simp)⟩
  obtain ⟨z, hz⟩ := Option.isSome_iff_exists.1 hc
  obtain ⟨⟨hb', _, hget'⟩, hsz'⟩ := C91_unary _ g w z hwf hz
  refine ⟨z, hz, hb', hsz'.trans hsz, fun i => ?_⟩
  rw [hget' i]
  show into r (callValue g.args g.res g.body [w.get i]) = _
  rw [hget i, heq]
  rfl

example : ((unary none (ueHalf .ptr .real .real) (vec .real 3 fun _ => 3)).bind (unary (some .int) (ueHalf .object .real .real))).isSome = true := by
  simp [unary, overload12, ueHalf, vec, traits12, resTy, Traits.res]

/-- **C91 is false (functions of vectors and expressions).** `binary` and `ternary` deduce one view template for all arguments, so a `Vector` and the result of another call, which is a
`const_Vector`, cannot be combined: no such call compiles. -/
theorem C91_mixed_false (R R' : Option Ty) (f g : Fn) (v w : Vw) (h : unary R f v = some w) (t : Ty) (n : Nat) (x : Nat → ℚ) :
    binary R' g (vec t n x) w = none ∧ binary R' g w (vec t n x) = none := by
  have hro : w.ro = true := by
    unfold unary at h
    split at h
    · split at h
      · cases h
      · cases h
      · split at h
        · have := Option.some.inj h; subst this; rfl
        · cases h
    · cases h
  constructor
  · unfold binary
    split
    · rw [if_neg (by rw [hro]; simp [vec])]
    · rfl
  · unfold binary
    split
    · rw [if_neg (by rw [hro]; simp [vec])]
    · rfl

theorem ue_break (v : Vw) (hv : UeWf v) : ∀ (n k : Nat) (s : ℚ), k + n ≤ v.size →
    Red.breakLoop (Red.sum (into v.blk)) ⟨[v.size], fun i => v.get (i.headD 0)⟩ ((List.range' k n).map fun i => [i]) s
      = some (s + ((List.range' k n).map v.get).sum) := by
  intro n
  induction n with
  | zero => intro k s _; simp [Red.breakLoop]
  | succ n ih =>
    intro k s hk
    have hin : Red.inside [k] [v.size] = true := by simp [Red.inside]; omega
    have hg : into v.blk (v.get k) = v.get k := hv k
    simp only [List.range'_succ, List.map_cons, Red.breakLoop, Red.Blk.get, hin, if_true, Option.bind_eq_bind, Option.bind_some, Red.sum,
      List.headD_cons, List.sum_cons, hg]
    have := ih (k + 1) (s + v.get k) (by omega)
    simp only [Red.sum] at this
    rw [if_neg (by simp), this, add_assoc]

theorem ue_sumval (v : Vw) (hv : UeWf v) : sumval v = some (into v.nom (sumTo v.size v.get)) := by
  have h := ue_break v hv v.size 0 0 (by omega)
  unfold sumval Red.reduce1
  simp only [List.getD_cons_zero, List.range_eq_range']
  show (Option.bind (Red.breakLoop (Red.sum (into v.blk)) ⟨[v.size], fun i => v.get (i.headD 0)⟩ ((List.range' 0 v.size).map fun i => [i]) 0) _).map _ = _
  rw [h]
  simp [Red.sum, sumTo, List.range_eq_range']

theorem ue_sum_has (t : Ty) : ∀ (l : List ℚ), (∀ x ∈ l, HasTy t x) → HasTy t l.sum := by
  intro l
  cases t with
  | real => intro _; rfl
  | int =>
    have hint : ∀ x, HasTy .int x → ∃ z : ℤ, x = z := by
      intro x hx
      obtain ⟨z, hz⟩ := ue_int x
      exact ⟨z, hx.symm.trans hz⟩
    induction l with
    | nil => intro _; simp [HasTy, into]
    | cons a l ih =>
      intro h
      obtain ⟨za, ha⟩ := hint a (h a (by simp))
      obtain ⟨zl, hl⟩ := hint _ (ih fun x hx => h x (by simp [hx]))
      rw [List.sum_cons, ha, hl]
      have := ue_into_int_of (za + zl)
      push_cast at this
      exact this

/-- **C91 (sums of results).** `sumval` of a view made by `binary` or `ternary`, of a vector, or of a view made by `unary` with a function that keeps the type is the sum of the elements. -/
theorem C91_sum (v : Vw) (hv : UeWf v) (hn : v.nom = v.blk) : sumval v = some (sumTo v.size v.get) := by
  rw [ue_sumval v hv, hn]
  have : HasTy v.blk (sumTo v.size v.get) := ue_sum_has _ _ (by
    intro x hx
    obtain ⟨i, _, rfl⟩ := List.mem_map.1 hx
    exact hv i)
  exact congrArg some this

example : sumval (vec .int 3 fun _ => 1) = some (sumTo 3 fun _ => 1) := by
  rw [C91_sum _ (ue_vec_wf _ _ _) rfl]
  norm_num [vec, into, sumTo, List.range_succ]

/-- **C91 is false (sums of unary results).** `sumval(unary(f, v))` converts the sum to the element type of `v`: with integers and the function `x / 2` in real numbers the sum over three ones is 1,
though the elements of the view are 1/2 each and a vector of real numbers initialised from it has the sum 3/2. -/
theorem C91_sum_false : ∃ w, unary none (ueHalf .ptr .int .real) (vec .int 3 fun _ => 1) = some w ∧ sumval w = some 1 ∧
    sumTo 3 w.get = 3 / 2 ∧ sumval (vec .real 3 (assigned .real w)) = some (3 / 2) := by
  have hc := (C91_unary_compiles none (ueHalf .ptr .int .real) (vec .int 3 fun _ => 1) rfl).2 ⟨rfl, Or.inr ⟨rfl, rfl⟩⟩
  obtain ⟨w, hw⟩ := Option.isSome_iff_exists.1 hc
  obtain ⟨⟨hb, hwf, hget⟩, hsz⟩ := C91_unary _ _ _ w (ue_vec_wf _ _ _) hw
  have hn := (C91_unary_type_false _ _ _ w (ue_vec_wf _ _ _) hw).1
  have hv : ∀ i, w.get i = 1 / 2 := by
    intro i
    rw [hget i]
    norm_num [ueHalf, vec, into, callValue]
  have hs : sumTo 3 w.get = 3 / 2 := by
    unfold sumTo
    norm_num [List.range_succ, hv]
  refine ⟨w, hw, ?_, hs, ?_⟩
  · rw [ue_sumval w hwf, hsz, hn]
    show some (into .int (sumTo 3 w.get)) = _
    rw [hs]; norm_num [into]
  · rw [C91_sum _ (ue_vec_wf _ _ _) rfl]
    show some (sumTo 3 w.get) = _
    rw [hs]

/-- **C91 (assignment).** A vector of any type that is initialised from the view of a call holds the converted values. -/
theorem C91_assigned (R : Option Ty) (f : Fn) (u v w : Vw) (hu : UeWf u) (hv : UeWf v) (t : Ty) (i : Nat) :
    (unary R f v = some w → assigned t w i = into t (into (R.getD f.res) (callValue f.args f.res f.body [v.get i]))) ∧
    (binary R f u v = some w → assigned t w i = into t (into (R.getD f.res) (callValue f.args f.res f.body [u.get i, v.get i]))) := by
  constructor
  · intro h
    have := (C91_unary R f v w hv h).1.2.2 i
    unfold assigned; rw [this]; rfl
  · intro h
    have := (C91_binary R f u v w hu hv h).1.2.2 i
    unfold assigned; rw [this]; rfl

end Verif.Props

#print axioms Verif.Props.C91_unary
#print axioms Verif.Props.C91_binary
#print axioms Verif.Props.C91_ternary
#print axioms Verif.Props.C91_unary_compiles
#print axioms Verif.Props.C91_binary_compiles
#print axioms Verif.Props.C91_ternary_compiles
#print axioms Verif.Props.C91_unary_adaptable_false
#print axioms Verif.Props.C91_ternary_adaptable_false
#print axioms Verif.Props.C91_unary_type_false
#print axioms Verif.Props.C91_nested_false
#print axioms Verif.Props.C91_nested_partial
#print axioms Verif.Props.C91_mixed_false
#print axioms Verif.Props.C91_sum
#print axioms Verif.Props.C91_sum_false
#print axioms Verif.Props.C91_assigned
