import Verif.Traversal.Lemmas
/-! Property theorems for index traversal: C05. -/
set_option linter.unusedSimpArgs false
namespace Verif.Trav

/-- Specification: the lexicographic order of indices given by the list of dimensions from slowest to
fastest. -/
def LexLt {D : Nat} : List (Fin D) → Idx D → Idx D → Prop
  | [], _, _ => False
  | d :: ds, i, j => i d < j d ∨ (i d = j d ∧ LexLt ds i j)

/-- Specification of a complete traversal: every index of the extent, strictly increasing in the
dimension order (hence each exactly once). -/
structure IsTraversal {D : Nat} (order : List (Fin D)) (ext : Idx D) (L : List (Idx D)) : Prop where
  sorted : L.Pairwise (LexLt order)
  complete : ∀ j, j ∈ L ↔ ∀ d, j d < ext d

theorem lexLt_irrefl {D : Nat} (o : List (Fin D)) (i : Idx D) : ¬ LexLt o i i := by
  induction o with
  | nil => simp [LexLt]
  | cons d ds ih => simp [LexLt, ih]

/-- strictly increasing implies each index is visited once -/
theorem IsTraversal.nodup {D : Nat} {o : List (Fin D)} {ext : Idx D} {L : List (Idx D)}
    (h : IsTraversal o ext L) : L.Nodup := by
  apply h.sorted.imp
  intro a b hab heq
  subst heq
  exact lexLt_irrefl o a hab

/-- C05, one dimension -/
theorem C05_traverse1 (ext : Idx 1) :
    ∃ fuel L, loop (valid ext) (next1 ext) fuel (fun _ => 0) = some L ∧ IsTraversal [0] ext L := by
  by_cases hv : valid ext (fun _ => 0) = true
  · obtain ⟨L, hL, hp, hm⟩ := loop_spec (valid ext) (next1 ext) (LexLt [0]) (fun i => ext 0 - i 0)
      (by
        intro i h1 h2
        have := (valid_iff _ _).1 h1 0
        simp [next1]
        omega)
      (by
        intro i j h1 h2
        have h1 := (valid_iff _ _).1 h1 0
        have h2 := (valid_iff _ _).1 h2 0
        have e : j = next1 ext i ↔ j 0 = i 0 + 1 := by
          constructor
          · rintro rfl; simp [next1]
          · intro h; funext d; rw [Subsingleton.elim d 0]; simpa [next1] using h
        rw [e, valid_iff]
        simp [LexLt, next1, Fin.forall_fin_one]
        omega)
      _ _ (le_refl _) hv
    refine ⟨_, L, hL, hp, ?_⟩
    intro j
    rw [hm, valid_iff]
    constructor
    · rintro ⟨h, _⟩; exact h
    · intro h
      refine ⟨h, ?_⟩
      have e : j = (fun _ => 0) ↔ j 0 = 0 := by
        constructor
        · rintro rfl; rfl
        · intro h; funext d; rw [Subsingleton.elim d 0]; exact h
      rw [e]
      simp [LexLt]
      omega
  · refine ⟨1, [], loop_invalid _ _ _ _ (by simpa using hv), List.Pairwise.nil, ?_⟩
    intro j
    simp only [List.not_mem_nil, false_iff]
    intro h
    apply hv
    rw [valid_iff]
    intro d
    have := h d
    omega

/-- C05, two dimensions, row-major and column-major -/
theorem C05_traverse2 (o0 o1 : Fin 2) (ho : o0 ≠ o1) (ext : Idx 2) :
    ∃ fuel L, loop (valid ext) (next2 o0 o1 ext) fuel (fun _ => 0) = some L ∧ IsTraversal [o0, o1] ext L := by
  have hall : ∀ d : Fin 2, d = o0 ∨ d = o1 := by
    revert o0 o1; decide
  have hval : ∀ i, valid ext i = true ↔ (i o0 < ext o0 ∧ i o1 < ext o1) := by
    intro i
    rw [valid_iff]
    constructor
    · intro h; exact ⟨h _, h _⟩
    · rintro ⟨h1, h2⟩ d
      rcases hall d with rfl | rfl <;> assumption
  have hext : ∀ i j : Idx 2, i = j ↔ (i o0 = j o0 ∧ i o1 = j o1) := by
    intro i j
    constructor
    · rintro rfl; exact ⟨rfl, rfl⟩
    · rintro ⟨h1, h2⟩
      funext d
      rcases hall d with rfl | rfl <;> assumption
  have hn0 : ∀ i, next2 o0 o1 ext i o0 = if i o1 + 1 = ext o1 then i o0 + 1 else i o0 := by
    intro i
    unfold next2
    simp only [Function.update_self, Function.update_of_ne ho]
    split
    · split
      · simp [Function.update_of_ne ho]
      · simp
    · simp [Function.update_of_ne ho]
  have hn1 : ∀ i, next2 o0 o1 ext i o1 =
      if i o1 + 1 = ext o1 then (if i o0 + 1 ≠ ext o0 then 0 else i o1 + 1) else i o1 + 1 := by
    intro i
    unfold next2
    simp only [Function.update_self, Function.update_of_ne ho]
    split
    · split
      · simp
      · simp [Function.update_of_ne ho.symm]
    · simp
  by_cases hv : valid ext (fun _ => 0) = true
  · obtain ⟨L, hL, hp, hm⟩ := loop_spec (valid ext) (next2 o0 o1 ext) (LexLt [o0, o1])
      (fun i => ext o0 * ext o1 - (i o0 * ext o1 + i o1))
      (by
        intro i h1 h2
        rw [hval] at h1 h2
        obtain ⟨h1, h1'⟩ := h1
        have hr : next2 o0 o1 ext i o0 * ext o1 + next2 o0 o1 ext i o1 = i o0 * ext o1 + i o1 + 1 := by
          rw [hn0, hn1] at *
          split
          · rename_i hx
            rw [if_pos hx, if_pos hx] at h2
            split
            · rw [Nat.add_mul]; omega
            · rename_i hy
              rw [if_neg hy] at h2
              omega
          · rfl
        have hlt : i o0 * ext o1 + i o1 < ext o0 * ext o1 := by
          have : (i o0 + 1) * ext o1 ≤ ext o0 * ext o1 := Nat.mul_le_mul_right _ h1
          rw [Nat.add_mul] at this
          omega
        simp only [hr]
        omega)
      (by
        intro i j h1 h2
        rw [hval] at h1 h2
        rw [hval, hext]
        simp only [LexLt, hn0, hn1, and_false, or_false]
        split
        · split <;> omega
        · omega)
      _ _ (le_refl _) hv
    refine ⟨_, L, hL, hp, ?_⟩
    intro j
    rw [hm, valid_iff]
    constructor
    · rintro ⟨h, _⟩; exact h
    · intro h
      refine ⟨h, ?_⟩
      rw [hext]
      simp [LexLt]
      omega
  · refine ⟨1, [], loop_invalid _ _ _ _ (by simpa using hv), List.Pairwise.nil, ?_⟩
    intro j
    simp only [List.not_mem_nil, false_iff]
    intro h
    apply hv
    rw [valid_iff]
    intro d
    have := h d
    omega

/-- C05, three dimensions, each of the six dimension orders -/
theorem C05_traverse3 (o0 o1 o2 : Fin 3) (h01 : o0 ≠ o1) (h02 : o0 ≠ o2) (h12 : o1 ≠ o2) (ext : Idx 3) :
    ∃ fuel L, loop (valid ext) (next3 o0 o1 o2 ext) fuel (fun _ => 0) = some L ∧
      IsTraversal [o0, o1, o2] ext L := by
  have hall : ∀ d : Fin 3, d = o0 ∨ d = o1 ∨ d = o2 := by
    revert o0 o1 o2; decide
  have hval : ∀ i, valid ext i = true ↔ (i o0 < ext o0 ∧ i o1 < ext o1 ∧ i o2 < ext o2) := by
    intro i
    rw [valid_iff]
    constructor
    · intro h; exact ⟨h _, h _, h _⟩
    · rintro ⟨h1, h2, h3⟩ d
      rcases hall d with rfl | rfl | rfl <;> assumption
  have hext : ∀ i j : Idx 3, i = j ↔ (i o0 = j o0 ∧ i o1 = j o1 ∧ i o2 = j o2) := by
    intro i j
    constructor
    · rintro rfl; exact ⟨rfl, rfl, rfl⟩
    · rintro ⟨h1, h2, h3⟩
      funext d
      rcases hall d with rfl | rfl | rfl <;> assumption
  have hn : ∀ i, (next3 o0 o1 o2 ext i o0, next3 o0 o1 o2 ext i o1, next3 o0 o1 o2 ext i o2) =
      if i o2 + 1 = ext o2 then
        (if i o1 + 1 = ext o1 then
          (if i o0 + 1 = ext o0 then (i o0 + 1, i o1 + 1, i o2 + 1) else (i o0 + 1, 0, 0))
         else (i o0, i o1 + 1, 0))
      else (i o0, i o1, i o2 + 1) := by
    intro i
    unfold next3
    simp only [Function.update_self, Function.update_of_ne h12, Function.update_of_ne h01, Function.update_of_ne h02]
    split
    · split
      · split <;> simp [h12, h01, h02, h12.symm, h01.symm, h02.symm]
      · simp [Function.update_of_ne, h12, h01, h02, h12.symm, h01.symm, h02.symm]
    · simp [Function.update_of_ne, h12, h01, h02]
  have hn0 : ∀ i, next3 o0 o1 o2 ext i o0 = if i o2 + 1 = ext o2 then
        (if i o1 + 1 = ext o1 then i o0 + 1 else i o0) else i o0 := by
    intro i
    have := congrArg Prod.fst (hn i)
    simp only at this
    rw [this]
    split
    · split
      · split <;> rfl
      · rfl
    · rfl
  have hn1 : ∀ i, next3 o0 o1 o2 ext i o1 = if i o2 + 1 = ext o2 then
        (if i o1 + 1 = ext o1 then (if i o0 + 1 = ext o0 then i o1 + 1 else 0) else i o1 + 1) else i o1 := by
    intro i
    have := congrArg (fun p => p.2.1) (hn i)
    simp only at this
    rw [this]
    split
    · split
      · split <;> rfl
      · rfl
    · rfl
  have hn2 : ∀ i, next3 o0 o1 o2 ext i o2 = if i o2 + 1 = ext o2 then
        (if i o1 + 1 = ext o1 then (if i o0 + 1 = ext o0 then i o2 + 1 else 0) else 0) else i o2 + 1 := by
    intro i
    have := congrArg (fun p => p.2.2) (hn i)
    simp only at this
    rw [this]
    split
    · split
      · split <;> rfl
      · rfl
    · rfl
  by_cases hv : valid ext (fun _ => 0) = true
  · obtain ⟨L, hL, hp, hm⟩ := loop_spec (valid ext) (next3 o0 o1 o2 ext) (LexLt [o0, o1, o2])
      (fun i => ext o0 * ext o1 * ext o2 - ((i o0 * ext o1 + i o1) * ext o2 + i o2))
      (by
        intro i h1 h2
        rw [hval] at h1 h2
        obtain ⟨h1, h1', h1''⟩ := h1
        have hr : (next3 o0 o1 o2 ext i o0 * ext o1 + next3 o0 o1 o2 ext i o1) * ext o2 + next3 o0 o1 o2 ext i o2
            = (i o0 * ext o1 + i o1) * ext o2 + i o2 + 1 := by
          rw [hn0, hn1, hn2] at *
          split
          · rename_i hx
            simp only [if_pos hx] at h2
            split
            · rename_i hy
              simp only [if_pos hy] at h2
              split
              · rename_i hz
                simp only [if_pos hz] at h2
                omega
              · rw [← hx, ← hy]; ring
            · rw [← hx]; ring
          · rfl
        have hlt : (i o0 * ext o1 + i o1) * ext o2 + i o2 < ext o0 * ext o1 * ext o2 := by
          have a1 : (i o0 + 1) * ext o1 ≤ ext o0 * ext o1 := Nat.mul_le_mul_right _ h1
          rw [Nat.add_mul] at a1
          have a2 : (i o0 * ext o1 + i o1 + 1) * ext o2 ≤ ext o0 * ext o1 * ext o2 :=
            Nat.mul_le_mul_right _ (by omega)
          rw [Nat.add_mul] at a2
          omega
        simp only [hr]
        omega)
      (by
        intro i j h1 h2
        rw [hval] at h1 h2
        rw [hval, hext]
        simp only [LexLt, hn0, hn1, hn2, and_false, or_false]
        split
        · split
          · split <;> omega
          · omega
        · omega)
      _ _ (le_refl _) hv
    refine ⟨_, L, hL, hp, ?_⟩
    intro j
    rw [hm, valid_iff]
    constructor
    · rintro ⟨h, _⟩; exact h
    · intro h
      refine ⟨h, ?_⟩
      rw [hext]
      simp [LexLt]
      omega
  · refine ⟨1, [], loop_invalid _ _ _ _ (by simpa using hv), List.Pairwise.nil, ?_⟩
    intro j
    simp only [List.not_mem_nil, false_iff]
    intro h
    apply hv
    rw [valid_iff]
    intro d
    have := h d
    omega

/-- concrete run: column-major traversal of a 2 x 3 extent -/
example : (loop (valid (D := 2) ![2, 3]) (next2 1 0 ![2, 3]) 10 (fun _ => 0)).map
    (fun L => L.map (fun i => (i 0, i 1))) = some [(0,0),(1,0),(0,1),(1,1),(0,2),(1,2)] := by decide
/-- an extent with an empty dimension is not visited at all -/
example : (loop (valid (D := 3) ![2, 0, 2]) (next3 2 1 0 ![2, 0, 2]) 10 (fun _ => 0)).map List.length = some 0 := by
  decide

end Verif.Trav
