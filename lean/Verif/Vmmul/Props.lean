import Verif.Vmmul.Model
import Verif.Matvec.Props
import Verif.Map.Props

/-!
# C63: `vmmul` multiplies along the chosen dimension
-/

namespace Verif.Vm

open Verif.Sig Verif.Props

section
variable {V M T : Type} (mul : V → M → T)

/-- Specification: which element of the vector goes with position (i, j). -/
def along (D i j : Nat) : Nat := if D = 0 then j else i

theorem loop_congr {σ : Type} (n : Nat) (s : σ) (b b' : σ → Nat → Option σ) (I : σ → Prop) (hs : I s)
    (h : ∀ k < n, ∀ s, I s → b s k = b' s k) (hk : ∀ k < n, ∀ s s', I s → b s k = some s' → I s') : loop n s b = loop n s b' := by
  unfold loop
  have : ∀ L : List Nat, (∀ k ∈ L, k < n) → ∀ s, I s → L.foldlM b s = L.foldlM b' s := by
    intro L
    induction L with
    | nil => intro _ _ _; rfl
    | cons k L ih =>
      intro hL s hs
      simp only [List.foldlM_cons]
      rw [← h k (hL k (by simp)) s hs]
      cases e : b s k with
      | none => rfl
      | some s' => exact ih (fun k hk => hL k (by simp [hk])) s' (hk k (hL k (by simp)) s s' hs e)
  exact this _ (fun k hk => List.mem_range.1 hk) s hs

/-- Row by row. -/
theorem fill_rows (lhs : Mat T) (g : Nat → Nat → T → T) (body : Mat T → Nat → Nat → Option (Mat T))
    (hbody : ∀ i < lhs.rows, ∀ j < lhs.cols, ∀ M' : Mat T, M'.rows = lhs.rows → M'.cols = lhs.cols → body M' i j = M'.put i j (g i j (M'.f i j))) :
    ∃ M', loop lhs.rows lhs (fun s i => loop lhs.cols s fun s j => body s i j) = some M' ∧ M'.rows = lhs.rows ∧ M'.cols = lhs.cols ∧
      ∀ i < lhs.rows, ∀ j < lhs.cols, M'.f i j = g i j (lhs.f i j) :=
  matFill_spec (List.range lhs.rows) (List.range lhs.cols) lhs List.nodup_range List.nodup_range (fun i => List.mem_range) (fun i => List.mem_range) g body hbody

/-- Column by column. -/
theorem fill_cols (lhs : Mat T) (g : Nat → Nat → T → T) (body : Mat T → Nat → Nat → Option (Mat T))
    (hbody : ∀ i < lhs.rows, ∀ j < lhs.cols, ∀ M' : Mat T, M'.rows = lhs.rows → M'.cols = lhs.cols → body M' i j = M'.put i j (g i j (M'.f i j))) :
    ∃ M', loop lhs.cols lhs (fun s j => loop lhs.rows s fun s i => body s i j) = some M' ∧ M'.rows = lhs.rows ∧ M'.cols = lhs.cols ∧
      ∀ i < lhs.rows, ∀ j < lhs.cols, M'.f i j = g i j (lhs.f i j) := by
  unfold loop
  rw [two_loops (List.range lhs.cols) (List.range lhs.rows) (fun s j i => body s i j)]
  obtain ⟨M', e, h1, h2, h3, _⟩ := updates_spec (fun p : Nat × Nat => (p.2, p.1)) (fun p => g p.2 p.1) (pairs (List.range lhs.cols) (List.range lhs.rows))
    (fun s p => body s p.2 p.1) lhs
    (fun t ht => by simp only [mem_pairs, List.mem_range] at ht; exact ⟨ht.2, ht.1⟩)
    (fun t ht M' hr hc => by simp only [mem_pairs, List.mem_range] at ht; exact hbody _ ht.2 _ ht.1 M' hr hc)
    (by
      refine List.Nodup.map ?_ (nodup_pairs _ _ List.nodup_range List.nodup_range)
      intro p q h
      simp only [Prod.mk.injEq] at h
      exact Prod.ext h.2 h.1)
  exact ⟨M', e, h1, h2, fun i hi j hj => h3 (j, i) ((mem_pairs _ _ _).mpr ⟨List.mem_range.2 hj, List.mem_range.2 hi⟩)⟩

theorem put_size {s s' : Mat T} {i j : Nat} {t : T} (h : s.put i j t = some s') : s'.rows = s.rows ∧ s'.cols = s.cols := by
  unfold Mat.put at h
  split at h
  · cases h; exact ⟨rfl, rfl⟩
  · cases h

theorem get_some (v : Vec V) (i : Nat) (h : i < v.n) : v.get i = some (v.f i) := by simp [Vec.get, h]

theorem mget_some (m : Mat M) (i j : Nat) (h : i < m.rows) (h' : j < m.cols) : m.get i j = some (m.f i j) := by simp [Mat.get, h, h']

theorem loop_size {n : Nat} {s s' : Mat T} {b : Mat T → Nat → Option (Mat T)} (hb : ∀ s k s', b s k = some s' → s'.rows = s.rows ∧ s'.cols = s.cols)
    (h : loop n s b = some s') : s'.rows = s.rows ∧ s'.cols = s.cols := by
  unfold loop at h
  generalize List.range n = L at h
  induction L generalizing s with
  | nil => simp only [List.foldlM_nil] at h; cases h; exact ⟨rfl, rfl⟩
  | cons k L ih =>
    simp only [List.foldlM_cons] at h
    cases e : b s k with
    | none => rw [e] at h; cases h
    | some t =>
      rw [e] at h
      have := ih h
      have := hb _ _ _ e
      omega

/-- The value of the matrix operand at (i, j), from the value the destination has there. -/
def Reads (src : Mat T → Mat M) (lhs : Mat T) (w : Nat → Nat → T → M) : Prop :=
  ∀ s : Mat T, s.rows = lhs.rows → s.cols = lhs.cols → ∀ i < lhs.rows, ∀ j < lhs.cols, (src s).get i j = some (w i j (s.f i j))

theorem reads_other (m : Mat M) (lhs : Mat T) (hr : m.rows = lhs.rows) (hc : m.cols = lhs.cols) : Reads (fun _ => m) lhs (fun i j _ => m.f i j) :=
  fun _ _ _ i hi j hj => mget_some m i j (by omega) (by omega)

theorem reads_self (lhs : Mat T) : Reads (fun s => s) lhs (fun _ _ t => t) :=
  fun s h1 h2 i hi j hj => mget_some s i j (by omega) (by omega)

/-- The element loop. -/
theorem elems_spec (rowMajor : Bool) (D : Nat) (v : Vec V) (src : Mat T → Mat M) (lhs : Mat T) (w : Nat → Nat → T → M) (hw : Reads src lhs w)
    (hv : v.n = if D = 0 then lhs.cols else lhs.rows) :
    ∃ out, evalElems mul rowMajor D v src lhs = some out ∧ out.rows = lhs.rows ∧ out.cols = lhs.cols ∧
      ∀ i < lhs.rows, ∀ j < lhs.cols, out.f i j = mul (v.f (along D i j)) (w i j (lhs.f i j)) := by
  have hb : ∀ i < lhs.rows, ∀ j < lhs.cols, ∀ s : Mat T, s.rows = lhs.rows → s.cols = lhs.cols →
      (do s.put i j (← get mul D v (src s) i j)) = s.put i j (mul (v.f (along D i j)) (w i j (s.f i j))) := by
    intro i hi j hj s h1 h2
    unfold Vm.get along
    by_cases hD : D = 0
    · rw [if_pos hD] at hv
      rw [if_pos hD, if_pos hD, get_some v j (by omega), hw s h1 h2 i hi j hj]
      rfl
    · rw [if_neg hD] at hv
      rw [if_neg hD, if_neg hD, get_some v i (by omega), hw s h1 h2 i hi j hj]
      rfl
  unfold evalElems
  cases rowMajor with
  | true => exact fill_rows lhs (fun i j t => mul (v.f (along D i j)) (w i j t)) _ hb
  | false => exact fill_cols lhs (fun i j t => mul (v.f (along D i j)) (w i j t)) _ hb

/-- The evaluator does what the element loop does. -/
theorem eval_eq (rowMajor : Bool) (D : Nat) (v : Vec V) (src : Mat T → Mat M) (lhs : Mat T)
    (hv : v.n = if D = 0 then lhs.cols else lhs.rows) : eval mul rowMajor D v src lhs = evalElems mul rowMajor D v src lhs := by
  have key : ∀ (n : Nat) (s : Mat T) (F : Mat T → Nat → Option (Mat T)),
      (∀ s k s', F s k = some s' → s'.rows = s.rows ∧ s'.cols = s.cols) → ∀ s', loop n s F = some s' → s'.rows = s.rows ∧ s'.cols = s.cols :=
    fun n s F hF s' h => loop_size hF h
  have hput : ∀ (s : Mat T) (i j : Nat) (o : Option T) (s' : Mat T), (do s.put i j (← o)) = some s' → s'.rows = s.rows ∧ s'.cols = s.cols := by
    intro s i j o s' h
    cases o with
    | none => cases h
    | some t => exact put_size h
  let I : Mat T → Prop := fun s => s.rows = lhs.rows ∧ s.cols = lhs.cols
  unfold eval evalElems
  cases rowMajor with
  | true =>
    simp only [if_true]
    by_cases hD : D = 0
    · rw [if_pos hD]
      symm
      refine loop_congr _ _ _ _ I ⟨rfl, rfl⟩ ?_ ?_
      · intro r hr s hs
        unfold rowByVec
        rw [hs.2]
        congr 1
        funext s j
        unfold Vm.get
        rw [if_pos hD]
        cases v.get j <;> cases (src s).get r j <;> rfl
      · intro r hr s s' hs h
        have := key _ _ _ (fun s k s' h => hput s r k _ s' h) s' h
        exact ⟨this.1.trans hs.1, this.2.trans hs.2⟩
    · rw [if_neg hD] at hv ⊢
      symm
      refine loop_congr _ _ _ _ I ⟨rfl, rfl⟩ ?_ ?_
      · intro r hr s hs
        unfold rowByElem
        rw [hs.2, get_some v r (by omega)]
        show _ = loop _ _ _
        congr 1
        funext s j
        unfold Vm.get
        rw [if_neg hD, get_some v r (by omega)]
        cases (src s).get r j <;> rfl
      · intro r hr s s' hs h
        have := key _ _ _ (fun s k s' h => hput s r k _ s' h) s' h
        exact ⟨this.1.trans hs.1, this.2.trans hs.2⟩
  | false =>
    simp only [Bool.false_eq_true, if_false]
    by_cases hD : D = 0
    · rw [if_pos hD] at hv ⊢
      symm
      refine loop_congr _ _ _ _ I ⟨rfl, rfl⟩ ?_ ?_
      · intro c hc s hs
        unfold colByElem
        rw [hs.1, get_some v c (by omega)]
        show _ = loop _ _ _
        congr 1
        funext s i
        unfold Vm.get
        rw [if_pos hD, get_some v c (by omega)]
        cases (src s).get i c <;> rfl
      · intro c hc s s' hs h
        have := key _ _ _ (fun s k s' h => hput s k c _ s' h) s' h
        exact ⟨this.1.trans hs.1, this.2.trans hs.2⟩
    · rw [if_neg hD]
      symm
      refine loop_congr _ _ _ _ I ⟨rfl, rfl⟩ ?_ ?_
      · intro c hc s hs
        unfold colByVec
        rw [hs.1]
        congr 1
        funext s i
        unfold Vm.get
        rw [if_neg hD]
        cases v.get i <;> cases (src s).get i c <;> rfl
      · intro c hc s s' hs h
        have := key _ _ _ (fun s k s' h => hput s k c _ s' h) s' h
        exact ⟨this.1.trans hs.1, this.2.trans hs.2⟩

/-- A dimension in one piece is not renumbered. -/
theorem one_piece (d : Dist) (hd : d.OK) (h1 : d.numSubblocks = 1) (n l : Nat) (sb : Nat) (hsb : sb < d.numSubblocks) :
    d.globalFromLocal n sb l = l := by
  have h0 : sb = 0 := by omega
  subst h0
  cases d with
  | whole => rfl
  | block num =>
    simp only [Dist.numSubblocks] at h1
    simp [Dist.globalFromLocal]
  | cyclic num c =>
    simp only [Dist.numSubblocks] at h1
    subst h1
    simp only [Dist.globalFromLocal, Nat.mul_one, Nat.add_zero]
    rw [Nat.mul_comm]
    exact Nat.div_add_mod l c

theorem copyDist_of_kind (k : DistKind) (d : Dist) (h : (copyDist k d).kind = d.kind) : copyDist k d = d := by
  cases k <;> cases d <;> simp_all [copyDist, Dist.kind, Dist.numSubblocks, Dist.contiguity]

theorem mapM_get {α β : Type} (f : α → Option β) (L : List α) (l : List β) (h : L.mapM f = some l) (k : Nat) : l[k]? = (L[k]?).bind f := by
  induction L generalizing l k with
  | nil => simp only [List.mapM_nil] at h; cases h; simp
  | cons a L ih =>
    simp only [List.mapM_cons] at h
    cases e : f a with
    | none => rw [e] at h; cases h
    | some b =>
      rw [e] at h
      cases e' : L.mapM f with
      | none => rw [e'] at h; cases h
      | some bs =>
        rw [e'] at h
        cases h
        cases k with
        | zero => simp [e]
        | succ k => simp only [List.getElem?_cons_succ]; exact ih bs e' k

/-- What a projected map is. -/
theorem projMap_some {types : List DistKind} {args : List Dist} {p : Option (List Nat)} {m : Map} (h : projMap types args p = some m) :
    args.map Dist.kind = types ∧ m.dist = args ++ List.replicate (3 - args.length) Dist.whole ∧
      ∃ q, p = some q ∧ m.pvec = q.take ((args ++ List.replicate (3 - args.length) Dist.whole).map Dist.numSubblocks).prod := by
  unfold projMap at h
  cases p with
  | none => cases h
  | some q =>
    by_cases hk : args.map Dist.kind = types
    · refine ⟨hk, ?_⟩
      change (if args.map Dist.kind = types then Map.mk? (args ++ List.replicate (3 - args.length) Dist.whole) q else none) = some m at h
      rw [if_pos hk] at h
      unfold Map.mk? at h
      dsimp only at h
      split at h
      · cases h; exact ⟨rfl, q, rfl, rfl⟩
      · cases h
    · change (if args.map Dist.kind = types then Map.mk? (args ++ List.replicate (3 - args.length) Dist.whole) q else none) = some m at h
      rw [if_neg hk] at h; cases h

theorem project_dist {D : Nat} {mm : Map3} {m : Map} (h : project D mm = some m) : m.dist.headD .whole = if D = 0 then mm.d1 else mm.d0 := by
  unfold project at h
  split at h
  · rename_i hD
    obtain ⟨hk, hd, _⟩ := projMap_some h
    rw [if_pos hD, hd]
    simp only [List.map_cons, List.cons.injEq] at hk
    exact copyDist_of_kind _ _ hk.1
  · rename_i hD
    obtain ⟨hk, hd, _⟩ := projMap_some h
    rw [if_neg hD, hd]
    simp only [List.map_cons, List.cons.injEq] at hk
    exact copyDist_of_kind _ _ hk.1

end

end Verif.Vm

namespace Verif.Props

open Verif.Sig Verif.Vm

section
variable {V M T : Type} (mul : V → M → T)

/-- The evaluator that goes row by row or column by column: for either order of the destination and either dimension of the vector, all elements
of the destination are the products the definition of `vmmul` asks for.  The matrix is another matrix of the same size. -/
theorem C63_eval (rowMajor : Bool) (D : Nat) (v : Vec V) (m : Mat M) (lhs : Mat T) (hr : m.rows = lhs.rows) (hc : m.cols = lhs.cols)
    (hv : v.n = if D = 0 then lhs.cols else lhs.rows) :
    ∃ out, eval mul rowMajor D v (fun _ => m) lhs = some out ∧ out.rows = lhs.rows ∧ out.cols = lhs.cols ∧
      ∀ i < lhs.rows, ∀ j < lhs.cols, out.f i j = mul (v.f (if D = 0 then j else i)) (m.f i j) := by
  rw [eval_eq mul rowMajor D v _ lhs hv]
  exact elems_spec mul rowMajor D v _ lhs _ (reads_other m lhs hr hc) hv

/-- In place: the matrix operand is the destination. -/
theorem C63_in_place (mul : V → T → T) (rowMajor : Bool) (D : Nat) (v : Vec V) (lhs : Mat T) (hv : v.n = if D = 0 then lhs.cols else lhs.rows) :
    ∃ out, eval mul rowMajor D v (fun s => s) lhs = some out ∧ out.rows = lhs.rows ∧ out.cols = lhs.cols ∧
      ∀ i < lhs.rows, ∀ j < lhs.cols, out.f i j = mul (v.f (if D = 0 then j else i)) (lhs.f i j) := by
  rw [eval_eq mul rowMajor D v _ lhs hv]
  exact elems_spec mul rowMajor D v _ lhs _ (reads_self lhs) hv

/-- The element loop, used when an operand is itself an expression. -/
theorem C63_elements (rowMajor : Bool) (D : Nat) (v : Vec V) (m : Mat M) (lhs : Mat T) (hr : m.rows = lhs.rows) (hc : m.cols = lhs.cols)
    (hv : v.n = if D = 0 then lhs.cols else lhs.rows) :
    ∃ out, evalElems mul rowMajor D v (fun _ => m) lhs = some out ∧ out.rows = lhs.rows ∧ out.cols = lhs.cols ∧
      ∀ i < lhs.rows, ∀ j < lhs.cols, out.f i j = mul (v.f (if D = 0 then j else i)) (m.f i j) :=
  elems_spec mul rowMajor D v _ lhs _ (reads_other m lhs hr hc) hv

/-- The strategy does not show: both evaluations have the same outcome, also when the matrix is too small, whatever matrix `src` reads. -/
theorem C63_strategy (rowMajor : Bool) (D : Nat) (v : Vec V) (src : Mat T → Mat M) (lhs : Mat T) (hv : v.n = if D = 0 then lhs.cols else lhs.rows) :
    eval mul rowMajor D v src lhs = evalElems mul rowMajor D v src lhs := eval_eq mul rowMajor D v src lhs hv

/-- The product of the local blocks is the part of the global product that is held here, for every distribution `has_same_map` accepts. -/
theorem C63_parallel (D : Nat) (hD : D < 2) (mm : Map3) (h0 : mm.d0.OK) (h1 : mm.d1.OK) (vm : VMap) (hs : sameMap D mm vm = true) (f : Nat → V)
    (m : Nat → Nat → M) (s0 s1 i j : Nat) (hs0 : s0 < mm.d0.numSubblocks) (hs1 : s1 < mm.d1.numSubblocks) :
    localGet mul D mm vm f m s0 s1 i j =
      mul (f (if D = 0 then mm.d1.globalFromLocal mm.n1 s1 j else mm.d0.globalFromLocal mm.n0 s0 i))
        (m (mm.d0.globalFromLocal mm.n0 s0 i) (mm.d1.globalFromLocal mm.n1 s1 j)) := by
  simp only [sameMap, Bool.or_eq_true, Bool.and_eq_true, decide_eq_true_eq, beq_iff_eq] at hs
  have hD' : D = 0 ∨ D = 1 := by omega
  rcases hs with ⟨rfl, h⟩ | ⟨h, hv⟩
  · rcases hD' with rfl | rfl
    · have := one_piece mm.d1 h1 (by simpa [subblocks] using h) mm.n1 j s1 hs1
      simp [localGet, localVec, this]
    · have := one_piece mm.d0 h0 (by simpa [subblocks] using h) mm.n0 i s0 hs0
      simp [localGet, localVec, this]
  · cases e : project D mm with
    | none => rw [e] at hv; cases hv
    | some w =>
      rw [e] at hv
      cases hv
      have hd := project_dist e
      rcases hD' with rfl | rfl
      · simp only [if_true] at hd
        simp only [localGet, localVec, hd, if_true, Nat.one_ne_zero, if_false]
      · simp only [Nat.one_ne_zero, if_false] at hd
        simp only [localGet, localVec, hd, if_true, Nat.one_ne_zero, if_false]

/-- A vector accepted with a map has on each processor the subblock that goes with its subblock of the matrix. -/
theorem C63_parallel_owner (D : Nat) (hD : D < 2) (mm : Map3) (h0 : mm.d0.OK) (h1 : mm.d1.OK) (h2 : mm.d2 = .whole) (hn : 0 < mm.n0 ∧ 0 < mm.n1) (w : Map)
    (hs : sameMap D mm (.map w) = true) (s0 s1 : Nat) (hs0 : s0 < mm.d0.numSubblocks) (hs1 : s1 < mm.d1.numSubblocks) :
    w.pvec[if D = 0 then s1 else s0]? = mm.pvec[s0 * mm.d1.numSubblocks + s1]? := by
  simp only [sameMap, Bool.or_eq_true, Bool.and_eq_true, decide_eq_true_eq, beq_iff_eq] at hs
  rcases hs with ⟨h, _⟩ | ⟨h, hv⟩
  · cases h
  have e : project D mm = some w := by
    cases e : project D mm with
    | none => rw [e] at hv; cases hv
    | some w' => rw [e] at hv; cases hv; rfl
  have hD' : D = 0 ∨ D = 1 := by omega
  have hone : ∀ (d : Dist), d.OK → d.numSubblocks = 1 → ∀ n, 0 < n → d.subblockFromIndex n 0 = 0 := by
    intro d _ h n hn
    cases d with
    | whole => rfl
    | block num => simp only [Dist.numSubblocks] at h; subst h; simp [Dist.subblockFromIndex]
    | cyclic num c => simp [Dist.subblockFromIndex]
  rcases hD' with rfl | rfl
  · obtain ⟨hk, hd, q, hq, hp⟩ := projMap_some (show mm.project_0 0 = some w from e)
    have hg := mapM_get _ _ _ hq s1
    have hone := hone mm.d0 h0 (by simpa [subblocks] using h) mm.n0 hn.1
    have hd0 : mm.d0.numSubblocks = 1 := by simpa [subblocks] using h
    have hs2 : mm.s2 = 1 := by simp [Map3.s2, h2, Dist.numSubblocks]
    simp only [List.map_cons, List.map_nil, List.cons.injEq, and_true] at hk
    have c1 := copyDist_of_kind _ _ hk.1
    have c2 := copyDist_of_kind _ _ hk.2
    rw [if_pos rfl, hp, c1, c2, h2]
    simp only [List.length_cons, List.length_nil, List.map_append, List.map_cons, List.map_nil, List.map_replicate, List.prod_append, List.prod_cons,
      List.prod_nil, show Dist.whole.numSubblocks = 1 from rfl, List.prod_replicate, one_pow, mul_one]
    rw [List.getElem?_take_of_lt hs1, hg, hone, hs2, List.getElem?_range (by simpa [Map3.s1] using hs1)]
    have : s0 = 0 := by omega
    simp [this]
  · obtain ⟨hk, hd, q, hq, hp⟩ := projMap_some (show mm.project_1 0 = some w from e)
    have hg := mapM_get _ _ _ hq s0
    have hone := hone mm.d1 h1 (by simpa [subblocks] using h) mm.n1 hn.2
    have hd1 : mm.d1.numSubblocks = 1 := by simpa [subblocks] using h
    have hs2 : mm.s2 = 1 := by simp [Map3.s2, h2, Dist.numSubblocks]
    simp only [List.map_cons, List.map_nil, List.cons.injEq, and_true] at hk
    have c1 := copyDist_of_kind _ _ hk.1
    have c2 := copyDist_of_kind _ _ hk.2
    rw [if_neg (by decide), hp, c1, c2, h2]
    simp only [List.length_cons, List.length_nil, List.map_append, List.map_cons, List.map_nil, List.map_replicate, List.prod_append, List.prod_cons,
      List.prod_nil, show Dist.whole.numSubblocks = 1 from rfl, List.prod_replicate, one_pow, mul_one]
    rw [List.getElem?_take_of_lt hs0, hg, hone, hs2, List.getElem?_range (by simpa using hs0)]
    have : s1 = 0 := by omega
    simp [this, hd1, Map3.s1, Nat.mod_one]

end

/-- Nothing checks the length of the vector: with a short one the evaluation reads past its end. -/
theorem C63_short_false : ¬ ∀ (v : Vec Int) (m lhs : Mat Int), m.rows = lhs.rows → m.cols = lhs.cols →
    (eval (· * ·) true 0 v (fun _ => m) lhs).isSome := by
  intro h
  have := h ⟨1, fun _ => 2⟩ ⟨2, 2, fun _ _ => 3⟩ ⟨2, 2, fun _ _ => 0⟩ rfl rfl
  revert this
  decide

/-- The mapping the comment of l.122-125 calls case 2 ("vector data mapped distributed, matrix data mapped with same distribution along vector
direction, and no distribution perpendicular") is not accepted for a vector along the rows' direction of a `Map<Block_dist, Whole_dist>`: the
projection mixes up the types (see `C11_col_types_false`). -/
theorem C63_case2_false : ¬ ∀ (mm : Map3), mm.WF → mm.d2 = .whole → mm.d1.numSubblocks = 1 →
    sameMap 1 mm (.map ⟨[mm.d0, .whole, .whole], mm.pvec⟩) = true := by
  intro h
  have := h ⟨.block 2, .whole, .whole, 4, 4, 1, [0, 1]⟩ ⟨by decide, by decide, by decide, by decide⟩ rfl rfl
  revert this
  decide

/-- A vector that is a row of the destination is changed while it is still needed, so the result is not the product with the row as it was. -/
theorem C63_alias_false : ¬ ∀ (lhs : Mat Int), 0 < lhs.rows →
    ∃ out, loop lhs.rows lhs (fun s r => rowByVec (· * ·) ⟨s.cols, fun j => s.f 0 j⟩ (fun s => s) s r) = some out ∧
      ∀ i < lhs.rows, ∀ j < lhs.cols, out.f i j = lhs.f 0 j * lhs.f i j := by
  intro h
  obtain ⟨out, e, hout⟩ := h ⟨2, 1, fun _ _ => 2⟩ (by decide)
  have h1 := hout 1 (by decide) 0 (by decide)
  have e' : (loop 2 (⟨2, 1, fun _ _ => 2⟩ : Mat Int) (fun s r => rowByVec (· * ·) ⟨s.cols, fun j => s.f 0 j⟩ (fun s => s) s r)).map (fun o => o.f 1 0) = some 8 := by
    decide
  rw [e] at e'
  simp only [Option.map_some, Option.some.injEq] at e'
  rw [e'] at h1
  revert h1
  decide

/-- 2×3, column-major, vector along the columns. -/
example : (eval (· * ·) false 1 (⟨2, fun i => (i : Int) + 1⟩ : Vec Int) (fun _ => (⟨2, 3, fun i j => 10 * (i : Int) + j⟩ : Mat Int)) (⟨2, 3, fun _ _ => 0⟩ : Mat Int)).map
    (fun o => [o.f 0 2, o.f 1 0, o.f 1 2]) = some [2, 20, 24] := by decide

/-- Both cases of `has_same_map` occur with a distributed matrix: rows in two blocks and a replicated vector along each row; columns cyclic, vector
mapped alike; and for `col`, a `Map<Block_dist, Block_dist>` with one column block. -/
example : sameMap 0 ⟨.block 2, .whole, .whole, 5, 4, 1, [0, 1]⟩ .replicated = true ∧
    sameMap 0 ⟨.whole, .cyclic 2 3, .whole, 5, 14, 1, [4, 7]⟩ (.map ⟨[.cyclic 2 3, .whole, .whole], [4, 7]⟩) = true ∧
    sameMap 1 ⟨.block 2, .block 1, .whole, 5, 4, 1, [0, 1]⟩ (.map ⟨[.block 2, .whole, .whole], [0, 1]⟩) = true ∧
    sameMap 0 ⟨.block 2, .block 2, .whole, 5, 4, 1, [0, 1, 2, 3]⟩ .replicated = false := by decide

end Verif.Props
