import Verif.PyMath.Spec
/-!
C89: functions of the Python front end find their modules and give results of the right type and shape.
-/
namespace Verif.Props
open Verif Pym

theorem pym_within (l : List Nat) : within l l = true := by
  induction l with
  | nil => rfl
  | cons a l ih => simp [within, ih]

theorem pym_import_numeric {k : K} (h : Numeric k) : importModule .elementwise (dtypeOf k) = .ret k ∧ importModule .matvec (dtypeOf k) = .ret k ∧
    importModule .block (dtypeOf k) = .ret k := by
  rcases h with rfl | rfl | rfl | rfl <;> exact ⟨rfl, rfl, rfl⟩

/-- **C89, partial (modules).** The data type of every block but those of truth values leads back to its module: new blocks, blocks from arrays
and subviews have the element type of what they were made from.  Missing: truth values, see `C89_bool_false`. -/
theorem C89_modules_partial (k : K) (h : k ≠ .b) (s t : List Nat) :
    newView (dtypeOf k) s = .ret (.view ⟨k, s⟩) ∧ subview ⟨k, s⟩ t = .ret (.view ⟨k, t⟩) := by
  cases k <;> first | exact ⟨rfl, rfl⟩ | exact absurd rfl h

example : subview ⟨.cf, [4, 4]⟩ [2, 4] = .ret (.view ⟨.cf, [2, 4]⟩) := rfl

/-- **C89 is false (truth values).** The type of a block of truth values, `numpy.bool_`, is not in the table, which has Python's `bool`: an array of
truth values does not become a vector, and the result of `v == w` cannot be sliced. -/
theorem C89_bool_false : fromArray .bool8 [3] = .raise .value ∧ newView (.py .bool) [3] = .ret (.view ⟨.b, [3]⟩) ∧
    ∀ s t, subview ⟨.b, s⟩ t = .raise .value := ⟨rfl, rfl, fun _ _ => rfl⟩

/-- **C89 is false (integers).** `vector(int, n)` is a vector, but `vector(array=[1, 2, 3])` and `ramp(int, 0, 1, n)`, whose arrays have 64-bit
integers, raise an exception. -/
theorem C89_int_false : newView (.py .int) [3] = .ret (.view ⟨.i, [3]⟩) ∧ ∀ s, fromArray .i64 s = .raise .value := ⟨rfl, fun _ => rfl⟩

/-- **C89, partial (element by element).** A function of `elementwise` given numbers of a type for which its module has it, of equal shapes,
returns a view of that shape and of the type the function has in mathematics, provided blocks of that type have been loaded.
Missing: the last condition, see `C89_loaded_false`; functions left out, see `C89_left_out_false`; unequal sizes, see `C89_sizes_false`. -/
theorem C89_elementwise_partial (ld : Loaded) (f : Fn) (k : K) (s : List Nat) (hk : Numeric k) (hd : defined k.cx f = true)
    (hl : ∀ r, HasType f k r → ld r = true) :
    (f ∈ unaries → ∃ r, HasType f k r ∧ unary ld f ⟨k, s⟩ = .ret (.view ⟨r, s⟩)) ∧
    (f ∈ binaries → ∃ r, HasType f k r ∧ binary ld f ⟨k, s⟩ ⟨k, s⟩ = .ret (.view ⟨r, s⟩)) ∧
    (f ∈ ternaries → ∃ r, HasType f k r ∧ ternary ld f ⟨k, s⟩ ⟨k, s⟩ ⟨k, s⟩ = .ret (.view ⟨r, s⟩)) := by
  have hi := (pym_import_numeric hk).1
  have key : f ∈ unaries ++ binaries ++ ternaries → HasType f k (resultKind f k) := by
    intro hf
    rcases hk with rfl | rfl | rfl | rfl <;> cases f <;>
      first
      | (exact absurd hd (by decide))
      | (exact absurd hf (by decide))
      | exact .argF | exact .argD | exact .magF | exact .magD | exact .magCF | exact .magCD | exact .eulF | exact .eulD | exact .eq _
      | exact .same _ _ (by decide)
  refine ⟨fun hf => ?_, fun hf => ?_, fun hf => ?_⟩
  · have ht := key (by simp [hf])
    exact ⟨_, ht, by simp [unary, hi, Out.bind, hd, wrap, hl _ ht]⟩
  · have ht := key (by simp [hf])
    exact ⟨_, ht, by simp [binary, hi, Out.bind, hd, wrap, hl _ ht, pym_within]⟩
  · have ht := key (by simp [hf])
    exact ⟨_, ht, by simp [ternary, hi, Out.bind, hd, wrap, hl _ ht]⟩

example : unary (fun _ => true) .magsq ⟨.cd, [2, 3]⟩ = .ret (.view ⟨.d, [2, 3]⟩) := rfl

/-- **C89 (functions there are).** With all types loaded, a function of `elementwise` given real numbers of one type and shape raises an exception only if
it is `arg`; given complex numbers only if it is an inverse trigonometric function, `atan2`, `ceil`, `floor`, `exp10`, `euler` or `ite`. -/
theorem C89_available (f : Fn) (k : K) (s : List Nat) (hk : Numeric k) (o : Out R)
    (ho : (f ∈ unaries ∧ o = unary (fun _ => true) f ⟨k, s⟩) ∨ (f ∈ binaries ∧ o = binary (fun _ => true) f ⟨k, s⟩ ⟨k, s⟩) ∨
      (f ∈ ternaries ∧ o = ternary (fun _ => true) f ⟨k, s⟩ ⟨k, s⟩ ⟨k, s⟩)) :
    Raises o ↔ ((k = .f ∨ k = .d) ∧ f = .arg) ∨
      ((k = .cf ∨ k = .cd) ∧ f ∈ [Fn.acos, .asin, .atan, .atan2, .ceil, .floor, .exp10, .euler, .ite]) := by
  have hi := (pym_import_numeric hk).1
  rcases ho with ⟨hf, rfl⟩ | ⟨hf, rfl⟩ | ⟨hf, rfl⟩
  · simp only [unary, hi, Out.bind, wrap, if_true]
    rcases hk with rfl | rfl | rfl | rfl <;> cases f <;> first | (exact absurd hf (by decide)) | simp [defined, K.cx, Raises]
  · simp only [binary, hi, Out.bind, wrap, if_true, pym_within]
    rcases hk with rfl | rfl | rfl | rfl <;> cases f <;> first | (exact absurd hf (by decide)) | simp [defined, K.cx, Raises]
  · simp only [ternary, hi, Out.bind, wrap, if_true, and_self]
    rcases hk with rfl | rfl | rfl | rfl <;> cases f <;> first | (exact absurd hf (by decide)) | simp [defined, K.cx, Raises]

example : unary (fun _ => true) .cosh ⟨.cf, [4]⟩ = .ret (.view ⟨.cf, [4]⟩) := rfl

/-- **C89 (different types).** Elementwise functions of arguments of different types raise a `ValueError`, of blocks of different dimensions a `TypeError` if
the function exists for the type. -/
theorem C89_different (ld : Loaded) (f : Fn) (x y z : View) :
    (x.k ≠ y.k → binary ld f x y = .raise .value) ∧ (x.k ≠ y.k ∨ y.k ≠ z.k → ternary ld f x y z = .raise .value) ∧
    (Numeric x.k → x.k = y.k → defined x.k.cx f = true → x.shape.length ≠ y.shape.length → binary ld f x y = .raise .type) := by
  have hinj : ∀ k k' : K, dtypeOf k = dtypeOf k' → k = k' := by intro k k'; cases k <;> cases k' <;> decide
  refine ⟨fun h => ?_, fun h => ?_, fun hk h hd hs => ?_⟩
  · unfold binary; rw [if_neg (fun e => h (hinj _ _ e))]
  · unfold ternary
    rw [if_neg]
    rintro ⟨e1, e2⟩
    rcases h with h | h
    · exact h (hinj _ _ e1)
    · exact h (hinj _ _ e2)
  · have hi := (pym_import_numeric hk).1
    simp [binary, ← h, hi, Out.bind, hd, hs]

example : binary (fun _ => true) .mul ⟨.d, [3]⟩ ⟨.f, [3]⟩ = .raise .value := rfl

/-- **C89 is false (types not loaded).** A result of a type of which no block was made before cannot be returned: after making complex vectors only,
`magsq` and `arg` raise an exception, as `euler` does after real ones, and `eq` until blocks of truth values are made (by `==`, which loads
them). -/
theorem C89_loaded_false (s : List Nat) :
    unary (· == .cd) .magsq ⟨.cd, s⟩ = .raise .type ∧ unary (· == .cd) .arg ⟨.cd, s⟩ = .raise .type ∧
    unary (· == .d) .euler ⟨.d, s⟩ = .raise .type ∧ binary (· == .d) .eq ⟨.d, s⟩ ⟨.d, s⟩ = .raise .type ∧
    unary (fun k => k == .cd || k == .d) .magsq ⟨.cd, s⟩ = .ret (.view ⟨.d, s⟩) := by
  refine ⟨rfl, rfl, rfl, ?_, rfl⟩
  simp [binary, wrap, dtypeOf, importModule, suffix, has, Out.bind, resultKind, defined, pym_within]

/-- **C89 is false (functions left out).** Not every function of `elementwise` works on numbers of every type it has a meaning for: `arg` of real
numbers and the choice `ite` between complex ones raise an exception; `ite` by truth values does for all types. -/
theorem C89_left_out_false (ld : Loaded) (s : List Nat) :
    unary ld .arg ⟨.d, s⟩ = .raise .attr ∧ ternary ld .ite ⟨.cd, s⟩ ⟨.cd, s⟩ ⟨.cd, s⟩ = .raise .attr ∧
    (∀ k, k ≠ .b → ternary ld .ite ⟨.b, s⟩ ⟨k, s⟩ ⟨k, s⟩ = .raise .value) := by
  refine ⟨rfl, rfl, fun k h => ?_⟩
  cases k <;> first | (exact absurd rfl h) | rfl

/-- **C89 is false (unequal sizes).** `mul(v, w)` with `w` shorter than `v` is not refused but reads behind the end of `w`; with `w` longer the rest is
ignored.  Functions of three arguments compare sizes and raise an exception. -/
theorem C89_sizes_false (ld : Loaded) (hl : ld .d = true) (m n : Nat) (h : m ≠ n) :
    (n < m → binary ld .mul ⟨.d, [m]⟩ ⟨.d, [n]⟩ = .bad) ∧ (m < n → binary ld .mul ⟨.d, [m]⟩ ⟨.d, [n]⟩ = .ret (.view ⟨.d, [m]⟩)) ∧
    ternary ld .am ⟨.d, [m]⟩ ⟨.d, [n]⟩ ⟨.d, [n]⟩ = .raise .runtime := by
  refine ⟨fun h' => ?_, fun h' => ?_, ?_⟩
  · simp [binary, dtypeOf, importModule, suffix, has, Out.bind, defined, within, Nat.not_le.2 h']
  · simp [binary, dtypeOf, importModule, suffix, has, Out.bind, defined, within, Nat.le_of_lt h', wrap, resultKind, hl]
  · simp [ternary, dtypeOf, importModule, suffix, has, Out.bind, defined, h]

/-- **C89, partial (reductions).** Sums and means of real numbers have their type, extremes come with an index of as many numbers as there are
dimensions.  Missing: complex sums and means, which raise an exception. -/
theorem C89_reduce_partial (k : K) (s : List Nat) :
    (k = .f ∨ k = .d → reduce false ⟨k, s⟩ = .ret (.scalar k) ∧ reduce true ⟨k, s⟩ = .ret (.pair k s.length)) ∧
    (k = .cf ∨ k = .cd → reduce false ⟨k, s⟩ = .raise .value) := by
  constructor
  · rintro (rfl | rfl) <;> exact ⟨rfl, rfl⟩
  · rintro (rfl | rfl) <;> rfl

example : reduce true ⟨.f, [3, 4]⟩ = .ret (.pair .f 2) := rfl

/-- **C89, partial (matrices and vectors).** For numbers of one type and fitting sizes, `dot` gives a number of that type, `trans` the transposed shape,
`herm` of complex matrices too, `prod` the shape of the product of matrices, of a row with a matrix and of a matrix with a column, and
`vmmul` along rows or columns the shape of the matrix.  Missing: mixed types and the functions of `C89_matvec_false`. -/
theorem C89_matvec_partial (ld : Loaded) (k : K) (hk : Numeric k) (hl : ld k = true) (n r c : Nat) :
    dot ⟨k, [n]⟩ ⟨k, [n]⟩ = .ret (.scalar k) ∧
    transM ⟨k, [r, c]⟩ = .ret (.view ⟨k, [c, r]⟩) ∧
    (k.cx = true → herm ⟨k, [r, c]⟩ = .ret (.view ⟨k, [c, r]⟩)) ∧
    (∀ a b p : Nat × Nat, Mul a b p → prod ld ⟨k, [a.1, a.2]⟩ ⟨k, [b.1, b.2]⟩ = .ret (.view ⟨k, [p.1, p.2]⟩)) ∧
    (∀ b p : Nat × Nat, Mul (1, n) b p → prod ld ⟨k, [n]⟩ ⟨k, [b.1, b.2]⟩ = .ret (.view ⟨k, [p.2]⟩)) ∧
    (∀ a p : Nat × Nat, Mul a (n, 1) p → prod ld ⟨k, [a.1, a.2]⟩ ⟨k, [n]⟩ = .ret (.view ⟨k, [p.1]⟩)) ∧
    vmmul ld 0 ⟨k, [c]⟩ ⟨k, [r, c]⟩ = .ret (.view ⟨k, [r, c]⟩, 0) ∧ vmmul ld 1 ⟨k, [r]⟩ ⟨k, [r, c]⟩ = .ret (.view ⟨k, [r, c]⟩, 1) := by
  have hi := (pym_import_numeric hk).2.1
  have hb := (pym_import_numeric hk).2.2
  refine ⟨?_, ?_, ?_, ?_, ?_, ?_, ?_, ?_⟩
  · simp [dot, mvFn, hi, Out.bind, mvDefined]
  · simp [transM, mvFn, hi, Out.bind, mvDefined, newView, hb]
  · intro h; simp [herm, mvFn, hi, Out.bind, mvDefined, h, newView, hb]
  · rintro a b p ⟨h, rfl⟩; simp [prod, mvFn, hi, Out.bind, mvDefined, h, wrap, hl]
  · rintro b p ⟨h, rfl⟩
    have h' : n = b.1 := h
    simp [prod, mvFn, hi, Out.bind, mvDefined, h', wrap, hl]
  · rintro a p ⟨h, rfl⟩
    have h' : a.2 = n := h
    simp [prod, mvFn, hi, Out.bind, mvDefined, h', wrap, hl]
  · simp [vmmul, mvFn, hi, Out.bind, mvDefined, wrap, hl]
  · simp [vmmul, mvFn, hi, Out.bind, mvDefined, wrap, hl]

example : prod (fun _ => true) ⟨.f, [2, 3]⟩ ⟨.f, [3, 5]⟩ = .ret (.view ⟨.f, [2, 5]⟩) := rfl

/-- **C89 (dot products of mixed types).** The dot product of nonempty vectors of one size and different types of numbers is complex if one of them is,
and in double precision if one of them is; unequal sizes raise an exception. -/
theorem C89_mixed_dot (a b : K) (ha : Numeric a) (hb : Numeric b) (h : a ≠ b) (m n : Nat) :
    (m ≠ n → dot ⟨a, [m]⟩ ⟨b, [n]⟩ = .raise .type) ∧
    (0 < n → ∃ k, dot ⟨a, [n]⟩ ⟨b, [n]⟩ = .ret (.scalar k) ∧ Numeric k ∧ (k = .cf ∨ k = .cd ↔ (a = .cf ∨ a = .cd) ∨ (b = .cf ∨ b = .cd)) ∧
      (k = .d ∨ k = .cd ↔ (a = .d ∨ a = .cd) ∨ (b = .d ∨ b = .cd))) := by
  have hne : dtypeOf a ≠ dtypeOf b := fun e => h (by revert e; cases a <;> cases b <;> decide)
  refine ⟨fun hm => ?_, fun hn => ⟨promote a b, ?_, ?_⟩⟩
  · simp [dot, hne, hm]
  · have : n ≠ 0 := by omega
    simp [dot, hne, this]
  · rcases ha with rfl | rfl | rfl | rfl <;> rcases hb with rfl | rfl | rfl | rfl <;> simp [promote, Numeric]

example : dot ⟨.d, [3]⟩ ⟨.cf, [3]⟩ = .ret (.scalar .cd) := rfl

/-- **C89 is false (functions that never work).** `prodh`, `prodj`, `prodt` raise an exception for all arguments, and so do `kron` and `outer` of
vectors of one type; of different types `outer` returns `None`, as `cvjdot`, `gemp`, `gems` and `cumsum` always do, and `kron` an array
without the factor.  `herm` of a real matrix raises an exception. -/
theorem C89_matvec_false :
    (∀ f, f = .prodh ∨ f = .prodj ∨ f = .prodt → ∀ a b, Raises (prodx f a b)) ∧
    (∀ a b : View, a.k = b.k → Raises (kron a b) ∧ Raises (outer a b)) ∧
    (∀ a b : View, a.k ≠ b.k → outer a b = .ret .none ∧ kron a b = .ret .array) ∧ passes = .ret .none ∧
    ∀ s, herm ⟨.d, s⟩ = .raise .attr := by
  have hinj : ∀ k k' : K, dtypeOf k = dtypeOf k' → k = k' := by intro k k'; cases k <;> cases k' <;> decide
  refine ⟨?_, ?_, ?_, rfl, fun _ => rfl⟩
  · rintro f hf ⟨ka, sa⟩ ⟨kb, sb⟩
    rcases hf with rfl | rfl | rfl <;> cases ka <;> cases kb <;> first | exact ⟨.attr, rfl⟩ | exact ⟨.name, rfl⟩ | exact ⟨.value, rfl⟩
  · rintro ⟨ka, sa⟩ ⟨kb, sb⟩ h
    simp only at h; subst h
    cases ka <;> first | exact ⟨⟨.attr, rfl⟩, ⟨.attr, rfl⟩⟩ | exact ⟨⟨.value, rfl⟩, ⟨.value, rfl⟩⟩
  · rintro ⟨ka, sa⟩ ⟨kb, sb⟩ h
    have h' : dtypeOf ka ≠ dtypeOf kb := fun e => h (hinj _ _ e)
    exact ⟨by unfold outer; rw [if_neg h'], by unfold kron; rw [if_neg h']⟩

/-- **C89 is false (mixed products).** `prod` has code for arguments of different types; it uses a name that is not defined and raises an exception for
all of them. -/
theorem C89_mixed_false (ld : Loaded) (a b : View) (h : a.k ≠ b.k) : prod ld a b = .raise .name := by
  have hinj : ∀ k k' : K, dtypeOf k = dtypeOf k' → k = k' := by intro k k'; cases k <;> cases k' <;> decide
  unfold prod
  rw [if_neg (fun e => h (hinj _ _ e))]

/-- **C89 is false (axis).** An axis that is neither 0 nor 1 is not refused: it is taken for 1. -/
theorem C89_axis_false (ld : Loaded) (axis : Int) (h : axis ≠ 0) (v m : View) : vmmul ld axis v m = vmmul ld 1 v m := by
  unfold vmmul
  simp only [h, if_false, Int.reduceEq]

/-- **C89, partial (solvers).** The matrices made for results have the right shapes: for `prodq` that of the product of `op(Q)` and `b`, on either side,
for factors saved in either form; for `lsqsol` of `qrd`, and `llsqsol`, one row for each column of the matrix; for singular values as many as
the smaller size, and for `u` and `v` the columns asked for.  Missing: the solvers of `C89_solvers_false`. -/
theorem C89_solvers_partial :
    (∀ (q : Qrd) (op : Op) (qs b p : Nat × Nat), QShape q q.s = some qs →
      (Mul (OpShape op qs) b p → prodqShape q op true b = p) ∧ (Mul b (OpShape op qs) p → prodqShape q op false b = p)) ∧
    (∀ (q : Qrd) (x b : Nat × Nat), Mul (q.rows, q.cols) x b → qrdLsqsolShape q b = x) ∧
    (∀ (q : Qrd) (x b : Nat × Nat), Mul (q.cols, q.cols) x b → qrdCovsolShape q b = x) ∧
    (∀ k, k = .f ∨ k = .d → ∀ r c p : Nat, llsqsol ⟨k, [r, c]⟩ ⟨k, [r, p]⟩ = .ret (.view ⟨k, [c, p]⟩) ∧
      qrdNew (dtypeOf k) r c .saveq = .ret ⟨k, r, c, .saveq⟩ ∧ svdNew (dtypeOf k) r c = .ret ⟨k, r, c⟩ ∧
      svdDecompose ⟨k, [r, c]⟩ = .ret (.view ⟨k, [min r c]⟩)) ∧
    (∀ (s : Svd) (low n : Nat), svdU s low (low + n) = (s.rows, n + 1) ∧ svdV s low (low + n) = (s.cols, n + 1)) := by
  refine ⟨?_, ?_, ?_, ?_, ?_⟩
  · rintro ⟨k, m, n, s⟩ op qs ⟨b1, b2⟩ p hq
    cases s <;> cases op <;> simp only [QShape, Option.some.injEq, reduceCtorEq] at hq <;> subst hq <;>
      exact ⟨fun ⟨_, h⟩ => h.symm, fun ⟨_, h⟩ => h.symm⟩
  · rintro q ⟨x1, x2⟩ b ⟨h, rfl⟩
    have h' : q.cols = x1 := h
    subst h'; rfl
  · rintro q ⟨x1, x2⟩ b ⟨h, rfl⟩
    have h' : q.cols = x1 := h
    subst h'; rfl
  · rintro k (rfl | rfl) r c p
    · simp [llsqsol, importModule, suffix, dtypeOf, has, Out.bind, newView, qrdNew, svdNew, svdDecompose]
    · simp [llsqsol, importModule, suffix, dtypeOf, has, Out.bind, newView, qrdNew, svdNew, svdDecompose]
  · intro s low n
    constructor <;> simp only [svdU, svdV, Prod.mk.injEq, true_and] <;> omega

example : prodqShape ⟨.d, 5, 3, .saveq1⟩ .trans true (5, 2) = (3, 2) := rfl

/-- **C89 is false (solvers that never work).** LU and Cholesky solvers cannot be created for any type, and the covariance and Toeplitz functions, the
triangular solve of `qrd` and the products with singular vectors raise an exception whatever they are given. -/
theorem C89_solvers_false :
    (∀ d, Raises (ludNew d)) ∧ (∀ d, Raises (choldNew d)) ∧ (∀ a b, covsol a b = .raise .name) ∧ (∀ a b, toepsol a b = .raise .name) ∧
    (∀ q b, rsol q b = .raise .type) ∧ (∀ s b, svdProd s b = .raise .type) := by
  refine ⟨fun d => ?_, fun d => ?_, fun _ _ => rfl, fun _ _ => rfl, fun _ _ => rfl, fun _ _ => rfl⟩
  · rcases d with t | t | t <;> cases t <;> first | exact ⟨.name, rfl⟩ | exact ⟨.value, rfl⟩ | exact ⟨.attr, rfl⟩
  · rcases d with t | t | t <;> cases t <;> first | exact ⟨.type, rfl⟩ | exact ⟨.value, rfl⟩ | exact ⟨.attr, rfl⟩

/-- **C89, partial (signal processing).** For `float`, `numpy.float64` and `numpy.float32`, as types or taken from a block, each class and function finds the
module of its type; for complex types given as in a block, convolution, multiple FFTs and IIR filters in double precision do.
Missing: complex FFTs and correlation, see `C89_fft_false`, and the other forms of complex types, see `C89_complex_false`. -/
theorem C89_signal_partial (x : Sig) :
    sigImport x (.py .float) = .ret .d ∧ sigImport x (.cls .f64) = .ret .d ∧ sigImport x (.inst .f64) = .ret .d ∧
    sigImport x (.cls .f32) = .ret .f ∧ sigImport x (.inst .f32) = .ret .f ∧
    (x = .conv ∨ x = .fftm ∨ x = .iir ∨ x = .rand → sigImport x (.py .complex) = .ret .cd ∧ sigImport x (.inst .c128) = .ret .cd) := by
  cases x <;> (refine ⟨rfl, rfl, rfl, rfl, rfl, ?_⟩; intro h; first | exact ⟨rfl, rfl⟩ | (exact absurd h (by decide)))

example : sigImport .fftm (.py .complex) = .ret .cd := rfl

/-- **C89 is false (complex FFTs).** There are modules for complex FFTs and correlations, but they cannot be reached: `dtype in (complex)` raises an
exception for every type that is not real.  So no FFT object works in place. -/
theorem C89_fft_false :
    (has .fft .cf ∧ has .fft .cd ∧ has .corr .cf ∧ has .corr .cd) ∧
    (∀ d, isF32 d = false → isF64 d = false → sigImport .fft d = .raise .type ∧ sigImport .corr d = .raise .type) ∧
    (∀ d, fftInPlace .fft d = .raise .type) ∧ fftInPlace .fftm (.py .complex) = .ret () := by
  refine ⟨by decide, ?_, ?_, rfl⟩
  · intro d h1 h2
    simp [sigImport, ownImport, h1, h2]
  · intro d
    rcases d with t | t | t <;> cases t <;> rfl

/-- **C89 is false (forms of complex types).** `fftm` and `iir` refuse `numpy.complex128`, though they take `complex` and the type of a block of the same
numbers, and refuse single precision, for which `fftm` has a module. -/
theorem C89_complex_false :
    sigImport .fftm (.cls .c128) = .raise .value ∧ sigImport .iir (.cls .c128) = .raise .value ∧ sigImport .conv (.cls .c128) = .ret .cd ∧
    (∀ d, sigImport .fftm d ≠ .ret .cf) ∧ has .fftm .cf = true := by
  refine ⟨rfl, rfl, rfl, ?_, rfl⟩
  intro d
  rcases d with t | t | t <;> cases t <;> decide

/-- **C89 is false (parallel blocks).** Distributed blocks cannot be made from arrays, nor of complex numbers in double precision, for which the source file
has a name without the underscore. -/
theorem C89_parallel_false : parallelFromArray = .raise .name ∧ (∀ s, parallelNew (.py .complex) s = .raise .attr) ∧
    ∀ s, parallelNew (.py .float) s = .ret (.view ⟨.d, s⟩) := ⟨rfl, fun _ => rfl, fun _ => rfl⟩

/-- **C89 is false (casts and submatrices).** `cast` and `matrix.submatrix` raise an exception for all arguments. -/
theorem C89_cast_false : (∀ d v, castView d v = .raise .import) ∧ ∀ v, submatrix v = .raise .attr := ⟨fun _ _ => rfl, fun _ => rfl⟩

/-- **C89, partial (conversion of C++ views).** A C++ vector or matrix of numbers becomes a Python view of its type and shape whatever is loaded.
Missing: integers and truth values, whose modules are interchanged, see `C89_convert_false`. -/
theorem C89_convert_partial (ld : Loaded) (k : K) (s : List Nat) (hk : Numeric k ∨ ld k = true) : toPython ld k s = .ret (.view ⟨k, s⟩) := by
  rcases hk with hk | hk
  · rcases hk with rfl | rfl | rfl | rfl <;> simp [toPython, wrap, blockMod]
  · simp [toPython, wrap, hk]

example : toPython (fun _ => false) .cf [3] = .ret (.view ⟨.cf, [3]⟩) := rfl

/-- **C89 is false (conversion of integers and truth values).** The table of modules has `_block_i` for `bool` and `_block_b` for `int`: converting the first
such view raises an exception, and loads the other type's blocks. -/
theorem C89_convert_false (s : List Nat) : toPython (fun _ => false) .b s = .raise .type ∧ toPython (fun _ => false) .i s = .raise .type :=
  ⟨rfl, rfl⟩

end Verif.Props

#print axioms Verif.Props.C89_modules_partial
#print axioms Verif.Props.C89_bool_false
#print axioms Verif.Props.C89_int_false
#print axioms Verif.Props.C89_elementwise_partial
#print axioms Verif.Props.C89_available
#print axioms Verif.Props.C89_mixed_dot
#print axioms Verif.Props.C89_different
#print axioms Verif.Props.C89_loaded_false
#print axioms Verif.Props.C89_left_out_false
#print axioms Verif.Props.C89_sizes_false
#print axioms Verif.Props.C89_reduce_partial
#print axioms Verif.Props.C89_matvec_partial
#print axioms Verif.Props.C89_matvec_false
#print axioms Verif.Props.C89_mixed_false
#print axioms Verif.Props.C89_axis_false
#print axioms Verif.Props.C89_solvers_partial
#print axioms Verif.Props.C89_solvers_false
#print axioms Verif.Props.C89_signal_partial
#print axioms Verif.Props.C89_fft_false
#print axioms Verif.Props.C89_complex_false
#print axioms Verif.Props.C89_parallel_false
#print axioms Verif.Props.C89_cast_false
#print axioms Verif.Props.C89_convert_partial
#print axioms Verif.Props.C89_convert_false
